import Verif.Lemmas.LexPlaces
import Verif.Model.Frontend

/-!
The errors of the lexer are in the order of their places in the text.
-/

namespace Hush
open Spec
variable (P : Pos → Prop) (lo : Nat)

/-- The positions kept that may become those of errors are fine, and the lexer does not go back before `lo`. -/
def State.ErrIn : State → Prop
  | .number s _ _ => P s.pos
  | .byteLit none none p => P p
  | .byteLit none (some e) _ => P e.pos
  | .stringLit _ e _ => CurIn P e
  | .symbol _ p => P p
  | .expansion e _ => lo ≤ e.start.offset
  | .expansionWord e w _ => lo ≤ e.start.offset ∧ w.escaping = none
  | .unquotedWord w _ | .singleQuotedWord w _ _ | .doubleQuotedWord w _ _ => CurIn P w.escaping
  | .dollar d _ | .quotedDollar d _ _ => P d.pos
  | _ => True

structure Transition.Errs (t : Transition) : Prop where
  state : t.state.ErrIn P lo
  error : ∀ e, t.output = some (.error e) → P e.pos ∧ ∀ (Q : Pos → Prop) lo, Q e.pos → t.state.ErrIn Q lo
  back : ∀ c, t.step = .rollback c → lo ≤ c.offset ∧ t.output = none ∧ ∀ Q : Pos → Prop, t.state.ErrIn Q lo

variable {P lo}

theorem te_fwd {st} (h : State.ErrIn P lo st) : (Transition.fwd st).Errs P lo := ⟨h, nofun, nofun⟩
theorem te_resume {st} (h : State.ErrIn P lo st) : (Transition.resume st).Errs P lo := ⟨h, nofun, nofun⟩
theorem te_rollback {c : Cursor} {st} (h : ∀ Q : Pos → Prop, State.ErrIn Q lo st) (hc : lo ≤ c.offset) : (Transition.rollback c st).Errs P lo :=
  ⟨h P, nofun, fun _ hk => by cases hk; exact ⟨hc, rfl, h⟩⟩
theorem te_produce {st k p} (h : State.ErrIn P lo st) : (Transition.produce st k p).Errs P lo := ⟨h, (fun _ he => by cases he), nofun⟩
theorem te_resumeProduce {st k p} (h : State.ErrIn P lo st) : (Transition.resumeProduce st k p).Errs P lo := ⟨h, (fun _ he => by cases he), nofun⟩
theorem te_error {st k p} (hp : P p) (h : ∀ (Q : Pos → Prop) lo, Q p → State.ErrIn Q lo st) : (Transition.error st k p).Errs P lo :=
  ⟨h P lo hp, fun _ he => by cases he; exact ⟨hp, h⟩, nofun⟩
theorem te_resumeError {st k p} (hp : P p) (h : ∀ (Q : Pos → Prop) lo, Q p → State.ErrIn Q lo st) : (Transition.resumeError st k p).Errs P lo :=
  ⟨h P lo hp, fun _ he => by cases he; exact ⟨hp, h⟩, nofun⟩
theorem te_error' {st k p} (hp : P p) (h : ∀ (Q : Pos → Prop) lo, State.ErrIn Q lo st) : (Transition.error st k p).Errs P lo :=
  te_error hp fun Q lo _ => h Q lo

variable {cur : Cursor}

theorem ei_byte {v : UInt8} {e p} : State.ErrIn P lo (.byteLit (some v) e p) := trivial

theorem err_number {s d e} (h : P s.pos) : (visitNumber s d e cur).Errs P lo := by
  unfold visitNumber
  dsimp only
  split
  · exact te_fwd h
  split
  · exact te_fwd h
  split
  · exact te_fwd h
  split
  · split <;> exact te_error' h fun _ _ => trivial
  split
  · exact te_resumeProduce trivial
  · exact te_error' h fun _ _ => trivial

theorem err_symbol {f p t} (h : P p) (ht : visitSymbol f p cur = some t) : t.Errs P lo := by
  unfold visitSymbol at ht
  simp only at ht
  repeat' (split at ht)
  all_goals first
    | (cases ht; done)
    | (injection ht with ht; subst ht
       first
       | exact te_produce trivial
       | exact te_resumeProduce trivial
       | exact te_resumeError h fun _ _ _ => trivial)

theorem err_cmdSymbol {f p t} (ht : visitCommandSymbol f p cur = some t) : t.Errs P lo := by
  unfold visitCommandSymbol at ht
  simp only at ht
  repeat' (split at ht)
  all_goals first
    | (cases ht; done)
    | (injection ht with ht; subst ht
       first
       | exact te_produce trivial
       | exact te_resumeProduce trivial)

theorem err_expansion {e : ExpSt} {mk prod roll t} (hmk : ∀ e' : ExpSt, e'.start = e.start → State.ErrIn P lo (mk e')) (hprod : ∀ k, (prod k).Errs P lo)
    (hroll : (roll e.start).Errs P lo) (ht : visitExpansion e mk prod roll cur = some t) : t.Errs P lo := by
  unfold visitExpansion at ht
  simp only at ht
  cases hp : cur.peek with
  | none => simp only [hp] at ht; injection ht with ht; subst ht; exact hroll
  | some c =>
    simp only [hp] at ht
    repeat' (split at ht)
    all_goals first
      | (cases ht; done)
      | (injection ht with ht; subst ht
         first
         | exact te_fwd (hmk _ rfl)
         | exact hprod _
         | exact hroll)

variable (hc : P cur.pos) (hl : lo ≤ cur.offset)
include hc

theorem err_root : (visitRoot cur).Errs P lo := by
  unfold visitRoot
  cases cur.peek with
  | none => exact te_fwd trivial
  | some c =>
    simp only
    split
    · exact te_fwd trivial
    split
    · exact te_fwd trivial
    split
    · exact te_fwd cin_none
    split
    · exact te_fwd (show P _ from hc)
    split
    · exact te_fwd (show P _ from hc)
    split
    · exact te_resume trivial
    split
    · exact te_error' hc fun _ _ => trivial
    · exact te_produce trivial
    · exact te_produce trivial
    · exact te_fwd (show P _ from hc)

theorem err_byte {v e p} (h : State.ErrIn P lo (.byteLit v e p)) : (visitByteLit v e p cur).Errs P lo := by
  unfold visitByteLit
  cases cur.peek with
  | none => exact te_error' hc fun _ _ => trivial
  | some c =>
    simp only
    split
    · split
      · exact te_produce trivial
      · exact te_error' hc fun _ _ => trivial
    · split
      · split
        · exact te_fwd trivial
        · exact te_error' (show P _ from h) fun _ _ => trivial
      · split
        · exact te_fwd (show P _ from hc)
        split
        · exact te_error' (show P _ from h) fun _ _ => trivial
        · exact te_fwd trivial

theorem err_string {v e p} (he : CurIn P e) : (visitStringLit v e p cur).Errs P lo := by
  unfold visitStringLit
  cases cur.peek with
  | none => exact te_error' hc fun _ _ => trivial
  | some c =>
    simp only
    split
    · split
      · exact te_fwd cin_none
      · exact te_error' (he _ rfl) fun _ _ => cin_none
    · split
      · exact te_fwd (cin_some hc)
      split
      · exact te_produce trivial
      · exact te_fwd cin_none

theorem err_command : (visitCommand cur).Errs P lo := by
  unfold visitCommand
  cases cur.peek with
  | none => exact te_error' hc fun _ _ => trivial
  | some c =>
    simp only
    split
    · exact te_fwd trivial
    split
    · exact te_fwd trivial
    split
    · exact te_produce trivial
    split
    · exact te_resume trivial
    · exact te_produce trivial
    · exact te_fwd trivial

include hl in
theorem err_argument {a : ArgSt} : (visitArgument a cur).Errs P lo := by
  unfold visitArgument
  dsimp only
  cases cur.peek with
  | none => exact te_resumeProduce trivial
  | some c =>
    simp only
    split
    · exact te_fwd (show P _ from hc)
    split
    · exact te_fwd trivial
    split
    · exact te_fwd trivial
    split
    · exact te_fwd trivial
    split
    · exact te_resume (show lo ≤ _ from hl)
    split
    · exact te_resume (show CurIn P _ from cin_none)
    · exact te_resumeProduce trivial

theorem err_argWord {w : WordSt} {mk isW esc es done} (hw : CurIn P w.escaping)
    (hmk : ∀ (Q : Pos → Prop) lo, ∀ w' : WordSt, CurIn Q w'.escaping → State.ErrIn Q lo (mk w'))
    (hes : ∀ w' : WordSt, w'.escaping = none → ∀ x t, es w' x = some t → t.Errs P lo) (hdone : ∀ v, (done v).Errs P lo) :
    (visitArgWord w mk isW esc es done cur).Errs P lo := by
  unfold visitArgWord
  cases cur.peek with
  | none => exact hdone _
  | some c =>
    simp only
    split
    · rename_i e he
      split
      · exact te_fwd (hmk _ _ _ cin_none)
      · exact te_error (hw e he) fun Q lo hq => hmk _ _ _ (by rw [he]; exact cin_some hq)
    · rename_i he
      split
      · exact te_fwd (hmk _ _ _ (cin_some hc))
      split
      · split
        · rename_i t ht
          exact hes _ he _ _ ht
        · exact te_fwd (hmk _ _ _ hw)
      split
      · exact te_fwd (hmk _ _ _ hw)
      · exact hdone _

theorem err_dollar {d : DollarSt} {mk : DollarSt → State} {add : Sym → State} {ctx : State} (hd : P d.pos)
    (hmk : ∀ d' : DollarSt, P d'.pos → State.ErrIn P lo (mk d')) (hadd : ∀ s, State.ErrIn P lo (add s))
    (hctx : ∀ (Q : Pos → Prop) lo, State.ErrIn Q lo ctx) : (visitDollar d mk add ctx cur).Errs P lo := by
  have hprod : ∀ b, (dollarProduce d add ctx b cur).Errs P lo := by
    intro b
    unfold dollarProduce
    dsimp only
    split
    · exact te_error' hd hctx
    split
    · split
      · exact te_fwd (hadd _)
      · exact te_resume (hadd _)
    · split
      · exact te_error' hd hctx
      · exact te_resumeError hd fun Q lo _ => hctx Q lo
  unfold visitDollar
  cases cur.peek with
  | none =>
    simp only
    split
    · exact te_error' hc hctx
    · exact hprod _
  | some c =>
    simp only
    repeat' split
    all_goals first
      | exact hprod _
      | exact te_fwd (hmk _ hd)

include hl in
theorem err_visit {st : State} {t} (h : st.ErrIn P lo) (ht : st.visit cur = some t) : t.Errs P lo := by
  cases st with
  | root => injection ht with ht; subst ht; exact err_root hc
  | comment =>
    injection ht with ht; subst ht
    unfold visitComment
    split
    · exact te_resume trivial
    · exact te_fwd trivial
  | commandComment =>
    injection ht with ht; subst ht
    unfold visitComment
    split
    · exact te_resume trivial
    · exact te_fwd trivial
  | number s d e => injection ht with ht; subst ht; exact err_number h
  | byteLit v e p => injection ht with ht; subst ht; exact err_byte hc h
  | stringLit v e p => injection ht with ht; subst ht; exact err_string hc h
  | word s =>
    injection ht with ht; subst ht
    unfold visitWord
    split
    · exact te_fwd trivial
    · exact te_resumeProduce trivial
  | symbol f p => exact err_symbol h ht
  | command => injection ht with ht; subst ht; exact err_command hc
  | argument a => injection ht with ht; subst ht; exact err_argument hc hl
  | expansion e a =>
    exact err_expansion (mk := fun e => .expansion e a) (prod := argExpProduce a) (roll := argExpRollback a)
      (fun e' he => show lo ≤ _ from he ▸ h) (fun k => te_fwd trivial) (te_rollback (fun Q => show CurIn Q _ from cin_none) h) ht
  | expansionWord e w a =>
    refine err_expansion (mk := fun e => .expansionWord e w a) (prod := wordExpProduce w a) (roll := wordExpRollback w a)
      (fun e' he => ⟨?_, h.2⟩) (fun k => te_fwd trivial) (te_rollback (fun Q => ?_) h.1) ht
    · rw [he]; exact h.1
    · show CurIn Q w.escaping
      rw [h.2]
      exact cin_none
  | singleQuoted v a =>
    injection ht with ht; subst ht
    unfold visitSingleQuoted
    cases cur.peek with
    | none => exact te_error' hc fun _ _ => trivial
    | some c =>
      simp only
      split
      · exact te_fwd trivial
      · exact te_resume (show CurIn P _ from cin_none)
  | doubleQuoted ps a =>
    injection ht with ht; subst ht
    unfold visitDoubleQuoted
    cases cur.peek with
    | none => exact te_error' hc fun _ _ => trivial
    | some c =>
      simp only
      split
      · exact te_fwd trivial
      split
      · exact te_fwd (show P _ from hc)
      · exact te_resume (show CurIn P _ from cin_none)
  | unquotedWord w a =>
    injection ht with ht; subst ht
    refine err_argWord hc h (fun _ _ _ hw => hw) (fun w' hw x t ht => ?_) (fun v => te_resume trivial)
    split at ht
    · injection ht with ht; subst ht
      exact te_resume ⟨hl, hw⟩
    · cases ht
  | singleQuotedWord w v a =>
    injection ht with ht; subst ht
    exact err_argWord hc h (fun _ _ _ hw => hw) (fun _ _ _ _ hx => by cases hx) (fun v => te_resume trivial)
  | doubleQuotedWord w ps a =>
    injection ht with ht; subst ht
    exact err_argWord hc h (fun _ _ _ hw => hw) (fun _ _ _ _ hx => by cases hx) (fun v => te_resume trivial)
  | dollar d a =>
    injection ht with ht; subst ht
    exact err_dollar (mk := fun d => .dollar d a) hc h (fun _ hd => hd) (fun s => trivial) (fun _ _ => trivial)
  | quotedDollar d ps a =>
    injection ht with ht; subst ht
    exact err_dollar (mk := fun d => .quotedDollar d ps a) hc h (fun _ hd => hd) (fun s => trivial) (fun _ _ => trivial)
  | commandSymbol f p => exact err_cmdSymbol ht

omit hc
variable {src : Bytes}

/-- The position of a byte, or the end, between these. -/
def Within (src : Bytes) (lo hi : Nat) (p : Pos) : Prop := ∃ k, lo ≤ k ∧ k ≤ hi ∧ p = lineCol src k

theorem errIn_mono {Q : Pos → Prop} (hPQ : ∀ p, P p → Q p) {st : State} (h : st.ErrIn P lo) : st.ErrIn Q lo := by
  have hcur : ∀ {c}, CurIn P c → CurIn Q c := fun h k hk => hPQ _ (h k hk)
  cases st with
  | number s _ _ => exact hPQ _ h
  | byteLit v e p =>
    cases v with
    | some v => trivial
    | none => cases e with
      | none => exact hPQ _ h
      | some e => exact hPQ _ h
  | stringLit _ e _ => exact hcur h
  | symbol _ p => exact hPQ _ h
  | expansion e _ => exact h
  | expansionWord e w _ => exact h
  | unquotedWord w _ => exact hcur h
  | singleQuotedWord w _ _ => exact hcur h
  | doubleQuotedWord w _ _ => exact hcur h
  | dollar d _ => exact hPQ _ h
  | quotedDollar d _ _ => exact hPQ _ h
  | _ => trivial

/-- The errors of a run. -/
theorem run_order (n : Nat) : ∀ {l lo off st}, off ≤ src.length → lo ≤ off → State.PosInv src l off st → State.ErrIn (Within src lo off) lo st →
    ∃ ks : List Nat, List.Forall₂ (fun (e : LexError) k => k ≤ src.length ∧ e.pos = lineCol src k)
      (((⟨st, cursorAt src off⟩ : LexSt).run n).outputs.filterMap errOutput) ks ∧ ks.Pairwise (· ≤ ·) ∧ ∀ k ∈ ks, lo ≤ k := by
  induction n with
  | zero => intro l lo off st _ _ _ _; exact ⟨[], .nil, .nil, nofun⟩
  | succ n ih =>
    intro l lo off st hle hlo hinv hin
    simp only [LexSt.run, LexSt.step]
    cases hv : st.visit (cursorAt src off) with
    | none => exact ⟨[], .nil, .nil, nofun⟩
    | some t =>
      obtain ⟨off', h1, h2, h3⟩ := pos_visit hle hinv hv
      have ht := err_visit (P := Within src lo off) (lo := lo) ⟨off, hlo, Nat.le_refl _, rfl⟩ hlo hin hv
      have h6 : ∃ l', t.state.PosInv src l' off' := by
        split at h3
        · obtain ⟨k, -, -, -, h3⟩ := h3; exact ⟨_, h3⟩
        · exact ⟨_, h3⟩
      obtain ⟨l', h6⟩ := h6
      simp only [h1]
      have hoff : (∃ c, t.step = .rollback c) ∨ off ≤ off' := by
        cases hs : t.step with
        | rollback c => exact .inl ⟨c, rfl⟩
        | resume =>
          rw [hs] at h1
          exact .inr (Nat.le_of_eq (congrArg Cursor.offset h1))
        | forward =>
          rw [hs] at h1
          have h7 : (cursorAt src off).step.offset = off' := congrArg Cursor.offset h1
          refine .inr (h7 ▸ ?_)
          unfold Cursor.step
          split
          · exact Nat.le_refl _
          · exact Nat.le_succ _
      have hnext : lo ≤ off' ∧ t.state.ErrIn (Within src lo off') lo := by
        rcases hoff with ⟨c, hs⟩ | hoff
        · obtain ⟨h7, -, h8⟩ := ht.back c hs
          rw [hs] at h1
          have h9 : c.offset = off' := congrArg Cursor.offset h1
          exact ⟨h9 ▸ h7, h8 _⟩
        · exact ⟨Nat.le_trans hlo hoff, errIn_mono (fun p ⟨k, g1, g2, g3⟩ => ⟨k, g1, Nat.le_trans g2 hoff, g3⟩) ht.state⟩
      cases ho : t.output with
      | none =>
        have h7 := ih h2 hnext.1 h6 hnext.2
        simp only
        split
        · rename_i heq
          split at heq
          · cases heq
          · injection heq with heq; subst heq
            exact h7
        · rename_i heq; split at heq <;> cases heq
        · exact ⟨[], .nil, .nil, nofun⟩
        · exact ⟨[], .nil, .nil, nofun⟩
      | some o =>
        simp only
        cases o with
        | ok tok =>
          have h7 := ih h2 hnext.1 h6 hnext.2
          cases hr : (⟨t.state, cursorAt src off'⟩ : LexSt).run n with
          | timeout => exact ⟨[], .nil, .nil, nofun⟩
          | done l => rw [hr] at h7; exact h7
          | crash l => rw [hr] at h7; exact h7
        | error e =>
          obtain ⟨⟨k, g1, g2, g3⟩, g4⟩ := ht.error e ho
          have hoff' : off ≤ off' := by
            rcases hoff with ⟨c, hs⟩ | hoff
            · rw [(ht.back c hs).2.1] at ho; cases ho
            · exact hoff
          have h7 := ih h2 (Nat.le_trans g2 hoff') h6 (g4 (Within src k off') k ⟨k, Nat.le_refl _, Nat.le_trans g2 hoff', g3⟩)
          have h8 : ∀ {l : List Output}, (∃ ks : List Nat, List.Forall₂ (fun (e : LexError) k => k ≤ src.length ∧ e.pos = lineCol src k)
              (l.filterMap errOutput) ks ∧ ks.Pairwise (· ≤ ·) ∧ ∀ k' ∈ ks, k ≤ k') →
              ∃ ks : List Nat, List.Forall₂ (fun (e : LexError) k => k ≤ src.length ∧ e.pos = lineCol src k)
                ((.error e :: l : List Output).filterMap errOutput) ks ∧ ks.Pairwise (· ≤ ·) ∧ ∀ k' ∈ ks, lo ≤ k' := by
            rintro l ⟨ks, a1, a2, a3⟩
            exact ⟨k :: ks, .cons ⟨Nat.le_trans g2 hle, g3⟩ a1, List.pairwise_cons.2 ⟨a3, a2⟩,
              List.forall_mem_cons.2 ⟨g1, fun k' hk => Nat.le_trans g1 (a3 k' hk)⟩⟩
          cases hr : (⟨t.state, cursorAt src off'⟩ : LexSt).run n with
          | timeout => exact ⟨[], .nil, .nil, nofun⟩
          | done l => rw [hr] at h7; exact h8 h7
          | crash l => rw [hr] at h7; exact h8 h7

/-- The errors of the lexer are at non-decreasing offsets. -/
theorem lex_order (src : Bytes) : ∃ ks : List Nat, List.Forall₂ (fun (e : LexError) k => k ≤ src.length ∧ e.pos = lineCol src k)
    ((lex src).outputs.filterMap errOutput) ks ∧ ks.Pairwise (· ≤ ·) := by
  have h : LexSt.init src = ⟨.root, cursorAt src 0⟩ := by
    simp [LexSt.init, Cursor.start, cursorAt, lineCol]
  unfold lex
  rw [h]
  obtain ⟨ks, h1, h2, -⟩ := run_order (src := src) _ (l := 0) (lo := 0) (Nat.zero_le _) (Nat.zero_le _) (st := .root) (Nat.zero_le _) trivial
  exact ⟨ks, h1, h2⟩

end Hush

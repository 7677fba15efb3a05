import Verif.Lemmas.LexPos
import Verif.Spec.Places

/-!
All positions that the lexer outputs are in the text: of errors, of tokens, and of `$name`s in tokens.
-/

namespace Hush
open Spec
variable (P : Pos → Prop)

def CurIn (c : Option Cursor) : Prop := ∀ k, c = some k → P k.pos
def UnitsIn (us : List ArgUnit) : Prop := ∀ u ∈ us, ∀ p ∈ unitMarks u, P p
def ArgSt.In (a : ArgSt) : Prop := P a.pos ∧ ∀ q ∈ a.parts, ∀ p ∈ partMarks q, P p

/-- All positions kept are fine. -/
def State.In : State → Prop
  | .root | .comment | .command | .commandComment => True
  | .number s _ _ | .word s => P s.pos
  | .byteLit _ e p | .stringLit _ e p => P p ∧ CurIn P e
  | .symbol _ p | .commandSymbol _ p => P p
  | .argument a | .expansion _ a | .singleQuoted _ a => a.In P
  | .expansionWord _ w a | .unquotedWord w a | .singleQuotedWord w _ a => CurIn P w.escaping ∧ a.In P
  | .doubleQuoted us a => UnitsIn P us ∧ a.In P
  | .doubleQuotedWord w us a => CurIn P w.escaping ∧ UnitsIn P us ∧ a.In P
  | .dollar d a => P d.pos ∧ a.In P
  | .quotedDollar d us a => P d.pos ∧ UnitsIn P us ∧ a.In P

def TokKindIn (k : TokenKind) : Prop := ∀ p ∈ dollarMarks k, P p

def OutputIn : Output → Prop
  | .ok t => ∀ p ∈ tokenMarks t, P p
  | .error e => P e.pos

def Transition.In (t : Transition) : Prop := t.state.In P ∧ ∀ o, t.output = some o → OutputIn P o

variable {P}

theorem tin_fwd {st} (h : State.In P st) : (Transition.fwd st).In P := ⟨h, nofun⟩
theorem tin_resume {st} (h : State.In P st) : (Transition.resume st).In P := ⟨h, nofun⟩
theorem tin_rollback {c st} (h : State.In P st) : (Transition.rollback c st).In P := ⟨h, nofun⟩
theorem tin_produce {st k p} (h : State.In P st) (hp : P p) (hk : TokKindIn P k) : (Transition.produce st k p).In P :=
  ⟨h, fun o ho => by cases ho; exact List.forall_mem_cons.2 ⟨hp, hk⟩⟩
theorem tin_resumeProduce {st k p} (h : State.In P st) (hp : P p) (hk : TokKindIn P k) : (Transition.resumeProduce st k p).In P :=
  ⟨h, fun o ho => by cases ho; exact List.forall_mem_cons.2 ⟨hp, hk⟩⟩
theorem tin_error {st k p} (h : State.In P st) (hp : P p) : (Transition.error st k p).In P := ⟨h, fun o ho => by cases ho; exact hp⟩
theorem tin_resumeError {st k p} (h : State.In P st) (hp : P p) : (Transition.resumeError st k p).In P := ⟨h, fun o ho => by cases ho; exact hp⟩

theorem kin_plain {k} (h : dollarMarks k = []) : TokKindIn P k := by unfold TokKindIn; rw [h]; nofun
theorem ite_plain {c : Prop} [Decidable c] {a b : TokenKind} (ha : dollarMarks a = []) (hb : dollarMarks b = []) :
    dollarMarks (if c then a else b) = [] := by split <;> assumption
theorem kin_toToken {w} : TokKindIn P (toToken w) := by
  refine kin_plain ?_
  unfold toToken
  repeat refine ite_plain rfl ?_
  rfl

theorem ain_push {a : ArgSt} {q} (h : a.In P) (hq : ∀ p ∈ partMarks q, P p) : ({ a with parts := a.parts ++ [q] } : ArgSt).In P :=
  ⟨h.1, List.forall_mem_append.2 ⟨h.2, by simpa using hq⟩⟩
theorem ain_push2 {a : ArgSt} {q q'} (h : a.In P) (hq : ∀ p ∈ partMarks q, P p) (hq' : ∀ p ∈ partMarks q', P p) :
    ({ a with parts := a.parts ++ [q, q'] } : ArgSt).In P :=
  ⟨h.1, List.forall_mem_append.2 ⟨h.2, by simp only [List.forall_mem_cons]; exact ⟨hq, hq', by simp⟩⟩⟩

def PlainSym (s : SymbolChar) : Prop := ∀ k, s = .single k → dollarMarks k = []
theorem ite_plainSym {c : Prop} [Decidable c] {a b : SymbolChar} (ha : PlainSym a) (hb : PlainSym b) :
    PlainSym (if c then a else b) := by split <;> assumption
theorem plainSym_single {k} (h : dollarMarks k = []) : PlainSym (.single k) := fun _ hk => by injection hk with hk; exact hk ▸ h
theorem fromFirst_plain (c : UInt8) : PlainSym (SymbolChar.fromFirst c) := by
  unfold SymbolChar.fromFirst
  repeat refine ite_plainSym (plainSym_single rfl) ?_
  exact ite_plainSym nofun nofun
theorem commandFromFirst_plain (c : UInt8) : PlainSym (SymbolChar.commandFromFirst c) := by
  unfold SymbolChar.commandFromFirst
  repeat refine ite_plainSym (plainSym_single rfl) ?_
  exact ite_plainSym nofun nofun

theorem cin_none : CurIn P none := nofun
theorem cin_some {c : Cursor} (h : P c.pos) : CurIn P (some c) := fun k hk => by cases hk; exact h

variable {cur : Cursor} (hc : P cur.pos)
include hc

theorem in_root : (visitRoot cur).In P := by
  unfold visitRoot
  cases cur.peek with
  | none => exact tin_fwd trivial
  | some c =>
    simp only
    split
    · exact tin_fwd trivial
    split
    · exact tin_fwd trivial
    split
    · exact tin_fwd ⟨hc, cin_none⟩
    split
    · exact tin_fwd ⟨hc, cin_none⟩
    split
    · exact tin_fwd hc
    split
    · exact tin_resume hc
    split
    · exact tin_error trivial hc
    · exact tin_produce trivial hc (kin_plain rfl)
    · rename_i k _ hk
      exact tin_produce trivial hc (kin_plain (fromFirst_plain c k hk))
    · exact tin_fwd hc

omit hc in
theorem in_number {s d e} (h : P s.pos) : (visitNumber s d e cur).In P := by
  unfold visitNumber
  dsimp only
  split
  · exact tin_fwd h
  split
  · exact tin_fwd h
  split
  · exact tin_fwd h
  split
  · split <;> exact tin_error trivial h
  split
  · exact tin_resumeProduce trivial h (kin_plain rfl)
  · exact tin_error trivial h

theorem in_byte {v e p} (h : P p) (he : CurIn P e) : (visitByteLit v e p cur).In P := by
  unfold visitByteLit
  cases cur.peek with
  | none => exact tin_error trivial hc
  | some c =>
    simp only
    split
    · split
      · exact tin_produce trivial h (kin_plain rfl)
      · exact tin_error ⟨h, he⟩ hc
    · split
      · split
        · exact tin_fwd ⟨h, cin_none⟩
        · exact tin_error ⟨h, cin_none⟩ (he _ rfl)
      · split
        · exact tin_fwd ⟨h, cin_some hc⟩
        split
        · exact tin_error trivial h
        · exact tin_fwd ⟨h, cin_none⟩

theorem in_string {v e p} (h : P p) (he : CurIn P e) : (visitStringLit v e p cur).In P := by
  unfold visitStringLit
  cases cur.peek with
  | none => exact tin_error trivial hc
  | some c =>
    simp only
    split
    · split
      · exact tin_fwd ⟨h, cin_none⟩
      · exact tin_error ⟨h, cin_none⟩ (he _ rfl)
    · split
      · exact tin_fwd ⟨h, cin_some hc⟩
      split
      · exact tin_produce trivial h (kin_plain rfl)
      · exact tin_fwd ⟨h, cin_none⟩

omit hc in
theorem in_symbol {f p t} (h : P p) (ht : visitSymbol f p cur = some t) : t.In P := by
  unfold visitSymbol at ht
  simp only at ht
  repeat' (split at ht)
  all_goals first
    | (cases ht; done)
    | (injection ht with ht; subst ht
       first
       | exact tin_produce trivial h (kin_plain rfl)
       | exact tin_resumeProduce trivial h (kin_plain rfl)
       | exact tin_resumeError trivial h)

omit hc in
theorem in_cmdSymbol {f p t} (h : P p) (ht : visitCommandSymbol f p cur = some t) : t.In P := by
  unfold visitCommandSymbol at ht
  simp only at ht
  repeat' (split at ht)
  all_goals first
    | (cases ht; done)
    | (injection ht with ht; subst ht
       first
       | exact tin_produce trivial h (kin_plain rfl))

theorem in_command : (visitCommand cur).In P := by
  unfold visitCommand
  cases cur.peek with
  | none => exact tin_error trivial hc
  | some c =>
    simp only
    split
    · exact tin_fwd trivial
    split
    · exact tin_fwd trivial
    split
    · exact tin_produce trivial hc (kin_plain rfl)
    split
    · exact tin_resume ⟨hc, nofun⟩
    · rename_i k hk
      exact tin_produce trivial hc (kin_plain (commandFromFirst_plain c k hk))
    · exact tin_fwd hc

theorem in_argument {a : ArgSt} (h : a.In P) : (visitArgument a cur).In P := by
  have h' : ({ a with allowHome := false } : ArgSt).In P := h
  have hk : TokKindIn P (.argument a.parts) := by
    intro p hp
    simp only [dollarMarks, List.mem_flatMap] at hp
    obtain ⟨q, hq, hp⟩ := hp
    exact h.2 q hq p hp
  unfold visitArgument
  dsimp only
  cases cur.peek with
  | none => exact tin_resumeProduce trivial h.1 hk
  | some c =>
    simp only
    split
    · exact tin_fwd ⟨hc, h'⟩
    split
    · exact tin_fwd h'
    split
    · exact tin_fwd ⟨nofun, h'⟩
    split
    · exact tin_fwd (ain_push h' nofun)
    split
    · exact tin_resume h'
    split
    · exact tin_resume ⟨cin_none, h'⟩
    · exact tin_resumeProduce trivial h.1 hk

omit hc in
theorem in_expansion {e : ExpSt} {mk prod roll t} (hmk : ∀ e', State.In P (mk e')) (hprod : ∀ k, expansionMarks k = [] → (prod k).In P)
    (hroll : ∀ c, (roll c).In P) (ht : visitExpansion e mk prod roll cur = some t) : t.In P := by
  unfold visitExpansion at ht
  simp only at ht
  cases hp : cur.peek with
  | none => simp only [hp] at ht; injection ht with ht; subst ht; exact hroll _
  | some c =>
    simp only [hp] at ht
    repeat' (split at ht)
    all_goals first
      | (cases ht; done)
      | (injection ht with ht; subst ht
         first
         | exact tin_fwd (hmk _)
         | exact hprod _ rfl
         | exact hroll _)

theorem in_argWord {w : WordSt} {mk isW esc es done} (hw : CurIn P w.escaping) (hmk : ∀ w' : WordSt, CurIn P w'.escaping → State.In P (mk w'))
    (hes : ∀ w' : WordSt, CurIn P w'.escaping → ∀ x t, es w' x = some t → t.In P) (hdone : ∀ v, (done v).In P) :
    (visitArgWord w mk isW esc es done cur).In P := by
  unfold visitArgWord
  cases cur.peek with
  | none => exact hdone _
  | some c =>
    simp only
    split
    · rename_i e he
      split
      · exact tin_fwd (hmk _ cin_none)
      · exact tin_error (hmk _ hw) (hw e he)
    · rename_i he
      split
      · exact tin_fwd (hmk _ (cin_some hc))
      split
      · split
        · rename_i t ht
          exact hes _ hw _ _ ht
        · exact tin_fwd (hmk _ hw)
      split
      · exact tin_fwd (hmk _ hw)
      · exact hdone _

theorem in_dollar {d : DollarSt} {mk : DollarSt → State} {add : Sym → State} {ctx : State} (hd : P d.pos)
    (hmk : ∀ d' : DollarSt, P d'.pos → State.In P (mk d')) (hadd : ∀ s, State.In P (add s)) (hctx : State.In P ctx) :
    (visitDollar d mk add ctx cur).In P := by
  have hprod : ∀ b, (dollarProduce d add ctx b cur).In P := by
    intro b
    unfold dollarProduce
    dsimp only
    split
    · exact tin_error hctx hd
    split
    · split
      · exact tin_fwd (hadd _)
      · exact tin_resume (hadd _)
    · split
      · exact tin_error hctx hd
      · exact tin_resumeError hctx hd
  unfold visitDollar
  cases cur.peek with
  | none =>
    simp only
    split
    · exact tin_error hctx hc
    · exact hprod _
  | some c =>
    simp only
    repeat' split
    all_goals first
      | exact hprod _
      | exact tin_fwd (hmk _ hd)

theorem in_visit {st : State} {t} (h : st.In P) (ht : st.visit cur = some t) : t.In P := by
  cases st with
  | root => injection ht with ht; subst ht; exact in_root hc
  | comment =>
    injection ht with ht; subst ht
    unfold visitComment
    split
    · exact tin_resume trivial
    · exact tin_fwd trivial
  | commandComment =>
    injection ht with ht; subst ht
    unfold visitComment
    split
    · exact tin_resume trivial
    · exact tin_fwd trivial
  | number s d e => injection ht with ht; subst ht; exact in_number h
  | byteLit v e p => injection ht with ht; subst ht; exact in_byte hc h.1 h.2
  | stringLit v e p => injection ht with ht; subst ht; exact in_string hc h.1 h.2
  | word s =>
    injection ht with ht; subst ht
    unfold visitWord
    split
    · exact tin_fwd h
    · exact tin_resumeProduce trivial h kin_toToken
  | symbol f p => exact in_symbol h ht
  | command => injection ht with ht; subst ht; exact in_command hc
  | argument a => injection ht with ht; subst ht; exact in_argument hc h
  | expansion e a =>
    refine in_expansion (mk := fun e => .expansion e a) (prod := argExpProduce a) (roll := argExpRollback a)
      (fun _ => h) (fun k hk => tin_fwd (ain_push h ?_)) (fun _ => tin_rollback ⟨cin_none, h⟩) ht
    simp [partMarks, hk]
  | expansionWord e w a =>
    refine in_expansion (mk := fun e => .expansionWord e w a) (prod := wordExpProduce w a) (roll := wordExpRollback w a)
      (fun _ => h) (fun k hk => tin_fwd (ain_push2 h.2 ?_ ?_)) (fun _ => tin_rollback h) ht
    · simp [partMarks, unitMarks]
    · simp [partMarks, hk]
  | singleQuoted v a =>
    injection ht with ht; subst ht
    unfold visitSingleQuoted
    cases cur.peek with
    | none => exact tin_error h hc
    | some c =>
      simp only
      split
      · exact tin_fwd (ain_push h nofun)
      · exact tin_resume ⟨cin_none, h⟩
  | doubleQuoted ps a =>
    injection ht with ht; subst ht
    unfold visitDoubleQuoted
    cases cur.peek with
    | none => exact tin_error h.2 hc
    | some c =>
      simp only
      split
      · refine tin_fwd (ain_push h.2 fun p hp => ?_)
        simp only [partMarks, List.mem_flatMap] at hp
        obtain ⟨u, hu, hp⟩ := hp
        exact h.1 u hu p hp
      split
      · exact tin_fwd ⟨hc, h.1, h.2⟩
      · exact tin_resume ⟨cin_none, h.1, h.2⟩
  | unquotedWord w a =>
    injection ht with ht; subst ht
    refine in_argWord hc h.1 (fun _ hw => ⟨hw, h.2⟩) (fun w' hw x t ht => ?_) (fun v => tin_resume (ain_push h.2 (by simp [partMarks, unitMarks])))
    split at ht
    · injection ht with ht; subst ht
      exact tin_resume ⟨hw, h.2⟩
    · cases ht
  | singleQuotedWord w v a =>
    injection ht with ht; subst ht
    exact in_argWord hc h.1 (fun _ hw => ⟨hw, h.2⟩) (fun _ _ _ _ hx => by cases hx) (fun v => tin_resume h.2)
  | doubleQuotedWord w ps a =>
    injection ht with ht; subst ht
    refine in_argWord hc h.1 (fun _ hw => ⟨hw, h.2⟩) (fun _ _ _ _ hx => by cases hx) (fun v => tin_resume ⟨?_, h.2.2⟩)
    exact List.forall_mem_append.2 ⟨h.2.1, by simp [unitMarks]⟩
  | dollar d a =>
    injection ht with ht; subst ht
    refine in_dollar (mk := fun d => .dollar d a) hc h.1 (fun _ hd => ⟨hd, h.2⟩) (fun s => ain_push h.2 fun p hp => ?_) h.2
    simp only [partMarks, unitMarks, List.mem_singleton] at hp
    exact hp ▸ h.1
  | quotedDollar d ps a =>
    injection ht with ht; subst ht
    refine in_dollar (mk := fun d => .quotedDollar d ps a) hc h.1 (fun _ hd => ⟨hd, h.2⟩) (fun s => ⟨?_, h.2.2⟩) h.2
    refine List.forall_mem_append.2 ⟨h.2.1, fun u hu p hp => ?_⟩
    rw [List.mem_singleton.1 hu] at hp
    simp only [unitMarks, List.mem_singleton] at hp
    exact hp ▸ h.1
  | commandSymbol f p => exact in_cmdSymbol h ht

omit hc
variable {src : Bytes}

/-- Everything that a run outputs is in the text. -/
theorem run_in (n : Nat) : ∀ {lo off st}, off ≤ src.length → State.PosInv src lo off st → State.In (InText src) st →
    ∀ o ∈ ((⟨st, cursorAt src off⟩ : LexSt).run n).outputs, OutputIn (InText src) o := by
  induction n with
  | zero => intro lo off st _ _ _; exact nofun
  | succ n ih =>
    intro lo off st hle hinv hin
    simp only [LexSt.run, LexSt.step]
    cases hv : st.visit (cursorAt src off) with
    | none => exact nofun
    | some t =>
      obtain ⟨off', h1, h2, h3⟩ := pos_visit hle hinv hv
      obtain ⟨h4, h5⟩ := in_visit (P := InText src) ⟨off, hle, rfl⟩ hin hv
      have h6 : ∃ lo', t.state.PosInv src lo' off' := by
        split at h3
        · obtain ⟨k, -, -, -, h3⟩ := h3; exact ⟨_, h3⟩
        · exact ⟨_, h3⟩
      obtain ⟨lo', h6⟩ := h6
      have h7 := ih h2 h6 h4
      simp only [h1]
      cases ho : t.output with
      | none =>
        simp only
        split
        · rename_i heq
          split at heq
          · cases heq
          · injection heq with heq; subst heq
            exact h7
        · rename_i heq; split at heq <;> cases heq
        · exact nofun
        · exact nofun
      | some o =>
        simp only
        have h8 := h5 o ho
        cases hr : (⟨t.state, cursorAt src off'⟩ : LexSt).run n with
        | timeout => exact nofun
        | done l => rw [hr] at h7; exact List.forall_mem_cons.2 ⟨h8, h7⟩
        | crash l => rw [hr] at h7; exact List.forall_mem_cons.2 ⟨h8, h7⟩

theorem lex_in (src : Bytes) : ∀ o ∈ (lex src).outputs, OutputIn (InText src) o := by
  have h : LexSt.init src = ⟨.root, cursorAt src 0⟩ := by
    simp [LexSt.init, Cursor.start, cursorAt, lineCol]
  unfold lex
  rw [h]
  exact run_in _ (lo := 0) (Nat.zero_le _) (Nat.zero_le _) trivial

/-- Marks are in the text. -/
theorem mark_in {p : Pos} (h : Mark src p) : InText src p := by
  obtain ⟨outs, t, h1, h2, h3⟩ := h
  have := lex_in src (.ok t) (by rw [h1]; exact h2)
  exact this p h3

end Hush

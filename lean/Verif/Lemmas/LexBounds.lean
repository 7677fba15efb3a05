import Verif.Lemmas.LexPos

/-! The cursor and all remembered start offsets stay inside the source, so every slice taken is in range. -/

namespace Hush
open Spec

/-- A remembered cursor: at an offset up to `off`. -/
def Before (src : Bytes) (off : Nat) (c : Cursor) : Prop := ∃ j, c = cursorAt src j ∧ j ≤ off

/-- Cursors remembered by a state. -/
def State.stored : State → List Cursor
  | .number s _ _ => [s]
  | .byteLit _ e _ => e.toList
  | .stringLit _ e _ => e.toList
  | .word s => [s]
  | .expansion e _ => [e.start]
  | .expansionWord e w _ => e.start :: w.escaping.toList
  | .unquotedWord w _ => w.escaping.toList
  | .singleQuotedWord w _ _ => w.escaping.toList
  | .doubleQuotedWord w _ _ => w.escaping.toList
  | .dollar d _ => d.start.toList
  | .quotedDollar d _ _ => d.start.toList
  | _ => []

/-- All remembered cursors are at offsets up to `off`. -/
def State.StoredOk (src : Bytes) (off : Nat) (st : State) : Prop := ∀ c ∈ st.stored, Before src off c

variable {src : Bytes} {off : Nat}

theorem Before.mono {c} (h : Before src off c) : Before src (off + 1) c := by
  obtain ⟨j, h1, h2⟩ := h; exact ⟨j, h1, by omega⟩

theorem Before.here : Before src off (cursorAt src off) := ⟨off, rfl, Nat.le_refl _⟩

/-- Bounds are kept by a transition. -/
def Transition.BndOk (src : Bytes) (off : Nat) (t : Transition) : Prop :=
  ∃ off', t.step.apply (cursorAt src off) = cursorAt src off' ∧ off' ≤ src.length ∧ t.state.StoredOk src off'

theorem BndOk.fwd {st o} (hle : off ≤ src.length) (h : st.StoredOk src off) : Transition.BndOk src off ⟨st, .forward, o⟩ := by
  cases hp : (cursorAt src off).peek with
  | none => exact ⟨off, cursorAt_eof hp, hle, h⟩
  | some c =>
    obtain ⟨h1, h2⟩ := cursorAt_step hp
    exact ⟨off + 1, h1, h2, fun c hc => (h c hc).mono⟩

theorem BndOk.res {st o} (hle : off ≤ src.length) (h : st.StoredOk src off) : Transition.BndOk src off ⟨st, .resume, o⟩ :=
  ⟨off, rfl, hle, h⟩

theorem BndOk.roll {st k} (hle : off ≤ src.length) (hk : Before src off k)
    (h : ∀ j ≤ off, k = cursorAt src j → st.StoredOk src j) : Transition.BndOk src off ⟨st, .rollback k, none⟩ := by
  obtain ⟨j, h1, h2⟩ := hk
  exact ⟨j, h1, by omega, h j h2 h1⟩

/-- States of words entered by rollback have no pending escape. -/
def State.EscOk : State → Prop
  | .expansionWord _ w _ => w.escaping = none
  | _ => True

/-- Close the goal for one kind of transition. -/
macro "bnd" hle:ident h:ident : tactic => `(tactic| first
    | exact ⟨BndOk.fwd $hle (by intro c hc; simp_all [State.StoredOk, State.stored, Before.here, WordSt.fresh]), trivial⟩
    | exact ⟨BndOk.res $hle (by intro c hc; simp_all [State.StoredOk, State.stored, Before.here, WordSt.fresh]), trivial⟩
    | exact ⟨BndOk.fwd $hle (by intro c hc; simp [State.stored] at hc), trivial⟩
    | exact ⟨BndOk.res $hle (by intro c hc; simp [State.stored] at hc), trivial⟩
    | exact ⟨BndOk.fwd $hle $h, trivial⟩
    | exact ⟨BndOk.res $hle $h, trivial⟩)

theorem bnd_argWord {w : WordSt} {mk isW esc es done} (hle : off ≤ src.length)
    (hw : ∀ c ∈ w.escaping.toList, Before src off c)
    (hmk : ∀ w', (mk w').stored = w'.escaping.toList) (hmk' : ∀ w', (mk w').EscOk)
    (hes : ∀ t x, w.escaping = none → es w x = some t → t.BndOk src off ∧ t.state.EscOk)
    (hdone : ∀ v, (done v).BndOk src off ∧ (done v).state.EscOk) :
    (visitArgWord w mk isW esc es done (cursorAt src off)).BndOk src off ∧
    (visitArgWord w mk isW esc es done (cursorAt src off)).state.EscOk := by
  unfold visitArgWord
  split
  · exact hdone _
  · split
    · split
      · exact ⟨BndOk.fwd hle (by intro c hc; rw [hmk] at hc; simp at hc), hmk' _⟩
      · exact ⟨BndOk.fwd hle (by intro c hc; rw [hmk] at hc; exact hw c hc), hmk' _⟩
    · rename_i hn
      split
      · exact ⟨BndOk.fwd hle (by intro c hc; rw [hmk] at hc; simp at hc; exact hc ▸ Before.here), hmk' _⟩
      split
      · split
        · rename_i ht; exact hes _ _ hn ht
        · exact ⟨BndOk.fwd hle (by intro c hc; rw [hmk] at hc; exact hw c hc), hmk' _⟩
      split
      · exact ⟨BndOk.fwd hle (by intro c hc; rw [hmk] at hc; exact hw c hc), hmk' _⟩
      · exact hdone _

theorem bnd_dollar {d : DollarSt} {mk : DollarSt → State} {add : Sym → State} {ctx : State} (hle : off ≤ src.length)
    (hw : ∀ c ∈ d.start.toList, Before src off c)
    (hmk : ∀ d', (mk d').stored = d'.start.toList) (hmk' : ∀ w', (mk w').EscOk)
    (hadd : ∀ s, (add s).stored = [] ∧ (add s).EscOk) (hctx : ctx.stored = [] ∧ ctx.EscOk) :
    (visitDollar d mk add ctx (cursorAt src off)).BndOk src off ∧
    (visitDollar d mk add ctx (cursorAt src off)).state.EscOk := by
  have ha : ∀ s, (add s).StoredOk src off := by intro s c hc; rw [(hadd s).1] at hc; simp at hc
  have hc : ctx.StoredOk src off := by intro c hc; rw [hctx.1] at hc; simp at hc
  have hd : ∀ d' : DollarSt, (d'.start = d.start ∨ d'.start = some (cursorAt src off)) → (mk d').StoredOk src off := by
    intro d' h c hc
    rw [hmk] at hc
    rcases h with h | h <;> rw [h] at hc
    · exact hw c hc
    · simp at hc; exact hc ▸ Before.here
  unfold visitDollar dollarProduce
  simp only
  repeat' split
  all_goals first
    | exact ⟨BndOk.fwd hle hc, hctx.2⟩
    | exact ⟨BndOk.res hle hc, hctx.2⟩
    | exact ⟨BndOk.fwd hle (ha _), (hadd _).2⟩
    | exact ⟨BndOk.res hle (ha _), (hadd _).2⟩
    | exact ⟨BndOk.fwd hle (hd _ (Or.inl rfl)), hmk' _⟩
    | exact ⟨BndOk.fwd hle (hd _ (Or.inr rfl)), hmk' _⟩

theorem bnd_visit {st : State} {t} (hle : off ≤ src.length) (h : st.StoredOk src off) (he : st.EscOk)
    (ht : st.visit (cursorAt src off) = some t) : t.BndOk src off ∧ t.state.EscOk := by
  cases st with
  | root =>
    injection ht with ht; subst ht; unfold visitRoot
    repeat' split
    all_goals bnd hle h
  | comment =>
    injection ht with ht; subst ht; unfold visitComment
    split <;> bnd hle h
  | number s d e =>
    injection ht with ht; subst ht; unfold visitNumber
    simp only
    repeat' split
    all_goals bnd hle h
  | byteLit v e p =>
    injection ht with ht; subst ht; unfold visitByteLit
    repeat' split
    all_goals bnd hle h
  | stringLit v e p =>
    injection ht with ht; subst ht; unfold visitStringLit
    repeat' split
    all_goals bnd hle h
  | word s =>
    injection ht with ht; subst ht; unfold visitWord
    split <;> bnd hle h
  | symbol f p =>
    simp only [State.visit] at ht
    unfold visitSymbol at ht
    simp only at ht
    repeat' (split at ht)
    all_goals first
      | (cases ht; done)
      | (injection ht with ht; subst ht; bnd hle h)
  | command =>
    injection ht with ht; subst ht; unfold visitCommand
    repeat' split
    all_goals bnd hle h
  | commandComment =>
    injection ht with ht; subst ht; unfold visitComment
    split <;> bnd hle h
  | argument a =>
    injection ht with ht; subst ht; unfold visitArgument
    simp only
    repeat' split
    all_goals bnd hle h
  | expansion e a =>
    have hs : Before src off e.start := h _ (by simp [State.stored])
    simp only [State.visit] at ht
    unfold visitExpansion at ht
    simp only at ht
    repeat' (split at ht)
    all_goals first
      | (cases ht; done)
      | (injection ht with ht; subst ht; first
          | exact ⟨BndOk.roll hle hs (fun j _ _ c hc => by simp [State.stored, WordSt.fresh] at hc), trivial⟩
          | bnd hle h)
  | expansionWord e w a =>
    have hs : Before src off e.start := h _ (by simp [State.stored])
    simp only [State.EscOk] at he
    simp only [State.visit] at ht
    unfold visitExpansion at ht
    simp only at ht
    repeat' (split at ht)
    all_goals first
      | (cases ht; done)
      | (injection ht with ht; subst ht; first
          | exact ⟨BndOk.roll hle hs (fun j _ _ c hc => by simp [State.stored, he] at hc), trivial⟩
          | exact ⟨BndOk.fwd hle h, he⟩
          | bnd hle h)
  | singleQuoted v a =>
    injection ht with ht; subst ht; unfold visitSingleQuoted
    repeat' split
    all_goals first
      | bnd hle h
      | exact ⟨BndOk.res hle (by intro c hc; simp [State.stored, WordSt.fresh] at hc), trivial⟩
  | doubleQuoted v a =>
    injection ht with ht; subst ht; unfold visitDoubleQuoted
    repeat' split
    all_goals first
      | bnd hle h
      | exact ⟨BndOk.res hle (by intro c hc; simp [State.stored, WordSt.fresh] at hc), trivial⟩
  | unquotedWord w a =>
    injection ht with ht; subst ht
    refine bnd_argWord hle h (fun _ => rfl) (fun _ => trivial) ?_ ?_
    · intro t x hn ht
      split at ht
      · injection ht with ht; subst ht
        exact ⟨BndOk.res hle (by intro c hc; simp [State.stored, hn] at hc; exact hc ▸ Before.here), hn⟩
      · cases ht
    · intro v
      exact ⟨BndOk.res hle (by intro c hc; simp [State.stored] at hc), trivial⟩
  | singleQuotedWord w v a =>
    injection ht with ht; subst ht
    refine bnd_argWord hle h (fun _ => rfl) (fun _ => trivial) (fun _ _ _ ht => by cases ht) ?_
    intro v
    exact ⟨BndOk.res hle (by intro c hc; simp [State.stored] at hc), trivial⟩
  | doubleQuotedWord w ps a =>
    injection ht with ht; subst ht
    refine bnd_argWord hle h (fun _ => rfl) (fun _ => trivial) (fun _ _ _ ht => by cases ht) ?_
    intro v
    exact ⟨BndOk.res hle (by intro c hc; simp [State.stored] at hc), trivial⟩
  | dollar d a =>
    injection ht with ht; subst ht
    exact bnd_dollar hle h (fun _ => rfl) (fun _ => trivial) (fun _ => ⟨rfl, trivial⟩) ⟨rfl, trivial⟩
  | quotedDollar d ps a =>
    injection ht with ht; subst ht
    exact bnd_dollar hle h (fun _ => rfl) (fun _ => trivial) (fun _ => ⟨rfl, trivial⟩) ⟨rfl, trivial⟩
  | commandSymbol f p =>
    simp only [State.visit] at ht
    unfold visitCommandSymbol at ht
    simp only at ht
    repeat' (split at ht)
    all_goals first
      | (cases ht; done)
      | (injection ht with ht; subst ht; bnd hle h)

/-- States the lexer goes through. -/
inductive Reachable (src : Bytes) : LexSt → Prop
  | start : Reachable src (LexSt.init src)
  | next {s s'} : Reachable src s → (s.step = .continue s' ∨ ∃ o, s.step = .emit o s') → Reachable src s'

theorem reachable_bounds {s} (h : Reachable src s) : ∃ off, s.cursor = cursorAt src off ∧ off ≤ src.length ∧
    s.state.StoredOk src off ∧ s.state.EscOk := by
  induction h with
  | start => exact ⟨0, by simp [LexSt.init, Cursor.start, cursorAt, lineCol], by omega,
      (fun c hc => by simp [LexSt.init, State.stored] at hc), trivial⟩
  | @next s s' _ hs ih =>
    obtain ⟨off, h1, h2, h3, h4⟩ := ih
    unfold LexSt.step at hs
    cases hv : s.state.visit s.cursor with
    | none => simp [hv] at hs
    | some t =>
      rw [h1] at hv
      obtain ⟨⟨off', g1, g2, g3⟩, g4⟩ := bnd_visit h2 h3 h4 hv
      have : s' = ⟨t.state, t.step.apply s.cursor⟩ := by
        rw [h1] at hs ⊢
        simp only [hv] at hs
        cases ho : t.output <;> simp only [ho] at hs
        · split at hs
          · simp at hs
          · simp at hs; exact hs.symm
        · simp at hs; exact hs.symm
      subst this
      exact ⟨off', by simpa [h1] using g1, g2, g3, g4⟩

end Hush

import Verif.Lemmas.LexPos

/-! Where the lexer can abort. -/

namespace Hush
open Spec

/-- States of the automaton inside a command block. -/
def State.inCommand : State → Bool
  | .root | .comment | .number .. | .byteLit .. | .stringLit .. | .word .. | .symbol .. => false
  | _ => true

/-- Whether a command block is open after an output. -/
def openStep (b : Bool) : Output → Bool
  | .ok ⟨.command, _⟩ | .ok ⟨.asyncCommand, _⟩ | .ok ⟨.captureCommand, _⟩ => true
  | .ok ⟨.closeCommand, _⟩ => false
  | _ => b

/-- A transition only enters a command state through an opener. -/
def Transition.CmdOk (b : Bool) (t : Transition) : Prop :=
  t.state.inCommand = true → (match t.output with | some o => openStep b o | none => b) = true

theorem cmd_visit {st : State} {c : Cursor} {t} (ht : st.visit c = some t) : t.CmdOk st.inCommand := by
  cases st with
  | root =>
    injection ht with ht; subst ht
    unfold visitRoot
    repeat' split
    all_goals first
      | (intro h; cases h; done)
      | (intro; rfl)
  | comment =>
    injection ht with ht; subst ht; unfold visitComment
    split <;> (intro h; cases h)
  | number s d e =>
    injection ht with ht; subst ht; unfold visitNumber
    simp only
    repeat' split
    all_goals (intro h; cases h)
  | byteLit v e p =>
    injection ht with ht; subst ht; unfold visitByteLit
    repeat' split
    all_goals (intro h; cases h)
  | stringLit v e p =>
    injection ht with ht; subst ht; unfold visitStringLit
    repeat' split
    all_goals (intro h; cases h)
  | word s =>
    injection ht with ht; subst ht; unfold visitWord
    split <;> (intro h; cases h)
  | symbol f p =>
    simp only [State.visit] at ht
    unfold visitSymbol at ht
    simp only at ht
    repeat' (split at ht)
    all_goals first
      | (cases ht; done)
      | (injection ht with ht; subst ht; intro h; cases h; done)
      | (injection ht with ht; subst ht; intro h; rfl)
  | command =>
    injection ht with ht; subst ht; unfold visitCommand
    repeat' split
    all_goals first
      | (intro h; cases h; done)
      | (intro; rfl)
      | skip
    rename_i k hk
    intro _
    simp only [Transition.produce]
    have : ∀ c : UInt8, (match SymbolChar.commandFromFirst c with
        | .single k => openStep true (.ok ⟨k, ⟨0, 0⟩⟩) == true | _ => true) = true := forall_byte (by decide +kernel)
    have := this (by assumption)
    rw [hk] at this
    simp only [beq_iff_eq] at this
    simp only [State.inCommand]
    revert this
    cases k <;> simp [openStep]
  | commandComment =>
    injection ht with ht; subst ht; unfold visitComment
    split <;> (intro h; rfl)
  | argument a =>
    injection ht with ht; subst ht; unfold visitArgument
    simp only
    repeat' split
    all_goals (intro h; rfl)
  | expansion e a =>
    simp only [State.visit] at ht
    unfold visitExpansion at ht
    simp only at ht
    repeat' (split at ht)
    all_goals first
      | (cases ht; done)
      | (injection ht with ht; subst ht; intro h; rfl)
  | expansionWord e w a =>
    simp only [State.visit] at ht
    unfold visitExpansion at ht
    simp only at ht
    repeat' (split at ht)
    all_goals first
      | (cases ht; done)
      | (injection ht with ht; subst ht; intro h; rfl)
  | singleQuoted v a =>
    injection ht with ht; subst ht; unfold visitSingleQuoted
    repeat' split
    all_goals (intro h; rfl)
  | doubleQuoted v a =>
    injection ht with ht; subst ht; unfold visitDoubleQuoted
    repeat' split
    all_goals (intro h; rfl)
  | unquotedWord w a =>
    injection ht with ht; subst ht; unfold visitArgWord
    repeat' split
    all_goals first
      | (intro h; rfl)
      | skip
    rename_i heq
    simp only at heq
    split at heq
    · injection heq with heq; subst heq; intro h; rfl
    · cases heq
  | singleQuotedWord w v a =>
    injection ht with ht; subst ht; unfold visitArgWord
    repeat' split
    all_goals first
      | (intro h; rfl)
      | (rename_i heq; cases heq)
  | doubleQuotedWord w ps a =>
    injection ht with ht; subst ht; unfold visitArgWord
    repeat' split
    all_goals first
      | (intro h; rfl)
      | (rename_i heq; cases heq)
  | dollar d a =>
    injection ht with ht; subst ht; unfold visitDollar dollarProduce
    simp only
    repeat' split
    all_goals (intro h; rfl)
  | quotedDollar d ps a =>
    injection ht with ht; subst ht; unfold visitDollar dollarProduce
    simp only
    repeat' split
    all_goals (intro h; rfl)
  | commandSymbol f p =>
    simp only [State.visit] at ht
    unfold visitCommandSymbol at ht
    simp only at ht
    repeat' (split at ht)
    all_goals first
      | (cases ht; done)
      | (injection ht with ht; subst ht; intro h; rfl)

theorem expansion_crash {e mk prod roll c} (h : visitExpansion e mk prod roll c = none) :
    c.peek = some cOpenBracket ∨ c.peek = some cOpenBrace := by
  unfold visitExpansion at h
  simp only at h
  split at h
  · cases h
  · rename_i x hx
    repeat' (split at h)
    all_goals first
      | (cases h; done)
      | (rename_i h1; rw [hx]; simp only [beq_iff_eq] at h1; subst h1; simp)

/-- A run that aborts does so inside an open command block, at an opening bracket or brace that comes after all
tokens produced so far. -/
theorem run_crash {src : Bytes} (n : Nat) : ∀ {lo off st b os}, off ≤ src.length → State.PosInv src lo off st →
    st.Inv (cursorAt src off) →
    (st.inCommand = true → b = true) →
    (⟨st, cursorAt src off⟩ : LexSt).run n = .crash os →
    os.foldl openStep b = true ∧ ∃ (offs : List Nat) (j : Nat) (x : UInt8), src[j]? = some x ∧ (x = cOpenBracket ∨ x = cOpenBrace) ∧ lo ≤ j ∧
      offs.Pairwise (· < ·) ∧ (∀ k ∈ offs, lo ≤ k ∧ k < j) ∧ (tokensOf os).map Token.pos = offs.map (lineCol src) := by
  induction n with
  | zero => intro lo off st b os _ _ _ _ h; cases h
  | succ n ih =>
    intro lo off st b os hle hpos hinv hb h
    simp only [LexSt.run, LexSt.step] at h
    cases hv : st.visit (cursorAt src off) with
    | none =>
      rw [hv] at h
      injection h with h
      subst h
      have key : (∃ x, (cursorAt src off).peek = some x ∧ (x = cOpenBracket ∨ x = cOpenBrace)) ∧ st.inCommand = true ∧
          lo ≤ off := by
        have := visit_good ⟨st, cursorAt src off⟩ hinv
        cases st with
        | expansion e a =>
          simp only [State.visit] at hv
          obtain ⟨j, _, hj, k, hk1, _, hk2⟩ := hpos
          refine ⟨?_, rfl, by omega⟩
          rcases expansion_crash hv with h | h
          · exact ⟨_, h, Or.inl rfl⟩
          · exact ⟨_, h, Or.inr rfl⟩
        | expansionWord e w a =>
          simp only [State.visit] at hv
          obtain ⟨j, _, hj, k, hk1, _, hk2⟩ := hpos
          refine ⟨?_, rfl, by omega⟩
          rcases expansion_crash hv with h | h
          · exact ⟨_, h, Or.inl rfl⟩
          · exact ⟨_, h, Or.inr rfl⟩
        | symbol f p => simp_all
        | commandSymbol f p => simp_all
        | _ => simp [State.visit] at hv
      obtain ⟨⟨x, hx, hx'⟩, hc, hlo⟩ := key
      refine ⟨hb hc, [], off, x, ?_, hx', hlo, by simp, by simp, rfl⟩
      simpa [Cursor.peek, cursorAt] using hx
    | some t =>
      obtain ⟨off', h1, h2, h3⟩ := pos_visit hle hpos hv
      have hcmd := cmd_visit hv
      have hg := visit_good ⟨st, cursorAt src off⟩ hinv
      simp only [hv, h1] at h
      rcases hg with ⟨_, _, _, hn, _⟩ | ⟨t', ht', hg⟩
      · simp only at hn; rw [hv] at hn; cases hn
      simp only at ht'
      rw [hv] at ht'; injection ht' with ht'; subst ht'
      rcases hg with ⟨hpk, ho⟩ | ⟨hi, -⟩
      · simp only at hpk
        simp only [ho, Cursor.isEof_peek.2 hpk, if_true] at h
        cases h
      simp only [h1] at hi
      cases ho : t.output with
      | none =>
        simp only [ho] at h
        rw [Transition.CmdOk, ho] at hcmd
        rw [ho] at h3
        cases he : (cursorAt src off).isEof with
        | true => simp only [he, if_true] at h; cases h
        | false =>
          simp only [he, Bool.false_eq_true, if_false] at h
          exact ih h2 h3 hi (fun hh => hb (hcmd hh)) h
      | some o =>
        simp only [ho] at h
        rw [Transition.CmdOk, ho] at hcmd
        rw [ho] at h3
        have hmono : t.state.inCommand = true → openStep b o = true := by
          intro hh
          have := hcmd hh
          simp only at this
          cases hst : st.inCommand with
          | true => rw [hst] at this; rw [hb hst]; exact this
          | false =>
            rw [hst] at this
            revert this
            unfold openStep
            split <;> simp
        cases hr : (⟨t.state, cursorAt src off'⟩ : LexSt).run n with
        | timeout => rw [hr] at h; cases h
        | done l => rw [hr] at h; cases h
        | crash l =>
          rw [hr] at h
          injection h with h
          subst h
          cases o with
          | error e =>
            have := ih (b := openStep b (.error e)) h2 h3 hi hmono hr
            exact this
          | ok tok =>
            obtain ⟨k, hk1, _, hk3, hk4⟩ := h3
            obtain ⟨g0, offs, j, x, g1, g2, g3, g4, g5, g6⟩ := ih (b := openStep b (.ok tok)) h2 hk4 hi hmono hr
            refine ⟨g0, k :: offs, j, x, g1, g2, by omega, ?_, ?_, ?_⟩
            · exact List.pairwise_cons.2 ⟨fun i hi => by have := g5 i hi; omega, g4⟩
            · intro i hi
              rcases List.mem_cons.1 hi with rfl | hi
              · omega
              · have := g5 i hi; omega
            · simp only [List.map_cons, ← g6, ← hk3]; rfl

end Hush

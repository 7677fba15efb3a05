import Verif.Model.Lexer
import Mathlib.Tactic.SplitIfs
import Mathlib.Tactic.Tauto

/-! Helper lemmas for lexer termination. -/

namespace Hush

/-- A decidable statement about all bytes can be checked byte by byte. -/
theorem forall_byte {P : UInt8 → Prop} (h : ∀ n : Fin 256, P (UInt8.ofFin n)) (c : UInt8) : P c :=
  h c.toFin

theorem isWord_of_isWordStart (c : UInt8) : isWordStart c = true → isWord c = true := by
  revert c; exact forall_byte (by decide +kernel)

theorem fromFirst_double (c f : UInt8) (h : SymbolChar.fromFirst c = .double f) :
    f = cGt ∨ f = cLt ∨ f = cPlus ∨ f = cEq ∨ f = cBang ∨ f = cAt ∨ f = cDollar ∨ f = cAmp := by
  have key : ∀ c : UInt8, (match SymbolChar.fromFirst c with
    | .double f => decide (f = cGt ∨ f = cLt ∨ f = cPlus ∨ f = cEq ∨ f = cBang ∨ f = cAt ∨ f = cDollar ∨ f = cAmp)
    | _ => true) = true := forall_byte (by decide +kernel)
  have := key c
  rw [h] at this
  exact of_decide_eq_true this

theorem commandFromFirst_double (c f : UInt8) (h : SymbolChar.commandFromFirst c = .double f) :
    f = cGt ∨ f = cLt := by
  unfold SymbolChar.commandFromFirst at h
  split_ifs at h with h1 h2 h3 h4
  simp only [Bool.or_eq_true, beq_iff_eq] at h4
  injection h with h; subst h
  tauto

/-- Characters which the `command` state consumes at once. -/
def cmdEats (c : UInt8) : Bool :=
  isWs c || c == cHash || c == cCloseBrace || c == cQuestion || c == cPipe || c == cSemi
    || c == cGt || c == cLt

/-- Rank of a state at the next byte: decreases while no input is consumed. -/
def State.rank : State → Option UInt8 → Nat
  | .root, none => 0
  | .root, some _ => 2
  | .comment, none => 0
  | .comment, some _ => 3
  | .number .., _ => 3
  | .byteLit .., _ => 3
  | .stringLit .., _ => 3
  | .word _, none => 3
  | .word _, some c => if isWord c then 1 else 3
  | .symbol .., _ => 3
  | .command, none => 4
  | .command, some c => if cmdEats c then 1 else 10
  | .commandComment, none => 0
  | .commandComment, some _ => 11
  | .argument _, none => 5
  | .argument _, some c => if argIsWord c then 9 else 2
  | .expansion e _, _ => if e.tildeConsumed then 7 else 8
  | .expansionWord e _ _, _ => if e.tildeConsumed then 4 else 5
  | .singleQuoted .., none => 6
  | .singleQuoted .., some c => if sqIsWord c then 2 else 1
  | .doubleQuoted .., none => 6
  | .doubleQuoted .., some c => if dqIsWord c then 2 else 1
  | .unquotedWord w _, _ => if w.allowExpansionStart then 6 else 3
  | .singleQuotedWord .., none => 7
  | .singleQuotedWord .., some c => if sqIsWord c then 1 else 2
  | .doubleQuotedWord .., none => 7
  | .doubleQuotedWord .., some c => if dqIsWord c then 1 else 2
  | .dollar .., _ => 11
  | .quotedDollar .., _ => 7
  | .commandSymbol .., _ => 11

/-- Length of the input a state may still come back to. -/
def State.baseLen : State → Cursor → Nat
  | .expansion e _, _ => e.start.rest.length
  | .expansionWord e _ _, _ => e.start.rest.length
  | _, c => c.rest.length

/-- Termination measure. -/
def LexSt.measure (s : LexSt) : Nat := 20 * s.state.baseLen s.cursor + s.state.rank s.cursor.peek

/-- What the automaton's states satisfy in every run. -/
def State.Inv : State → Cursor → Prop
  | .expansion e _, c =>
      c.rest.length ≤ e.start.rest.length ∧ (e.tildeConsumed = true → e.allowHome = false)
  | .expansionWord e _ _, c =>
      c.rest.length ≤ e.start.rest.length ∧ (e.tildeConsumed = true → e.allowHome = false)
  | .symbol f _, _ => f = cGt ∨ f = cLt ∨ f = cPlus ∨ f = cEq ∨ f = cBang ∨ f = cAt ∨ f = cDollar ∨ f = cAmp
  | .commandSymbol f _, _ => f = cGt ∨ f = cLt
  | _, _ => True

theorem rank_lt (s : State) (p : Option UInt8) : s.rank p < 12 := by
  cases s <;> cases p <;> simp [State.rank] <;> split <;> omega

@[simp] theorem Cursor.step_len (c : Cursor) : c.step.rest.length = c.rest.length - 1 := by
  unfold Cursor.step; cases h : c.rest <;> simp [h]

theorem Cursor.peek_none {c : Cursor} : c.peek = none ↔ c.rest = [] := by
  simp [Cursor.peek]

theorem Cursor.peek_some_len {c : Cursor} {x} (h : c.peek = some x) : 0 < c.rest.length := by
  unfold Cursor.peek at h; cases hr : c.rest <;> simp [hr] at h ⊢

theorem Cursor.isEof_peek {c : Cursor} : c.isEof = true ↔ c.peek = none := by
  simp [Cursor.isEof, Cursor.peek]

theorem Cursor.isEof_false_of_peek {c : Cursor} {x} (h : c.peek = some x) : c.isEof = false := by
  cases hb : c.isEof
  · rfl
  · rw [Cursor.isEof_peek] at hb; simp [hb] at h

/-- A transition makes the measure decrease, and keeps the invariant. At the end of input only
transitions with an output matter. -/
def Transition.Good (t : Transition) (m : Nat) (cur : Cursor) : Prop :=
  (cur.peek = none ∧ t.output = none) ∨
  (t.state.Inv (t.step.apply cur) ∧ LexSt.measure ⟨t.state, t.step.apply cur⟩ < m)

theorem good_fwd {cur : Cursor} {x s' o m} (h : cur.peek = some x) (hm : 20 * cur.rest.length ≤ m)
    (hinv : s'.Inv cur.step) (hb : s'.baseLen cur.step ≤ cur.rest.length - 1) :
    Transition.Good ⟨s', .forward, o⟩ m cur := by
  right
  refine ⟨hinv, ?_⟩
  have h1 := Cursor.peek_some_len h
  have h2 := rank_lt s' cur.step.peek
  simp only [LexSt.measure, Step.apply]
  omega

theorem good_stop {cur : Cursor} {s' st m} (h : cur.peek = none) :
    Transition.Good ⟨s', st, none⟩ m cur := Or.inl ⟨h, rfl⟩

theorem good_resume {cur : Cursor} {s' o m} (hinv : s'.Inv cur)
    (hm : LexSt.measure ⟨s', cur⟩ < m) : Transition.Good ⟨s', .resume, o⟩ m cur := Or.inr ⟨hinv, hm⟩

theorem good_eof {cur : Cursor} {s' o m} (h : cur.peek = none) (hinv : s'.Inv cur)
    (hm : LexSt.measure ⟨s', cur⟩ < m) : Transition.Good ⟨s', .forward, o⟩ m cur := by
  right
  have : cur.step = cur := by
    unfold Cursor.step; rw [Cursor.peek_none] at h; rw [h]
  simpa [Step.apply, this] using ⟨hinv, hm⟩

macro "good_auto" : tactic => `(tactic| (
  first
  | (apply good_stop; assumption)
  | (apply good_fwd (by assumption)
     · simp [LexSt.measure, State.baseLen]; done
     · simp_all [State.Inv]; done
     · simp [State.baseLen]; done)
  | (apply good_resume
     · simp_all [State.Inv]; done
     · simp_all [LexSt.measure, State.baseLen, State.rank]; done)
  | (apply good_eof (by assumption)
     · simp_all [State.Inv]; done
     · simp_all [LexSt.measure, State.baseLen, State.rank]; done)))

theorem good_root (cur : Cursor) : (visitRoot cur).Good (LexSt.measure ⟨.root, cur⟩) cur := by
  unfold visitRoot
  cases h : cur.peek with
  | none => simp only [Transition.fwd]; good_auto
  | some c =>
    simp only
    split_ifs
    · good_auto
    · good_auto
    · good_auto
    · good_auto
    · good_auto
    · have := isWord_of_isWordStart c (by assumption)
      apply good_resume (by simp [State.Inv])
      simp [LexSt.measure, State.baseLen, State.rank, h, this]
    · simp only [Transition.fwd, Transition.error, Transition.produce]
      split <;> first | good_auto | skip
      rename_i heq
      exact good_fwd h (by simp [LexSt.measure, State.baseLen]) (fromFirst_double c _ heq) (by simp [State.baseLen])

theorem good_comment {self back : State} {cur : Cursor}
    (h1 : self = .comment ∧ back = .root ∨ self = .commandComment ∧ back = .command) :
    (visitComment self back cur).Good (LexSt.measure ⟨self, cur⟩) cur := by
  unfold visitComment Transition.resume Transition.fwd
  cases h : cur.peek with
  | none => split <;> good_auto
  | some c =>
    rcases h1 with ⟨rfl, rfl⟩ | ⟨rfl, rfl⟩
    · split <;> good_auto
    · split
      · apply good_resume
        · simp [State.Inv]
        · simp only [LexSt.measure, State.baseLen, State.rank, h]; split <;> omega
      · good_auto

theorem good_number (s d e) (cur : Cursor) :
    (visitNumber s d e cur).Good (LexSt.measure ⟨.number s d e, cur⟩) cur := by
  unfold visitNumber Transition.fwd Transition.error Transition.resumeProduce
  cases h : cur.peek with
  | none =>
    simp only
    repeat' split
    all_goals good_auto
  | some c =>
    simp only
    repeat' split
    all_goals good_auto

theorem good_byte (v e p) (cur : Cursor) :
    (visitByteLit v e p cur).Good (LexSt.measure ⟨.byteLit v e p, cur⟩) cur := by
  unfold visitByteLit Transition.fwd Transition.error Transition.produce
  cases h : cur.peek with
  | none => good_auto
  | some c =>
    simp only
    repeat' split
    all_goals good_auto

theorem good_string (v e p) (cur : Cursor) :
    (visitStringLit v e p cur).Good (LexSt.measure ⟨.stringLit v e p, cur⟩) cur := by
  unfold visitStringLit Transition.fwd Transition.error Transition.produce
  cases h : cur.peek with
  | none => good_auto
  | some c =>
    simp only
    repeat' split
    all_goals good_auto

theorem good_word (s) (cur : Cursor) :
    (visitWord s cur).Good (LexSt.measure ⟨.word s, cur⟩) cur := by
  unfold visitWord Transition.fwd Transition.resumeProduce
  cases h : cur.peek with
  | none => simp only [Option.any]; good_auto
  | some c =>
    simp only [Option.any]
    split
    all_goals good_auto

theorem good_symbol (f p) (cur : Cursor) (hinv : (State.symbol f p).Inv cur) :
    ∃ t, visitSymbol f p cur = some t ∧ t.Good (LexSt.measure ⟨.symbol f p, cur⟩) cur := by
  unfold State.Inv at hinv
  unfold visitSymbol Transition.resumeError Transition.resumeProduce Transition.produce
  cases h : cur.peek with
  | none =>
    rcases hinv with rfl | rfl | rfl | rfl | rfl | rfl | rfl | rfl <;>
    refine ⟨_, rfl, ?_⟩ <;> simp only [reduceCtorEq, if_false] <;> good_auto
  | some c =>
    rcases hinv with rfl | rfl | rfl | rfl | rfl | rfl | rfl | rfl <;>
    refine ⟨_, rfl, ?_⟩ <;> split <;> good_auto

theorem good_cmdsymbol (f p) (cur : Cursor) (hinv : (State.commandSymbol f p).Inv cur) :
    ∃ t, visitCommandSymbol f p cur = some t ∧ t.Good (LexSt.measure ⟨.commandSymbol f p, cur⟩) cur := by
  unfold State.Inv at hinv
  unfold visitCommandSymbol Transition.resumeProduce Transition.produce
  cases h : cur.peek with
  | none =>
    rcases hinv with rfl | rfl <;>
    refine ⟨_, rfl, ?_⟩ <;> simp only [reduceCtorEq, if_false] <;> good_auto
  | some c =>
    rcases hinv with rfl | rfl <;>
    refine ⟨_, rfl, ?_⟩ <;> split <;> first | good_auto | skip
    all_goals
      apply good_resume
      · simp [State.Inv]
      · simp only [LexSt.measure, State.baseLen, State.rank, h]; split <;> omega

theorem good_command (cur : Cursor) : (visitCommand cur).Good (LexSt.measure ⟨.command, cur⟩) cur := by
  unfold visitCommand Transition.fwd Transition.error Transition.produce Transition.resume
  cases h : cur.peek with
  | none => good_auto
  | some c =>
    simp only
    split_ifs with h1 h2 h3
    · good_auto
    · good_auto
    · good_auto
    · split
      · rename_i heq
        apply good_resume
        · simp [State.Inv]
        · have : cmdEats c = false := by
            unfold SymbolChar.commandFromFirst at heq
            split_ifs at heq
            simp_all [cmdEats]
          simp only [LexSt.measure, State.baseLen, State.rank, h, this]; split <;> simp
      · good_auto
      · rename_i heq
        exact good_fwd h (by simp [LexSt.measure, State.baseLen]) (commandFromFirst_double c _ heq)
          (by simp [State.baseLen])

theorem argEnd_cmdEats (c : UInt8) : argIsWord c = false → (c == cDollar) = false → (c == cSQuote) = false →
    (c == cDQuote) = false → (c == cEq) = false → cmdEats c = true := by
  revert c; exact forall_byte (by decide +kernel)

theorem argIsWord_of_expStart (c : UInt8) : isExpansionStart c = true → argIsWord c = true := by
  revert c; exact forall_byte (by decide +kernel)

theorem good_argument (a) (cur : Cursor) :
    (visitArgument a cur).Good (LexSt.measure ⟨.argument a, cur⟩) cur := by
  unfold visitArgument Transition.fwd Transition.resume Transition.resumeProduce
  cases h : cur.peek with
  | none => good_auto
  | some c =>
    simp only
    split_ifs with h1 h2 h3 h4 h5 h6
    · good_auto
    · good_auto
    · good_auto
    · good_auto
    · have := argIsWord_of_expStart c h5
      apply good_resume
      · simp [State.Inv]
      · simp [LexSt.measure, State.baseLen, State.rank, h, this]
    · apply good_resume
      · simp [State.Inv]
      · simp [LexSt.measure, State.baseLen, State.rank, h, h6, WordSt.fresh]
    · have := argEnd_cmdEats c (by simpa using h6) (by simpa using h1) (by simpa using h2) (by simpa using h3) (by simpa using h4)
      apply good_resume
      · simp [State.Inv]
      · simp [LexSt.measure, State.baseLen, State.rank, h, h6, this]

theorem good_expansion (e a) (cur : Cursor) (hinv : (State.expansion e a).Inv cur) :
    (∃ c, cur.peek = some c ∧ (c = cOpenBracket ∨ c = cOpenBrace) ∧
      (State.expansion e a).visit cur = none) ∨
    ∃ t, (State.expansion e a).visit cur = some t ∧ t.Good (LexSt.measure ⟨State.expansion e a, cur⟩) cur := by
  obtain ⟨hinv, hth⟩ := hinv
  simp only [State.visit, visitExpansion, argExpProduce, argExpRollback, Transition.fwd, Transition.rollback]
  have roll : Transition.Good ⟨.unquotedWord .fresh a, .rollback e.start, none⟩
      (LexSt.measure ⟨State.expansion e a, cur⟩) cur := by
    right
    simp [State.Inv, LexSt.measure, State.baseLen, State.rank, WordSt.fresh, Step.apply]
    split <;> omega
  have prod : ∀ (x : ArgExpansion) (c), cur.peek = some c → Transition.Good
      ⟨.argument { a with parts := a.parts ++ [.expansion x] }, .forward, none⟩
      (LexSt.measure ⟨State.expansion e a, cur⟩) cur := by
    intro x c h
    apply good_fwd h
    · simp [LexSt.measure, State.baseLen]; omega
    · simp [State.Inv]
    · simp [State.baseLen]
  cases h : cur.peek with
  | none => right; exact ⟨_, rfl, roll⟩
  | some c =>
    simp only
    split_ifs with h1 h2 h3 h4 h5 h6 h7
    · right
      refine ⟨_, rfl, ?_⟩
      right
      have ht : e.tildeConsumed = false := by
        cases ht : e.tildeConsumed
        · rfl
        · simp [hth ht] at h1
      simp [State.Inv, LexSt.measure, State.baseLen, State.rank, Step.apply, ht]
      omega
    · exact Or.inr ⟨_, rfl, prod _ _ h⟩
    · exact Or.inr ⟨_, rfl, roll⟩
    · exact Or.inr ⟨_, rfl, prod _ _ h⟩
    · exact Or.inr ⟨_, rfl, prod _ _ h⟩
    · left; exact ⟨c, rfl, Or.inl (by simpa using h6), rfl⟩
    · left; exact ⟨c, rfl, Or.inr (by simpa using h7), rfl⟩
    · exact Or.inr ⟨_, rfl, roll⟩

theorem good_expansionWord (e w a) (cur : Cursor) (hinv : (State.expansionWord e w a).Inv cur) :
    (∃ c, cur.peek = some c ∧ (c = cOpenBracket ∨ c = cOpenBrace) ∧
      (State.expansionWord e w a).visit cur = none) ∨
    ∃ t, (State.expansionWord e w a).visit cur = some t ∧ t.Good (LexSt.measure ⟨State.expansionWord e w a, cur⟩) cur := by
  obtain ⟨hinv, hth⟩ := hinv
  simp only [State.visit, visitExpansion, wordExpProduce, wordExpRollback, Transition.fwd, Transition.rollback]
  have roll : Transition.Good ⟨.unquotedWord { w with allowExpansionStart := false } a, .rollback e.start, none⟩
      (LexSt.measure ⟨State.expansionWord e w a, cur⟩) cur := by
    right
    simp [State.Inv, LexSt.measure, State.baseLen, State.rank, WordSt.fresh, Step.apply]
    split <;> omega
  have prod : ∀ (x : ArgExpansion) (c), cur.peek = some c → Transition.Good
      ⟨.argument { a with parts := a.parts ++ [.unquoted (.literal w.value), .expansion x] }, .forward, none⟩
      (LexSt.measure ⟨State.expansionWord e w a, cur⟩) cur := by
    intro x c h
    apply good_fwd h
    · simp [LexSt.measure, State.baseLen]; omega
    · simp [State.Inv]
    · simp [State.baseLen]
  cases h : cur.peek with
  | none => right; exact ⟨_, rfl, roll⟩
  | some c =>
    simp only
    split_ifs with h1 h2 h3 h4 h5 h6 h7
    · right
      refine ⟨_, rfl, ?_⟩
      right
      have ht : e.tildeConsumed = false := by
        cases ht : e.tildeConsumed
        · rfl
        · simp [hth ht] at h1
      simp [State.Inv, LexSt.measure, State.baseLen, State.rank, Step.apply, ht]
      omega
    · exact Or.inr ⟨_, rfl, prod _ _ h⟩
    · exact Or.inr ⟨_, rfl, roll⟩
    · exact Or.inr ⟨_, rfl, prod _ _ h⟩
    · exact Or.inr ⟨_, rfl, prod _ _ h⟩
    · left; exact ⟨c, rfl, Or.inl (by simpa using h6), rfl⟩
    · left; exact ⟨c, rfl, Or.inr (by simpa using h7), rfl⟩
    · exact Or.inr ⟨_, rfl, roll⟩


theorem good_singleQuoted (v a) (cur : Cursor) :
    (visitSingleQuoted v a cur).Good (LexSt.measure ⟨.singleQuoted v a, cur⟩) cur := by
  unfold visitSingleQuoted Transition.fwd Transition.error Transition.resume
  cases h : cur.peek with
  | none => good_auto
  | some c =>
    simp only
    split_ifs with h1
    · good_auto
    · apply good_resume
      · simp [State.Inv]
      · have : sqIsWord c = true := by simp_all [sqIsWord]
        simp [LexSt.measure, State.baseLen, State.rank, h, this]

theorem good_doubleQuoted (v a) (cur : Cursor) :
    (visitDoubleQuoted v a cur).Good (LexSt.measure ⟨.doubleQuoted v a, cur⟩) cur := by
  unfold visitDoubleQuoted Transition.fwd Transition.error Transition.resume
  cases h : cur.peek with
  | none => good_auto
  | some c =>
    simp only
    split_ifs with h1 h2
    · good_auto
    · good_auto
    · apply good_resume
      · simp [State.Inv]
      · have : dqIsWord c = true := by simp_all [dqIsWord]
        simp [LexSt.measure, State.baseLen, State.rank, h, this]

theorem good_unquotedWord (w a) (cur : Cursor) : ∃ t, (State.unquotedWord w a).visit cur = some t ∧
    t.Good (LexSt.measure ⟨.unquotedWord w a, cur⟩) cur := by
  refine ⟨_, rfl, ?_⟩
  unfold visitArgWord Transition.fwd Transition.error Transition.resume
  cases h : cur.peek with
  | none => good_auto
  | some c =>
    cases he : w.escaping with
    | some e =>
      simp only
      split <;> good_auto
    | none =>
      simp only
      split_ifs with h1 h2 h3 h4
      · good_auto
      · simp only [Bool.and_eq_true] at h2
        apply good_resume
        · simp [State.Inv]
        · simp [LexSt.measure, State.baseLen, State.rank, h2.2]
      · good_auto
      · good_auto
      · apply good_resume
        · simp [State.Inv]
        · simp [LexSt.measure, State.baseLen, State.rank, h, h4]; split <;> omega

theorem good_sqWord (w v a) (cur : Cursor) : ∃ t, (State.singleQuotedWord w v a).visit cur = some t ∧
    t.Good (LexSt.measure ⟨.singleQuotedWord w v a, cur⟩) cur := by
  refine ⟨_, rfl, ?_⟩
  unfold visitArgWord Transition.fwd Transition.error Transition.resume
  cases h : cur.peek with
  | none => good_auto
  | some c =>
    cases he : w.escaping with
    | some e =>
      simp only
      split <;> good_auto
    | none =>
      simp only
      split_ifs with h1 h2 h3 h4
      · good_auto
      · good_auto
      · good_auto
      · apply good_resume
        · simp [State.Inv]
        · simp [LexSt.measure, State.baseLen, State.rank, h, h3]

theorem good_dqWord (w v a) (cur : Cursor) : ∃ t, (State.doubleQuotedWord w v a).visit cur = some t ∧
    t.Good (LexSt.measure ⟨.doubleQuotedWord w v a, cur⟩) cur := by
  refine ⟨_, rfl, ?_⟩
  unfold visitArgWord Transition.fwd Transition.error Transition.resume
  cases h : cur.peek with
  | none => good_auto
  | some c =>
    cases he : w.escaping with
    | some e =>
      simp only
      split <;> good_auto
    | none =>
      simp only
      split_ifs with h1 h2 h3 h4
      · good_auto
      · good_auto
      · good_auto
      · apply good_resume
        · simp [State.Inv]
        · simp [LexSt.measure, State.baseLen, State.rank, h, h3]

theorem rank_argument (a p) : (State.argument a).rank p < 11 := by
  cases p <;> simp [State.rank]; split <;> omega

theorem rank_doubleQuoted (v a p) : (State.doubleQuoted v a).rank p < 7 := by
  cases p <;> simp [State.rank]; split <;> omega

theorem good_dollar (d : DollarSt) (mk : DollarSt → State) (add : Sym → State) (ctx : State) (cur : Cursor) (m : Nat)
    (hmk : ∀ d c, (mk d).Inv c ∧ (mk d).baseLen c = c.rest.length)
    (hadd : ∀ s c, (add s).Inv c ∧ (add s).baseLen c = c.rest.length ∧
      (add s).rank c.peek < m)
    (hctx : ∀ c, ctx.Inv c ∧ ctx.baseLen c = c.rest.length ∧ ctx.rank c.peek < m) :
    (visitDollar d mk add ctx cur).Good (20 * cur.rest.length + m) cur := by
  have fadd : ∀ s c, cur.peek = some c → Transition.Good ⟨add s, .forward, none⟩ (20 * cur.rest.length + m) cur := by
    intro s c h
    exact good_fwd h (by omega) (hadd _ _).1 (by rw [(hadd _ _).2.1]; simp)
  have fmk : ∀ s c, cur.peek = some c → Transition.Good ⟨mk s, .forward, none⟩ (20 * cur.rest.length + m) cur := by
    intro s c h
    exact good_fwd h (by omega) (hmk _ _).1 (by rw [(hmk _ _).2]; simp)
  have fctx : ∀ o, Transition.Good ⟨ctx, .forward, o⟩ (20 * cur.rest.length + m) cur := by
    intro o
    cases h : cur.peek with
    | none =>
      apply good_eof h (hctx _).1
      simp only [LexSt.measure, (hctx cur).2.1]
      have := (hctx cur).2.2
      omega
    | some c => exact good_fwd h (by omega) (hctx _).1 (by rw [(hctx _).2.1]; simp)
  have radd : ∀ s, Transition.Good ⟨add s, .resume, none⟩ (20 * cur.rest.length + m) cur := by
    intro s
    apply good_resume (hadd _ _).1
    simp only [LexSt.measure, (hadd s cur).2.1]
    have := (hadd s cur).2.2
    omega
  have rctx : ∀ o, Transition.Good ⟨ctx, .resume, o⟩ (20 * cur.rest.length + m) cur := by
    intro o
    apply good_resume (hctx _).1
    simp only [LexSt.measure, (hctx cur).2.1]
    have := (hctx cur).2.2
    omega
  have hprod : ∀ b, (dollarProduce d add ctx b cur).Good (20 * cur.rest.length + m) cur := by
    intro b
    unfold dollarProduce Transition.fwd Transition.error Transition.resume Transition.resumeError
    simp only
    repeat' split
    all_goals first | exact fctx _ | exact radd _ | exact rctx _ | skip
    all_goals
      cases h : cur.peek with
      | none => exact good_stop h
      | some c => exact fadd _ _ h
  unfold visitDollar
  cases h : cur.peek with
  | none =>
    simp only
    split
    · exact fctx _
    · exact hprod _
  | some c =>
    simp only
    repeat' split
    all_goals first | exact hprod _ | exact fmk _ _ h

theorem visit_good (s : LexSt) (hinv : s.state.Inv s.cursor) :
    (∃ c, s.cursor.peek = some c ∧ (c = cOpenBracket ∨ c = cOpenBrace) ∧
      s.state.visit s.cursor = none ∧ s.state.baseLen s.cursor = s.state.baseLen s.cursor ∧
      ((∃ e a, s.state = .expansion e a) ∨ ∃ e w a, s.state = .expansionWord e w a)) ∨
    ∃ t, s.state.visit s.cursor = some t ∧ t.Good s.measure s.cursor := by
  obtain ⟨st, cur⟩ := s
  simp only at hinv
  cases st with
  | root => exact Or.inr ⟨_, rfl, good_root cur⟩
  | comment => exact Or.inr ⟨_, rfl, good_comment (Or.inl ⟨rfl, rfl⟩)⟩
  | number s d e => exact Or.inr ⟨_, rfl, good_number s d e cur⟩
  | byteLit v e p => exact Or.inr ⟨_, rfl, good_byte v e p cur⟩
  | stringLit v e p => exact Or.inr ⟨_, rfl, good_string v e p cur⟩
  | word s => exact Or.inr ⟨_, rfl, good_word s cur⟩
  | symbol f p => exact Or.inr (good_symbol f p cur hinv)
  | command => exact Or.inr ⟨_, rfl, good_command cur⟩
  | commandComment => exact Or.inr ⟨_, rfl, good_comment (Or.inr ⟨rfl, rfl⟩)⟩
  | argument a => exact Or.inr ⟨_, rfl, good_argument a cur⟩
  | expansion e a =>
    rcases good_expansion e a cur hinv with ⟨c, h1, h2, h3⟩ | h
    · exact Or.inl ⟨c, h1, h2, h3, rfl, Or.inl ⟨_, _, rfl⟩⟩
    · exact Or.inr h
  | expansionWord e w a =>
    rcases good_expansionWord e w a cur hinv with ⟨c, h1, h2, h3⟩ | h
    · exact Or.inl ⟨c, h1, h2, h3, rfl, Or.inr ⟨_, _, _, rfl⟩⟩
    · exact Or.inr h
  | singleQuoted v a => exact Or.inr ⟨_, rfl, good_singleQuoted v a cur⟩
  | doubleQuoted v a => exact Or.inr ⟨_, rfl, good_doubleQuoted v a cur⟩
  | unquotedWord w a => exact Or.inr (good_unquotedWord w a cur)
  | singleQuotedWord w v a => exact Or.inr (good_sqWord w v a cur)
  | doubleQuotedWord w v a => exact Or.inr (good_dqWord w v a cur)
  | dollar d a =>
    refine Or.inr ⟨_, rfl, ?_⟩
    have := good_dollar d (fun d => .dollar d a)
        (fun s => .argument { a with parts := a.parts ++ [.unquoted (.dollar s d.pos)] }) (.argument a) cur 11
        (by intros; simp [State.Inv, State.baseLen])
        (by intros; simp only [State.Inv, State.baseLen, true_and]; exact rank_argument _ _)
        (by intros; simp only [State.Inv, State.baseLen, true_and]; exact rank_argument _ _)
    exact this
  | quotedDollar d ps a =>
    refine Or.inr ⟨_, rfl, ?_⟩
    have := good_dollar d (fun d => .quotedDollar d ps a)
        (fun s => .doubleQuoted (ps ++ [.dollar s d.pos]) a) (.doubleQuoted ps a) cur 7
        (by intros; simp [State.Inv, State.baseLen])
        (by intros; simp only [State.Inv, State.baseLen, true_and]; exact rank_doubleQuoted _ _ _)
        (by intros; simp only [State.Inv, State.baseLen, true_and]; exact rank_doubleQuoted _ _ _)
    exact this
  | commandSymbol f p => exact Or.inr (good_cmdsymbol f p cur hinv)

/-- One iteration keeps the invariant and decreases the measure. -/
theorem step_good (s : LexSt) (hinv : s.state.Inv s.cursor) :
    match s.step with
    | .continue s' => s'.state.Inv s'.cursor ∧ s'.measure < s.measure
    | .emit _ s' => s'.state.Inv s'.cursor ∧ s'.measure < s.measure
    | .stop => True
    | .crash => ∃ c, s.cursor.peek = some c ∧ (c = cOpenBracket ∨ c = cOpenBrace) ∧
        ((∃ e a, s.state = .expansion e a) ∨ ∃ e w a, s.state = .expansionWord e w a) := by
  unfold LexSt.step
  rcases visit_good s hinv with ⟨c, h1, h2, h3, -, h4⟩ | ⟨t, h1, h2⟩
  · simp only [h3]; exact ⟨c, h1, h2, h4⟩
  · simp only [h1]
    rcases h2 with ⟨hn, ho⟩ | ⟨hi, hm⟩
    · simp [ho, Cursor.isEof_peek.2 hn]
    · cases ho : t.output with
      | none =>
        simp only
        cases hb : s.cursor.isEof
        · exact ⟨hi, hm⟩
        · simp
      | some o => exact ⟨hi, hm⟩

theorem run_not_timeout (n : Nat) : ∀ (s : LexSt), s.state.Inv s.cursor → s.measure < n →
    s.run n ≠ .timeout := by
  induction n with
  | zero => intro s _ h; omega
  | succ n ih =>
    intro s hinv hm
    have hg := step_good s hinv
    unfold LexSt.run
    cases hs : s.step with
    | «continue» s' =>
      rw [hs] at hg
      exact ih s' hg.1 (by have := hg.2; omega)
    | emit o s' =>
      rw [hs] at hg
      have := ih s' hg.1 (by have := hg.2; omega)
      simp only
      cases hr : s'.run n <;> simp [LexResult.cons]
      exact this hr
    | stop => simp
    | crash => simp

end Hush

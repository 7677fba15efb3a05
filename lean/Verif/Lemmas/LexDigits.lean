import Verif.Lemmas.LexNames
import Verif.Lemmas.Reports

/-!
The pieces of the script that lexical errors contain: malformed numbers are digits, and `String::from_utf8_lossy` keeps what is printable and what is not.
-/

namespace Hush
open Spec

/-! ### Lossy text -/

theorem lossy_second {b b' : UInt8} (h : utf8Second b b' = true) : 0x80 ≤ b' := by
  have hb : ∀ k : UInt8, 0x80 ≤ k → k ≤ b' → 0x80 ≤ b' := fun k h1 h2 => UInt8.le_trans h1 h2
  unfold utf8Second isCont at h
  split at h
  · exact hb _ (by decide) (of_decide_eq_true h).1
  split at h
  · exact hb _ (by decide) (of_decide_eq_true h).1
  split at h
  · exact hb _ (by decide) (of_decide_eq_true h).1
  split at h
  · exact hb _ (by decide) (of_decide_eq_true h).1
  · exact hb _ (by decide) (of_decide_eq_true h).1

theorem lossy_fits {b : UInt8} : ∀ {s : Bytes}, ∀ x ∈ s.take (utf8Fits b s), 0x80 ≤ x
  | [], x, hx => by simp at hx
  | b' :: s, x, hx => by
    rw [show utf8Fits b (b' :: s) = if utf8Second b b' then 1 + (s.takeWhile isCont).length else 0 from rfl] at hx
    split at hx
    · rename_i h
      rw [Nat.add_comm, List.take_succ_cons] at hx
      rcases List.mem_cons.1 hx with rfl | hx
      · exact lossy_second h
      · have hs : ∀ (l : Bytes), l.take (l.takeWhile isCont).length = l.takeWhile isCont := by
          intro l
          induction l with
          | nil => rfl
          | cons y l ih =>
            rw [List.takeWhile_cons]
            split
            · simp [ih]
            · simp
        rw [hs] at hx
        have := List.all_takeWhile (p := isCont) (l := s)
        have := List.all_eq_true.1 this x hx
        unfold isCont at this
        rw [decide_eq_true_eq] at this
        exact this.1
    · simp at hx

theorem lossy_chunk : ∀ {s : Bytes}, (utf8Chunk s).1 = false → ∀ x ∈ s.take (utf8Chunk s).2, 0x80 ≤ x
  | [], h, _, _ => by cases h
  | b :: s, h, x, hx => by
    have e : utf8Chunk (b :: s) = (if min (utf8Width b - 1) (utf8Fits b s) + 1 = utf8Width b then (true, min (utf8Width b - 1) (utf8Fits b s) + 1)
      else (false, min (utf8Width b - 1) (utf8Fits b s) + 1)) := rfl
    rw [e] at h hx
    split at h
    · cases h
    · rename_i hn
      rw [if_neg hn] at hx
      simp only [List.take_succ_cons, List.mem_cons] at hx
      rcases hx with rfl | hx
      · rw [← UInt8.not_lt]
        intro hlt
        have h7 : x ≤ 0x7F := by
          rw [UInt8.le_iff_toNat_le]
          rw [UInt8.lt_iff_toNat_lt] at hlt
          have : (0x80 : UInt8).toNat = 128 := rfl
          have : (0x7F : UInt8).toNat = 127 := rfl
          omega
        apply hn
        have : utf8Width x = 1 := by unfold utf8Width; rw [if_pos h7]
        rw [this]; simp
      · refine lossy_fits x (List.take_subset_take_left (l := s) (Nat.min_le_right _ _) hx)

theorem lossy_mem : ∀ n (s : Bytes) x, x ∈ utf8LossyOf n s → x ∈ s ∨ x ∈ ([0xEF, 0xBF, 0xBD] : Bytes)
  | 0, _, _, h => by simp [utf8LossyOf] at h
  | _ + 1, [], _, h => by simp [utf8LossyOf] at h
  | n + 1, b :: s, x, h => by
    rw [show utf8LossyOf (n + 1) (b :: s) = (if (utf8Chunk (b :: s)).1 then (b :: s).take (utf8Chunk (b :: s)).2 else [0xEF, 0xBF, 0xBD]) ++ utf8LossyOf n ((b :: s).drop (utf8Chunk (b :: s)).2) from rfl] at h
    rcases List.mem_append.1 h with h | h
    · split at h
      · exact Or.inl (List.mem_of_mem_take h)
      · exact Or.inr h
    · exact (lossy_mem n _ x h).imp List.mem_of_mem_drop id

theorem chunk_pos (b : UInt8) (s : Bytes) : 1 ≤ (utf8Chunk (b :: s)).2 := by
  have e : utf8Chunk (b :: s) = (if min (utf8Width b - 1) (utf8Fits b s) + 1 = utf8Width b then (true, min (utf8Width b - 1) (utf8Fits b s) + 1)
    else (false, min (utf8Width b - 1) (utf8Fits b s) + 1)) := rfl
  rw [e]
  split <;> simp

theorem mem_lossy : ∀ n (s : Bytes), s.length ≤ n → ∀ x ∈ s, x < 0x80 → x ∈ utf8LossyOf n s
  | _, [], _, _, h, _ => by cases h
  | 0, b :: s, hn, _, _, _ => by simp at hn
  | n + 1, b :: s, hn, x, h, hx => by
    rw [show utf8LossyOf (n + 1) (b :: s) = (if (utf8Chunk (b :: s)).1 then (b :: s).take (utf8Chunk (b :: s)).2 else [0xEF, 0xBF, 0xBD]) ++ utf8LossyOf n ((b :: s).drop (utf8Chunk (b :: s)).2) from rfl]
    rw [← List.take_append_drop (utf8Chunk (b :: s)).2 (b :: s)] at h
    rcases List.mem_append.1 h with h | h
    · refine List.mem_append_left _ ?_
      split
      · exact h
      · rename_i hc
        exact absurd (lossy_chunk (by simpa using hc) x h) (UInt8.not_le.2 hx)
    · refine List.mem_append_right _ (mem_lossy n _ ?_ x h hx)
      have := chunk_pos b s
      simp only [List.length_drop, List.length_cons] at hn ⊢
      omega

/-- `String::from_utf8_lossy` neither adds nor removes control characters. -/
theorem printable_lossy {s : Bytes} : Printable (utf8Lossy s) ↔ Printable s := by
  constructor
  · intro h b hb
    by_cases hlt : b < 0x80
    · exact h b (mem_lossy _ _ (Nat.le_refl _) b hb hlt)
    · rw [UInt8.not_lt] at hlt
      refine ⟨UInt8.le_trans (by decide) hlt, ?_⟩
      rintro rfl
      exact absurd hlt (by decide)
  · intro h b hb
    rcases lossy_mem _ _ b hb with hb | hb
    · exact h b hb
    · simp only [List.mem_cons, List.not_mem_nil, or_false] at hb
      rcases hb with rfl | rfl | rfl <;> decide

/-! ### Malformed numbers -/

/-- An error is not about a number, or the number is of digits only. -/
def DigitError (e : LexError) : Prop := ∀ s, e.error = .invalidNumber s → ∀ b ∈ s, isDigit b = true

def State.Digits : State → Cursor → Prop
  | .number s d e, c => d = none → e = none → ∃ w, Spans s c w ∧ ∀ b ∈ w, isDigit b = true
  | _, _ => True

def Transition.DigitsOk (c : Cursor) (t : Transition) : Prop :=
  t.state.Digits (t.step.apply c) ∧ ∀ e, t.output = some (.error e) → DigitError e

theorem DigitError.other {k p} (h : ∀ s, k ≠ .invalidNumber s) : DigitError ⟨k, p⟩ := fun s hs => absurd hs (h s)

macro "digs" : tactic => `(tactic| exact ⟨trivial, fun _ h => by cases h <;> exact DigitError.other (fun _ => by simp)⟩)

theorem digits_argWord {w : WordSt} {mk : WordSt → State} {isW esc es done c}
    (hmk : ∀ w' c', (mk w').Digits c') (hes : ∀ t x, es w x = some t → t.DigitsOk c)
    (hdone : ∀ v, (done v).DigitsOk c) : (visitArgWord w mk isW esc es done c).DigitsOk c := by
  unfold visitArgWord
  repeat' split
  all_goals first
    | exact hdone _
    | (apply hes; assumption)
    | exact ⟨hmk _ _, fun _ h => by cases h <;> exact DigitError.other (fun _ => by simp)⟩

theorem digits_expansion {e : ExpSt} {mk : ExpSt → State} {prod roll c t}
    (hmk : ∀ e' c', (mk e').Digits c') (hp : ∀ e, (prod e).DigitsOk c) (hr : ∀ k, (roll k).DigitsOk c)
    (ht : visitExpansion e mk prod roll c = some t) : t.DigitsOk c := by
  unfold visitExpansion at ht
  simp only at ht
  repeat' (split at ht)
  all_goals first
    | (cases ht; done)
    | (cases ht; exact hr _)
    | (cases ht; exact hp _)
    | (cases ht; exact ⟨hmk _ _, fun _ h => by cases h⟩)

theorem digits_dollar {d : DollarSt} {mk : DollarSt → State} {add : Sym → State} {ctx : State} {c}
    (hmk : ∀ d' c', (mk d').Digits c') (hctx : ∀ c', ctx.Digits c') (hadd : ∀ s c', (add s).Digits c') :
    (visitDollar d mk add ctx c).DigitsOk c := by
  unfold visitDollar dollarProduce
  simp only
  repeat' split
  all_goals first
    | exact ⟨hmk _ _, fun _ h => by cases h⟩
    | exact ⟨hadd _ _, fun _ h => by cases h⟩
    | exact ⟨hctx _, fun _ h => by cases h <;> exact DigitError.other (fun _ => by simp)⟩

theorem digits_visit {st : State} {c : Cursor} {t} (h : st.Digits c) (ht : st.visit c = some t) : t.DigitsOk c := by
  cases st with
  | root =>
    injection ht with ht; subst ht
    unfold visitRoot
    split
    · digs
    split
    · digs
    split
    · digs
    split
    · digs
    split
    · digs
    split
    · rename_i x hx _ _ _ _ hd
      refine ⟨fun _ _ => ⟨[x], (Spans.refl c).step hx, fun b hb => ?_⟩, fun _ h => by cases h⟩
      rw [List.mem_singleton.1 hb]; exact hd
    split
    · digs
    split <;> digs
  | number s d e =>
    injection ht with ht; subst ht; unfold visitNumber
    simp only
    split
    · exact ⟨fun h => (by cases h), fun _ h => by cases h⟩
    split
    · exact ⟨fun _ h => (by cases h), fun _ h => by cases h⟩
    split
    · rename_i hd
      refine ⟨fun h1 h2 => ?_, fun _ h => by cases h⟩
      have h1 : d = none := by
        cases d with
        | none => rfl
        | some b => cases b <;> simp at h1
      have h2 : e = none := by
        cases e with
        | none => rfl
        | some b => cases b <;> simp at h2
      obtain ⟨w, hw, hb⟩ := h h1 h2
      cases hp : c.peek with
      | none => simp [hp] at hd
      | some x =>
        simp [hp] at hd
        refine ⟨w ++ [x], hw.step hp, fun b hm => ?_⟩
        rcases List.mem_append.1 hm with hm | hm
        · exact hb b hm
        · rw [List.mem_singleton.1 hm]; exact hd
    split
    · split <;> digs
    split
    · digs
    · rename_i err herr
      refine ⟨trivial, fun e' he' => ?_⟩
      simp only [Transition.error, Option.some.injEq, Except.error.injEq] at he'
      subst he'
      intro s' hs'
      unfold parseNumber at herr
      simp only at herr
      split at herr
      · cases herr
      split at herr
      · cases herr
      · rename_i hf _
        simp only [Bool.or_eq_true, not_or, Bool.not_eq_true, Option.isSome_eq_false_iff, Option.isNone_iff_eq_none] at hf
        obtain ⟨w, hw, hb⟩ := h hf.1 hf.2
        injection herr with herr
        subst herr
        injection hs' with hs'
        rw [← hs', hw.slice]
        exact hb
  | comment => injection ht with ht; subst ht; unfold visitComment; split <;> digs
  | commandComment => injection ht with ht; subst ht; unfold visitComment; split <;> digs
  | byteLit v e p => injection ht with ht; subst ht; unfold visitByteLit; repeat' split
                     all_goals digs
  | stringLit v e p => injection ht with ht; subst ht; unfold visitStringLit; repeat' split
                       all_goals digs
  | word s => injection ht with ht; subst ht; unfold visitWord; split <;> digs
  | symbol f p =>
    simp only [State.visit, visitSymbol] at ht
    repeat' (split at ht)
    all_goals first
      | (cases ht; done)
      | (injection ht with ht; subst ht; digs)
  | commandSymbol f p =>
    simp only [State.visit, visitCommandSymbol] at ht
    repeat' (split at ht)
    all_goals first
      | (cases ht; done)
      | (injection ht with ht; subst ht; digs)
  | command => injection ht with ht; subst ht; unfold visitCommand; repeat' split
               all_goals digs
  | argument a => injection ht with ht; subst ht; unfold visitArgument; simp only; repeat' split
                  all_goals digs
  | expansion e a =>
    simp only [State.visit] at ht
    refine digits_expansion (fun _ _ => ?_) (fun _ => ⟨?_, fun _ h => ?_⟩) (fun _ => ⟨?_, fun _ h => ?_⟩) ht
    all_goals trivial
  | expansionWord e w a =>
    simp only [State.visit] at ht
    refine digits_expansion (fun _ _ => ?_) (fun _ => ⟨?_, fun _ h => ?_⟩) (fun _ => ⟨?_, fun _ h => ?_⟩) ht
    all_goals trivial
  | singleQuoted v a => injection ht with ht; subst ht; unfold visitSingleQuoted; repeat' split
                        all_goals digs
  | doubleQuoted us a => injection ht with ht; subst ht; unfold visitDoubleQuoted; repeat' split
                         all_goals digs
  | unquotedWord w a =>
    injection ht with ht; subst ht
    refine digits_argWord (fun _ _ => trivial) (fun t x he => ?_) (fun _ => ⟨trivial, fun _ h => by cases h⟩)
    split at he
    · cases he; exact ⟨trivial, fun _ h => by cases h⟩
    · cases he
  | singleQuotedWord w v a =>
    injection ht with ht; subst ht
    exact digits_argWord (fun _ _ => trivial) (fun t x he => by cases he) (fun _ => ⟨trivial, fun _ h => by cases h⟩)
  | doubleQuotedWord w us a =>
    injection ht with ht; subst ht
    exact digits_argWord (fun _ _ => trivial) (fun t x he => by cases he) (fun _ => ⟨trivial, fun _ h => by cases h⟩)
  | dollar d a =>
    injection ht with ht; subst ht
    exact digits_dollar (fun _ _ => trivial) (fun _ => trivial) (fun _ _ => trivial)
  | quotedDollar d us a =>
    injection ht with ht; subst ht
    exact digits_dollar (fun _ _ => trivial) (fun _ => trivial) (fun _ _ => trivial)

theorem run_digits (n : Nat) : ∀ (s : LexSt) (os : List Output), s.state.Digits s.cursor → s.run n = .done os →
    ∀ e, Except.error e ∈ os → DigitError e := by
  induction n with
  | zero => intro s os _ h; cases h
  | succ n ih =>
    intro s os hs h t ht
    simp only [LexSt.run, LexSt.step] at h
    cases hv : s.state.visit s.cursor with
    | none => simp [hv] at h
    | some tr =>
      obtain ⟨h1, h2⟩ := digits_visit hs hv
      simp only [hv] at h
      cases ho : tr.output with
      | none =>
        simp only [ho] at h
        split at h
        · rename_i hh
          split at hh
          · cases hh
          · cases hh
            exact ih _ _ h1 h t ht
        · rename_i hh; split at hh <;> cases hh
        · cases h; cases ht
        · rename_i hh; split at hh <;> cases hh
      | some o =>
        simp only [ho] at h
        cases hr : LexSt.run n ⟨tr.state, tr.step.apply s.cursor⟩ with
        | done os' =>
          rw [hr] at h
          simp only [LexResult.cons] at h
          cases h
          rcases List.mem_cons.mp ht with rfl | ht
          · exact h2 t ho
          · exact ih _ _ h1 hr t ht
        | crash l => rw [hr] at h; cases h
        | timeout => rw [hr] at h; cases h

/-- Malformed numbers in the errors of a source text are digits. -/
theorem lex_digits (src : Bytes) (os : List Output) (h : lex src = .done os) (e : LexError) (he : Except.error e ∈ os) :
    DigitError e := run_digits (lexBudget src) (LexSt.init src) os (by trivial) h e he

theorem digit_printable (b : UInt8) (h : isDigit b = true) : 32 ≤ b ∧ b ≠ 127 := by
  revert h; revert b; exact forall_byte (by decide +kernel)

/-- The report of a lexical error is printable exactly when the piece of the script in it is. -/
theorem printable_lex_iff {w : World} (path : Bytes) {e : LexError} (hd : DigitError e) : Printable (Report.lexError w path e) ↔
    ∀ s, e.error = .invalidEscapeSequence s ∨ e.error = .invalidIdentifier s → Printable s := by
  have split : ∀ {s t : Bytes}, Printable (s ++ t) ↔ Printable s ∧ Printable t := List.forall_mem_append
  have outer : Printable (Report.lexError w path e) ↔ Printable (Report.lexKind w e.error) := by
    unfold Report.lexError
    rw [split, split, split]
    exact ⟨fun h => h.1.2, fun h => ⟨⟨⟨printable_position path e.pos, by decide⟩, h⟩, by decide⟩⟩
  rw [outer]
  cases hk : e.error with
  | unexpectedEof => simp only [Report.lexKind]; exact ⟨fun _ s hs => (by rcases hs with hs | hs <;> cases hs), fun _ => by decide⟩
  | emptyByteLiteral => simp only [Report.lexKind]; exact ⟨fun _ s hs => (by rcases hs with hs | hs <;> cases hs), fun _ => by decide⟩
  | unexpected c =>
    exact ⟨fun _ s hs => (by rcases hs with hs | hs <;> cases hs), fun _ => printable_append (printable_append (by decide) (printable_byteChar w c)) (by decide)⟩
  | invalidNumber n =>
    refine ⟨fun _ s hs => (by rcases hs with hs | hs <;> cases hs), fun _ => printable_append (printable_append (by decide) ?_) (by decide)⟩
    exact printable_lossy.2 fun b hb => digit_printable b (hd n hk b hb)
  | invalidEscapeSequence n =>
    simp only [Report.lexKind]
    rw [split, split, printable_lossy]
    exact ⟨fun h s hs => (by rcases hs with hs | hs <;> cases hs; exact h.1.2), fun h => ⟨⟨by decide, h n (Or.inl rfl)⟩, by decide⟩⟩
  | invalidIdentifier n =>
    simp only [Report.lexKind]
    rw [split, split, printable_lossy]
    exact ⟨fun h s hs => (by rcases hs with hs | hs <;> cases hs; exact h.1.2), fun h => ⟨⟨by decide, h n (Or.inr rfl)⟩, by decide⟩⟩

end Hush

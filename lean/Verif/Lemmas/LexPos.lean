import Verif.Lemmas.LexToken
import Verif.Spec.SourcePos

/-! Positions of tokens. -/

namespace Hush
open Spec

/-- The cursor at an offset of the source. -/
def cursorAt (src : Bytes) (k : Nat) : Cursor := ⟨src.drop k, k, lineCol src k⟩

theorem lineCol_succ {src : Bytes} {k x xs} (h : src.drop k = x :: xs) :
    lineCol src (k + 1) = Cursor.advancePos (lineCol src k) x := by
  have hk : k < src.length := by
    by_contra hh
    rw [List.drop_eq_nil_of_le (by omega)] at h; cases h
  have hx : src[k] = x := by
    have := List.drop_eq_getElem_cons hk
    rw [h] at this; injection this with h1 h2; exact h1.symm
  unfold lineCol Cursor.advancePos
  rw [List.take_succ_eq_append_getElem hk, hx]
  by_cases hn : x = cNL
  · subst hn; simp [List.count_append]; omega
  · simp [List.count_append, hn]

theorem drop_cons {src : Bytes} {k x xs} (h : src.drop k = x :: xs) : k < src.length ∧ src.drop (k + 1) = xs := by
  have hk : k < src.length := by
    by_contra hh
    rw [List.drop_eq_nil_of_le (by omega)] at h; cases h
  have := List.drop_eq_getElem_cons hk
  rw [h] at this; injection this with h1 h2
  exact ⟨hk, h2.symm⟩

theorem cursorAt_step {src : Bytes} {k x} (h : (cursorAt src k).peek = some x) :
    (cursorAt src k).step = cursorAt src (k + 1) ∧ k < src.length := by
  unfold Cursor.peek cursorAt at h
  cases hd : src.drop k with
  | nil => simp [hd] at h
  | cons y ys =>
    obtain ⟨h1, h2⟩ := drop_cons hd
    have hy : y = x := by simpa [hd] using h
    refine ⟨?_, h1⟩
    simp only [Cursor.step, cursorAt, hd, h2, lineCol_succ hd]

/-- A started token: it starts at `k`, at least `lo`; either something of it has been read already, or the next
byte is going to be (`f`). -/
def Started (src : Bytes) (lo : Nat) (f : UInt8 → Bool) (p : Pos) (off : Nat) : Prop :=
  ∃ k, lo ≤ k ∧ p = lineCol src k ∧ (k < off ∨ k = off ∧ (cursorAt src k).peek.any f = true)

/-- Never. -/
abbrev fNo : UInt8 → Bool := fun _ => false

/-- Position invariant: where the token being read started. -/
def State.PosInv (src : Bytes) (lo : Nat) (off : Nat) : State → Prop
  | .root | .comment | .command | .commandComment => lo ≤ off
  | .number s _ _ => Started src lo fNo s.pos off
  | .byteLit _ _ p | .stringLit _ _ p | .symbol _ p | .commandSymbol _ p => Started src lo fNo p off
  | .word s => Started src lo isWord s.pos off
  | .argument a => Started src lo startsArg a.pos off
  | .expansion e a => ∃ j, e.start = cursorAt src j ∧ j ≤ off ∧ Started src lo argIsWord a.pos j
  | .expansionWord e _ a => ∃ j, e.start = cursorAt src j ∧ j ≤ off ∧ Started src lo argIsWord a.pos j
  | .unquotedWord _ a => Started src lo argIsWord a.pos off
  | .singleQuoted _ a | .doubleQuoted _ a | .singleQuotedWord _ _ a | .doubleQuotedWord _ _ a
  | .dollar _ a | .quotedDollar _ _ a => Started src lo fNo a.pos off

/-- Position correctness of a transition taken at offset `off`. -/
def Transition.PosOk (src : Bytes) (lo off : Nat) (t : Transition) : Prop :=
  ∃ off', t.step.apply (cursorAt src off) = cursorAt src off' ∧ off' ≤ src.length ∧
    match t.output with
    | some (.ok tok) => ∃ k, lo ≤ k ∧ k < src.length ∧ tok.pos = lineCol src k ∧ t.state.PosInv src (k + 1) off'
    | _ => t.state.PosInv src lo off'

theorem Started.lt {src lo f p off} (h : Started src lo f p off) : Started src lo fNo p (off + 1) := by
  obtain ⟨k, h1, h2, h3⟩ := h
  exact ⟨k, h1, h2, Or.inl (by omega)⟩

theorem Started.weaken {src lo f p off} (h : Started src lo fNo p off) : Started src lo f p off := by
  obtain ⟨k, h1, h2, h3⟩ := h
  refine ⟨k, h1, h2, ?_⟩
  rcases h3 with h3 | ⟨_, h3⟩
  · exact Or.inl h3
  · cases hp : (cursorAt src k).peek <;> simp [hp, fNo] at h3

theorem Started.here {src lo f off x} (h : lo ≤ off) (hp : (cursorAt src off).peek = some x) (hf : f x = true) :
    Started src lo f (lineCol src off) off := ⟨off, h, rfl, Or.inr ⟨rfl, by simp [hp, hf]⟩⟩

theorem Started.now {src lo off} (h : lo ≤ off) : Started src lo fNo (lineCol src off) (off + 1) :=
  ⟨off, h, rfl, Or.inl (by omega)⟩

theorem Started.read {src lo f p off} (h : Started src lo f p off)
    (hn : (cursorAt src off).peek.any f = false) : Started src lo fNo p off := by
  obtain ⟨k, h1, h2, h3⟩ := h
  refine ⟨k, h1, h2, Or.inl ?_⟩
  rcases h3 with h3 | ⟨rfl, h3⟩
  · exact h3
  · rw [hn] at h3; cases h3

theorem Started.le {src lo p off} (h : Started src lo fNo p off) : lo ≤ off := by
  obtain ⟨k, h1, h2, h3⟩ := h
  rcases h3 with h3 | ⟨_, h3⟩ <;> omega

/-- Moving forward over a byte without output. -/
theorem PosOk.fwd {src lo off x st} (hp : (cursorAt src off).peek = some x) (h : State.PosInv src lo (off + 1) st) :
    (Transition.fwd st).PosOk src lo off := by
  obtain ⟨h1, h2⟩ := cursorAt_step hp
  exact ⟨off + 1, h1, h2, h⟩

theorem PosOk.err {src lo off x st k p} (hp : (cursorAt src off).peek = some x) (h : State.PosInv src lo (off + 1) st) :
    (Transition.error st k p).PosOk src lo off := by
  obtain ⟨h1, h2⟩ := cursorAt_step hp
  exact ⟨off + 1, h1, h2, h⟩

theorem cursorAt_eof {src off} (hp : (cursorAt src off).peek = none) : (cursorAt src off).step = cursorAt src off := by
  have : (cursorAt src off).rest = [] := Cursor.peek_none.1 hp
  simp [Cursor.step, this]

theorem PosOk.errEof {src lo off st k p} (hp : (cursorAt src off).peek = none) (hle : off ≤ src.length)
    (h : State.PosInv src lo off st) : (Transition.error st k p).PosOk src lo off :=
  ⟨off, cursorAt_eof hp, hle, h⟩

theorem PosOk.fwdEof {src lo off st} (hp : (cursorAt src off).peek = none) (hle : off ≤ src.length)
    (h : State.PosInv src lo off st) : (Transition.fwd st).PosOk src lo off :=
  ⟨off, cursorAt_eof hp, hle, h⟩

theorem PosOk.res {src lo off st} (hle : off ≤ src.length) (h : State.PosInv src lo off st) :
    (Transition.resume st).PosOk src lo off := ⟨off, rfl, hle, h⟩

theorem PosOk.resErr {src lo off st k p} (hle : off ≤ src.length) (h : State.PosInv src lo off st) :
    (Transition.resumeError st k p).PosOk src lo off := ⟨off, rfl, hle, h⟩

/-- Producing a started token, moving forward. -/
theorem PosOk.prod {src lo off x st k p f} (hp : (cursorAt src off).peek = some x) (h : Started src lo f p off)
    (hs : st = .root ∨ st = .command) : (Transition.produce st k p).PosOk src lo off := by
  obtain ⟨h1, h2⟩ := cursorAt_step hp
  obtain ⟨j, g1, g2, g3⟩ := h
  refine ⟨off + 1, h1, h2, j, g1, by omega, g2, ?_⟩
  rcases hs with rfl | rfl <;> exact (show j + 1 ≤ off + 1 by omega)

/-- Producing a started token, not moving. -/
theorem PosOk.resProd {src lo off st k p} (hle : off ≤ src.length) (h : Started src lo fNo p off)
    (hs : st = .root ∨ st = .command) : (Transition.resumeProduce st k p).PosOk src lo off := by
  obtain ⟨j, g1, g2, g3⟩ := h
  have g3 : j < off := by
    rcases g3 with g3 | ⟨_, g3⟩
    · exact g3
    · cases hp : (cursorAt src j).peek <;> simp [hp, fNo] at g3
  refine ⟨off, rfl, hle, j, g1, by omega, g2, ?_⟩
  rcases hs with rfl | rfl <;> exact (show j + 1 ≤ off by omega)

variable {src : Bytes} {lo off : Nat}

theorem pos_root (hle : off ≤ src.length) (h : lo ≤ off) : (visitRoot (cursorAt src off)).PosOk src lo off := by
  unfold visitRoot
  cases hp : (cursorAt src off).peek with
  | none => exact PosOk.fwdEof hp hle h
  | some c =>
    simp only
    split
    · exact PosOk.fwd hp (by simp only [State.PosInv]; omega)
    split
    · exact PosOk.fwd hp (by simp only [State.PosInv]; omega)
    split
    · exact PosOk.fwd hp (Started.now h)
    split
    · exact PosOk.fwd hp (Started.now h)
    split
    · exact PosOk.fwd hp (Started.now h)
    split
    · rename_i hw
      exact PosOk.res hle (Started.here h hp (isWord_of_isWordStart c hw))
    · split
      · exact PosOk.err hp (by simp only [State.PosInv]; omega)
      · exact PosOk.prod hp (Started.here (f := fun _ => true) h hp rfl) (Or.inr rfl)
      · exact PosOk.prod hp (Started.here (f := fun _ => true) h hp rfl) (Or.inl rfl)
      · exact PosOk.fwd hp (Started.now h)

theorem pos_comment (hle : off ≤ src.length) (h : lo ≤ off) (self back : State)
    (hs : self = .comment ∧ back = .root ∨ self = .commandComment ∧ back = .command) :
    (visitComment self back (cursorAt src off)).PosOk src lo off := by
  unfold visitComment
  split
  · refine PosOk.res hle ?_
    rcases hs with ⟨rfl, rfl⟩ | ⟨rfl, rfl⟩ <;> exact h
  · cases hp : (cursorAt src off).peek with
    | none =>
      refine PosOk.fwdEof hp hle ?_
      rcases hs with ⟨rfl, rfl⟩ | ⟨rfl, rfl⟩ <;> exact h
    | some c =>
      refine PosOk.fwd hp ?_
      rcases hs with ⟨rfl, rfl⟩ | ⟨rfl, rfl⟩ <;> simp only [State.PosInv] <;> omega

theorem pos_number {s d e} (hle : off ≤ src.length) (h : Started src lo fNo s.pos off) :
    (visitNumber s d e (cursorAt src off)).PosOk src lo off := by
  have hlo := h.le
  unfold visitNumber
  simp only
  split
  · rename_i hh; exact PosOk.fwd hh.2.2 h.lt
  split
  · rename_i hh
    rcases hh.2 with hh | hh <;> exact PosOk.fwd hh h.lt
  cases hp : (cursorAt src off).peek with
  | none =>
    simp only [Option.any_none, Bool.false_eq_true, if_false]
    split
    · exact PosOk.errEof hp hle hlo
    · split
      · exact PosOk.resProd hle h (Or.inl rfl)
      · exact PosOk.errEof hp hle hlo
  | some c =>
    split
    · exact PosOk.fwd hp h.lt
    split
    · exact PosOk.err hp (by simp only [State.PosInv]; omega)
    · split
      · exact PosOk.resProd hle h (Or.inl rfl)
      · exact PosOk.err hp (by simp only [State.PosInv]; omega)

theorem pos_byte {v e p} (hle : off ≤ src.length) (h : Started src lo fNo p off) :
    (visitByteLit v e p (cursorAt src off)).PosOk src lo off := by
  have hlo := h.le
  unfold visitByteLit
  cases hp : (cursorAt src off).peek with
  | none => exact PosOk.errEof hp hle hlo
  | some c =>
    simp only
    repeat' split
    all_goals first
      | exact PosOk.fwd hp h.lt
      | exact PosOk.err hp h.lt
      | exact PosOk.prod hp h (Or.inl rfl)
      | exact PosOk.err hp (by simp only [State.PosInv]; omega)

theorem pos_string {v e p} (hle : off ≤ src.length) (h : Started src lo fNo p off) :
    (visitStringLit v e p (cursorAt src off)).PosOk src lo off := by
  have hlo := h.le
  unfold visitStringLit
  cases hp : (cursorAt src off).peek with
  | none => exact PosOk.errEof hp hle hlo
  | some c =>
    simp only
    repeat' split
    all_goals first
      | exact PosOk.fwd hp h.lt
      | exact PosOk.err hp h.lt
      | exact PosOk.prod hp h (Or.inl rfl)

theorem pos_word {s} (hle : off ≤ src.length) (h : Started src lo isWord s.pos off) :
    (visitWord s (cursorAt src off)).PosOk src lo off := by
  unfold visitWord
  split
  · rename_i hh
    cases hp : (cursorAt src off).peek with
    | none => simp [hp] at hh
    | some c => exact PosOk.fwd hp h.lt.weaken
  · rename_i hh
    exact PosOk.resProd hle (h.read (by simpa using hh)) (Or.inl rfl)

theorem pos_symbol {f p t} (hle : off ≤ src.length) (h : Started src lo fNo p off)
    (ht : visitSymbol f p (cursorAt src off) = some t) : t.PosOk src lo off := by
  have hlo := h.le
  unfold visitSymbol at ht
  simp only at ht
  repeat' (split at ht)
  all_goals first
    | (cases ht; done)
    | (injection ht with ht; subst ht
       first
       | exact PosOk.prod (by assumption) h (Or.inl rfl)
       | exact PosOk.prod (by assumption) h (Or.inr rfl)
       | exact PosOk.resProd hle h (Or.inl rfl)
       | exact PosOk.resErr hle hlo)

theorem pos_cmdSymbol {f p t} (hle : off ≤ src.length) (h : Started src lo fNo p off)
    (ht : visitCommandSymbol f p (cursorAt src off) = some t) : t.PosOk src lo off := by
  unfold visitCommandSymbol at ht
  simp only at ht
  split at ht
  · injection ht with ht; subst ht
    split
    · exact PosOk.prod (by assumption) h (Or.inr rfl)
    · exact PosOk.resProd hle h (Or.inr rfl)
  split at ht
  · injection ht with ht; subst ht
    split
    · exact PosOk.prod (by assumption) h (Or.inr rfl)
    · exact PosOk.resProd hle h (Or.inr rfl)
  · cases ht

theorem pos_command (hle : off ≤ src.length) (h : lo ≤ off) : (visitCommand (cursorAt src off)).PosOk src lo off := by
  unfold visitCommand
  cases hp : (cursorAt src off).peek with
  | none => exact PosOk.errEof hp hle h
  | some c =>
    simp only
    split
    · exact PosOk.fwd hp (by simp only [State.PosInv]; omega)
    split
    · exact PosOk.fwd hp (by simp only [State.PosInv]; omega)
    split
    · exact PosOk.prod hp (Started.here (f := fun _ => true) h hp rfl) (Or.inl rfl)
    · split
      · rename_i h1 h2 h3 _ h4
        refine PosOk.res hle (Started.here h hp ?_)
        simp_all [startsArg]
      · exact PosOk.prod hp (Started.here (f := fun _ => true) h hp rfl) (Or.inr rfl)
      · exact PosOk.fwd hp (Started.now h)

theorem pos_argument {a} (hle : off ≤ src.length) (h : Started src lo startsArg a.pos off) :
    (visitArgument a (cursorAt src off)).PosOk src lo off := by
  unfold visitArgument
  simp only
  cases hp : (cursorAt src off).peek with
  | none =>
    exact PosOk.resProd hle (h.read (by simp [hp])) (Or.inr rfl)
  | some c =>
    simp only
    split
    · exact PosOk.fwd hp h.lt
    split
    · exact PosOk.fwd hp h.lt
    split
    · exact PosOk.fwd hp h.lt
    split
    · exact PosOk.fwd hp h.lt.weaken
    have conv : argIsWord c = true → Started src lo argIsWord a.pos off := by
      intro hw
      obtain ⟨k, g1, g2, g3⟩ := h
      refine ⟨k, g1, g2, ?_⟩
      rcases g3 with g3 | ⟨rfl, g3⟩
      · exact Or.inl g3
      · exact Or.inr ⟨rfl, by simp [hp, hw]⟩
    split
    · rename_i he
      exact PosOk.res hle ⟨off, rfl, Nat.le_refl _, conv (argIsWord_of_expStart c he)⟩
    split
    · rename_i hw
      exact PosOk.res hle (conv hw)
    · rename_i n1 n2 n3 n4 n5 n6
      refine PosOk.resProd hle (h.read ?_) (Or.inr rfl)
      have : ∀ c : UInt8, ¬ (c == cDollar) = true → ¬ (c == cSQuote) = true → ¬ (c == cDQuote) = true →
          ¬ (c == cEq) = true → ¬ argIsWord c = true → startsArg c = false := forall_byte (by decide +kernel)
      simp [hp, this c n1 n2 n3 n4 n6]

theorem pos_expansion {e : ExpSt} {mk prod roll t}
    (hmk : ∀ e' : ExpSt, e'.start = e.start → State.PosInv src lo (off + 1) (mk e'))
    (hprod : ∀ x, (cursorAt src off).peek = some x → ∀ k, (prod k).PosOk src lo off)
    (hroll : (roll e.start).PosOk src lo off)
    (ht : visitExpansion e mk prod roll (cursorAt src off) = some t) : t.PosOk src lo off := by
  unfold visitExpansion at ht
  simp only at ht
  cases hp : (cursorAt src off).peek with
  | none => simp only [hp] at ht; injection ht with ht; subst ht; exact hroll
  | some c =>
    simp only [hp] at ht
    repeat' (split at ht)
    all_goals first
      | (cases ht; done)
      | (injection ht with ht; subst ht
         first
         | exact PosOk.fwd hp (hmk _ rfl)
         | exact hprod _ hp _
         | exact hroll)

theorem pos_argWord {w mk isW esc es done} (hle : off ≤ src.length)
    (hmk : ∀ x w', (cursorAt src off).peek = some x → State.PosInv src lo (off + 1) (mk w'))
    (hes : ∀ x, (cursorAt src off).peek = some x → isW x = true → ∀ w t, es w x = some t → t.PosOk src lo off)
    (hdone : (cursorAt src off).peek.any isW = false → (done w.value).PosOk src lo off) :
    (visitArgWord w mk isW esc es done (cursorAt src off)).PosOk src lo off := by
  unfold visitArgWord
  cases hp : (cursorAt src off).peek with
  | none => exact hdone (by simp [hp])
  | some c =>
    simp only
    split
    · split
      · exact PosOk.fwd hp (hmk _ _ hp)
      · exact PosOk.err hp (hmk _ _ hp)
    · split
      · exact PosOk.fwd hp (hmk _ _ hp)
      split
      · rename_i hw
        simp only [Bool.and_eq_true] at hw
        split
        · rename_i t ht
          exact hes _ hp hw.1 _ _ ht
        · exact PosOk.fwd hp (hmk _ _ hp)
      split
      · exact PosOk.fwd hp (hmk _ _ hp)
      · rename_i hw
        exact hdone (by simpa [hp] using hw)

theorem pos_dollar {d : DollarSt} {mk : DollarSt → State} {add : Sym → State} {ctx : State} (hle : off ≤ src.length)
    (hmk : ∀ d', State.PosInv src lo (off + 1) (mk d'))
    (hadd : ∀ s, State.PosInv src lo (off + 1) (add s)) (hctx : State.PosInv src lo (off + 1) ctx)
    (hadd' : ∀ s, State.PosInv src lo off (add s)) (hctx' : State.PosInv src lo off ctx) :
    (visitDollar d mk add ctx (cursorAt src off)).PosOk src lo off := by
  have hprod : ∀ b, (dollarProduce d add ctx b (cursorAt src off)).PosOk src lo off := by
    intro b
    unfold dollarProduce
    cases hp : (cursorAt src off).peek with
    | none =>
      simp only
      split
      · exact PosOk.errEof hp hle hctx'
      · split
        · split
          · exact PosOk.fwdEof hp hle (hadd' _)
          · exact PosOk.res hle (hadd' _)
        · split
          · exact PosOk.errEof hp hle hctx'
          · exact PosOk.resErr hle hctx'
    | some c =>
      simp only
      split
      · exact PosOk.err hp hctx
      · split
        · split
          · exact PosOk.fwd hp (hadd _)
          · exact PosOk.res hle (hadd' _)
        · split
          · exact PosOk.err hp hctx
          · exact PosOk.resErr hle hctx'
  unfold visitDollar
  cases hp : (cursorAt src off).peek with
  | none =>
    simp only
    split
    · exact PosOk.errEof hp hle hctx'
    · exact hprod _
  | some c =>
    simp only
    repeat' split
    all_goals first
      | exact hprod _
      | exact PosOk.fwd hp (hmk _)

theorem pos_visit {st : State} {t} (hle : off ≤ src.length) (h : st.PosInv src lo off)
    (ht : st.visit (cursorAt src off) = some t) : t.PosOk src lo off := by
  cases st with
  | root => injection ht with ht; subst ht; exact pos_root hle h
  | comment => injection ht with ht; subst ht; exact pos_comment hle h _ _ (Or.inl ⟨rfl, rfl⟩)
  | number s d e => injection ht with ht; subst ht; exact pos_number hle h
  | byteLit v e p => injection ht with ht; subst ht; exact pos_byte hle h
  | stringLit v e p => injection ht with ht; subst ht; exact pos_string hle h
  | word s => injection ht with ht; subst ht; exact pos_word hle h
  | symbol f p => exact pos_symbol hle h ht
  | command => injection ht with ht; subst ht; exact pos_command hle h
  | commandComment => injection ht with ht; subst ht; exact pos_comment hle h _ _ (Or.inr ⟨rfl, rfl⟩)
  | argument a => injection ht with ht; subst ht; exact pos_argument hle h
  | expansion e a =>
    obtain ⟨j, h1, h2, h3⟩ := h
    have hlt : Started src lo fNo a.pos (off + 1) := by
      obtain ⟨k, g1, g2, g3⟩ := h3
      exact ⟨k, g1, g2, Or.inl (by omega)⟩
    simp only [State.visit] at ht
    refine pos_expansion ?_ ?_ ?_ ht
    · intro e' he
      exact ⟨j, by rw [he, h1], by omega, h3⟩
    · intro x hx k
      exact PosOk.fwd hx hlt.weaken
    · exact ⟨j, h1, by omega, h3⟩
  | expansionWord e w a =>
    obtain ⟨j, h1, h2, h3⟩ := h
    have hlt : Started src lo fNo a.pos (off + 1) := by
      obtain ⟨k, g1, g2, g3⟩ := h3
      exact ⟨k, g1, g2, Or.inl (by omega)⟩
    simp only [State.visit] at ht
    refine pos_expansion ?_ ?_ ?_ ht
    · intro e' he
      exact ⟨j, by rw [he, h1], by omega, h3⟩
    · intro x hx k
      exact PosOk.fwd hx hlt.weaken
    · exact ⟨j, h1, by omega, h3⟩
  | singleQuoted v a =>
    injection ht with ht; subst ht
    simp only [State.PosInv] at h
    unfold visitSingleQuoted
    cases hp : (cursorAt src off).peek with
    | none => exact PosOk.errEof hp hle h.weaken
    | some c =>
      simp only
      split
      · exact PosOk.fwd hp h.lt.weaken
      · exact PosOk.res hle h
  | doubleQuoted ps a =>
    injection ht with ht; subst ht
    simp only [State.PosInv] at h
    unfold visitDoubleQuoted
    cases hp : (cursorAt src off).peek with
    | none => exact PosOk.errEof hp hle h.weaken
    | some c =>
      simp only
      split
      · exact PosOk.fwd hp h.lt.weaken
      split
      · exact PosOk.fwd hp h.lt
      · exact PosOk.res hle h
  | unquotedWord w a =>
    injection ht with ht; subst ht
    simp only [State.PosInv] at h
    refine pos_argWord hle (fun x w' hx => h.lt.weaken) ?_ ?_
    · intro x hx hw w t ht
      split at ht
      · injection ht with ht; subst ht
        exact PosOk.res hle ⟨off, rfl, Nat.le_refl _, h⟩
      · cases ht
    · intro hn
      exact PosOk.res hle (h.read hn).weaken
  | singleQuotedWord w v a =>
    injection ht with ht; subst ht
    simp only [State.PosInv] at h
    exact pos_argWord hle (fun x w' hx => h.lt) (fun _ _ _ _ _ ht => by cases ht) (fun _ => PosOk.res hle h)
  | doubleQuotedWord w ps a =>
    injection ht with ht; subst ht
    simp only [State.PosInv] at h
    exact pos_argWord hle (fun x w' hx => h.lt) (fun _ _ _ _ _ ht => by cases ht) (fun _ => PosOk.res hle h)
  | dollar d a =>
    injection ht with ht; subst ht
    simp only [State.PosInv] at h
    exact pos_dollar hle (fun _ => h.lt) (fun _ => h.lt.weaken) h.lt.weaken (fun _ => h.weaken) h.weaken
  | quotedDollar d ps a =>
    injection ht with ht; subst ht
    simp only [State.PosInv] at h
    exact pos_dollar hle (fun _ => h.lt) (fun _ => h.lt) h.lt (fun _ => h) h
  | commandSymbol f p => exact pos_cmdSymbol hle h ht

/-- The tokens among some outputs. -/
def tokensOf (os : List Output) : List Token := os.filterMap (fun o => match o with | .ok t => some t | .error _ => none)

/-- All outputs of a run, whether it crashed or not. -/
def LexResult.outputs : LexResult → List Output
  | .done l => l
  | .crash l => l
  | .timeout => []

/-- Token positions come from strictly increasing offsets of the source, from `lo` on. -/
theorem run_positions (n : Nat) : ∀ {lo off st}, off ≤ src.length → State.PosInv src lo off st →
    ∃ offs : List Nat, offs.Pairwise (· < ·) ∧ (∀ k ∈ offs, lo ≤ k ∧ k < src.length) ∧
      (tokensOf ((⟨st, cursorAt src off⟩ : LexSt).run n).outputs).map Token.pos = offs.map (lineCol src) := by
  induction n with
  | zero => intro lo off st _ _; exact ⟨[], by simp, by simp, rfl⟩
  | succ n ih =>
    intro lo off st hle hinv
    simp only [LexSt.run, LexSt.step]
    cases hv : st.visit (cursorAt src off) with
    | none => exact ⟨[], by simp, by simp, rfl⟩
    | some t =>
      obtain ⟨off', h1, h2, h3⟩ := pos_visit hle hinv hv
      simp only [h1]
      cases ho : t.output with
      | none =>
        rw [ho] at h3
        simp only
        split
        · rename_i heq
          split at heq
          · cases heq
          · injection heq with heq; subst heq
            exact ih h2 h3
        · rename_i heq; split at heq <;> cases heq
        · exact ⟨[], by simp, by simp, rfl⟩
        · exact ⟨[], by simp, by simp, rfl⟩
      | some o =>
        rw [ho] at h3
        simp only
        cases o with
        | error e =>
          obtain ⟨offs, g1, g2, g3⟩ := ih h2 h3
          refine ⟨offs, g1, g2, ?_⟩
          rw [← g3]
          cases (⟨t.state, cursorAt src off'⟩ : LexSt).run n <;> rfl
        | ok tok =>
          obtain ⟨k, k1, k2, k3, k4⟩ := h3
          obtain ⟨offs, g1, g2, g3⟩ := ih h2 k4
          cases hr : (⟨t.state, cursorAt src off'⟩ : LexSt).run n with
          | timeout => exact ⟨[], by simp, by simp, rfl⟩
          | done l =>
            refine ⟨k :: offs, ?_, ?_, ?_⟩
            · exact List.pairwise_cons.2 ⟨fun j hj => by have := g2 j hj; omega, g1⟩
            · intro j hj
              rcases List.mem_cons.1 hj with rfl | hj
              · exact ⟨k1, k2⟩
              · have := g2 j hj; omega
            · rw [hr] at g3
              simp only [LexResult.outputs] at g3
              simp [LexResult.cons, LexResult.outputs, tokensOf, k3, ← g3]
          | crash l =>
            refine ⟨k :: offs, ?_, ?_, ?_⟩
            · exact List.pairwise_cons.2 ⟨fun j hj => by have := g2 j hj; omega, g1⟩
            · intro j hj
              rcases List.mem_cons.1 hj with rfl | hj
              · exact ⟨k1, k2⟩
              · have := g2 j hj; omega
            · rw [hr] at g3
              simp only [LexResult.outputs] at g3
              simp [LexResult.cons, LexResult.outputs, tokensOf, k3, ← g3]

end Hush

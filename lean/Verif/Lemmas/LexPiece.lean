import Verif.Lemmas.LexRun
import Verif.Spec.TokenText
import Mathlib.Tactic.Ring
import Mathlib.Tactic.Convert

/-! Pieces for the individual kinds of tokens. -/

namespace Hush
open Spec

theorem Reads.fwd {st st' : State} {c : Cursor} {x xs o t} (hc : c.rest = x :: xs)
    (hv : st.visit c = some ⟨st', .forward, none⟩) (h : Reads ⟨st', c.step⟩ o t) : Reads ⟨st, c⟩ o t := by
  refine .cont (by simp [hc]) ?_ h
  simp [LexSt.step, hv, Cursor.isEof, hc, Step.apply]

theorem Reads.res {st st' : State} {c : Cursor} {x xs o t} (hc : c.rest = x :: xs)
    (hv : st.visit c = some ⟨st', .resume, none⟩) (h : Reads ⟨st', c⟩ o t) : Reads ⟨st, c⟩ o t := by
  refine .cont (by simp [hc]) ?_ h
  simp [LexSt.step, hv, Cursor.isEof, hc, Step.apply]

theorem Reads.fwdEmit {st st' : State} {c : Cursor} {x xs o t e} (hc : c.rest = x :: xs)
    (hv : st.visit c = some ⟨st', .forward, some e⟩) (h : Reads ⟨st', c.step⟩ o t) : Reads ⟨st, c⟩ (e :: o) t := by
  refine .emit (by simp [hc]) ?_ h
  simp [LexSt.step, hv, Step.apply]

theorem Reads.resEmit {st st' : State} {c : Cursor} {x xs o t e} (hc : c.rest = x :: xs)
    (hv : st.visit c = some ⟨st', .resume, some e⟩) (h : Reads ⟨st', c⟩ o t) : Reads ⟨st, c⟩ (e :: o) t := by
  refine .emit (by simp [hc]) ?_ h
  simp [LexSt.step, hv, Step.apply]

theorem Cursor.step_rest {c : Cursor} {x xs} (h : c.rest = x :: xs) : c.step.rest = xs := by
  simp [Cursor.step, h]

theorem Cursor.step_offset {c : Cursor} {x xs} (h : c.rest = x :: xs) : c.step.offset = c.offset + 1 := by
  simp [Cursor.step, h]

theorem Cursor.peek_cons {c : Cursor} {x xs} (h : c.rest = x :: xs) : c.peek = some x := by
  simp [Cursor.peek, h]

/-- The second cursor is the first one moved past `txt`. -/
structure Adv (c c' : Cursor) (txt : Bytes) : Prop where
  rest : c.rest = txt ++ c'.rest
  off : c'.offset = c.offset + txt.length

theorem Adv.refl (c) : Adv c c [] := ⟨rfl, rfl⟩

theorem Adv.trans {a b c s t} (h : Adv a b s) (h' : Adv b c t) : Adv a c (s ++ t) :=
  ⟨by rw [h.rest, h'.rest, List.append_assoc], by rw [h'.off, h.off, List.length_append]; omega⟩

theorem Adv.step {c : Cursor} {x xs} (h : c.rest = x :: xs) : Adv c c.step [x] :=
  ⟨by simp [Cursor.step_rest h, h], by simp [Cursor.step_offset h]⟩

theorem Adv.slice {c c' t} (h : Adv c c' t) : c.slice c' = t := by
  simp [Cursor.slice, h.rest, h.off]

/-- From `st` at `c`, reading exactly `txt` (followed by `r`) leads to `st'` with outputs `o`. -/
def Reach (st : State) (c : Cursor) (txt r : Bytes) (o : List Output) (st' : State) : Prop :=
  ∃ c', Adv c c' txt ∧ c'.rest = r ∧ Reads ⟨st, c⟩ o ⟨st', c'⟩

theorem Reach.refl {st c r} (h : c.rest = r) : Reach st c [] r [] st := ⟨c, Adv.refl c, h, .refl _⟩

theorem Reach.bind {st c txt r o st' txt' r' o' st''} (h : Reach st c txt r o st')
    (h' : ∀ c', Adv c c' txt → c'.rest = r → Reach st' c' txt' r' o' st'') :
    Reach st c (txt ++ txt') r' (o ++ o') st'' := by
  obtain ⟨c₁, h1, h2, h3⟩ := h
  obtain ⟨c₂, h4, h5, h6⟩ := h' c₁ h1 h2
  exact ⟨c₂, h1.trans h4, h5, h3.trans h6⟩

theorem Reach.fwd {st st' : State} {c : Cursor} {x xs} (hc : c.rest = x :: xs)
    (hv : st.visit c = some ⟨st', .forward, none⟩) : Reach st c [x] xs [] st' :=
  ⟨c.step, .step hc, Cursor.step_rest hc, .fwd hc hv (.refl _)⟩

theorem Reach.fwdEmit {st st' : State} {c : Cursor} {x xs e} (hc : c.rest = x :: xs)
    (hv : st.visit c = some ⟨st', .forward, some e⟩) : Reach st c [x] xs [e] st' :=
  ⟨c.step, .step hc, Cursor.step_rest hc, .fwdEmit hc hv (.refl _)⟩

theorem Reach.res {st st' : State} {c : Cursor} {x xs} (hc : c.rest = x :: xs)
    (hv : st.visit c = some ⟨st', .resume, none⟩) : Reach st c [] (x :: xs) [] st' :=
  ⟨c, .refl c, hc, .res hc hv (.refl _)⟩

theorem Reach.resEmit {st st' : State} {c : Cursor} {x xs e} (hc : c.rest = x :: xs)
    (hv : st.visit c = some ⟨st', .resume, some e⟩) : Reach st c [] (x :: xs) [e] st' :=
  ⟨c, .refl c, hc, .resEmit hc hv (.refl _)⟩

/-- A piece, from reading its text with nothing behind it. -/
theorem Piece.of_reach {s txt o ks s'} (h : Reach s (Cursor.start txt) txt [] o s')
    (hk : o.map Output.kind = ks) : Piece s txt ks s' := by
  obtain ⟨c, _, h2, h3⟩ := h
  exact ⟨o, c, h3, h2, hk⟩

/-! ### Strings -/

/-- One unit of quoted text: a plain byte or an escape sequence. -/
inductive StrUnit where
  | raw (c : UInt8)
  | esc (c : UInt8)

/-- Written form. -/
def StrUnit.text : StrUnit → Bytes
  | .raw c => [c]
  | .esc c => [cBackslash, c]

/-- The unit denotes byte `b`, when `q` tells which bytes are not plain and `f` the escape sequences. -/
def StrUnit.Denotes (q : UInt8 → Bool) (f : UInt8 → Option UInt8) (b : UInt8) : StrUnit → Prop
  | .raw c => q c = false ∧ c ≠ cBackslash ∧ b = c
  | .esc c => f c = some b

theorem reach_string_unit {u : StrUnit} {b : UInt8} {v p c r}
    (hu : u.Denotes (· == cDQuote) validateEscape b) (hc : c.rest = u.text ++ r) :
    Reach (.stringLit v none p) c u.text r [] (.stringLit (v ++ [b]) none p) := by
  cases u with
  | raw x =>
    obtain ⟨h1, h2, rfl⟩ := hu
    have hc' : c.rest = b :: r := hc
    refine .fwd hc' ?_
    simp [State.visit, visitStringLit, Cursor.peek_cons hc', Transition.fwd]
    simp_all
  | esc x =>
    have hc' : c.rest = cBackslash :: x :: r := hc
    refine Reach.bind (o := []) (txt := [cBackslash]) (txt' := [x]) (st' := .stringLit v (some c) p)
      (.fwd hc' ?_) ?_
    · simp [State.visit, visitStringLit, Cursor.peek_cons hc', Transition.fwd]
    intro c' _ hc''
    refine .fwd hc'' ?_
    simp only [StrUnit.Denotes] at hu
    simp [State.visit, visitStringLit, Cursor.peek_cons hc'', Transition.fwd, hu]

theorem strByte_unit (b : UInt8) : ∃ u : StrUnit, u.text = strByte b ∧
    u.Denotes (· == cDQuote) validateEscape b := by
  unfold strByte
  split_ifs with h1 h2 h3 h4 h5
  · exact ⟨.esc cDQuote, rfl, by subst h1; rfl⟩
  · exact ⟨.esc cBackslash, rfl, by subst h2; rfl⟩
  · exact ⟨.esc cN, rfl, by subst h3; rfl⟩
  · exact ⟨.esc cT, rfl, by subst h4; rfl⟩
  · exact ⟨.esc cZero, rfl, by subst h5; rfl⟩
  · exact ⟨.raw b, rfl, by simpa using h1, h2, rfl⟩

theorem reach_string_body (s : Bytes) : ∀ {v p c r}, c.rest = s.flatMap strByte ++ r →
    Reach (.stringLit v none p) c (s.flatMap strByte) r [] (.stringLit (v ++ s) none p) := by
  induction s with
  | nil => intro v p c r hc; simpa using Reach.refl (by simpa using hc)
  | cons b s ih =>
    intro v p c r hc
    obtain ⟨u, hu, hm⟩ := strByte_unit b
    rw [List.flatMap_cons, ← hu]
    refine Reach.bind (o := []) (reach_string_unit hm (r := s.flatMap strByte ++ r) (by simp [hc, hu])) ?_
    intro c' _ hc'
    have := ih (v := v ++ [b]) (p := p) hc'
    simpa using this

/-- Reading a whole string literal. -/
theorem reach_string {s c r} (hc : c.rest = stringText s ++ r) :
    Reach .root c (stringText s) r [.ok ⟨.literal (.string s), c.pos⟩] .root := by
  have hc1 : c.rest = cDQuote :: (s.flatMap strByte ++ (cDQuote :: r)) := by simp [hc, stringText]
  have : stringText s = [cDQuote] ++ (s.flatMap strByte ++ [cDQuote]) := by simp [stringText]
  rw [this]
  refine Reach.bind (o := []) (.fwd hc1 (st' := .stringLit [] none c.pos) ?_) ?_
  · simp only [State.visit, visitRoot, Cursor.peek_cons hc1]; rfl
  intro c' _ hc'
  refine Reach.bind (o := []) (reach_string_body s hc') ?_
  intro c'' _ hc''
  refine .fwdEmit hc'' ?_
  simp only [State.visit, visitStringLit, Cursor.peek_cons hc'']; rfl

/-! ### Numbers and words -/

theorem decimalValue_append (a b : Bytes) :
    decimalValue (a ++ b) = decimalValue a * 10 ^ b.length + decimalValue b := by
  induction a with
  | nil => simp [decimalValue]
  | cons x a ih => simp [decimalValue, ih, Nat.pow_add, Nat.add_mul, Nat.mul_assoc, Nat.add_assoc]

theorem digitsVal_eq (a : Bytes) : digitsVal a = decimalValue a := by
  have : ∀ (a : Bytes) n, a.foldl (fun n (d : UInt8) => n * 10 + (d.toNat - 48)) n
      = n * 10 ^ a.length + decimalValue a := by
    intro a
    induction a with
    | nil => intro n; simp [decimalValue]
    | cons x a ih =>
      intro n
      simp only [List.foldl_cons, ih, List.length_cons, decimalValue, Nat.pow_succ, Nat.add_mul]
      ring
  simpa [digitsVal] using this a 0

theorem reach_digits (ds : Bytes) : ∀ {s d e c r}, ds.all isDigit = true → ds ≠ [] → c.rest = ds ++ r →
    Reach (.number s d e) c ds r []
      (.number s (if d = some false then some true else d) (if e = some false then some true else e)) := by
  induction ds with
  | nil => intro s d e c r _ h; exact absurd rfl h
  | cons x ds ih =>
    intro s d e c r hd _ hc
    simp only [List.all_cons, Bool.and_eq_true] at hd
    have hc1 : c.rest = x :: (ds ++ r) := hc
    have hx : x ≠ cDot ∧ x ≠ cE ∧ x ≠ cUE := by
      have : ∀ x : UInt8, isDigit x = true → x ≠ cDot ∧ x ≠ cE ∧ x ≠ cUE := forall_byte (by decide +kernel)
      exact this x hd.1
    have h1 : Reach (.number s d e) c [x] (ds ++ r) []
      (.number s (if d = some false then some true else d) (if e = some false then some true else e)) := by
      refine .fwd hc1 ?_
      simp [State.visit, visitNumber, Cursor.peek_cons hc1, Transition.fwd, hx, hd.1]
    by_cases hds : ds = []
    · subst hds; exact h1
    · refine Reach.bind (txt := [x]) (o := []) h1 ?_
      intro c' _ hc'
      have := ih (s := s) (d := if d = some false then some true else d)
        (e := if e = some false then some true else e) hd.2 hds hc'
      convert this using 2
      · split <;> simp_all
      · split <;> simp_all

/-- After the first digit of a number. -/
theorem reach_number_start {ds c r} (hd : ds.all isDigit = true) (hne : ds ≠ []) (hc : c.rest = ds ++ r) :
    Reach .root c ds r [] (.number c none none) := by
  cases ds with
  | nil => exact absurd rfl hne
  | cons x ds =>
    simp only [List.all_cons, Bool.and_eq_true] at hd
    have hc1 : c.rest = x :: (ds ++ r) := hc
    have h1 : Reach .root c [x] (ds ++ r) [] (.number c none none) := by
      refine .fwd hc1 ?_
      have hx : isWs x = false ∧ x ≠ cHash ∧ x ≠ cDQuote ∧ x ≠ cSQuote := by
        have : ∀ x : UInt8, isDigit x = true → isWs x = false ∧ x ≠ cHash ∧ x ≠ cDQuote ∧ x ≠ cSQuote :=
          forall_byte (by decide +kernel)
        exact this x hd.1
      simp [State.visit, visitRoot, Cursor.peek_cons hc1, Transition.fwd, hx, hd.1]
    by_cases hds : ds = []
    · subst hds; exact h1
    · refine Reach.bind (txt := [x]) (o := []) h1 ?_
      intro c' _ hc'
      simpa using reach_digits ds (s := c) (d := none) (e := none) hd.2 hds hc'

/-- Bytes which end a number that so far has neither fraction nor exponent. -/
def endsInt (y : UInt8) : Bool := !(isDigit y || y == cDot || y == cE || y == cUE)

/-- What an integer literal is lexed to. -/
def intKind (ds : Bytes) : Except LexErrorKind TokenKind :=
  if decimalValue ds < 2 ^ 63 then .ok (.literal (.int (decimalValue ds))) else .error (.invalidNumber ds)

theorem visit_number_end {s d e : _} {c : Cursor} {ds} (ha : Adv s c ds)
    (hp : c.peek.all (fun y => !isDigit y && (e.isSome || (y != cE && y != cUE)) &&
      (d.isSome || e.isSome || y != cDot)) = true)
    (hd : d ≠ some false) (he : e ≠ some false) :
    visitNumber s d e c = match (if d.isSome || e.isSome then .ok (.float ds)
        else if decimalValue ds < 2 ^ 63 then Except.ok (.int (decimalValue ds)) else .error (LexErrorKind.invalidNumber ds)) with
      | .ok l => .resumeProduce .root (.literal l) s.pos
      | .error e => .error .root e s.pos := by
  unfold visitNumber parseNumber
  simp only [ha.slice, digitsVal_eq]
  have hm : ((decimalValue ds : Int) ≤ i64Max) ↔ decimalValue ds < 2 ^ 63 := by
    unfold i64Max; omega
  simp only [hm, hd, he, or_self, if_false]
  cases hpk : c.peek with
  | none => simp only [reduceCtorEq, and_false, or_false, if_false, Option.any_none, Bool.false_eq_true]; rfl
  | some y =>
    simp only [hpk, Option.all_some, Bool.and_eq_true, Bool.not_eq_true', Bool.or_eq_true, bne_iff_ne] at hp
    obtain ⟨⟨h1, h2⟩, h3⟩ := hp
    have n1 : ¬ (d = none ∧ e = none ∧ some y = some cDot) := by
      rintro ⟨rfl, rfl, h⟩
      injection h with h; simp [h] at h3
    have n2 : ¬ (e = none ∧ (some y = some cE ∨ some y = some cUE)) := by
      rintro ⟨rfl, h | h⟩ <;> injection h with h <;> simp [h] at h2
    simp only [n1, n2, if_false, Option.any_some, h1, Bool.false_eq_true]; rfl

theorem reach_word_body (ws : Bytes) : ∀ {s c r}, ws.all isWord = true → c.rest = ws ++ r →
    Reach (.word s) c ws r [] (.word s) := by
  induction ws with
  | nil => intro s c r _ hc; exact Reach.refl (by simpa using hc)
  | cons x ws ih =>
    intro s c r hd hc
    simp only [List.all_cons, Bool.and_eq_true] at hd
    have hc1 : c.rest = x :: (ws ++ r) := hc
    refine Reach.bind (txt := [x]) (o := []) (.fwd hc1 (st' := .word s) ?_) ?_
    · simp [State.visit, visitWord, Cursor.peek_cons hc1, Transition.fwd, hd.1]
    · intro c' _ hc'
      exact ih hd.2 hc'

theorem wordStart_facts (x : UInt8) (h : isWordStart x = true) :
    isWs x = false ∧ x ≠ cHash ∧ x ≠ cDQuote ∧ x ≠ cSQuote ∧ isDigit x = false := by
  revert x; exact forall_byte (by decide +kernel)

/-- Reading a name up to its end. -/
theorem reach_name {w c r} (hw : IsName w) (hc : c.rest = w ++ r) :
    Reach .root c w r [] (.word c) := by
  obtain ⟨x, xs, rfl, hx, hxs⟩ := hw
  have hc1 : c.rest = x :: (xs ++ r) := hc
  obtain ⟨f1, f2, f3, f4, f5⟩ := wordStart_facts x hx
  refine Reach.bind (txt := []) (o := []) (.res hc1 (st' := .word c) ?_) ?_
  · simp [State.visit, visitRoot, Cursor.peek_cons hc1, Transition.resume, f1, f2, f3, f4, f5, hx]
  · intro c' _ hc'
    exact reach_word_body (x :: xs) (by simp [isWord_of_isWordStart x hx, hxs]) hc'

/-- A name followed by a byte that cannot continue it. -/
theorem reach_name_end {w c y r} (hw : IsName w) (hy : isWord y = false) (hc : c.rest = w ++ y :: r) :
    Reach .root c w (y :: r) [.ok ⟨toToken w, c.pos⟩] .root := by
  obtain ⟨c', h1, h2, h3⟩ := reach_name hw hc
  refine ⟨c', h1, h2, ?_⟩
  have := h3.trans (Reads.resEmit (st := .word c) (st' := .root) h2 (e := .ok ⟨toToken w, c.pos⟩) ?_ (.refl _))
  · simpa using this
  · simp [State.visit, visitWord, Cursor.peek_cons h2, hy, Transition.resumeProduce, h1.slice]

theorem toToken_ident {w} (h : w ∉ reserved) : toToken w = .identifier w := by
  simp only [reserved, List.mem_cons, not_or, List.not_mem_nil, not_false_eq_true, and_true] at h
  simp [toToken, h]

/-! ### Whitespace and comments -/

theorem reach_ws {st : State} (hst : st.between) {x c r} (hx : isWs x = true) (hc : c.rest = x :: r) :
    Reach st c [x] r [] st := by
  refine .fwd hc ?_
  cases st <;> simp [State.between] at hst
  · simp [State.visit, visitRoot, Cursor.peek_cons hc, hx, Transition.fwd]
  · simp [State.visit, visitCommand, Cursor.peek_cons hc, hx, Transition.fwd]

theorem reach_comment_body (body : Bytes) : ∀ {self back : State} {c r},
    (self = .comment ∧ back = .root ∨ self = .commandComment ∧ back = .command) →
    cNL ∉ body → c.rest = body ++ r → Reach self c body r [] self := by
  induction body with
  | nil => intro self back c r _ _ hc; exact Reach.refl (by simpa using hc)
  | cons x body ih =>
    intro self back c r hs hb hc
    simp only [List.mem_cons, not_or] at hb
    have hc1 : c.rest = x :: (body ++ r) := hc
    refine Reach.bind (txt := [x]) (o := []) (.fwd hc1 (st' := self) ?_) ?_
    · have : ¬ (some x = some cNL) := by
        intro h; injection h with h; exact hb.1 h.symm
      rcases hs with ⟨rfl, rfl⟩ | ⟨rfl, rfl⟩ <;>
      simp only [State.visit, visitComment, Cursor.peek_cons hc1, Transition.fwd, this, if_false]
    · intro c' _ hc'
      exact ih hs hb.2 hc'

theorem reach_comment {st : State} (hst : st.between) {body c r} (hb : cNL ∉ body)
    (hc : c.rest = cHash :: (body ++ cNL :: r)) :
    Reach st c (cHash :: body) (cNL :: r) [] st := by
  have key : ∃ self, (self = State.comment ∧ st = .root ∨ self = State.commandComment ∧ st = .command) := by
    cases st <;> simp [State.between] at hst
    · exact ⟨.comment, Or.inl ⟨rfl, rfl⟩⟩
    · exact ⟨.commandComment, Or.inr ⟨rfl, rfl⟩⟩
  obtain ⟨self, hs⟩ := key
  refine Reach.bind (txt := [cHash]) (o := []) (.fwd hc (st' := self) ?_) ?_
  · rcases hs with ⟨rfl, rfl⟩ | ⟨rfl, rfl⟩
    · simp only [State.visit, visitRoot, Cursor.peek_cons hc]; rfl
    · simp only [State.visit, visitCommand, Cursor.peek_cons hc]; rfl
  · intro c' _ hc'
    have := Reach.bind (o := []) (reach_comment_body body (back := st) hs hb hc') (txt' := []) (r' := cNL :: r) (o' := [])
      (st'' := st) ?_
    · simpa using this
    intro c'' _ hc''
    refine .res hc'' ?_
    rcases hs with ⟨rfl, rfl⟩ | ⟨rfl, rfl⟩
    · simp only [State.visit, visitComment, Cursor.peek_cons hc'']; rfl
    · simp only [State.visit, visitComment, Cursor.peek_cons hc'']; rfl

theorem reach_filler {st : State} (hst : st.between) {w} (hw : Filler w) : ∀ {c r}, c.rest = w ++ r →
    Reach st c w r [] st := by
  induction hw with
  | nil => intro c r hc; exact .refl (by simpa using hc)
  | @space x w hx _ ih =>
    intro c r hc
    exact Reach.bind (txt := [x]) (o := []) (reach_ws hst hx hc) (fun c' _ hc' => ih hc')
  | @comment body w hb _ ih =>
    intro c r hc
    have hc1 : c.rest = cHash :: (body ++ cNL :: (w ++ r)) := by simp [hc]
    have := Reach.bind (o := []) (reach_comment hst hb hc1) (txt' := cNL :: w) (r' := r) (o' := []) (st'' := st) ?_
    · simpa using this
    intro c' _ hc'
    exact Reach.bind (txt := [cNL]) (o := []) (reach_ws hst (by decide) hc') (fun c'' _ hc'' => ih hc'')

end Hush

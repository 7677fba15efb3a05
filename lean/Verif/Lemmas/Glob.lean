import Verif.Lemmas.Expansion

/-! The pattern text of a word matches exactly the names that fit the word. -/

namespace Hush
namespace Glob
open Spec (Atom Fits)

/-- A well-formed character: its encoding is one character. -/
def IsChar (c : Bytes) : Prop := chars c = some [c]

theorem chars_ascii {b : UInt8} (h : b < 0x80) (t : Bytes) : chars (b :: t) = (chars t).map ([b] :: ·) := by
  rw [chars.eq_def]; exact if_pos h

theorem isChar_ascii {b : UInt8} (h : b < 0x80) : IsChar [b] := by
  rw [IsChar, chars_ascii h]; rfl

/-- A character at the front: the rest is independent of it. -/
theorem chars_split {b0 : UInt8} {t : Bytes} {cs : List Bytes} (h : chars (b0 :: t) = some cs) :
    ∃ c rest cs', b0 :: t = c ++ rest ∧ cs = c :: cs' ∧ chars rest = some cs' ∧ c ≠ [] ∧
      (∀ r, chars (c ++ r) = (chars r).map (c :: ·)) ∧
      (b0 < 0x80 → c = [b0]) ∧ (¬ b0 < 0x80 → ∀ x ∈ c, ¬ x < 0x80) := by
  rw [chars.eq_def] at h
  simp only at h
  split at h
  · rename_i hb
    cases hr : chars t with
    | none => simp [hr] at h
    | some cs' =>
      simp only [hr, Option.map_some, Option.some.injEq] at h
      exact ⟨[b0], t, cs', rfl, h.symm, hr, by simp, fun r => chars_ascii hb r, fun _ => rfl, fun hn => absurd hb hn⟩
  · rename_i hb
    split at h
    · cases h
    · rename_i b1 t1
      split at h
      · rename_i h1
        cases hr : chars t1 with
        | none => simp [hr] at h
        | some cs' =>
          simp only [hr, Option.map_some, Option.some.injEq] at h
          refine ⟨[b0, b1], t1, cs', rfl, h.symm, hr, by simp, fun r => ?_, fun hn => absurd hn hb, fun _ x hx => ?_⟩
          · rw [List.cons_append, chars.eq_def]; simp only [hb, if_false]; simp only [List.cons_append, List.nil_append, h1, if_true]
          · simp only [Bool.and_eq_true, between, decide_eq_true_eq] at h1
            rcases List.mem_cons.1 hx with rfl | hx
            · exact hb
            · rw [List.mem_singleton] at hx; subst hx
              exact fun hlt => absurd (UInt8.lt_of_lt_of_le hlt h1.2.1) (UInt8.lt_irrefl _)
      · rename_i h1
        split at h
        · cases h
        · rename_i b2 t2
          split at h
          · rename_i h2
            cases hr : chars t2 with
            | none => simp [hr] at h
            | some cs' =>
              simp only [hr, Option.map_some, Option.some.injEq] at h
              refine ⟨[b0, b1, b2], t2, cs', rfl, h.symm, hr, by simp, fun r => ?_, fun hn => absurd hn hb,
                fun _ x hx => ?_⟩
              · rw [List.cons_append, chars.eq_def]; simp only [hb, if_false]
                simp only [List.cons_append, List.nil_append, h1, h2, if_true, if_false, Bool.false_eq_true]
              · have hb1 : ¬ b1 < 0x80 := by
                  revert h2
                  simp only [Bool.and_eq_true, Bool.or_eq_true, between, decide_eq_true_eq, beq_iff_eq]
                  rintro ⟨(⟨_, h, _⟩ | ⟨_, h, _⟩) | ⟨_, h, _⟩, _⟩ hlt <;>
                    exact absurd (UInt8.lt_of_lt_of_le hlt (UInt8.le_trans (by decide) h)) (UInt8.lt_irrefl _)
                have hb2 : ¬ b2 < 0x80 := by
                  revert h2
                  simp only [Bool.and_eq_true, between, decide_eq_true_eq]
                  rintro ⟨_, h, _⟩ hlt
                  exact absurd (UInt8.lt_of_lt_of_le hlt h) (UInt8.lt_irrefl _)
                rcases List.mem_cons.1 hx with rfl | hx
                · exact hb
                rcases List.mem_cons.1 hx with rfl | hx
                · exact hb1
                · rw [List.mem_singleton] at hx; subst hx; exact hb2
          · rename_i h2
            split at h
            · cases h
            · rename_i b3 t3
              split at h
              · rename_i h3
                cases hr : chars t3 with
                | none => simp [hr] at h
                | some cs' =>
                  simp only [hr, Option.map_some, Option.some.injEq] at h
                  refine ⟨[b0, b1, b2, b3], t3, cs', rfl, h.symm, hr, by simp, fun r => ?_, fun hn => absurd hn hb,
                    fun _ x hx => ?_⟩
                  · rw [List.cons_append, chars.eq_def]; simp only [hb, if_false]
                    simp only [List.cons_append, List.nil_append, h1, h2, h3, if_true, if_false, Bool.false_eq_true]
                  · have hb1 : ¬ b1 < 0x80 := by
                      revert h3
                      simp only [Bool.and_eq_true, Bool.or_eq_true, between, decide_eq_true_eq, beq_iff_eq]
                      rintro ⟨⟨(⟨_, h, _⟩ | ⟨_, h, _⟩) | ⟨_, h, _⟩, _⟩, _⟩ hlt <;>
                        exact absurd (UInt8.lt_of_lt_of_le hlt (UInt8.le_trans (by decide) h)) (UInt8.lt_irrefl _)
                    have hb2 : ¬ b2 < 0x80 := by
                      revert h3
                      simp only [Bool.and_eq_true, between, decide_eq_true_eq]
                      rintro ⟨⟨_, h, _⟩, _⟩ hlt
                      exact absurd (UInt8.lt_of_lt_of_le hlt h) (UInt8.lt_irrefl _)
                    have hb3 : ¬ b3 < 0x80 := by
                      revert h3
                      simp only [Bool.and_eq_true, between, decide_eq_true_eq]
                      rintro ⟨_, h, _⟩ hlt
                      exact absurd (UInt8.lt_of_lt_of_le hlt h) (UInt8.lt_irrefl _)
                    rcases List.mem_cons.1 hx with rfl | hx
                    · exact hb
                    rcases List.mem_cons.1 hx with rfl | hx
                    · exact hb1
                    rcases List.mem_cons.1 hx with rfl | hx
                    · exact hb2
                    · rw [List.mem_singleton] at hx; subst hx; exact hb3
              · cases h

theorem chars_flatten {b : Bytes} {cs : List Bytes} (h : chars b = some cs) :
    cs.flatten = b ∧ ∀ c ∈ cs, IsChar c ∧ ∀ r, chars (c ++ r) = (chars r).map (c :: ·) := by
  induction hn : b.length using Nat.strongRecOn generalizing b cs with
  | _ n ih =>
    cases b with
    | nil => simp [chars] at h; subst h; simp
    | cons b0 t =>
      obtain ⟨c, rest, cs', e, rfl, hr, hne, hc, _, _⟩ := chars_split h
      have hlen : rest.length < n := by
        rw [← hn, e, List.length_append]
        have := List.length_pos_iff.2 hne
        omega
      have := ih _ hlen hr rfl
      refine ⟨by rw [List.flatten_cons, this.1, e], fun d hd => ?_⟩
      rcases List.mem_cons.1 hd with rfl | hd
      · refine ⟨?_, hc⟩
        have := hc []
        rw [List.append_nil] at this
        rw [IsChar, this]; rfl
      · exact this.2 d hd

theorem isChar_append {c : Bytes} (h : IsChar c) (r : Bytes) : chars (c ++ r) = (chars r).map (c :: ·) :=
  ((chars_flatten h).2 c (by simp)).2 r

theorem isChar_ne {c : Bytes} (h : IsChar c) : c ≠ [] := by
  intro e; subst e; simp [IsChar, chars] at h

theorem chars_of_isChar {cs : List Bytes} (h : ∀ c ∈ cs, IsChar c) : chars cs.flatten = some cs := by
  induction cs with
  | nil => rfl
  | cons c cs ih =>
    rw [List.flatten_cons, isChar_append (h c (by simp)), ih (fun d hd => h d (by simp [hd]))]
    rfl

theorem chars_append {a b : Bytes} {x y : List Bytes} (ha : chars a = some x) (hb : chars b = some y) :
    chars (a ++ b) = some (x ++ y) := by
  have h1 := chars_flatten ha
  have h2 := chars_flatten hb
  rw [← h1.1, ← h2.1, ← List.flatten_append]
  apply chars_of_isChar
  intro c hc
  rcases List.mem_append.1 hc with h | h
  · exact (h1.2 c h).1
  · exact (h2.2 c h).1

/-! ### Words as sequences of bytes and wildcards -/

/-- A byte of text or a wildcard. -/
inductive U where
  | byte (b : UInt8)
  | any
  | one
deriving DecidableEq

/-- A character of text or a wildcard. -/
inductive UC where
  | char (c : Bytes)
  | any
  | one
deriving DecidableEq

def unitsOf : Atom → List U
  | .text s => s.map .byte
  | .anyText => [.any]
  | .anyChar => [.one]
  | .oneOf _ => []

def U.pattern : U → Bytes
  | .byte b => if Spec.Special b then [91, b, 93] else [b]
  | .any => [42]
  | .one => [63]

def UC.units : UC → List U
  | .char c => c.map .byte
  | .any => [.any]
  | .one => [.one]

/-- The characters of the pattern of a character. -/
def UC.pchars : UC → List Bytes
  | .char c => if c.any (fun b => decide (Spec.Special b)) then [[91], c, [93]] else [c]
  | .any => [[42]]
  | .one => [[63]]

def UC.Ok : UC → Prop
  | .char c => IsChar c
  | _ => True

theorem special_lt {b : UInt8} (h : Spec.Special b) : b < 0x80 := by
  rcases h with rfl | rfl | rfl | rfl <;> decide

theorem pattern_units {w : List Atom} (h : ∀ a ∈ w, ∀ cls, a ≠ .oneOf cls) :
    w.flatMap Atom.pattern = (w.flatMap unitsOf).flatMap U.pattern := by
  induction w with
  | nil => rfl
  | cons a w ih =>
    rw [List.flatMap_cons, List.flatMap_cons, List.flatMap_append, ih (fun b hb => h b (by simp [hb]))]
    congr 1
    cases a with
    | text s => simp [Atom.pattern, unitsOf, List.flatMap_map, U.pattern]
    | anyText => rfl
    | anyChar => rfl
    | oneOf cls => exact absurd rfl (h _ (by simp) cls)

/-- The first byte of the pattern of a unit that is not an ASCII byte is the byte itself. -/
theorem head_nonascii {us : List U} {x : UInt8} {r : Bytes} (h : us.flatMap U.pattern = x :: r) (hx : ¬ x < 0x80) :
    ∃ us', us = .byte x :: us' ∧ us'.flatMap U.pattern = r := by
  cases us with
  | nil => simp at h
  | cons u us =>
    rw [List.flatMap_cons] at h
    cases u with
    | any => simp only [U.pattern, List.cons_append, List.cons.injEq] at h; exact absurd (by rw [← h.1]; decide) hx
    | one => simp only [U.pattern, List.cons_append, List.cons.injEq] at h; exact absurd (by rw [← h.1]; decide) hx
    | byte b =>
      by_cases hs : Spec.Special b
      · simp only [U.pattern, hs, if_true, List.cons_append, List.cons.injEq] at h
        exact absurd (by rw [← h.1]; decide) hx
      · simp only [U.pattern, hs, if_false, List.cons_append, List.nil_append, List.cons.injEq] at h
        exact ⟨us, by rw [h.1], h.2⟩

theorem heads_nonascii {c : Bytes} {us : List U} {r : Bytes} (h : us.flatMap U.pattern = c ++ r)
    (hc : ∀ x ∈ c, ¬ x < 0x80) : ∃ us', us = c.map .byte ++ us' ∧ us'.flatMap U.pattern = r := by
  induction c generalizing us with
  | nil => exact ⟨us, rfl, h⟩
  | cons x c ih =>
    obtain ⟨us', rfl, h'⟩ := head_nonascii (by simpa using h) (hc x (by simp))
    obtain ⟨us'', rfl, h''⟩ := ih h' (fun y hy => hc y (by simp [hy]))
    exact ⟨us'', rfl, h''⟩

/-- A pattern in valid UTF-8 is made of whole characters and wildcards. -/
theorem units_chars {us : List U} {pc : List Bytes} (h : chars (us.flatMap U.pattern) = some pc) :
    ∃ ucs : List UC, us = ucs.flatMap UC.units ∧ pc = ucs.flatMap UC.pchars ∧ ∀ u ∈ ucs, u.Ok := by
  induction hn : us.length using Nat.strongRecOn generalizing us pc with
  | _ n ih =>
    cases us with
    | nil => simp [chars] at h; subst h; exact ⟨[], rfl, rfl, by simp⟩
    | cons u us =>
      rw [List.flatMap_cons] at h
      have ascii : ∀ (b : UInt8) (l : Bytes) (q : List Bytes), b < 0x80 → chars (b :: l) = some q →
          ∃ q', q = [b] :: q' ∧ chars l = some q' := by
        intro b l q hb hq
        rw [chars_ascii hb] at hq
        cases hl : chars l with
        | none => simp [hl] at hq
        | some q' => simp [hl] at hq; exact ⟨q', hq.symm, rfl⟩
      cases u with
      | any =>
        obtain ⟨q, rfl, hq⟩ := ascii 42 _ _ (by decide) h
        obtain ⟨ucs, rfl, rfl, ho⟩ := ih us.length (by simp at hn; omega) hq rfl
        exact ⟨.any :: ucs, rfl, rfl, by simpa [UC.Ok] using ho⟩
      | one =>
        obtain ⟨q, rfl, hq⟩ := ascii 63 _ _ (by decide) h
        obtain ⟨ucs, rfl, rfl, ho⟩ := ih us.length (by simp at hn; omega) hq rfl
        exact ⟨.one :: ucs, rfl, rfl, by simpa [UC.Ok] using ho⟩
      | byte b =>
        by_cases hs : Spec.Special b
        · simp only [U.pattern, hs, if_true, List.cons_append, List.nil_append] at h
          obtain ⟨q, rfl, hq⟩ := ascii 91 _ _ (by decide) h
          obtain ⟨q, rfl, hq2⟩ := ascii b _ _ (special_lt hs) hq
          obtain ⟨q, rfl, hq3⟩ := ascii 93 _ _ (by decide) hq2
          obtain ⟨ucs, rfl, rfl, ho⟩ := ih us.length (by simp at hn; omega) hq3 rfl
          refine ⟨.char [b] :: ucs, rfl, by simp [UC.pchars, hs], ?_⟩
          intro u hu
          rcases List.mem_cons.1 hu with rfl | hu
          · exact isChar_ascii (special_lt hs)
          · exact ho u hu
        · simp only [U.pattern, hs, if_false, List.cons_append, List.nil_append] at h
          obtain ⟨c, rest, cs', e, rfl, hr, hne, hc, hlo, hhi⟩ := chars_split h
          have hchar : IsChar c := by
            have := hc []
            rw [List.append_nil] at this
            rw [IsChar, this]; rfl
          by_cases hb : b < 0x80
          · have := hlo hb
            subst this
            simp only [List.cons_append, List.nil_append, List.cons.injEq, true_and] at e
            subst e
            obtain ⟨ucs, rfl, rfl, ho⟩ := ih us.length (by simp at hn; omega) hr rfl
            refine ⟨.char [b] :: ucs, rfl, by simp [UC.pchars, hs], ?_⟩
            intro u hu
            rcases List.mem_cons.1 hu with rfl | hu
            · exact hchar
            · exact ho u hu
          · have hh := hhi hb
            have e' : (U.byte b :: us).flatMap U.pattern = c ++ rest := by
              rw [List.flatMap_cons]; simpa [U.pattern, hs] using e
            obtain ⟨us', e2, h2⟩ := heads_nonascii e' hh
            rw [← h2] at hr
            have hl : us'.length < n := by
              have := congrArg List.length e2
              rw [List.length_append, List.length_map] at this
              have := List.length_pos_iff.2 hne
              omega
            obtain ⟨ucs, e3, e4, ho⟩ := ih us'.length hl hr rfl
            refine ⟨.char c :: ucs, by rw [e2, e3]; rfl, ?_, ?_⟩
            · have : c.any (fun b => decide (Spec.Special b)) = false := by
                rw [List.any_eq_false]
                intro x hx
                simp only [decide_eq_true_eq]
                exact fun hs => hh x hx (special_lt hs)
              simp [UC.pchars, this, e4]
            · intro u hu
              rcases List.mem_cons.1 hu with rfl | hu
              · exact hchar
              · exact ho u hu

/-! ### Tokens of a pattern -/

/-- The token of a unit. -/
def UC.tok : UC → Tok
  | .char c => if c.any (fun b => decide (Spec.Special b)) then .anyWithin [.single c] else .char c
  | .any => .anySequence
  | .one => .anyChar

theorem isChar_special {c : Bytes} (hc : IsChar c) (h : c.any (fun b => decide (Spec.Special b)) = true) :
    ∃ b, c = [b] ∧ Spec.Special b := by
  obtain ⟨b, hb, hs⟩ := List.any_eq_true.1 h
  simp only [decide_eq_true_eq] at hs
  cases c with
  | nil => cases hb
  | cons b0 t =>
    obtain ⟨d, rest, cs', e, e1, hr, hne, _, hlo, hhi⟩ := chars_split hc
    simp only [List.cons.injEq] at e1
    obtain ⟨rfl, rfl⟩ := e1
    by_cases h0 : b0 < 0x80
    · have := hlo h0
      rw [this] at hb
      rw [List.mem_singleton] at hb
      subst hb
      exact ⟨b, this, hs⟩
    · exact absurd (special_lt hs) (hhi h0 b hb)

theorem notSpecial_ne {c : Bytes} (h : c.any (fun b => decide (Spec.Special b)) = false) :
    c ≠ [cQuestion] ∧ c ≠ [cStar] ∧ c ≠ [cOpenBracket] ∧ c ≠ [cCloseBracket] := by
  refine ⟨?_, ?_, ?_, ?_⟩ <;> rintro rfl <;> simp [Spec.Special] at h

theorem tokens_nil (n : Nat) (start : Bool) : tokens n start [] = some [] := by cases n <;> rfl

theorem tokens_ucs {ucs : List UC} (hok : ∀ u ∈ ucs, u.Ok)
    (hs : ∀ pre post, ucs ≠ pre ++ .any :: .any :: post) {n : Nat} (hn : (ucs.flatMap UC.pchars).length ≤ n) (start : Bool) :
    tokens n start (ucs.flatMap UC.pchars) = some (ucs.map UC.tok) := by
  induction ucs generalizing n start with
  | nil => exact tokens_nil n start
  | cons u ucs ih =>
    rw [List.flatMap_cons, List.length_append] at hn
    rw [List.flatMap_cons]
    have ih' : ∀ {m start}, (ucs.flatMap UC.pchars).length ≤ m →
        tokens m start (ucs.flatMap UC.pchars) = some (ucs.map UC.tok) := fun hm =>
      ih (fun v hv => hok v (by simp [hv])) (fun pre post e => hs (u :: pre) post (by rw [e]; rfl)) hm _
    cases u with
    | one =>
      cases n with
      | zero => simp [UC.pchars] at hn
      | succ n =>
        simp only [UC.pchars, List.cons_append, List.nil_append, List.map_cons, UC.tok]
        rw [tokens, if_pos (by decide), ih' (by simp only [UC.pchars, List.length_cons, List.length_nil] at hn; omega)]
        rfl
    | any =>
      cases n with
      | zero => simp [UC.pchars] at hn
      | succ n =>
        simp only [UC.pchars, List.cons_append, List.nil_append, List.map_cons, UC.tok]
        have hh : (ucs.flatMap UC.pchars).head? ≠ some [cStar] := by
          cases ucs with
          | nil => simp
          | cons v vs =>
            cases v with
            | any => exact absurd rfl (hs [] vs)
            | one => simp [UC.pchars, cStar]
            | char c =>
              by_cases hc : c.any (fun b => decide (Spec.Special b)) = true
              · simp only [UC.pchars, hc, List.flatMap_cons]; simp [cStar]
              · have hc := Bool.eq_false_iff.2 hc
                have := (notSpecial_ne hc).2.1
                simp only [UC.pchars, hc, List.flatMap_cons]
                simpa using this
        rw [tokens, if_neg (by decide), if_pos (by decide), if_neg hh, ih' (by simp only [UC.pchars, List.length_cons, List.length_nil] at hn; omega)]
        rfl
    | char c =>
      by_cases hc : c.any (fun b => decide (Spec.Special b)) = true
      · obtain ⟨b, rfl, hb⟩ := isChar_special (hok (.char c) (by simp) : IsChar c) hc
        cases n with
        | zero => simp [UC.pchars, hc] at hn
        | succ n =>
          simp only [UC.pchars, hc, if_true, List.cons_append, List.nil_append, List.map_cons, UC.tok]
          have hp : parseClass ([b] :: [93] :: ucs.flatMap UC.pchars)
              = some (.anyWithin [.single [b]], ucs.flatMap UC.pchars) := by
            rcases hb with rfl | rfl | rfl | rfl <;> rfl
          rw [tokens, if_neg (by decide), if_neg (by decide), if_pos (by decide), hp]
          simp only
          rw [ih' (by simp only [UC.pchars, hc, List.length_cons, List.length_nil, if_true] at hn; omega)]
          rfl
      · have hc := Bool.eq_false_iff.2 hc
        obtain ⟨h1, h2, h3, _⟩ := notSpecial_ne hc
        cases n with
        | zero => simp [UC.pchars, hc] at hn
        | succ n =>
          simp only [UC.pchars, hc, Bool.false_eq_true, if_false, List.cons_append, List.nil_append, List.map_cons,
            UC.tok]
          rw [tokens, if_neg h1, if_neg h2, if_neg h3, ih' (by simp only [UC.pchars, hc, List.length_cons, List.length_nil, if_false, Bool.false_eq_true] at hn; omega)]
          rfl

/-! ### Matching -/

/-- A name fits units. -/
inductive FitsU : List U → Bytes → Prop where
  | nil : FitsU [] []
  | byte : FitsU us n → FitsU (.byte b :: us) (b :: n)
  | any (pre : Bytes) : (chars pre).isSome = true → FitsU us n → FitsU (.any :: us) (pre ++ n)
  | one : chars c = some [c] → FitsU us n → FitsU (.one :: us) (c ++ n)

theorem fitsU_text {s : Bytes} {us : List U} {n : Bytes} :
    FitsU (s.map .byte ++ us) n ↔ ∃ n', n = s ++ n' ∧ FitsU us n' := by
  induction s generalizing n with
  | nil => simp
  | cons b s ih =>
    constructor
    · intro h
      rw [List.map_cons, List.cons_append] at h
      cases h with
      | byte h =>
        obtain ⟨n', rfl, h'⟩ := ih.1 h
        exact ⟨n', rfl, h'⟩
    · rintro ⟨n', rfl, h⟩
      exact .byte (ih.2 ⟨n', rfl, h⟩)

theorem fits_units {w : List Atom} (hw : ∀ a ∈ w, ∀ cls, a ≠ .oneOf cls) {n : Bytes} :
    Fits w n ↔ FitsU (w.flatMap unitsOf) n := by
  induction w generalizing n with
  | nil =>
    constructor
    · intro h; cases h; exact .nil
    · intro h; cases h; exact .nil
  | cons a w ih =>
    have ih := @ih (fun b hb => hw b (by simp [hb]))
    rw [List.flatMap_cons]
    cases a with
    | text s =>
      rw [unitsOf, fitsU_text]
      constructor
      · intro h; cases h with | text h => exact ⟨_, rfl, ih.1 h⟩
      · rintro ⟨n', rfl, h⟩; exact .text (ih.2 h)
    | anyText =>
      constructor
      · intro h; cases h with | anyText pre hp h => exact .any pre hp (ih.1 h)
      · intro h
        rw [show unitsOf .anyText ++ w.flatMap unitsOf = .any :: w.flatMap unitsOf from rfl] at h
        cases h with | any pre hp h => exact .anyText pre hp (ih.2 h)
    | anyChar =>
      constructor
      · intro h; cases h with | anyChar hp h => exact .one hp (ih.1 h)
      · intro h
        rw [show unitsOf .anyChar ++ w.flatMap unitsOf = .one :: w.flatMap unitsOf from rfl] at h
        cases h with | one hp h => exact .anyChar hp (ih.2 h)
    | oneOf cls => exact absurd rfl (hw _ (by simp) cls)

theorem matches_fits {ucs : List UC} {nc : List Bytes} (hn : ∀ c ∈ nc, IsChar c)
    (h : Matches (ucs.map UC.tok) nc) : FitsU (ucs.flatMap UC.units) nc.flatten := by
  induction ucs generalizing nc with
  | nil =>
    rw [List.map_nil] at h
    cases h; exact .nil
  | cons u ucs ih =>
    rw [List.map_cons] at h
    rw [List.flatMap_cons]
    cases u with
    | any =>
      simp only [UC.tok] at h
      cases h with
      | anySequence pre h =>
        rw [List.flatten_append]
        refine .any _ ?_ (ih (fun c hc => hn c (by simp [hc])) h)
        rw [chars_of_isChar (fun c hc => hn c (by simp [hc]))]; rfl
    | one =>
      simp only [UC.tok] at h
      cases h with
      | anyChar h =>
        rw [List.flatten_cons]
        exact .one (hn _ (by simp)) (ih (fun c hc => hn c (by simp [hc])) h)
    | char c =>
      simp only [UC.tok] at h
      split at h
      · cases h with
        | anyWithin hx h =>
          obtain ⟨s, hs, hs'⟩ := hx
          rw [List.mem_singleton] at hs
          subst hs
          have : _ = c := hs'
          subst this
          rw [List.flatten_cons, UC.units, fitsU_text]
          exact ⟨_, rfl, ih (fun c hc => hn c (by simp [hc])) h⟩
      · cases h with
        | char h =>
          rw [List.flatten_cons, UC.units, fitsU_text]
          exact ⟨_, rfl, ih (fun c hc => hn c (by simp [hc])) h⟩

theorem fits_matches {ucs : List UC} (hok : ∀ u ∈ ucs, u.Ok) {n : Bytes} (h : FitsU (ucs.flatMap UC.units) n) :
    ∃ nc, chars n = some nc ∧ Matches (ucs.map UC.tok) nc := by
  induction ucs generalizing n with
  | nil =>
    rw [List.flatMap_nil] at h
    cases h; exact ⟨[], rfl, .nil⟩
  | cons u ucs ih =>
    have ih := @ih (fun v hv => hok v (by simp [hv]))
    rw [List.flatMap_cons] at h
    rw [List.map_cons]
    cases u with
    | any =>
      rw [show UC.any.units ++ ucs.flatMap UC.units = .any :: ucs.flatMap UC.units from rfl] at h
      cases h with
      | any pre hp h =>
        obtain ⟨nc, h1, h2⟩ := ih h
        obtain ⟨pc, hpc⟩ := Option.isSome_iff_exists.1 hp
        exact ⟨pc ++ nc, chars_append hpc h1, .anySequence pc h2⟩
    | one =>
      rw [show UC.one.units ++ ucs.flatMap UC.units = .one :: ucs.flatMap UC.units from rfl] at h
      cases h with
      | one hp h =>
        obtain ⟨nc, h1, h2⟩ := ih h
        exact ⟨_ :: nc, chars_append hp h1, .anyChar h2⟩
    | char c =>
      rw [UC.units, fitsU_text] at h
      obtain ⟨n', rfl, h⟩ := h
      obtain ⟨nc, h1, h2⟩ := ih h
      refine ⟨c :: nc, chars_append (hok (.char c) (by simp) : IsChar c) h1, ?_⟩
      simp only [UC.tok]
      split
      · exact .anyWithin ⟨.single c, by simp, rfl⟩ h2
      · exact .char h2

/-- No two adjacent stars. -/
theorem no_starstar {w : List Atom} (hw : ¬ Spec.StarStar w) {us : List U} (hu : us = w.flatMap unitsOf)
    (hc : ∀ a ∈ w, ∀ cls, a ≠ .oneOf cls) : ∀ pre post, us ≠ pre ++ .any :: .any :: post := by
  intro pre post e
  rw [hu] at e
  clear hu us
  apply hw
  -- a star right after a star, up to empty texts
  have tail : ∀ {w : List Atom} {post}, (∀ a ∈ w, ∀ cls, a ≠ .oneOf cls) → w.flatMap unitsOf = .any :: post →
      ∃ mid rest, w = mid ++ .anyText :: rest ∧ ∀ a ∈ mid, a = .text [] := by
    intro w
    induction w with
    | nil => intro post _ h; simp at h
    | cons a w ih =>
      intro post hc h
      rw [List.flatMap_cons] at h
      cases a with
      | text s =>
        cases s with
        | nil =>
          obtain ⟨mid, rest, rfl, hm⟩ := ih (fun b hb => hc b (by simp [hb])) (by simpa [unitsOf] using h)
          exact ⟨.text [] :: mid, rest, rfl, by simpa using hm⟩
        | cons b s => simp [unitsOf] at h
      | anyText => exact ⟨[], w, rfl, by simp⟩
      | anyChar => simp [unitsOf] at h
      | oneOf cls => exact absurd rfl (hc _ (by simp) cls)
  induction w generalizing pre with
  | nil => simp at e
  | cons a w ih =>
    have hc' : ∀ a ∈ w, ∀ cls, a ≠ .oneOf cls := fun b hb => hc b (by simp [hb])
    have step : ∀ pre', w.flatMap unitsOf = pre' ++ .any :: .any :: post → Spec.StarStar (a :: w) := by
      intro pre' h
      have : Spec.StarStar w := by
        refine ih ?_ hc' pre' h
        intro ⟨p, m, q, e', hm⟩
        exact hw ⟨a :: p, m, q, by rw [e']; rfl, hm⟩
      obtain ⟨p, m, q, e', hm⟩ := this
      exact ⟨a :: p, m, q, by rw [e']; rfl, hm⟩
    rw [List.flatMap_cons] at e
    cases a with
    | text s =>
      rw [unitsOf] at e
      have : ∀ (s : Bytes) (pre : List U), s.map U.byte ++ w.flatMap unitsOf = pre ++ .any :: .any :: post →
          ∃ pre', w.flatMap unitsOf = pre' ++ .any :: .any :: post := by
        intro s
        induction s with
        | nil => intro pre h; exact ⟨pre, h⟩
        | cons b s ihs =>
          intro pre h
          cases pre with
          | nil => simp at h
          | cons x pre =>
            simp only [List.map_cons, List.cons_append, List.cons.injEq] at h
            exact ihs pre h.2
      obtain ⟨pre', h⟩ := this s pre e
      exact step pre' h
    | anyText =>
      cases pre with
      | nil =>
        simp only [unitsOf, List.cons_append, List.nil_append, List.cons.injEq, true_and] at e
        obtain ⟨mid, rest, rfl, hm⟩ := tail hc' e
        exact ⟨[], mid, rest, rfl, hm⟩
      | cons x pre =>
        simp only [unitsOf, List.cons_append, List.nil_append, List.cons.injEq] at e
        exact step pre e.2
    | anyChar =>
      cases pre with
      | nil => simp [unitsOf] at e
      | cons x pre =>
        simp only [unitsOf, List.cons_append, List.nil_append, List.cons.injEq] at e
        exact step pre e.2
    | oneOf cls => exact absurd rfl (hc _ (by simp) cls)

/-- A pattern in valid UTF-8 without `**` matches exactly the names that fit the word it was built from. -/
theorem pattern_matches {w : List Atom} (hc : ∀ a ∈ w, ∀ cls, a ≠ .oneOf cls) (hw : ¬ Spec.StarStar w)
    (hv : (chars (w.flatMap Atom.pattern)).isSome = true) (name : Bytes) :
    MatchesName (w.flatMap Atom.pattern) name ↔ Fits w name := by
  obtain ⟨pc, hpc⟩ := Option.isSome_iff_exists.1 hv
  have hpc' := hpc
  rw [pattern_units hc] at hpc'
  obtain ⟨ucs, hus, hp, hok⟩ := units_chars hpc'
  have hss : ∀ pre post, ucs ≠ pre ++ .any :: .any :: post := by
    intro pre post e
    have := no_starstar hw rfl hc (pre.flatMap UC.units) (post.flatMap UC.units)
    apply this
    rw [hus, e]; simp [UC.units]
  have ht : tokens pc.length true pc = some (ucs.map UC.tok) := by
    have := tokens_ucs hok hss (n := pc.length) (by rw [hp]) true
    rwa [← hp] at this
  rw [fits_units hc, hus]
  constructor
  · rintro ⟨pc', ts, nc, h1, h2, h3, h4⟩
    rw [hpc] at h1; cases h1
    rw [ht] at h2; cases h2
    have hf := chars_flatten h3
    rw [← hf.1]
    exact matches_fits (fun c hc => (hf.2 c hc).1) h4
  · intro h
    obtain ⟨nc, h1, h2⟩ := fits_matches hok h
    exact ⟨pc, _, nc, hpc, ht, h1, h2⟩

/-- The first character of the pattern of some units. -/
theorem pchars_head {ucs : List UC} {c : Bytes} {r : List Bytes} (h : ucs.flatMap UC.pchars = c :: r) :
    ∃ u vs, ucs = u :: vs ∧ (c = [cStar] → u = .any) ∧ (c = [cSlash] → u = .char [cSlash]) := by
  cases ucs with
  | nil => cases h
  | cons u vs =>
    refine ⟨u, vs, rfl, ?_⟩
    rw [List.flatMap_cons] at h
    cases u with
    | any =>
      simp only [UC.pchars, List.cons_append, List.cons.injEq] at h
      exact ⟨fun _ => rfl, fun hc => by rw [← h.1] at hc; exact absurd hc (by decide)⟩
    | one =>
      simp only [UC.pchars, List.cons_append, List.cons.injEq] at h
      exact ⟨fun hc => by rw [← h.1] at hc; exact absurd hc (by decide), fun hc => by rw [← h.1] at hc; exact absurd hc (by decide)⟩
    | char d =>
      by_cases hd : d.any (fun b => decide (Spec.Special b)) = true
      · simp only [UC.pchars, hd, if_true, List.cons_append, List.cons.injEq] at h
        exact ⟨fun hc => by rw [← h.1] at hc; exact absurd hc (by decide), fun hc => by rw [← h.1] at hc; exact absurd hc (by decide)⟩
      · have hd := Bool.eq_false_iff.2 hd
        simp only [UC.pchars, hd, Bool.false_eq_true, if_false, List.cons_append, List.nil_append, List.cons.injEq] at h
        exact ⟨fun hc => absurd (h.1.trans hc) (notSpecial_ne hd).2.1, fun hc => by rw [h.1.trans hc]⟩

theorem pchars_nil {ucs : List UC} (h : ucs.flatMap UC.pchars = []) : ucs = [] := by
  cases ucs with
  | nil => rfl
  | cons u vs =>
    rw [List.flatMap_cons] at h
    cases u with
    | any => cases h
    | one => cases h
    | char d => simp only [UC.pchars] at h; split at h <;> cases h

/-- Without a `/`, two adjacent stars are an error, unless they are all of the pattern. -/
theorem tokens_slashfree {ucs : List UC} (hok : ∀ u ∈ ucs, u.Ok) (hf : .char [cSlash] ∉ ucs) {n : Nat} {start : Bool} {ts : List Tok}
    (h : tokens n start (ucs.flatMap UC.pchars) = some ts) :
    (∀ pre post, ucs ≠ pre ++ .any :: .any :: post) ∨ ucs = [.any, .any] ∧ start = true ∧ ts = [.anyRecursive] := by
  induction ucs generalizing n start ts with
  | nil => exact .inl (by simp)
  | cons u ucs ih =>
    have hok' : ∀ v ∈ ucs, v.Ok := fun v hv => hok v (by simp [hv])
    have hf' : .char [cSlash] ∉ ucs := fun hm => hf (by simp [hm])
    have go : ∀ {n ts}, tokens n false (ucs.flatMap UC.pchars) = some ts → ∀ pre post, ucs ≠ pre ++ .any :: .any :: post := by
      intro n ts h
      rcases ih hok' hf' h with h | ⟨_, h, _⟩
      · exact h
      · cases h
    have skip : u ≠ .any → (∀ pre post, ucs ≠ pre ++ .any :: .any :: post) → ∀ pre post, u :: ucs ≠ pre ++ .any :: .any :: post := by
      intro hu h pre post e
      cases pre with
      | nil => simp at e; exact hu e.1
      | cons x pre => simp at e; exact h pre post e.2
    cases n with
    | zero =>
      rw [List.flatMap_cons] at h
      cases u with
      | any => cases h
      | one => cases h
      | char d => simp only [UC.pchars] at h; split at h <;> cases h
    | succ n =>
      rw [List.flatMap_cons] at h
      cases u with
      | one =>
        simp only [UC.pchars, List.cons_append, List.nil_append] at h
        rw [tokens, if_pos (by decide)] at h
        obtain ⟨ts', h, _⟩ := Option.map_eq_some_iff.1 h
        exact .inl (skip nofun (go h))
      | char c =>
        refine .inl (skip nofun ?_)
        by_cases hc : c.any (fun b => decide (Spec.Special b)) = true
        · obtain ⟨b, rfl, hb⟩ := isChar_special (hok (.char c) (by simp) : IsChar c) hc
          simp only [UC.pchars, hc, if_true, List.cons_append, List.nil_append] at h
          have hp : parseClass ([b] :: [93] :: ucs.flatMap UC.pchars) = some (.anyWithin [.single [b]], ucs.flatMap UC.pchars) := by
            rcases hb with rfl | rfl | rfl | rfl <;> rfl
          rw [tokens, if_neg (by decide), if_neg (by decide), if_pos (by decide), hp] at h
          obtain ⟨ts', h, _⟩ := Option.map_eq_some_iff.1 h
          exact go h
        · have hc := Bool.eq_false_iff.2 hc
          obtain ⟨h1, h2, h3, _⟩ := notSpecial_ne hc
          have h4 : c ≠ [cSlash] := by rintro rfl; exact hf (by simp)
          simp only [UC.pchars, hc, Bool.false_eq_true, if_false, List.cons_append, List.nil_append] at h
          rw [tokens, if_neg h1, if_neg h2, if_neg h3] at h
          obtain ⟨ts', h, _⟩ := Option.map_eq_some_iff.1 h
          rw [decide_eq_false h4] at h
          exact go h
      | any =>
        simp only [UC.pchars, List.cons_append, List.nil_append] at h
        rw [tokens, if_neg (by decide), if_pos (by decide)] at h
        split at h
        · rename_i hh
          cases hl : ucs.flatMap UC.pchars with
          | nil => rw [hl] at hh; cases hh
          | cons c r =>
            rw [hl] at hh h
            simp only [List.head?_cons, Option.some.injEq] at hh
            obtain ⟨u, vs, rfl, hu, _⟩ := pchars_head hl
            cases hu hh
            have hr : vs.flatMap UC.pchars = r := by
              rw [List.flatMap_cons] at hl
              simp only [UC.pchars, List.cons_append, List.nil_append, List.cons.injEq] at hl
              exact hl.2
            split at h
            · rename_i hs
              simp only [List.tail_cons] at h
              split at h
              · cases h
                exact .inr ⟨by rw [pchars_nil hr], hs, rfl⟩
              · split at h
                · rename_i hd
                  obtain ⟨v, vs', rfl, _, hv⟩ := pchars_head hr
                  cases hv hd
                  exact absurd (by simp) hf
                · cases h
            · cases h
        · rename_i hh
          obtain ⟨ts', h, _⟩ := Option.map_eq_some_iff.1 h
          refine .inl fun pre post e => ?_
          cases pre with
          | nil =>
            simp only [List.nil_append, List.cons.injEq, true_and] at e
            subst e
            exact hh rfl
          | cons x pre => simp at e; exact go h pre post e.2

/-- A pattern in valid UTF-8 without `/` only matches names that fit the word it was built from, even if there are adjacent stars. -/
theorem pattern_fits {w : List Atom} (hc : ∀ a ∈ w, ∀ cls, a ≠ .oneOf cls) (hs : ∀ s, .text s ∈ w → cSlash ∉ s) {name : Bytes}
    (h : MatchesName (w.flatMap Atom.pattern) name) : Fits w name := by
  obtain ⟨pc, ts, nc, hpc, ht, h3, h4⟩ := h
  rw [pattern_units hc] at hpc
  obtain ⟨ucs, hus, hp, hok⟩ := units_chars hpc
  have hfree : .char [cSlash] ∉ ucs := by
    intro hm
    have : U.byte cSlash ∈ w.flatMap unitsOf := by
      rw [hus, List.mem_flatMap]
      exact ⟨_, hm, by simp [UC.units]⟩
    obtain ⟨a, ha, hb⟩ := List.mem_flatMap.1 this
    cases a with
    | text s =>
      simp only [unitsOf, List.mem_map] at hb
      obtain ⟨b, hb, hb'⟩ := hb
      cases hb'
      exact hs s ha hb
    | anyText => simp [unitsOf] at hb
    | anyChar => simp [unitsOf] at hb
    | oneOf cls => exact hc _ ha cls rfl
  have hf := chars_flatten h3
  rw [fits_units hc, hus, ← hf.1]
  rw [hp] at ht
  rcases tokens_slashfree hok hfree ht with hss | ⟨rfl, _, rfl⟩
  · rw [tokens_ucs hok hss (Nat.le_refl _) true] at ht
    cases ht
    exact matches_fits (fun c hc => (hf.2 c hc).1) h4
  · cases h4 with
    | anyRecursive pre _ h =>
      cases h
      rw [List.append_nil] at hf ⊢
      have : FitsU [.any, .any] (pre.flatten ++ ([] ++ [])) :=
        .any _ (by rw [chars_of_isChar (fun c hc => (hf.2 c hc).1)]; rfl) (.any [] rfl .nil)
      simpa [UC.units] using this

end Glob
end Hush

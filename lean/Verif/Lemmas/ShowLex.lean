import Verif.Model.Show
import Verif.Spec.Show
import Verif.Lemmas.Utf8
import Verif.Lemmas.LexToken
import Verif.Lemmas.Args

/-!
The text of data: it is made of tokens.
-/

namespace Hush
open Spec

/-! ### Strings -/

/-- The inside of a string literal, written with some of the escapes. -/
inductive QuotedAs : Bytes → Bytes → Prop
  | nil : QuotedAs [] []
  | cons {b : UInt8} {u : StrUnit} {s t : Bytes} : u.Denotes (· == cDQuote) validateEscape b → QuotedAs s t → QuotedAs (b :: s) (u.text ++ t)

theorem QuotedAs.append {s t s' t' : Bytes} (h : QuotedAs s t) (h' : QuotedAs s' t') : QuotedAs (s ++ s') (t ++ t') := by
  induction h with
  | nil => exact h'
  | cons hu _ ih => rw [List.append_assoc]; exact .cons hu ih

theorem QuotedAs.raw {s : Bytes} (h : ∀ b ∈ s, b ≠ cDQuote ∧ b ≠ cBackslash) : QuotedAs s s := by
  induction s with
  | nil => exact .nil
  | cons b s ih =>
    have hb := h b List.mem_cons_self
    exact .cons (u := .raw b) ⟨by simpa using hb.1, hb.2, rfl⟩ (ih fun x hx => h x (List.mem_cons_of_mem _ hx))

theorem QuotedAs.esc {x b : UInt8} (h : validateEscape x = some b) : QuotedAs [b] [cBackslash, x] :=
  QuotedAs.cons (u := .esc x) h .nil

theorem reach_quoted {s t : Bytes} (h : QuotedAs s t) : ∀ {v p c r}, c.rest = t ++ r →
    Reach (.stringLit v none p) c t r [] (.stringLit (v ++ s) none p) := by
  induction h with
  | nil => intro v p c r hc; simpa using Reach.refl (by simpa using hc)
  | @cons b u s t hu _ ih =>
    intro v p c r hc
    refine Reach.bind (o := []) (reach_string_unit hu (r := t ++ r) (by simp [hc])) ?_
    intro c' _ hc'
    have := ih (v := v ++ [b]) (p := p) hc'
    simpa using this

theorem lex_quoted {s t r : Bytes} (h : QuotedAs s t) :
    (lexFrom .root (34 :: (t ++ 34 :: r))).kinds = prependKinds [.ok (.literal (.string s))] (lexFrom .root r).kinds := by
  have key : Reach .root (Cursor.start (34 :: (t ++ 34 :: r))) ([cDQuote] ++ (t ++ [cDQuote])) r
      [.ok ⟨.literal (.string s), (Cursor.start (34 :: (t ++ 34 :: r))).pos⟩] .root := by
    generalize hcur : Cursor.start (34 :: (t ++ 34 :: r)) = c
    have hc1 : c.rest = cDQuote :: (t ++ (cDQuote :: r)) := by rw [← hcur]; rfl
    refine Reach.bind (o := []) (.fwd hc1 (st' := .stringLit [] none c.pos) ?_) ?_
    · simp only [State.visit, visitRoot, Cursor.peek_cons hc1]; rfl
    intro c' _ hc'
    refine Reach.bind (o := []) (reach_quoted h hc') ?_
    intro c'' _ hc''
    refine .fwdEmit hc'' ?_
    simp only [State.visit, visitStringLit, Cursor.peek_cons hc'']; rfl
  exact key.emits.lex (st := .root) (st' := .root) trivial trivial rfl

/-! ### Characters -/

theorem char_ascii {c : Char} (h : c.toNat < 128) : String.utf8EncodeChar c = [UInt8.ofNat c.toNat] := by
  unfold String.utf8EncodeChar
  dsimp only
  rw [if_pos (by have : c.toNat = c.val.toNat := rfl; omega)]
  rfl

theorem high_byte {x : Nat} (h : 128 ≤ x) (h' : x < 256) : 128 ≤ UInt8.ofNat x := by
  rw [UInt8.le_iff_toNat_le]
  simp only [UInt8.toNat_ofNat']
  rw [Nat.mod_eq_of_lt h']
  exact h

theorem char_high {c : Char} (h : 128 ≤ c.toNat) : ∀ b ∈ String.utf8EncodeChar c, 128 ≤ b := by
  have hv : c.val.toNat < 0xD800 ∨ (0xDFFF < c.val.toNat ∧ c.val.toNat < 0x110000) := c.valid
  have h : 128 ≤ c.val.toNat := h
  unfold String.utf8EncodeChar
  dsimp only
  generalize c.val.toNat = v at hv h ⊢
  rw [if_neg (by omega)]
  split_ifs with h2 h3 <;> intro b hb <;> simp only [List.mem_cons, List.not_mem_nil, or_false] at hb
  · rcases hb with rfl | rfl <;> exact high_byte (by omega) (by omega)
  · rcases hb with rfl | rfl | rfl <;> exact high_byte (by omega) (by omega)
  · rcases hb with rfl | rfl | rfl | rfl <;> exact high_byte (by omega) (by omega)

theorem char_more {c : Char} (h : 128 ≤ c.toNat) : 2 ≤ (String.utf8EncodeChar c).length := by
  have h : 128 ≤ c.val.toNat := h
  unfold String.utf8EncodeChar
  dsimp only
  generalize c.val.toNat = v at h ⊢
  rw [if_neg (by omega)]
  split_ifs <;> simp

/-- An ASCII character that is written such that it can be read. -/
theorem ascii_quoted (w : World) (first : Bool) : ∀ b : UInt8, (b = 0 ∨ b = 9 ∨ b = 10 ∨ (32 ≤ b ∧ b < 127)) →
    (∃ x, Show.escapeChar w first [b] = [cBackslash, x] ∧ validateEscape x = some b) ∨
    (Show.escapeChar w first [b] = [b] ∧ b ≠ cDQuote ∧ b ≠ cBackslash) := by
  intro b hb
  by_cases h0 : b = 0
  · subst h0; exact .inl ⟨48, rfl, rfl⟩
  by_cases h9 : b = 9
  · subst h9; exact .inl ⟨116, rfl, rfl⟩
  by_cases h10 : b = 10
  · subst h10; exact .inl ⟨110, rfl, rfl⟩
  have hb : 32 ≤ b ∧ b < 127 := by
    rcases hb with h | h | h | h
    · exact absurd h h0
    · exact absurd h h9
    · exact absurd h h10
    · exact h
  have h13 : b ≠ 13 := by rintro rfl; exact absurd hb.1 (by decide)
  by_cases h34 : b = 34
  · subst h34; exact .inl ⟨34, rfl, rfl⟩
  by_cases h39 : b = 39
  · subst h39; exact .inl ⟨39, rfl, rfl⟩
  by_cases h92 : b = 92
  · subst h92; exact .inl ⟨92, rfl, rfl⟩
  refine .inr ⟨?_, h34, h92⟩
  simp only [Show.escapeChar, h0, h9, h10, h13, h34, h39, h92, or_self, if_false, hb, and_self, if_true]

theorem char_quoted {w : World} {first : Bool} {c : Char} (h : Quotable w first c) :
    QuotedAs (String.utf8EncodeChar c) (Show.escapeChar w first (String.utf8EncodeChar c)) := by
  by_cases hc : c.toNat < 128
  · rw [char_ascii hc]
    have hn : (UInt8.ofNat c.toNat).toNat = c.toNat := by simp; omega
    have hb : UInt8.ofNat c.toNat = 0 ∨ UInt8.ofNat c.toNat = 9 ∨ UInt8.ofNat c.toNat = 10 ∨ (32 ≤ UInt8.ofNat c.toNat ∧ UInt8.ofNat c.toNat < 127) := by
      rcases h with h | h | h | h | h
      · rw [h]; exact .inl rfl
      · rw [h]; exact .inr (.inl rfl)
      · rw [h]; exact .inr (.inr (.inl rfl))
      · refine .inr (.inr (.inr ⟨?_, ?_⟩))
        · rw [UInt8.le_iff_toNat_le, hn]; exact h.1
        · rw [UInt8.lt_iff_toNat_lt, hn]; exact h.2
      · omega
    rcases ascii_quoted w first _ hb with ⟨x, h1, h2⟩ | ⟨h1, h2, h3⟩
    · rw [h1]; exact .esc h2
    · rw [h1]; exact .raw (by simpa using ⟨h2, h3⟩)
  · have hc : 128 ≤ c.toNat := by omega
    have hp : w.plain first (String.utf8EncodeChar c) = true := by
      rcases h with h | h | h | h | h
      · omega
      · omega
      · omega
      · omega
      · exact h.2
    have hl := char_more hc
    have hh := char_high hc
    have : Show.escapeChar w first (String.utf8EncodeChar c) = String.utf8EncodeChar c := by
      generalize String.utf8EncodeChar c = l at hl hp ⊢
      unfold Show.escapeChar
      split
      · simp at hl
      · rw [if_pos hp]
    rw [this]
    refine .raw fun b hb => ?_
    have := hh b hb
    constructor <;> rintro rfl <;> exact absurd this (by decide)

theorem escapeOf_quoted {w : World} : ∀ (s : List Char) (n : Nat) (first : Bool), (utf8 s).length ≤ n →
    (∀ c ∈ s.head?, Quotable w first c) → (∀ c ∈ s.tail, Quotable w false c) → QuotedAs (utf8 s) (Show.escapeOf w n first (utf8 s))
  | [], 0, _, _, _, _ => .nil
  | [], n + 1, _, _, _, _ => .nil
  | c :: s, 0, _, h, _, _ => by
    have := char_length c
    simp only [utf8, List.flatMap_cons, List.length_append] at h
    omega
  | c :: s, n + 1, first, h, h1, h2 => by
    have hc := char_length c
    have e : utf8 (c :: s) = String.utf8EncodeChar c ++ utf8 s := List.flatMap_cons
    rw [e] at h ⊢
    rw [List.length_append] at h
    rw [Show.escapeOf.eq_3 _ _ _ _ (by simp), chunk_char, List.drop_left, List.take_left]
    refine (char_quoted (h1 c rfl)).append (escapeOf_quoted s n false (by omega) (fun c' hc' => h2 c' ?_) fun c' hc' => h2 c' ?_)
    · exact List.mem_of_mem_head? hc'
    · exact List.mem_of_mem_tail hc'

theorem text_quoted {w : World} {s : List Char} (h : QuotableText w s) :
    ∃ t, Show.string w (utf8 s) = 34 :: (t ++ [34]) ∧ QuotedAs (utf8 s) t := by
  refine ⟨_, rfl, ?_⟩
  rw [lossy_utf8]
  cases s with
  | nil => exact .nil
  | cons c s => exact escapeOf_quoted _ _ _ (Nat.le_refl _) (by rintro _ ⟨⟩; exact h.1) h.2

end Hush

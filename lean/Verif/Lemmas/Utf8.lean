import Verif.Model.Text
import Verif.Model.Json
import Verif.Spec.Json
import Verif.Lemmas.Args
import Verif.Lemmas.LexTerm

/-!
Texts of characters are UTF-8.
-/

namespace Hush
open Hush.Spec

theorem byte_le (k : UInt8) {x : Nat} (h : x < 256) : k ≤ UInt8.ofNat x ↔ k.toNat ≤ x := by
  rw [UInt8.le_iff_toNat_le, UInt8.toNat_ofNat', Nat.mod_eq_of_lt h]

theorem byte_ge (k : UInt8) {x : Nat} (h : x < 256) : UInt8.ofNat x ≤ k ↔ x ≤ k.toNat := by
  rw [UInt8.le_iff_toNat_le, UInt8.toNat_ofNat', Nat.mod_eq_of_lt h]

theorem byte_eq (k : UInt8) {x : Nat} (h : x < 256) : UInt8.ofNat x = k ↔ x = k.toNat := by
  rw [← UInt8.toNat_inj, UInt8.toNat_ofNat', Nat.mod_eq_of_lt h]

theorem cont_byte {x : Nat} : isCont (UInt8.ofNat (x % 64 + 128)) = true := by
  have h : x % 64 + 128 < 256 := by omega
  rw [isCont, decide_eq_true_eq, byte_le _ h, byte_ge _ h]
  show 128 ≤ _ ∧ _ ≤ 191
  omega

theorem second_byte {x y : Nat} (hx : x < 256) (h1 : x = 0xE0 → 32 ≤ y % 64) (h2 : x = 0xED → y % 64 < 32) (h3 : x = 0xF0 → 16 ≤ y % 64)
    (h4 : x = 0xF4 → y % 64 < 16) : utf8Second (UInt8.ofNat x) (UInt8.ofNat (y % 64 + 128)) = true := by
  have hy : y % 64 + 128 < 256 := by omega
  unfold utf8Second
  simp only [byte_eq _ hx, byte_le _ hy, byte_ge _ hy]
  split
  · rename_i h
    rw [decide_eq_true_eq]
    show 160 ≤ _ ∧ _ ≤ 191
    have := h1 h
    omega
  split
  · rename_i h
    rw [decide_eq_true_eq]
    show 128 ≤ _ ∧ _ ≤ 159
    have := h2 h
    omega
  split
  · rename_i h
    rw [decide_eq_true_eq]
    show 144 ≤ _ ∧ _ ≤ 191
    have := h3 h
    omega
  split
  · rename_i h
    rw [decide_eq_true_eq]
    show 128 ≤ _ ∧ _ ≤ 143
    have := h4 h
    omega
  exact cont_byte

theorem width1 {x : Nat} (h : x ≤ 127) : utf8Width (UInt8.ofNat x) = 1 := by
  rw [utf8Width, if_pos ((byte_ge _ (by omega)).2 h)]

theorem width2 {x : Nat} (h : 0xC2 ≤ x) (h' : x ≤ 0xDF) : utf8Width (UInt8.ofNat x) = 2 :=
  (forall_byte (P := fun b => 0xC2 ≤ b ∧ b ≤ 0xDF → utf8Width b = 2) (by decide +kernel)) _
    ⟨(byte_le _ (by omega)).2 h, (byte_ge _ (by omega)).2 h'⟩

theorem width3 {x : Nat} (h : 0xE0 ≤ x) (h' : x ≤ 0xEF) : utf8Width (UInt8.ofNat x) = 3 :=
  (forall_byte (P := fun b => 0xE0 ≤ b ∧ b ≤ 0xEF → utf8Width b = 3) (by decide +kernel)) _
    ⟨(byte_le _ (by omega)).2 h, (byte_ge _ (by omega)).2 h'⟩

theorem width4 {x : Nat} (h : 0xF0 ≤ x) (h' : x ≤ 0xF4) : utf8Width (UInt8.ofNat x) = 4 :=
  (forall_byte (P := fun b => 0xF0 ≤ b ∧ b ≤ 0xF4 → utf8Width b = 4) (by decide +kernel)) _
    ⟨(byte_le _ (by omega)).2 h, (byte_ge _ (by omega)).2 h'⟩

theorem chunk_of {b : UInt8} {s : Bytes} {k : Nat} (hw : utf8Width b = k + 1) (hf : k ≤ utf8Fits b s) : utf8Chunk (b :: s) = (true, k + 1) := by
  unfold utf8Chunk
  dsimp only
  rw [hw, Nat.add_sub_cancel, Nat.min_eq_left hf, if_pos rfl]

/-- A character is one part of a text. -/
theorem chunk_char (c : Char) (rest : Bytes) :
    utf8Chunk (String.utf8EncodeChar c ++ rest) = (true, (String.utf8EncodeChar c).length) := by
  have hv : c.val.toNat < 0xD800 ∨ (0xDFFF < c.val.toNat ∧ c.val.toNat < 0x110000) := c.valid
  unfold String.utf8EncodeChar
  dsimp only
  generalize c.val.toNat = v at hv ⊢
  by_cases h1 : v ≤ 0x7f
  · rw [if_pos h1]
    exact chunk_of (width1 h1) (Nat.zero_le _)
  rw [if_neg h1]
  by_cases h2 : v ≤ 0x7ff
  · rw [if_pos h2]
    refine chunk_of (k := 1) (width2 (by omega) (by omega)) ?_
    show 1 ≤ utf8Fits _ (_ :: rest)
    rw [utf8Fits, if_pos (second_byte (by omega) (by omega) (by omega) (by omega) (by omega))]
    omega
  rw [if_neg h2]
  by_cases h3 : v ≤ 0xffff
  · rw [if_pos h3]
    refine chunk_of (k := 2) (width3 (by omega) (by omega)) ?_
    show 2 ≤ utf8Fits _ (_ :: _ :: rest)
    rw [utf8Fits, if_pos (second_byte (by omega) (by omega) (by omega) (by omega) (by omega)), List.takeWhile_cons, cont_byte, if_pos rfl, List.length_cons]
    omega
  rw [if_neg h3]
  refine chunk_of (k := 3) (width4 (by omega) (by omega)) ?_
  show 3 ≤ utf8Fits _ (_ :: _ :: _ :: rest)
  rw [utf8Fits, if_pos (second_byte (by omega) (by omega) (by omega) (by omega) (by omega)), List.takeWhile_cons, cont_byte, if_pos rfl, List.length_cons,
    List.takeWhile_cons, cont_byte, if_pos rfl, List.length_cons]
  omega

theorem char_length (c : Char) : 0 < (String.utf8EncodeChar c).length := List.length_pos_iff.2 String.utf8EncodeChar_ne_nil

theorem isUtf8Of_utf8 : ∀ (s : List Char) (n : Nat), (utf8 s).length ≤ n → isUtf8Of n (utf8 s) = true
  | [], 0, _ => rfl
  | [], n + 1, _ => rfl
  | c :: s, 0, h => by
    have := char_length c
    simp only [utf8, List.flatMap_cons, List.length_append] at h
    omega
  | c :: s, n + 1, h => by
    have hc := char_length c
    have e : utf8 (c :: s) = String.utf8EncodeChar c ++ utf8 s := List.flatMap_cons
    rw [e] at h ⊢
    rw [List.length_append] at h
    rw [isUtf8Of.eq_3 _ _ (by simp), chunk_char, List.drop_left, isUtf8Of_utf8 s n (by omega)]
    rfl

theorem isUtf8_utf8 (s : List Char) : isUtf8 (utf8 s) = true := isUtf8Of_utf8 s _ (Nat.le_refl _)

theorem lossyOf_utf8 : ∀ (s : List Char) (n : Nat), (utf8 s).length ≤ n → utf8LossyOf n (utf8 s) = utf8 s
  | [], 0, _ => rfl
  | [], n + 1, _ => rfl
  | c :: s, 0, h => by
    have := char_length c
    simp only [utf8, List.flatMap_cons, List.length_append] at h
    omega
  | c :: s, n + 1, h => by
    have hc := char_length c
    have e : utf8 (c :: s) = String.utf8EncodeChar c ++ utf8 s := List.flatMap_cons
    rw [e] at h ⊢
    rw [List.length_append] at h
    rw [utf8LossyOf.eq_3 _ _ (by simp), chunk_char, List.drop_left, List.take_left, lossyOf_utf8 s n (by omega)]
    rfl

theorem lossy_utf8 (s : List Char) : utf8Lossy (utf8 s) = utf8 s := lossyOf_utf8 s _ (Nat.le_refl _)

theorem utf8_inj : ∀ {s t : List Char}, utf8 s = utf8 t → s = t
  | [], [], _ => rfl
  | [], c :: t, h => by
    have := congrArg List.length h
    have hc := char_length c
    simp only [utf8, List.flatMap_nil, List.flatMap_cons, List.length_nil, List.length_append] at this
    omega
  | c :: s, [], h => by
    have := congrArg List.length h
    have hc := char_length c
    simp only [utf8, List.flatMap_nil, List.flatMap_cons, List.length_nil, List.length_append] at this
    omega
  | c :: s, d :: t, h => by
    have e : String.utf8EncodeChar c ++ utf8 s = String.utf8EncodeChar d ++ utf8 t := h
    have h1 := ByteArray.utf8DecodeChar?_utf8EncodeChar_append (b := (utf8 s).toByteArray) (c := c)
    have h2 := ByteArray.utf8DecodeChar?_utf8EncodeChar_append (b := (utf8 t).toByteArray) (c := d)
    rw [← List.toByteArray_append] at h1 h2
    rw [e, h2] at h1
    cases h1
    rw [utf8_inj (List.append_cancel_left e)]

end Hush

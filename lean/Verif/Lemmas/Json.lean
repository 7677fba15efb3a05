import Verif.Lemmas.Utf8

/-!
What is written as JSON is read back.
-/

namespace Hush
open Hush.Spec

/-! ### Strings -/

theorem escape_read (b : UInt8) (n : Nat) (t : Bytes) :
    Json.stringBody (n + 1) (Json.escape b ++ t) = (Json.stringBody n t).map (fun r => (b :: r.1, r.2)) := by
  unfold Json.escape
  by_cases h1 : b = 34
  · subst h1; rfl
  rw [if_neg h1]
  by_cases h2 : b = 92
  · subst h2; rfl
  rw [if_neg h2]
  by_cases h3 : b = 8
  · subst h3; rfl
  rw [if_neg h3]
  by_cases h4 : b = 9
  · subst h4; rfl
  rw [if_neg h4]
  by_cases h5 : b = 10
  · subst h5; rfl
  rw [if_neg h5]
  by_cases h6 : b = 12
  · subst h6; rfl
  rw [if_neg h6]
  by_cases h7 : b = 13
  · subst h7; rfl
  rw [if_neg h7]
  by_cases h8 : b < 32
  · rw [if_pos h8]
    have hx : Json.hexNum (Json.hexLower (b.toNat / 16)) = some (b.toNat / 16) ∧ Json.hexNum (Json.hexLower (b.toNat % 16)) = some (b.toNat % 16) :=
      (forall_byte (P := fun b => Json.hexNum (Json.hexLower (b.toNat / 16)) = some (b.toNat / 16) ∧
        Json.hexNum (Json.hexLower (b.toNat % 16)) = some (b.toNat % 16)) (by decide +kernel)) b
    have hu : utf8Encode b.toNat = [b] := (forall_byte (P := fun b => b < 32 → utf8Encode b.toNat = [b]) (by decide +kernel)) b h8
    have hlt : b.toNat < 32 := by simpa [UInt8.lt_iff_toNat_lt] using h8
    have h4 : Json.hex4 (48 :: 48 :: Json.hexLower (b.toNat / 16) :: Json.hexLower (b.toNat % 16) :: t) = some (b.toNat, t) := by
      rw [Json.hex4, hx.1, hx.2]
      show some (4096 * 0 + 256 * 0 + 16 * (b.toNat / 16) + b.toNat % 16, t) = _
      congr 2
      omega
    have hue : Json.unicodeEscape (48 :: 48 :: Json.hexLower (b.toNat / 16) :: Json.hexLower (b.toNat % 16) :: t) = some ([b], t) := by
      rw [Json.unicodeEscape, h4]
      dsimp only
      rw [if_neg (by omega), if_neg (by omega), hu]
    show (match Json.unicodeEscape (48 :: 48 :: Json.hexLower (b.toNat / 16) :: Json.hexLower (b.toNat % 16) :: t) with
      | none => none
      | some (t, s) => (Json.stringBody n s).map (fun r : Bytes × Bytes => (t ++ r.1, r.2))) = _
    rw [hue]
    rfl
  · rw [if_neg h8]
    show Json.stringBody (n + 1) (b :: t) = _
    rw [Json.stringBody, if_neg h1, if_neg h2, if_neg h8]

theorem stringBody_read : ∀ (s : Bytes) (n : Nat) (t : Bytes), s.length < n → Json.stringBody n (s.flatMap Json.escape ++ 34 :: t) = some (s, t)
  | [], 0, _, h => absurd h (Nat.lt_irrefl _)
  | [], n + 1, t, _ => rfl
  | b :: s, 0, _, h => absurd h (Nat.not_lt_zero _)
  | b :: s, n + 1, t, h => by
    rw [List.flatMap_cons, List.append_assoc, escape_read, stringBody_read s n t (by simpa using h)]
    rfl

theorem escape_length (b : UInt8) : 0 < (Json.escape b).length :=
  (forall_byte (P := fun b => 0 < (Json.escape b).length) (by decide +kernel)) b

theorem flatMap_escape_length (s : Bytes) : s.length ≤ (s.flatMap Json.escape).length := by
  induction s with
  | nil => exact Nat.le_refl _
  | cons b s ih =>
    have := escape_length b
    rw [List.flatMap_cons, List.length_append, List.length_cons]
    omega

theorem string_read (s : List Char) (t : Bytes) : Json.string ((utf8 s).flatMap Json.escape ++ 34 :: t) = some (utf8 s, t) := by
  have := flatMap_escape_length (utf8 s)
  rw [Json.string, stringBody_read _ _ _ (by rw [List.length_append]; omega)]
  dsimp only
  rw [isUtf8_utf8, if_pos rfl]

/-! ### Numbers -/

/-- A number ends here. -/
def NumberEnd (rest : Bytes) : Prop := ∀ c t, rest = c :: t → isDigit c = false ∧ c ≠ 46 ∧ c ≠ 101 ∧ c ≠ 69

theorem takeWhile_digits {ds rest : Bytes} (hd : ∀ d ∈ ds, isDigit d = true) (hr : ∀ c t, rest = c :: t → isDigit c = false) :
    (ds ++ rest).takeWhile isDigit = ds ∧ (ds ++ rest).dropWhile isDigit = rest := by
  induction ds with
  | nil =>
    cases rest with
    | nil => exact ⟨rfl, rfl⟩
    | cons c t =>
      have := hr c t rfl
      simp [this]
  | cons d ds ih =>
    have h1 := hd d List.mem_cons_self
    have h2 := ih fun x hx => hd x (List.mem_cons_of_mem _ hx)
    simp [h1, h2]

theorem digits1_read {ds rest : Bytes} (hne : ds ≠ []) (hd : ∀ d ∈ ds, isDigit d = true) (hr : ∀ c t, rest = c :: t → isDigit c = false) :
    Json.digits1 (ds ++ rest) = some (ds, rest) := by
  obtain ⟨h1, h2⟩ := takeWhile_digits hd hr
  rw [Json.digits1, h1, h2, if_neg (by simpa using hne)]

theorem fraction_none {rest : Bytes} (h : ∀ c t, rest = c :: t → c ≠ 46) : Json.fraction rest = some ([], rest) := by
  unfold Json.fraction
  split
  · exact absurd rfl (h _ _ rfl)
  · rfl

theorem exponent_none {rest : Bytes} (h : ∀ c t, rest = c :: t → c ≠ 101 ∧ c ≠ 69) : Json.exponent rest = some ([], rest) := by
  unfold Json.exponent
  split
  · rename_i e s
    rw [if_neg (by have := h e s rfl; simp [this.1, this.2])]
  · rfl

theorem digit_iff (c : UInt8) : isDigit c = true ↔ 48 ≤ c ∧ c ≤ 57 := by simp [isDigit]

theorem int_read (w : World) {i : Int} (h1 : -2 ^ 63 ≤ i) (h2 : i < 2 ^ 63) {ds rest : Bytes} (hn : Numeral i.natAbs ds) (hr : NumberEnd rest) :
    Json.number w (decide (i < 0)) (ds ++ rest) = some (.int i, rest) := by
  obtain ⟨hne, hd, hv, hz⟩ := hn
  rw [Json.number, digits1_read hne hd fun c t e => (hr c t e).1]
  dsimp only
  rw [if_neg (fun h => h.2 (hz h.1)), fraction_none fun c t e => (hr c t e).2.1]
  dsimp only
  rw [exponent_none fun c t e => (hr c t e).2.2]
  have hv' : Json.decimalValue ds = i.natAbs := by
    rw [← hv, Json.decimalValue, decimal]
    congr 1
    funext n d
    omega
  dsimp only
  rw [hv', if_neg (by simp)]
  by_cases hi : i < 0
  · rw [decide_eq_true hi, if_pos rfl, if_pos (by omega)]
    congr 2
    congr 1
    omega
  · rw [decide_eq_false hi, if_neg nofun, if_pos (by omega)]
    congr 2
    congr 1
    omega

theorem float_read (w : World) {f : UInt64} {sign whole frac exp rest : Bytes} (hs : sign = [] ∨ sign = [45]) (hw : AllDigits whole)
    (hz : whole.head? = some 48 → whole = [48]) (hf : frac = [] ∨ ∃ ds, AllDigits ds ∧ frac = 46 :: ds)
    (he : exp = [] ∨ ∃ e s ds, (e = 101 ∨ e = 69) ∧ (s = [] ∨ s = [43] ∨ s = [45]) ∧ AllDigits ds ∧ exp = e :: (s ++ ds)) (hne : frac ++ exp ≠ [])
    (hv : w.jsonNumber (sign ++ whole ++ frac ++ exp) = some f) (hr : NumberEnd rest) :
    Json.number w (decide (sign = [45])) (whole ++ (frac ++ (exp ++ rest))) = some (.float f, rest) := by
  have exp_start : ∀ c t, exp ++ rest = c :: t → isDigit c = false ∧ c ≠ 46 := by
    intro c t e
    rcases he with rfl | ⟨x, s, ds, hx, -, -, rfl⟩
    · exact ⟨(hr c t e).1, (hr c t e).2.1⟩
    · cases e
      rcases hx with rfl | rfl <;> decide
  have frac_start : ∀ c t, frac ++ (exp ++ rest) = c :: t → isDigit c = false := by
    intro c t e
    rcases hf with rfl | ⟨ds, -, rfl⟩
    · exact (exp_start c t e).1
    · cases e
      decide
  have h1 := digits1_read hw.1 (fun d hd => (digit_iff d).2 (hw.2 d hd)) frac_start
  have h2 : Json.fraction (frac ++ (exp ++ rest)) = some (frac, exp ++ rest) := by
    rcases hf with rfl | ⟨ds, hds, rfl⟩
    · exact fraction_none fun c t e => (exp_start c t e).2
    · show (Json.digits1 (ds ++ (exp ++ rest))).map (fun r => (46 :: r.1, r.2)) = _
      rw [digits1_read hds.1 (fun d hd => (digit_iff d).2 (hds.2 d hd)) fun c t e => (exp_start c t e).1]
      rfl
  have h3 : Json.exponent (exp ++ rest) = some (exp, rest) := by
    rcases he with rfl | ⟨x, s, ds, hx, hsg, hds, rfl⟩
    · exact exponent_none fun c t e => (hr c t e).2.2
    · have hd := digits1_read (rest := rest) hds.1 (fun d hd => (digit_iff d).2 (hds.2 d hd)) fun c t e => (hr c t e).1
      rw [List.cons_append]
      unfold Json.exponent
      dsimp only
      rw [if_pos hx, List.append_assoc]
      rcases hsg with rfl | rfl | rfl
      · obtain ⟨hd0, hds⟩ := hds
        cases ds with
        | nil => exact absurd rfl hd0
        | cons c ds =>
          have hc := hds c List.mem_cons_self
          show (if c = 43 ∨ c = 45 then _ else (Json.digits1 (c :: ds ++ rest)).map _) = _
          rw [if_neg, hd]
          · rfl
          · have : ∀ c : UInt8, 48 ≤ c ∧ c ≤ 57 → ¬ (c = 43 ∨ c = 45) := forall_byte (by decide +kernel)
            exact this c hc
      · show (if (43 : UInt8) = 43 ∨ (43 : UInt8) = 45 then (Json.digits1 (ds ++ rest)).map _ else _) = _
        rw [if_pos (.inl rfl), hd]
        rfl
      · show (if (45 : UInt8) = 43 ∨ (45 : UInt8) = 45 then (Json.digits1 (ds ++ rest)).map _ else _) = _
        rw [if_pos (.inr rfl), hd]
        rfl
  have h4 : (if decide (sign = [45]) = true then [45] else []) = sign := by
    rcases hs with rfl | rfl <;> rfl
  rw [Json.number, h1]
  dsimp only
  rw [if_neg (fun h => h.2 (hz h.1)), h2]
  dsimp only
  rw [h3]
  dsimp only
  rw [if_pos hne, h4, hv]
  rfl

/-! ### The text of data -/

mutual
/-- The text of data at a level of nesting. -/
def dataText (w : World) (d : Nat) : Data → Bytes
  | .nil => [110, 117, 108, 108]
  | .bool b => boolText b
  | .int i => intText i
  | .float f => w.jsonFloat f
  | .text s => Json.quote (utf8 s)
  | .list js => Json.layout 91 93 d (itemTexts w d js)
  | .record es => Json.layout 123 125 d (entryTexts w d es)
/-- The texts of the items. -/
def itemTexts (w : World) (d : Nat) : List Data → List Bytes
  | [] => []
  | j :: js => dataText w (d + 1) j :: itemTexts w d js
/-- The texts of the entries. -/
def entryTexts (w : World) (d : Nat) : List (List Char × Data) → List Bytes
  | [] => []
  | (k, j) :: es => (Json.quote (utf8 k) ++ [58, 32] ++ dataText w (d + 1) j) :: entryTexts w d es
end

theorem finite_kept {w : World} {f : UInt64} (h : FloatKept w f) : Json.isFinite f = true := by
  have h1 := h.1
  unfold Json.isFinite floatMagnitude
  rw [decide_eq_true_eq]
  omega

mutual
theorem encode_text {w : World} {h : Heap} : ∀ (j : Data) (v : Value) (n d : Nat), Holds h j v → Proper w j → j.depth < n →
    Json.encode w h n d v = .ok (dataText w d j)
  | .nil, v, n + 1, d, hv, _, _ => by rw [Holds] at hv; subst hv; rfl
  | .bool b, v, n + 1, d, hv, _, _ => by rw [Holds] at hv; subst hv; rfl
  | .int i, v, n + 1, d, hv, _, _ => by rw [Holds] at hv; subst hv; rfl
  | .float f, v, n + 1, d, hv, hp, _ => by
    rw [Holds] at hv
    rw [Proper] at hp
    subst hv
    show Except.ok (if Json.isFinite f then w.jsonFloat f else _) = _
    rw [finite_kept hp]
    rfl
  | .text s, v, n + 1, d, hv, _, _ => by
    rw [Holds] at hv
    subst hv
    show Except.ok (Json.quote (utf8Lossy (utf8 s))) = _
    rw [lossy_utf8]
    rfl
  | .list js, v, n + 1, d, hv, hp, hd => by
    rw [Holds] at hv
    rw [Proper] at hp
    rw [Data.depth] at hd
    obtain ⟨a, vs, rfl, ha, hvs⟩ := hv
    have he : h.array a = vs := by rw [Heap.array, List.getD_eq_getElem?_getD, ha]; rfl
    rw [Json.encode]
    rw [he, encode_items js vs n d hvs hp (by omega)]
    rfl
  | .record es, v, n + 1, d, hv, hp, hd => by
    rw [Holds] at hv
    rw [Proper] at hp
    rw [Data.depth] at hd
    obtain ⟨a, kvs, rfl, ha, hvs⟩ := hv
    have he : h.dict a = kvs := by rw [Heap.dict, List.getD_eq_getElem?_getD, ha]; rfl
    rw [Json.encode]
    rw [he, encode_entries es kvs n d hvs hp.2 (by omega)]
    rfl
theorem encode_items {w : World} {h : Heap} : ∀ (js : List Data) (vs : List Value) (n d : Nat), HoldItems h js vs → ProperItems w js → depthItems js < n →
    Json.encodeAll (Json.encode w h n (d + 1)) vs = .ok (itemTexts w d js)
  | [], vs, n, d, hv, _, _ => by rw [HoldItems] at hv; subst hv; rfl
  | j :: js, vs, n, d, hv, hp, hd => by
    rw [HoldItems] at hv
    rw [ProperItems] at hp
    rw [depthItems] at hd
    obtain ⟨v, rest, rfl, h1, h2⟩ := hv
    rw [Json.encodeAll, encode_text j v n (d + 1) h1 hp.1 (by omega)]
    dsimp only
    rw [encode_items js rest n d h2 hp.2 (by omega)]
    rfl
theorem encode_entries {w : World} {h : Heap} : ∀ (es : List (List Char × Data)) (kvs : List (Value × Value)) (n d : Nat), HoldEntries h es kvs →
    ProperEntries w es → depthEntries es < n → Json.encodeAll (Json.encodeEntry (Json.encode w h n (d + 1))) kvs = .ok (entryTexts w d es)
  | [], vs, n, d, hv, _, _ => by rw [HoldEntries] at hv; subst hv; rfl
  | (k, j) :: es, vs, n, d, hv, hp, hd => by
    rw [HoldEntries] at hv
    rw [ProperEntries] at hp
    rw [depthEntries] at hd
    obtain ⟨v, rest, rfl, h1, h2⟩ := hv
    have he : Json.encodeEntry (Json.encode w h n (d + 1)) (.string (utf8 k), v) = .ok (Json.quote (utf8 k) ++ [58, 32] ++ dataText w (d + 1) j) := by
      rw [Json.encodeEntry]
      dsimp only
      rw [encode_text j v n (d + 1) h1 hp.1 (by omega)]
      dsimp only
      rw [lossy_utf8]
    rw [Json.encodeAll, he]
    dsimp only
    rw [encode_entries es rest n d h2 hp.2 (by omega)]
    rfl
end

end Hush

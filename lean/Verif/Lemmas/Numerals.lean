import Verif.Spec.Numerals
import Verif.Lemmas.Library
import Verif.Lemmas.Structure
import Mathlib.Data.List.Induction

/-!
Conversions to integers.
-/

namespace Hush
open Hush.Spec

theorem digits_iff (s : Bytes) (n : Nat) : Digits s n ↔ s ≠ [] ∧ s.all isDigit = true ∧ s.foldl (fun n d => n * 10 + (d.toNat - 48)) 0 = n := by
  have hd : ∀ d, d < 10 → isDigit (UInt8.ofNat (48 + d)) = true ∧ (UInt8.ofNat (48 + d)).toNat - 48 = d := by
    intro d hd
    have : ∀ d : Fin 10, isDigit (UInt8.ofNat (48 + d)) = true ∧ (UInt8.ofNat (48 + d)).toNat - 48 = d := by decide
    exact this ⟨d, hd⟩
  constructor
  · intro h
    induction h with
    | one h =>
      refine ⟨nofun, ?_, ?_⟩
      · simp only [List.all_cons, (hd _ h).1, List.all_nil, Bool.and_self]
      · simp only [List.foldl_cons, List.foldl_nil, (hd _ h).2, Nat.zero_mul, Nat.zero_add]
    | more _ h ih =>
      refine ⟨by simp, ?_, ?_⟩
      · simp only [List.all_append, ih.2.1, List.all_cons, (hd _ h).1, List.all_nil, Bool.and_self]
      · simp only [List.foldl_append, ih.2.2, List.foldl_cons, List.foldl_nil, (hd _ h).2, Nat.mul_comm]
  · rintro ⟨h1, h2, h3⟩
    have hc : ∀ c : UInt8, isDigit c = true → ∃ d, d < 10 ∧ c = UInt8.ofNat (48 + d) := by
      have : ∀ c : UInt8, isDigit c = true → c.toNat - 48 < 10 ∧ c = UInt8.ofNat (48 + (c.toNat - 48)) := forall_byte (by decide +kernel)
      exact fun c h => ⟨_, this c h⟩
    induction s using List.reverseRecOn generalizing n with
    | nil => exact absurd rfl h1
    | append_singleton s c ih =>
      simp only [List.all_append, Bool.and_eq_true, List.all_cons, List.all_nil, Bool.and_true] at h2
      obtain ⟨d, hlt, rfl⟩ := hc c h2.2
      simp only [List.foldl_append, List.foldl_cons, List.foldl_nil, (hd d hlt).2] at h3
      by_cases hs : s = []
      · subst hs
        simp only [List.foldl_nil, Nat.zero_mul, Nat.zero_add] at h3
        subst h3
        exact .one hlt
      · subst h3
        rw [Nat.mul_comm]
        exact .more (ih _ hs h2.1 rfl) hlt

theorem digits_signless {s n c t} (h : Digits s n) (hs : s = c :: t) : c ≠ 43 ∧ c ≠ 45 := by
  subst hs
  have h1 := ((digits_iff _ _).1 h).2.1
  simp only [List.all_cons, Bool.and_eq_true] at h1
  have : ∀ c : UInt8, isDigit c = true → c ≠ 43 ∧ c ≠ 45 := forall_byte (by decide +kernel)
  exact this c h1.1

theorem parse_iff (s : Bytes) (i : Int) : Lib.parseI64 s = some i ↔ IntText s i ∧ -9223372036854775808 ≤ i ∧ i ≤ 9223372036854775807 := by
  have hdig : ∀ (ds : Bytes) (n : Nat),
      (if ds.isEmpty || !ds.all isDigit then none else some (ds.foldl (fun n d => n * 10 + (d.toNat - 48)) 0)) = some n ↔ Digits ds n := by
    intro ds n
    rw [digits_iff]
    by_cases h : (ds.isEmpty || !ds.all isDigit) = true
    · rw [if_pos h]
      refine ⟨nofun, fun ⟨h1, h2, _⟩ => ?_⟩
      simp only [Bool.or_eq_true, List.isEmpty_iff, h1, h2, Bool.not_true, false_or] at h
      exact absurd h nofun
    · rw [if_neg h, Option.some.injEq]
      simp only [Bool.or_eq_true, List.isEmpty_iff, not_or, Bool.not_eq_true', Bool.not_eq_false] at h
      exact ⟨fun h' => ⟨h.1, h.2, h'⟩, fun h' => h'.2.2⟩
  have hck : ∀ j : Int, checked j = some i ↔ i = j ∧ -9223372036854775808 ≤ i ∧ i ≤ 9223372036854775807 := by
    intro j
    unfold checked
    split
    · rename_i h
      simp only [isI64, decide_eq_true_eq] at h
      simp only [Option.some.injEq]
      omega
    · rename_i h
      simp only [isI64, decide_eq_true_eq] at h
      refine ⟨nofun, ?_⟩
      rintro ⟨rfl, h1, h2⟩
      exact absurd (by omega) h
  have hbind : ∀ (ds : Bytes) (f : Nat → Int),
      (if ds.isEmpty || !ds.all isDigit then none else some (ds.foldl (fun n d => n * 10 + (d.toNat - 48)) 0)).bind (fun n => checked (f n)) = some i ↔
        (∃ n, Digits ds n ∧ i = f n) ∧ -9223372036854775808 ≤ i ∧ i ≤ 9223372036854775807 := by
    intro ds f
    rw [Option.bind_eq_some_iff]
    constructor
    · rintro ⟨n, h1, h2⟩
      exact ⟨⟨n, (hdig _ _).1 h1, ((hck _).1 h2).1⟩, ((hck _).1 h2).2⟩
    · rintro ⟨⟨n, h1, h2⟩, h3⟩
      exact ⟨n, (hdig _ _).2 h1, (hck _).2 ⟨h2, h3⟩⟩
  match s with
  | [] =>
    refine ⟨nofun, fun ⟨h, _⟩ => ?_⟩
    cases h with
    | plain h => exact absurd rfl ((digits_iff _ _).1 h).1
  | c :: ds =>
    unfold Lib.parseI64
    dsimp only
    by_cases h1 : c = cMinus
    · rw [if_pos h1, hbind]
      subst h1
      refine and_congr_left fun _ => ⟨fun ⟨n, h, hi⟩ => hi ▸ .minus h, fun h => ?_⟩
      generalize hs : cMinus :: ds = s at h
      cases h with
      | plain h => exact absurd rfl (digits_signless h hs.symm).2
      | plus h => exact absurd (List.cons.inj hs).1 (by decide)
      | minus h => exact ⟨_, (List.cons.inj hs).2 ▸ h, rfl⟩
    rw [if_neg h1]
    by_cases h2 : c = cPlus
    · rw [if_pos h2, hbind]
      subst h2
      refine and_congr_left fun _ => ⟨fun ⟨n, h, hi⟩ => hi ▸ .plus h, fun h => ?_⟩
      generalize hs : cPlus :: ds = s at h
      cases h with
      | plain h => exact absurd rfl (digits_signless h hs.symm).1
      | minus h => exact absurd (List.cons.inj hs).1 (by decide)
      | plus h => exact ⟨_, (List.cons.inj hs).2 ▸ h, rfl⟩
    rw [if_neg h2, hbind]
    refine and_congr_left fun _ => ⟨fun ⟨n, h, hi⟩ => hi ▸ .plain h, fun h => ?_⟩
    generalize hs : c :: ds = s at h
    cases h with
    | plain h => exact ⟨_, h, rfl⟩
    | minus h => exact absurd (List.cons.inj hs).1 h1
    | plus h => exact absurd (List.cons.inj hs).1 h2

theorem pow_shift (a k e : Nat) : a * 2 ^ (k + 1) / 2 ^ (e + 1) = a * 2 ^ k / 2 ^ e := by
  rw [Nat.pow_succ, Nat.pow_succ, ← Nat.mul_assoc, Nat.mul_div_mul_right _ _ (by decide)]

theorem pow_cast (n : Nat) : ((2 : Int) ^ n) = ((2 ^ n : Nat) : Int) := by norm_cast

theorem saturate (p : Prop) [Decidable p] (u d : Nat) :
    (if p then min ((u / d : Nat) : Int) 9223372036854775807 else max (-((u / d : Nat) : Int)) (-9223372036854775808)) =
      max (-9223372036854775808) (min 9223372036854775807 ((if p then (u : Int) else -u).tdiv d)) := by
  by_cases h : p
  · rw [if_pos h, if_pos h, ← Int.ofNat_tdiv]
    generalize u / d = k
    omega
  · rw [if_neg h, if_neg h, Int.neg_tdiv, ← Int.ofNat_tdiv]
    generalize u / d = k
    omega

theorem floatToInt_eq {f : UInt64} (hn : ¬ NotNumber f) :
    Lib.floatToInt f = max (-9223372036854775808) (min 9223372036854775807 ((floatUnits f).tdiv (2 ^ 1074))) := by
  rw [notNumber_false] at hn
  unfold Lib.floatToInt
  rw [hn, if_neg nofun, floatUnits_eq]
  dsimp only
  have hf := Nat.mod_lt (floatMagnitude f) (show 2 ^ 52 > 0 by decide)
  have key : (if floatMagnitude f / 2 ^ 52 = 0 then 0 else (2 ^ 52 + floatMagnitude f % 2 ^ 52) * 2 ^ (floatMagnitude f / 2 ^ 52) / 2 ^ 1075) =
      unitsOf (floatMagnitude f) / 2 ^ 1074 := by
    unfold unitsOf
    by_cases h : floatMagnitude f / 2 ^ 52 = 0
    · rw [if_pos h, if_pos h, Nat.div_eq_of_lt]
      exact Nat.lt_of_lt_of_le hf (Nat.pow_le_pow_right (by decide) (by decide))
    · rw [if_neg h, if_neg h]
      obtain ⟨k, hk⟩ : ∃ k, floatMagnitude f / 2 ^ 52 = k + 1 := ⟨floatMagnitude f / 2 ^ 52 - 1, by omega⟩
      rw [hk, Nat.add_sub_cancel]
      exact pow_shift _ _ 1074
  rw [key, pow_cast 1074]
  exact saturate _ _ _

end Hush

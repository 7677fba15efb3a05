import Verif.Lemmas.Hash
import Verif.Spec.Structure

/-!
Equality and order of values by their contents.
-/

namespace Hush
open Hush.Spec

/-! ### Floats -/

/-- The size of a float by exponent and fraction. -/
def unitsOf (m : Nat) : Nat := if m / 2 ^ 52 = 0 then m % 2 ^ 52 else (2 ^ 52 + m % 2 ^ 52) * 2 ^ (m / 2 ^ 52 - 1)

theorem unitsOf_lt {m m' : Nat} (h : m < m') : unitsOf m < unitsOf m' := by
  have hf := Nat.mod_lt m (show 2 ^ 52 > 0 by decide)
  have hf' := Nat.mod_lt m' (show 2 ^ 52 > 0 by decide)
  have hm := Nat.div_add_mod m (2 ^ 52)
  have hm' := Nat.div_add_mod m' (2 ^ 52)
  unfold unitsOf
  generalize m / 2 ^ 52 = e at *
  generalize m % 2 ^ 52 = f at *
  generalize m' / 2 ^ 52 = e' at *
  generalize m' % 2 ^ 52 = f' at *
  have hee : e ≤ e' := by
    refine Nat.not_lt.1 fun hc => ?_
    have : e' + 1 ≤ e := hc
    have := Nat.mul_le_mul_left (2 ^ 52) this
    omega
  rcases Nat.eq_or_lt_of_le hee with rfl | hlt
  · split
    · omega
    · exact Nat.mul_lt_mul_of_pos_right (by omega) (Nat.two_pow_pos _)
  · rw [if_neg (show ¬ e' = 0 by omega)]
    have h1 : 2 ^ 52 * 2 ^ e ≤ 2 ^ 52 * 2 ^ (e' - 1) := Nat.mul_le_mul_left _ (Nat.pow_le_pow_right (by decide) (by omega))
    have h2 : 2 ^ 52 * 2 ^ (e' - 1) ≤ (2 ^ 52 + f') * 2 ^ (e' - 1) := Nat.mul_le_mul_right _ (by omega)
    split
    · rename_i h0
      subst h0
      omega
    · obtain ⟨k, rfl⟩ : ∃ k, e = k + 1 := ⟨e - 1, by omega⟩
      have h3 : (2 ^ 52 + f) * 2 ^ k < 2 ^ 53 * 2 ^ k := Nat.mul_lt_mul_of_pos_right (by omega) (Nat.two_pow_pos _)
      have h4 : 2 ^ 53 * 2 ^ k = 2 ^ 52 * 2 ^ (k + 1) := by rw [Nat.pow_succ]; omega
      rw [Nat.add_sub_cancel]
      omega

theorem unitsOf_le {m m' : Nat} : unitsOf m ≤ unitsOf m' ↔ m ≤ m' := by
  constructor
  · intro h
    refine Nat.not_lt.1 fun hc => ?_
    have := unitsOf_lt hc
    omega
  · intro h
    rcases Nat.eq_or_lt_of_le h with rfl | h
    · exact Nat.le_refl _
    · exact Nat.le_of_lt (unitsOf_lt h)

theorem magnitude_parts (b : UInt64) : floatMagnitude b / 2 ^ 52 = b.toNat / 2 ^ 52 % 2 ^ 11 ∧ floatMagnitude b % 2 ^ 52 = b.toNat % 2 ^ 52 := by
  unfold floatMagnitude
  omega

theorem floatUnits_eq (b : UInt64) : floatUnits b = if b.toNat < 2 ^ 63 then (unitsOf (floatMagnitude b) : Int) else -unitsOf (floatMagnitude b) := by
  unfold floatUnits unitsOf
  rw [(magnitude_parts b).1, (magnitude_parts b).2]

theorem floatUnits_le (a b : UInt64) : floatUnits a ≤ floatUnits b ↔ floatKey a ≤ floatKey b := by
  have h1 := @unitsOf_le (floatMagnitude a) (floatMagnitude b)
  have h2 := @unitsOf_le (floatMagnitude b) (floatMagnitude a)
  have h3 := @unitsOf_le (floatMagnitude a) 0
  have h4 := @unitsOf_le (floatMagnitude b) 0
  have h0 : unitsOf 0 = 0 := rfl
  rw [floatUnits_eq, floatUnits_eq]
  unfold floatKey
  split <;> split <;> omega

theorem floatUnits_lt (a b : UInt64) : floatUnits a < floatUnits b ↔ floatKey a < floatKey b := by
  have := floatUnits_le b a
  omega

theorem floatUnits_inj (a b : UInt64) : floatUnits a = floatUnits b ↔ floatKey a = floatKey b := by
  have h1 := floatUnits_le a b
  have h2 := floatUnits_le b a
  omega

theorem notNumber_iff (b : UInt64) : NotNumber b ↔ floatIsNaN b = true := by
  unfold NotNumber floatIsNaN floatMagnitude
  rw [decide_eq_true_eq]
  omega

theorem notNumber_false (b : UInt64) : ¬ NotNumber b ↔ floatIsNaN b = false := by
  rw [notNumber_iff]; simp

/-! ### Equality -/

theorem listEq_iff {f : α → β → Option Bool} : ∀ {l : List α} {l' : List β}, listEq f l l' = some true ↔
    l.length = l'.length ∧ ∀ (i : Nat) x y, l[i]? = some x → l'[i]? = some y → f x y = some true
  | [], [] => by simp [listEq]
  | [], _ :: _ => by simp [listEq]
  | _ :: _, [] => by simp [listEq]
  | a :: l, b :: l' => by
    rw [listEq, optAnd_true, listEq_iff]
    simp only [List.length_cons, Nat.add_right_cancel_iff]
    constructor
    · rintro ⟨h1, h2, h3⟩
      refine ⟨h2, fun i x y hx hy => ?_⟩
      cases i with
      | zero => cases hx; cases hy; exact h1
      | succ i => exact h3 i x y hx hy
    · rintro ⟨h1, h2⟩
      exact ⟨h2 0 a b rfl rfl, h1, fun i x y hx hy => h2 (i + 1) x y hx hy⟩

theorem sliceEq_iff {f : α → β → Option Bool} {l : List α} {l' : List β} : sliceEq f l l' = some true ↔
    l.length = l'.length ∧ ∀ (i : Nat) x y, l[i]? = some x → l'[i]? = some y → f x y = some true := by
  unfold sliceEq
  split
  · exact listEq_iff
  · simp_all

theorem findM_some {f : α → Option Bool} {l : List α} {x : α} (h : findM f l = some (some x)) : x ∈ l ∧ f x = some true := by
  induction l with
  | nil => cases h
  | cons y l ih =>
    simp only [findM] at h
    split at h
    · cases h
    · rename_i hy; cases h; exact ⟨List.mem_cons_self, hy⟩
    · exact ⟨List.mem_cons_of_mem _ (ih h).1, (ih h).2⟩

theorem beq_some {α : Type} [BEq α] [LawfulBEq α] {a b : α} (h : some (a == b) = some true) : a = b := by simpa using h

/-- Values that compare as equal have the same contents. -/
theorem contents_of_equal {h : Heap} : ∀ {n a b}, valueEq h n a b = some true → SameContents h a b := by
  intro n
  induction n with
  | zero => exact fun h => nomatch h
  | succ n ih =>
    intro a b he
    unfold valueEq at he
    split at he
    · exact .nil
    · obtain rfl := beq_some he; exact .bool _
    · obtain rfl := beq_some he; exact .byte _
    · obtain rfl := beq_some he; exact .int _
    · simp only [floatEq, Option.some.injEq, Bool.and_eq_true, Bool.not_eq_true', beq_iff_eq] at he
      exact .float _ _ ((notNumber_false _).2 he.1.1) ((notNumber_false _).2 he.1.2) ((floatUnits_inj _ _).2 he.2)
    · obtain rfl := beq_some he; exact .string _
    · obtain ⟨h1, h2⟩ := sliceEq_iff.1 he
      exact .array _ _ h1 fun i x y hx hy => ih (h2 i x y hx hy)
    · rename_i d d'
      split at he
      · rename_i hl
        have h1 := allM_true.1 he
        have h2 : ∀ e ∈ h.dict d, ∃ e' ∈ h.dict d', SameContents h e.1 e'.1 ∧ SameContents h e.2 e'.2 := by
          intro e hm
          have h3 := h1 e hm
          split at h3
          · cases h3
          · cases h3
          · rename_i e' h4
            obtain ⟨h5, h6⟩ := findM_some h4
            exact ⟨e', h5, ih (optAnd_true.1 h6).2, ih h3⟩
        classical
        let entry : Value × Value → Value × Value := fun e => if hm : e ∈ h.dict d then (h2 e hm).choose else e
        have h3 : ∀ e ∈ h.dict d, entry e ∈ h.dict d' ∧ SameContents h e.1 (entry e).1 ∧ SameContents h e.2 (entry e).2 := by
          intro e hm
          simp only [entry, dif_pos hm]
          exact (h2 e hm).choose_spec
        exact .dict _ _ entry hl (fun e hm => (h3 e hm).1) (fun e hm => (h3 e hm).2.1) (fun e hm => (h3 e hm).2.2)
      · cases he
    · split at he
      · rename_i hc
        simp only [Bool.and_eq_true, beq_iff_eq] at hc
        obtain ⟨h1, h2⟩ := sliceEq_iff.1 he
        exact .hush _ _ hc.1 hc.2 h1 (fun i x y hx hy => beq_some (optAnd_true.1 (h2 i x y hx hy)).2)
          fun i x y hx hy => ih (optAnd_true.1 (h2 i x y hx hy)).1
      · cases he
    · obtain rfl := beq_some he; exact .native _ _ _
    · obtain ⟨h1, h2⟩ := optAnd_true.1 he
      obtain rfl := beq_some h1
      exact .error _ _ _ (ih h2)
    · cases he

/-- Finite values with the same contents compare as equal. -/
theorem equal_of_contents {h : Heap} (hk : DistinctKeys h) (hh : HashedKeys h) : ∀ {n a b}, Depth h true n a → Depth h true n b → SameContents h a b →
    valueEq h n a b = some true := by
  intro n
  induction n with
  | zero => exact fun h => h.elim
  | succ n ih =>
    intro a b ha hb hs
    cases hs with
    | nil => rfl
    | bool b => simp [valueEq]
    | byte b => simp [valueEq]
    | int b => simp [valueEq]
    | string b => simp [valueEq]
    | float x y hx hy hxy =>
      rw [notNumber_false] at hx hy
      simp [valueEq, floatEq, hx, hy, (floatUnits_inj _ _).1 hxy]
    | array a b hl hs =>
      refine sliceEq_iff.2 ⟨hl, fun i x y hx hy => ih ?_ ?_ (hs i x y hx hy)⟩
      · exact ha x (List.mem_of_getElem? hx)
      · exact hb y (List.mem_of_getElem? hy)
    | dict d d' entry hl hm h1 h2 =>
      have key := dictEq_true (eq := valueEq h n) (equivOn_and (equivOn_hash h true n) (equivOn_values h hk n)) ha hb
        ((hk d').imp fun h1 h2 => h1 ⟨n, optAnd_true.1 h2⟩)
      refine key.2 ⟨hl, fun e he => ⟨entry e, hm e he, ?_, ?_⟩⟩
      · have h3 := ih (ha e he).1 (hb _ (hm e he)).1 (h1 e he)
        exact optAnd_true.2 ⟨(keysAgree h hk n).hash (hh d e he) (hh d' _ (hm e he)) (ha e he).1 (hb _ (hm e he)).1 h3, h3⟩
      · exact ih (ha e he).2 (hb _ (hm e he)).2 (h2 e he)
    | error s c c' hs =>
      show optAnd (some (s == s)) (fun _ => valueEq h n (h.context c) (h.context c')) = some true
      rw [beq_self_eq_true]
      exact ih ha hb hs
    | native name => simp [valueEq]
    | hush f g h1 h2 h3 h4 h5 =>
      simp only [valueEq, h1, h2, beq_self_eq_true, Bool.and_self, if_true]
      refine sliceEq_iff.2 ⟨h3, fun i x y hx hy => optAnd_true.2 ⟨ih ?_ ?_ (h5 i x y hx hy), ?_⟩⟩
      · exact ha rfl x (List.mem_of_getElem? hx)
      · exact hb rfl y (List.mem_of_getElem? hy)
      · simp [h4 i x y hx hy]

/-! ### Order -/

theorem listCmp_lt {f : α → α → Option Ordering} : ∀ {l l' : List α}, listCmp f l l' = some .lt ↔
    Before (fun a b => f a b = some .eq) (fun a b => f a b = some .lt) l l'
  | [], [] => ⟨fun h => (nomatch h), fun h => (nomatch h)⟩
  | [], b :: bs => ⟨fun _ => .ends b bs, fun _ => rfl⟩
  | _ :: _, [] => ⟨fun h => (nomatch h), fun h => (nomatch h)⟩
  | a :: l, b :: l' => by
    have ih := @listCmp_lt _ f l l'
    simp only [listCmp]
    constructor
    · intro h
      split at h
      · rename_i he; exact .next he (ih.1 h)
      · exact .less _ _ h
    · intro h
      cases h with
      | less _ _ h => simp only [h]
      | next he h => simp only [he, ih.2 h]

end Hush

import Mathlib.Tactic.Ring
import Verif.Spec.Expansion

/-! Lemmas about argument expansion. -/

namespace Hush
open Args

theorem isMeta_iff (c : UInt8) : isMeta c = true ↔ Spec.Special c := by
  simp [isMeta, Spec.Special, or_assoc]

theorem escape_eq (lit : Bytes) :
    escape lit = lit.flatMap (fun c => if Spec.Special c then [91, c, 93] else [c]) := by
  have key : lit.flatMap (fun c => if isMeta c then [cOpenBracket, c, cCloseBracket] else [c])
      = lit.flatMap (fun c => if Spec.Special c then [91, c, 93] else [c]) := by
    congr 1; funext c
    by_cases h : isMeta c = true
    · simp [h, (isMeta_iff c).1 h]
    · have h' : ¬ Spec.Special c := fun x => h ((isMeta_iff c).2 x)
      simp [h, h']
  unfold escape
  split
  · exact key
  · rename_i h
    rw [← key]
    have : ∀ c ∈ lit, isMeta c = false := by simpa using h
    clear h key
    induction lit with
    | nil => rfl
    | cons a l ih =>
      rw [List.flatMap_cons, ← ih (fun c hc => this c (by simp [hc]))]
      simp [this a (by simp)]

theorem escape_append (a b : Bytes) : escape (a ++ b) = escape a ++ escape b := by
  simp [escape_eq, List.flatMap_append]

theorem orEmpty_ne (l : List Bytes) : orEmpty l ≠ [] := by
  unfold orEmpty; split <;> simp_all

theorem orEmpty_of_ne {l : List Bytes} (h : l ≠ []) : orEmpty l = l := by
  simp [orEmpty, h]

theorem pushRest_eq (esc : Bytes → Bytes) (l : List Bytes) (more lits : List Bytes) :
    pushRest esc l.length (l ++ more) lits
      = l ++ more ++ lits.flatMap (fun x => l.map (fun p => p ++ esc x)) := by
  induction lits generalizing more with
  | nil => simp [pushRest]
  | cons x xs ih =>
    rw [pushRest, List.take_left]
    rw [List.append_assoc l more, ih]
    simp

theorem pushAll_eq (esc : Bytes → Bytes) (l : List Bytes) {lits : List Bytes} (h : lits ≠ []) :
    pushAll esc l lits = lits.flatMap (fun x => (orEmpty l).map (fun p => p ++ esc x)) := by
  cases lits with
  | nil => exact absurd rfl h
  | cons x xs =>
    have := pushRest_eq esc (orEmpty l) [] xs
    simp only [List.append_nil] at this
    simp only [pushAll, this, List.take_left, List.drop_left, List.flatMap_cons]

/-- Choosing from one more list at the end. -/
theorem combos_snoc (ps : List (List α)) (p : List α) :
    Spec.combos (ps ++ [p]) = p.flatMap (fun x => (Spec.combos ps).map (fun t => t ++ [x])) := by
  induction ps with
  | nil =>
    simp only [List.nil_append, Spec.combos, List.flatMap_cons, List.flatMap_nil, List.append_nil, List.map_cons,
      List.map_nil]
    induction p with
    | nil => rfl
    | cons a l ih => simp [ih]
  | cons q qs ih =>
    simp only [List.cons_append, Spec.combos, ih, List.flatMap_assoc, List.map_flatMap, List.flatMap_map,
      List.map_map]
    rfl

theorem mem_combos {ps : List (List α)} {t : List α} :
    t ∈ Spec.combos ps ↔ List.Forall₂ (fun x p => x ∈ p) t ps := by
  induction ps generalizing t with
  | nil => simp [Spec.combos]
  | cons p ps ih =>
    simp only [Spec.combos, List.mem_flatMap, List.mem_map, ih]
    constructor
    · rintro ⟨t', ht', x, hx, rfl⟩; exact .cons hx ht'
    · intro h
      cases h with
      | cons hx ht => exact ⟨_, ht, _, hx, rfl⟩

theorem combos_length (ps : List (List α)) :
    (Spec.combos ps).length = (ps.map List.length).foldr (· * ·) 1 := by
  induction ps with
  | nil => rfl
  | cons p ps ih =>
    simp only [Spec.combos, List.length_flatMap, List.length_map, List.map_cons, List.foldr_cons, ← ih]
    induction Spec.combos ps with
    | nil => simp
    | cons a l ih => rw [List.map_cons, List.sum_cons, ih, List.length_cons]; ring

theorem nodup_flatMap_cons {p : List α} {l : List (List α)} (hp : p.Nodup) (hl : l.Nodup) :
    (l.flatMap (fun t => p.map (fun x => x :: t))).Nodup := by
  induction l with
  | nil => simp
  | cons a l ih =>
    rw [List.nodup_cons] at hl
    rw [List.flatMap_cons, List.nodup_append]
    refine ⟨?_, ih hl.2, ?_⟩
    · unfold List.Nodup at hp ⊢
      rw [List.pairwise_map]
      exact hp.imp (fun hne h => hne (by simpa using h))
    · intro x hx y hy hxy
      subst hxy
      simp only [List.mem_map, List.mem_flatMap] at hx hy
      obtain ⟨u, _, rfl⟩ := hx
      obtain ⟨t, ht, v, _, hv⟩ := hy
      simp at hv
      exact hl.1 (hv.2 ▸ ht)

theorem combos_nodup (ps : List (List α)) (h : ∀ p ∈ ps, p.Nodup) : (Spec.combos ps).Nodup := by
  induction ps with
  | nil => simp [Spec.combos]
  | cons p ps ih =>
    exact nodup_flatMap_cons (h p (by simp)) (ih (fun q hq => h q (by simp [hq])))

theorem combos_ne_nil {ps : List (List α)} (h : ∀ p ∈ ps, p ≠ []) : Spec.combos ps ≠ [] := by
  induction ps with
  | nil => simp [Spec.combos]
  | cons p ps ih =>
    have h1 := ih (fun q hq => h q (by simp [hq]))
    have h2 := h p (by simp)
    obtain ⟨t, l, e⟩ := List.exists_cons_of_ne_nil h1
    obtain ⟨x, m, e'⟩ := List.exists_cons_of_ne_nil h2
    simp [Spec.combos, e, e']

/-! ### Decimal numerals -/

theorem decimal_snoc (ds : Bytes) (d : UInt8) :
    Spec.decimal (ds ++ [d]) = 10 * Spec.decimal ds + (d.toNat - 48) := by
  simp [Spec.decimal, List.foldl_append]

theorem digit_toNat {k : Nat} (h : k < 10) : (UInt8.ofNat (48 + k)).toNat = 48 + k := by
  simp [UInt8.toNat_ofNat']; omega

theorem digit_isDigit {k : Nat} (h : k < 10) : isDigit (UInt8.ofNat (48 + k)) = true := by
  have : k = 0 ∨ k = 1 ∨ k = 2 ∨ k = 3 ∨ k = 4 ∨ k = 5 ∨ k = 6 ∨ k = 7 ∨ k = 8 ∨ k = 9 := by omega
  rcases this with h | h | h | h | h | h | h | h | h | h <;> subst h <;> decide

theorem natDigits_ne (n : Nat) : natDigits n ≠ [] := by
  rw [natDigits]; split <;> simp

theorem natDigits_digits (n : Nat) : ∀ d ∈ natDigits n, isDigit d = true := by
  induction n using natDigits.induct with
  | case1 n h =>
    rw [natDigits, if_pos h]
    intro d hd
    rw [List.mem_singleton] at hd
    rw [hd]; exact digit_isDigit h
  | case2 n h ih =>
    rw [natDigits, if_neg h]
    intro d hd
    rcases List.mem_append.1 hd with h' | h'
    · exact ih d h'
    · rw [List.mem_singleton] at h'
      rw [h']; exact digit_isDigit (Nat.mod_lt _ (by omega))

theorem natDigits_decimal (n : Nat) : Spec.decimal (natDigits n) = n := by
  induction n using natDigits.induct with
  | case1 n h =>
    rw [natDigits, if_pos h]
    simp only [Spec.decimal, List.foldl_cons, List.foldl_nil, digit_toNat h]
    omega
  | case2 n h ih =>
    rw [natDigits, if_neg h, decimal_snoc, ih, digit_toNat (Nat.mod_lt _ (by omega))]
    omega

theorem natDigits_head (n : Nat) (h : 0 < n) : (natDigits n).head? ≠ some 48 := by
  induction n using natDigits.induct with
  | case1 n h' =>
    rw [natDigits, if_pos h']
    intro e
    simp only [List.head?_cons, Option.some.injEq] at e
    have := congrArg UInt8.toNat e
    rw [digit_toNat h'] at this
    simp at this; omega
  | case2 n h' ih =>
    rw [natDigits, if_neg h']
    have hn := natDigits_ne (n / 10)
    obtain ⟨a, l, e⟩ := List.exists_cons_of_ne_nil hn
    have := ih (by omega)
    rw [e] at this ⊢
    simpa using this

theorem natDigits_numeral (n : Nat) : Spec.Numeral n (natDigits n) := by
  refine ⟨natDigits_ne n, natDigits_digits n, natDigits_decimal n, fun h => ?_⟩
  by_cases h0 : n = 0
  · subst h0; rw [natDigits]; rfl
  · exact absurd h (natDigits_head n (by omega))

theorem intText_numeral (i : Int) : Spec.IntNumeral i (intText i) := by
  unfold intText
  by_cases h : i < 0
  · rw [if_pos h]
    right
    refine ⟨h, _, rfl, ?_⟩
    have : i.natAbs = (-i).toNat := by omega
    rw [this]; exact natDigits_numeral _
  · rw [if_neg h]
    left
    refine ⟨by omega, ?_⟩
    have : i.natAbs = i.toNat := by omega
    rw [this]; exact natDigits_numeral _

/-- Canonical numerals are unique. -/
theorem decimal_foldl (ds : Bytes) (n : Nat) :
    ds.foldl (fun n d => 10 * n + (d.toNat - 48)) n = n * 10 ^ ds.length + Spec.decimal ds := by
  induction ds generalizing n with
  | nil => simp [Spec.decimal]
  | cons d ds ih =>
    simp only [List.foldl_cons, Spec.decimal, List.length_cons]
    rw [ih, ih (10 * 0 + _)]
    have : 10 ^ (ds.length + 1) = 10 * 10 ^ ds.length := by rw [Nat.pow_succ, Nat.mul_comm]
    rw [this]
    ring

theorem digit_range {d : UInt8} (h : isDigit d = true) : 48 ≤ d.toNat ∧ d.toNat ≤ 57 := by
  simp only [isDigit, decide_eq_true_eq] at h
  exact ⟨UInt8.le_iff_toNat_le.1 h.1, UInt8.le_iff_toNat_le.1 h.2⟩

theorem decimal_lt (ds : Bytes) (h : ∀ d ∈ ds, isDigit d = true) : Spec.decimal ds < 10 ^ ds.length := by
  induction ds with
  | nil => simp [Spec.decimal]
  | cons d ds ih =>
    have h1 := ih (fun x hx => h x (by simp [hx]))
    have h2 := digit_range (h d (by simp))
    rw [Spec.decimal, List.foldl_cons, decimal_foldl]
    have : 10 ^ (d :: ds).length = 10 * 10 ^ ds.length := by
      rw [List.length_cons, Nat.pow_succ, Nat.mul_comm]
    rw [this]
    have h3 : 10 * 0 + (d.toNat - 48) ≤ 9 := by omega
    have := Nat.mul_le_mul_right (10 ^ ds.length) h3
    omega

theorem decimal_ge (d : UInt8) (ds : Bytes) (h : isDigit d = true) (h0 : d ≠ 48) :
    10 ^ ds.length ≤ Spec.decimal (d :: ds) := by
  have h2 := digit_range h
  have h3 : d.toNat ≠ 48 := fun e => h0 (UInt8.toNat_inj.1 (by simpa using e))
  rw [Spec.decimal, List.foldl_cons, decimal_foldl]
  have : 1 ≤ 10 * 0 + (d.toNat - 48) := by omega
  have := Nat.mul_le_mul_right (10 ^ ds.length) this
  omega

theorem decimal_inj_len {a b : Bytes} (ha : ∀ d ∈ a, isDigit d = true) (hb : ∀ d ∈ b, isDigit d = true)
    (hl : a.length = b.length) (h : Spec.decimal a = Spec.decimal b) : a = b := by
  induction a generalizing b with
  | nil => cases b with
    | nil => rfl
    | cons => simp at hl
  | cons d ds ih =>
    cases b with
    | nil => simp at hl
    | cons e es =>
      have hd := digit_range (ha d (by simp))
      have he := digit_range (hb e (by simp))
      have la := decimal_lt ds (fun x hx => ha x (by simp [hx]))
      have lb := decimal_lt es (fun x hx => hb x (by simp [hx]))
      have hl' : ds.length = es.length := by simpa using hl
      simp only [Spec.decimal, List.foldl_cons] at h
      rw [decimal_foldl, decimal_foldl, hl'] at h
      rw [hl'] at la
      have hpos : 0 < 10 ^ es.length := Nat.pow_pos (by omega)
      have e1 : d.toNat - 48 = e.toNat - 48 := by
        have h1 : (10 * 0 + (d.toNat - 48)) * 10 ^ es.length + Spec.decimal ds
            = Spec.decimal ds + 10 ^ es.length * (d.toNat - 48) := by
          rw [Nat.mul_zero, Nat.zero_add, Nat.mul_comm, Nat.add_comm]
        have h2 : (10 * 0 + (e.toNat - 48)) * 10 ^ es.length + Spec.decimal es
            = Spec.decimal es + 10 ^ es.length * (e.toNat - 48) := by
          rw [Nat.mul_zero, Nat.zero_add, Nat.mul_comm, Nat.add_comm]
        rw [h1, h2] at h
        have := congrArg (· / 10 ^ es.length) h
        simpa [Nat.add_mul_div_left _ _ hpos, Nat.div_eq_of_lt la, Nat.div_eq_of_lt lb] using this
      have e2 : d = e := UInt8.toNat_inj.1 (by omega)
      subst e2
      have := ih (fun x hx => ha x (by simp [hx])) (fun x hx => hb x (by simp [hx])) hl' (by omega)
      rw [this]

theorem numeral_unique {n : Nat} {a b : Bytes} (ha : Spec.Numeral n a) (hb : Spec.Numeral n b) : a = b := by
  obtain ⟨a0, ad, av, az⟩ := ha
  obtain ⟨b0, bd, bv, bz⟩ := hb
  have key : ∀ {x y : Bytes}, x ≠ [] → (∀ d ∈ x, isDigit d = true) → (x.head? = some 48 → x = [48]) →
      y ≠ [] → (∀ d ∈ y, isDigit d = true) → (y.head? = some 48 → y = [48]) → Spec.decimal x = Spec.decimal y →
      x.length ≤ y.length := by
    intro x y x0 xd xz y0 yd yz hv
    obtain ⟨c, cs, rfl⟩ := List.exists_cons_of_ne_nil x0
    by_cases hc : c = 48
    · have := xz (by simp [hc]); rw [this]
      cases y with
      | nil => exact absurd rfl y0
      | cons => simp
    · have h1 := decimal_ge c cs (xd c (by simp)) hc
      have h2 := decimal_lt y yd
      rw [hv] at h1
      have := Nat.lt_of_le_of_lt h1 h2
      have := (Nat.pow_lt_pow_iff_right (by omega : 1 < 10)).1 this
      simp; omega
  exact decimal_inj_len ad bd
    (Nat.le_antisymm (key a0 ad az b0 bd bz (av.trans bv.symm)) (key b0 bd bz a0 ad az (bv.trans av.symm)))
    (av.trans bv.symm)

theorem intNumeral_unique {i : Int} {a b : Bytes} (ha : Spec.IntNumeral i a) (hb : Spec.IntNumeral i b) : a = b := by
  rcases ha with ⟨h, ha⟩ | ⟨h, ds, rfl, ha⟩ <;> rcases hb with ⟨h', hb⟩ | ⟨h', es, rfl, hb⟩
  · exact numeral_unique ha hb
  · omega
  · omega
  · rw [numeral_unique ha hb]

end Hush

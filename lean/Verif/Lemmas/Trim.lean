import Verif.Model.Text
import Verif.Spec.Trim
import Verif.Lemmas.Library

/-!
Trimming.
-/

namespace Hush
open Hush.Spec

theorem spaces_eq : spaces =
    [[9], [10], [11], [12], [13], [32], [0xC2, 0x85], [0xC2, 0xA0], [0xE1, 0x9A, 0x80], [0xE2, 0x80, 0x80], [0xE2, 0x80, 0x81], [0xE2, 0x80, 0x82],
     [0xE2, 0x80, 0x83], [0xE2, 0x80, 0x84], [0xE2, 0x80, 0x85], [0xE2, 0x80, 0x86], [0xE2, 0x80, 0x87], [0xE2, 0x80, 0x88], [0xE2, 0x80, 0x89],
     [0xE2, 0x80, 0x8A], [0xE2, 0x80, 0xA8], [0xE2, 0x80, 0xA9], [0xE2, 0x80, 0xAF], [0xE2, 0x81, 0x9F], [0xE3, 0x80, 0x80]] := by decide +kernel

theorem start_sound {s : Bytes} (h : spaceAtStart s ≠ 0) : ∃ x ∈ spaces, ∃ t, s = x ++ t ∧ spaceAtStart s = x.length := by
  match s, h with
  | [], h => exact absurd rfl h
  | a :: s, h =>
    unfold spaceAtStart at h ⊢
    dsimp only at h ⊢
    by_cases h1 : a = 32 ∨ (9 ≤ a ∧ a ≤ 13)
    · rw [if_pos h1]
      refine ⟨[a], ?_, s, rfl, rfl⟩
      exact (forall_byte (P := fun a => (a = 32 ∨ (9 ≤ a ∧ a ≤ 13)) → [a] ∈ spaces) (by decide +kernel)) a h1
    · rw [if_neg h1] at h ⊢
      match s, h with
      | b :: s, h =>
        dsimp only at h ⊢
        by_cases h2 : a = 0xC2 ∧ (b = 0x85 ∨ b = 0xA0)
        · rw [if_pos h2]
          refine ⟨[a, b], ?_, s, rfl, rfl⟩
          obtain ⟨rfl, rfl | rfl⟩ := h2 <;> decide +kernel
        · rw [if_neg h2] at h ⊢
          match s, h with
          | c :: s, h =>
            dsimp only at h ⊢
            by_cases h3 : a = 0xE1 ∧ b = 0x9A ∧ c = 0x80
            · rw [if_pos h3]
              obtain ⟨rfl, rfl, rfl⟩ := h3
              exact ⟨[0xE1, 0x9A, 0x80], by decide +kernel, s, rfl, rfl⟩
            rw [if_neg h3] at h ⊢
            by_cases h4 : a = 0xE2 ∧ b = 0x80 ∧ ((0x80 ≤ c ∧ c ≤ 0x8A) ∨ c = 0xA8 ∨ c = 0xA9 ∨ c = 0xAF)
            · rw [if_pos h4]
              obtain ⟨rfl, rfl, h4⟩ := h4
              refine ⟨[0xE2, 0x80, c], ?_, s, rfl, rfl⟩
              exact (forall_byte (P := fun c => ((0x80 ≤ c ∧ c ≤ 0x8A) ∨ c = 0xA8 ∨ c = 0xA9 ∨ c = 0xAF) → [0xE2, 0x80, c] ∈ spaces)
                (by decide +kernel)) c h4
            rw [if_neg h4] at h ⊢
            by_cases h5 : a = 0xE2 ∧ b = 0x81 ∧ c = 0x9F
            · rw [if_pos h5]
              obtain ⟨rfl, rfl, rfl⟩ := h5
              exact ⟨[0xE2, 0x81, 0x9F], by decide +kernel, s, rfl, rfl⟩
            rw [if_neg h5] at h ⊢
            by_cases h6 : a = 0xE3 ∧ b = 0x80 ∧ c = 0x80
            · rw [if_pos h6]
              obtain ⟨rfl, rfl, rfl⟩ := h6
              exact ⟨[0xE3, 0x80, 0x80], by decide +kernel, s, rfl, rfl⟩
            rw [if_neg h6] at h
            exact absurd rfl h
          | [], h => exact absurd rfl h
      | [], h => exact absurd rfl h

theorem start_complete {x t : Bytes} (h : x ∈ spaces) : spaceAtStart (x ++ t) = x.length := by
  rw [spaces_eq] at h
  simp only [List.mem_cons, List.not_mem_nil, or_false] at h
  rcases h with rfl | rfl | rfl | rfl | rfl | rfl | rfl | rfl | rfl | rfl | rfl | rfl | rfl | rfl | rfl | rfl | rfl | rfl | rfl | rfl | rfl | rfl | rfl |
    rfl | rfl <;> rfl

theorem end_complete {x t : Bytes} (h : x ∈ spaces) : spaceAtEnd (x.reverse ++ t) = x.length := by
  rw [spaces_eq] at h
  simp only [List.mem_cons, List.not_mem_nil, or_false] at h
  rcases h with rfl | rfl | rfl | rfl | rfl | rfl | rfl | rfl | rfl | rfl | rfl | rfl | rfl | rfl | rfl | rfl | rfl | rfl | rfl | rfl | rfl | rfl | rfl |
    rfl | rfl <;> rfl

theorem spaces_pos {x : Bytes} (h : x ∈ spaces) : 0 < x.length := by
  have : ∀ x ∈ spaces, 0 < x.length := by decide +kernel
  exact this x h

theorem end_sound {r : Bytes} (h : spaceAtEnd r ≠ 0) : ∃ x ∈ spaces, ∃ t, r = x.reverse ++ t ∧ spaceAtEnd r = x.length := by
  rw [spaceAtEnd] at h ⊢
  have key : ∀ n, spaceAtStart (r.take n).reverse = n → n ≠ 0 → ∃ x ∈ spaces, ∃ t, r = x.reverse ++ t ∧ n = x.length := by
    intro n hn h0
    obtain ⟨x, hx, t, h1, h2⟩ := start_sound (s := (r.take n).reverse) (by omega)
    rw [hn] at h2
    have h3 := congrArg List.length h1
    simp only [List.length_reverse, List.length_take, List.length_append] at h3
    have : t = [] := List.length_eq_zero_iff.1 (by omega)
    subst this
    refine ⟨x, hx, r.drop n, ?_, h2⟩
    have h4 := congrArg List.reverse h1
    rw [List.reverse_reverse, List.append_nil] at h4
    rw [← h4, List.take_append_drop]
  by_cases h1 : 0 < spaceAtStart (r.take 1)
  · rw [if_pos h1]
    refine key 1 ?_ nofun
    have hr : (r.take 1).reverse = r.take 1 := by rcases r with _ | ⟨a, _⟩ <;> rfl
    rw [hr]
    obtain ⟨x, hx, t, h2, h3⟩ := start_sound (by omega : spaceAtStart (r.take 1) ≠ 0)
    have h4 := congrArg List.length h2
    have := spaces_pos hx
    simp only [List.length_take, List.length_append] at h4
    omega
  · rw [if_neg h1] at h ⊢
    by_cases h2 : spaceAtStart (r.take 2).reverse = 2
    · rw [if_pos h2]
      exact key 2 h2 nofun
    rw [if_neg h2] at h ⊢
    by_cases h3 : spaceAtStart (r.take 3).reverse = 3
    · rw [if_pos h3]
      exact key 3 h3 nofun
    rw [if_neg h3] at h
    exact absurd rfl h

/-- Only units are dropped, and all of them. -/
theorem dropSpaces_sound {f : Bytes → Nat} {U : List Bytes} (hp : ∀ u ∈ U, 0 < u.length)
    (hf : ∀ s, f s ≠ 0 → ∃ u ∈ U, ∃ t, s = u ++ t ∧ f s = u.length) : ∀ (n : Nat) (s : Bytes), s.length ≤ n →
      ∃ a : List Bytes, (∀ u ∈ a, u ∈ U) ∧ s = a.flatten ++ dropSpaces f n s ∧ f (dropSpaces f n s) = 0
  | 0, s, h => by
    obtain rfl : s = [] := List.length_eq_zero_iff.1 (by omega)
    refine ⟨[], nofun, rfl, ?_⟩
    by_cases h0 : f [] = 0
    · exact h0
    obtain ⟨u, hu, t, h1, -⟩ := hf [] h0
    have := hp u hu
    have h2 := congrArg List.length h1
    simp only [List.length_nil, List.length_append] at h2
    omega
  | n + 1, s, h => by
    rw [dropSpaces]
    by_cases h0 : f s = 0
    · rw [if_pos h0]
      exact ⟨[], nofun, rfl, h0⟩
    · rw [if_neg h0]
      obtain ⟨u, hu, t, rfl, h2⟩ := hf s h0
      have := hp u hu
      rw [h2, List.drop_left]
      rw [List.length_append] at h
      obtain ⟨a, ha, h3, h4⟩ := dropSpaces_sound hp hf n t (by omega)
      refine ⟨u :: a, ?_, ?_, h4⟩
      · intro x hx
        rcases List.mem_cons.1 hx with rfl | hx
        · exact hu
        · exact ha x hx
      · rw [List.flatten_cons, List.append_assoc, ← h3]

theorem dropSpaces_complete {f : Bytes → Nat} {U : List Bytes} (hp : ∀ u ∈ U, 0 < u.length) (hf : ∀ u ∈ U, ∀ t, f (u ++ t) = u.length) {t : Bytes}
    (ht : f t = 0) : ∀ (a : List Bytes), (∀ u ∈ a, u ∈ U) → ∀ n, (a.flatten ++ t).length ≤ n → dropSpaces f n (a.flatten ++ t) = t
  | [], _, 0, _ => rfl
  | [], _, n + 1, _ => by rw [dropSpaces, List.flatten_nil, List.nil_append, if_pos ht]
  | u :: a, h, 0, hn => by
    have := hp u (h u List.mem_cons_self)
    simp only [List.flatten_cons, List.length_append] at hn
    omega
  | u :: a, h, n + 1, hn => by
    have h0 := hp u (h u List.mem_cons_self)
    have h1 := hf u (h u List.mem_cons_self) (a.flatten ++ t)
    rw [dropSpaces, List.flatten_cons, List.append_assoc, if_neg (by omega), h1, List.drop_left]
    refine dropSpaces_complete hp hf ht a (fun x hx => h x (List.mem_cons_of_mem _ hx)) n ?_
    simp only [List.flatten_cons, List.length_append] at hn ⊢
    omega

theorem reversed_pos : ∀ u ∈ spaces.map List.reverse, 0 < u.length := by
  intro u hu
  obtain ⟨x, hx, rfl⟩ := List.mem_map.1 hu
  rw [List.length_reverse]
  exact spaces_pos hx

theorem flatten_reverse_map (l : List Bytes) : (l.map List.reverse).flatten.reverse = l.reverse.flatten := by
  induction l with
  | nil => rfl
  | cons a l ih => simp [ih]

/-- A trimmed text does not begin with a space even if spaces follow it. -/
theorem start_append {r : Bytes} (hr : r ≠ []) (h : ∀ x ∈ spaces, ¬ x <+: r) {b : List Bytes} (hb : ∀ x ∈ b, x ∈ spaces) :
    spaceAtStart (r ++ b.flatten) = 0 := by
  by_cases h0 : spaceAtStart (r ++ b.flatten) = 0
  · exact h0
  exfalso
  obtain ⟨x, hx, t, h1, -⟩ := start_sound h0
  by_cases hl : x.length ≤ r.length
  · exact h x hx (List.prefix_of_prefix_length_le (h1 ▸ List.prefix_append x t) (List.prefix_append r _) hl)
  have hc : ∀ x ∈ spaces, ∀ i, 0 < i → ∀ c, x[i]? = some c → 0x80 ≤ c ∧ c < 0xC0 := by
    have : ∀ x ∈ spaces, ∀ c ∈ x.tail, 0x80 ≤ c ∧ c < 0xC0 := by decide +kernel
    intro x hx i hi c hc
    refine this x hx c ?_
    obtain ⟨j, rfl⟩ : ∃ j, i = j + 1 := ⟨i - 1, by omega⟩
    rcases x with _ | ⟨a, x⟩
    · simp at hc
    · exact List.mem_of_getElem? (by simpa using hc)
  have hh : ∀ x ∈ spaces, ∀ c, x[0]? = some c → ¬ (0x80 ≤ c ∧ c < 0xC0) := by
    have : ∀ x ∈ spaces, ∀ c ∈ x[0]?, ¬ (0x80 ≤ c ∧ c < 0xC0) := by decide +kernel
    exact fun x hx c hc => this x hx c hc
  have hg : (r ++ b.flatten)[r.length]? = x[r.length]? := by rw [h1, List.getElem?_append_left (by omega)]
  rw [List.getElem?_append_right (Nat.le_refl _), Nat.sub_self, List.getElem?_eq_getElem (l := x) (by omega)] at hg
  rcases b with _ | ⟨y, b⟩
  · simp at hg
  have hy := hb y List.mem_cons_self
  have hyl := spaces_pos hy
  rw [List.flatten_cons, List.getElem?_append_left hyl] at hg
  exact hh y hy _ hg (hc x hx r.length (List.length_pos_iff.2 hr) _ (List.getElem?_eq_getElem (by omega)))

theorem trim_sound (s : Bytes) : Trimmed s (trimSpaces s) := by
  obtain ⟨a, ha, h1, h2⟩ := dropSpaces_sound (U := spaces) (fun _ => spaces_pos) (fun _ => start_sound) s.length s (Nat.le_refl _)
  have hend : ∀ s, spaceAtEnd s ≠ 0 → ∃ u ∈ spaces.map List.reverse, ∃ t, s = u ++ t ∧ spaceAtEnd s = u.length := by
    intro s hs
    obtain ⟨x, hx, t, h3, h4⟩ := end_sound hs
    exact ⟨x.reverse, List.mem_map.2 ⟨x, hx, rfl⟩, t, h3, by rw [h4, List.length_reverse]⟩
  obtain ⟨b, hb, h3, h4⟩ := dropSpaces_sound reversed_pos hend (dropSpaces spaceAtStart s.length s).length (dropSpaces spaceAtStart s.length s).reverse
    (by rw [List.length_reverse])
  rw [trimSpaces]
  generalize dropSpaces spaceAtStart s.length s = t at h1 h2 h3 h4 ⊢
  generalize dropSpaces spaceAtEnd t.length t.reverse = r at h3 h4 ⊢
  have h5 := congrArg List.reverse h3
  rw [List.reverse_reverse, List.reverse_append] at h5
  refine ⟨⟨a, (b.map List.reverse).reverse, ha, ?_, ?_⟩, ?_, ?_⟩
  · intro x hx
    obtain ⟨u, hu, rfl⟩ := List.mem_map.1 (List.mem_reverse.1 hx)
    obtain ⟨y, hy, rfl⟩ := List.mem_map.1 (hb u hu)
    rwa [List.reverse_reverse]
  · rw [h1, h5, ← flatten_reverse_map, List.map_map]
    simp
  · rintro x hx ⟨v, hv⟩
    have := start_complete (t := v ++ b.flatten.reverse) hx
    rw [← List.append_assoc, hv, ← h5, h2] at this
    have := spaces_pos hx
    omega
  · rintro x hx ⟨v, hv⟩
    have := end_complete (t := v.reverse) hx
    rw [← List.reverse_append, hv, List.reverse_reverse, h4] at this
    have := spaces_pos hx
    omega

theorem trim_complete {s r : Bytes} (h : Trimmed s r) : trimSpaces s = r := by
  obtain ⟨⟨a, b, ha, hb, rfl⟩, hs, he⟩ := h
  have nil0 : spaceAtStart [] = 0 := rfl
  rw [trimSpaces]
  by_cases hr : r = []
  · subst hr
    have h1 : dropSpaces spaceAtStart (a.flatten ++ [] ++ b.flatten).length (a.flatten ++ [] ++ b.flatten) = [] := by
      have := dropSpaces_complete (U := spaces) (fun _ => spaces_pos) (fun _ hu _ => start_complete hu) nil0 (a ++ b)
        (fun u hu => (List.mem_append.1 hu).elim (ha u) (hb u)) ((a ++ b).flatten ++ []).length (Nat.le_refl _)
      rw [List.append_nil, List.flatten_append] at this
      rw [List.append_nil]
      exact this
    rw [h1]
    rfl
  · have h0 := start_append hr hs hb
    have h1 := dropSpaces_complete (U := spaces) (fun _ => spaces_pos) (fun _ hu _ => start_complete hu) h0 a ha _ (Nat.le_refl _)
    have h2 : spaceAtEnd r.reverse = 0 := by
      by_cases h : spaceAtEnd r.reverse = 0
      · exact h
      obtain ⟨x, hx, t, h3, -⟩ := end_sound h
      refine absurd ⟨t.reverse, ?_⟩ (he x hx)
      have := congrArg List.reverse h3
      rw [List.reverse_reverse, List.reverse_append, List.reverse_reverse] at this
      exact this.symm
    have h3 := dropSpaces_complete reversed_pos (f := spaceAtEnd) (fun u hu t => by
      obtain ⟨x, hx, rfl⟩ := List.mem_map.1 hu
      rw [end_complete hx, List.length_reverse]) h2 (b.map List.reverse).reverse (fun u hu => by
        obtain ⟨x, hx, rfl⟩ := List.mem_map.1 (List.mem_reverse.1 hu)
        exact List.mem_map.2 ⟨x, hb x hx, rfl⟩)
    have h4 : (b.map List.reverse).reverse.flatten ++ r.reverse = (r ++ b.flatten).reverse := by
      rw [List.reverse_append, ← flatten_reverse_map, List.map_map]
      simp
    rw [List.append_assoc, h1, ← h4, h3 _ (by rw [h4, List.length_reverse]), List.reverse_reverse]

end Hush

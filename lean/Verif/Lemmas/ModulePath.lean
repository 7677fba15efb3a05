import Verif.Model.ModulePath
import Verif.Spec.ModulePath

/-!
The path of an import is the one that is meant.
-/

namespace Hush
open Spec

theorem absolute_head {p : Bytes} : Absolute p ↔ p.head? = some sep := by
  constructor
  · rintro ⟨r, rfl⟩; rfl
  · intro h
    cases p with
    | nil => cases h
    | cons a r => cases h; exact ⟨r, rfl⟩

theorem dropWhile_all {p : UInt8 → Bool} {a b : Bytes} (h : ∀ x ∈ a, p x = true) : (a ++ b).dropWhile p = b.dropWhile p := by
  induction a with
  | nil => rfl
  | cons x a ih =>
    rw [List.cons_append, List.dropWhile_cons, if_pos (h x List.mem_cons_self)]
    exact ih fun y hy => h y (List.mem_cons_of_mem _ hy)

theorem dropWhile_none {p : UInt8 → Bool} {a : Bytes} (h : ∀ x, a.head? = some x → p x = false) : a.dropWhile p = a := by
  cases a with
  | nil => rfl
  | cons x a => rw [List.dropWhile_cons, if_neg (by simp [h x rfl])]

theorem popPath_split {dir name : Bytes} {k : Nat} (hd : dir.getLast? ≠ some 47) (hn : name ≠ []) (hm : 47 ∉ name) :
    popPath (dir ++ List.replicate (k + 1) 47 ++ name) = if dir = [] then [47] else dir := by
  have h1 : (dir ++ List.replicate (k + 1) 47 ++ name).reverse = name.reverse ++ (List.replicate (k + 1) 47 ++ dir.reverse) := by simp
  have h2 : (name.reverse ++ (List.replicate (k + 1) 47 ++ dir.reverse)).dropWhile (· == sep) = name.reverse ++ (List.replicate (k + 1) 47 ++ dir.reverse) := by
    refine dropWhile_none fun x hx => ?_
    cases hr : name.reverse with
    | nil => simp_all
    | cons y ys =>
      rw [hr] at hx
      have hxy : y = x := by simpa using hx
      subst hxy
      have : y ∈ name := List.mem_reverse.1 (hr ▸ List.mem_cons_self)
      simp only [sep, beq_eq_false_iff_ne]
      rintro rfl
      exact hm this
  have h3 : (name.reverse ++ (List.replicate (k + 1) 47 ++ dir.reverse)).dropWhile (· != sep) = List.replicate (k + 1) 47 ++ dir.reverse := by
    rw [dropWhile_all]
    · exact dropWhile_none fun x hx => by cases hx; rfl
    · intro x hx
      simp only [sep, bne_iff_ne]
      rintro rfl
      exact hm (List.mem_reverse.1 hx)
  have h4 : (List.replicate (k + 1) 47 ++ dir.reverse).dropWhile (· == sep) = dir.reverse := by
    rw [dropWhile_all]
    · refine dropWhile_none fun x hx => ?_
      rw [List.head?_reverse] at hx
      simp only [sep, beq_eq_false_iff_ne]
      rintro rfl
      exact hd hx
    · intro x hx
      rw [List.eq_of_mem_replicate hx]
      rfl
  unfold popPath
  rw [h1, h2]
  split
  · simp_all
  · rw [h3]
    split
    · simp_all
    · rw [h4]
      split
      · simp_all [sep]
      · rename_i hne
        rw [if_neg (by rintro rfl; exact hne rfl), List.reverse_reverse]

theorem popPath_here {name : Bytes} (hm : 47 ∉ name) : popPath name = [] := by
  have h1 : name.reverse.dropWhile (· == sep) = name.reverse := by
    refine dropWhile_none fun x hx => ?_
    have : x ∈ name := List.mem_reverse.1 (List.mem_of_head? hx)
    simp only [sep, beq_eq_false_iff_ne]
    rintro rfl
    exact hm this
  have h2 : name.reverse.dropWhile (· != sep) = [] := by
    rw [← List.append_nil name.reverse, dropWhile_all]
    · rfl
    · intro x hx
      simp only [sep, bne_iff_ne]
      rintro rfl
      exact hm (List.mem_reverse.1 hx)
  unfold popPath
  rw [h1]
  split
  · simp_all
  · rw [h2]

theorem modulePath_seen {cur t p : Bytes} (h : SeenFrom cur t p) : modulePath cur t = p := by
  cases h with
  | absolute _ _ h => rw [modulePath, pushPath, if_pos (absolute_head.1 h)]
  | inDirectory dir name _ k h1 h2 h3 h4 h5 =>
    rw [modulePath, popPath_split h2 h3 h4, if_neg h1, pushPath, if_neg (fun h => h5 (absolute_head.2 h)), if_neg (by simpa [sep, h1] using h2)]
    rfl
  | inRoot name _ k h3 h4 h5 =>
    have := popPath_split (dir := []) (k := k) (by simp) h3 h4
    rw [List.nil_append, if_pos rfl] at this
    rw [modulePath, this, pushPath, if_neg (fun h => h5 (absolute_head.2 h)), if_pos (.inr rfl)]
    rfl
  | here _ _ h4 h5 =>
    rw [modulePath, popPath_here h4, pushPath, if_neg (fun h => h5 (absolute_head.2 h)), if_pos (.inl rfl)]
    rfl

/-- A list is its front without trailing slashes, and slashes. -/
theorem trailing (d : Bytes) : ∃ dir k, d = dir ++ List.replicate k 47 ∧ dir.getLast? ≠ some 47 := by
  induction h : d.length generalizing d with
  | zero => exact ⟨[], 0, by simpa using List.length_eq_zero_iff.1 h, by simp⟩
  | succ n ih =>
    by_cases hl : d.getLast? = some 47
    · obtain ⟨d', rfl⟩ : ∃ d', d = d' ++ [47] := by
        obtain ⟨d', x, rfl⟩ := List.getLast?_eq_some_iff.1 hl
        exact ⟨d', rfl⟩
      obtain ⟨dir, k, rfl, hk⟩ := ih d' (by simpa using h)
      exact ⟨dir, k + 1, by simp [List.replicate_succ'], hk⟩
    · exact ⟨d, 0, by simp, hl⟩

/-- A path that does not end with a slash. -/
theorem path_split {cur : Bytes} (hc : cur.getLast? ≠ some 47) (hs : 47 ∈ cur) :
    ∃ dir k name, cur = dir ++ List.replicate (k + 1) 47 ++ name ∧ dir.getLast? ≠ some 47 ∧ name ≠ [] ∧ 47 ∉ name := by
  obtain ⟨d, name, rfl, hn⟩ : ∃ d name, cur = d ++ 47 :: name ∧ 47 ∉ name := by
    clear hc
    induction cur with
    | nil => cases hs
    | cons x cur ih =>
      by_cases h : 47 ∈ cur
      · obtain ⟨d, name, rfl, hn⟩ := ih h
        exact ⟨x :: d, name, rfl, hn⟩
      · rcases List.mem_cons.1 hs with rfl | h'
        · exact ⟨[], cur, rfl, h⟩
        · exact absurd h' h
  obtain ⟨dir, k, rfl, hk⟩ := trailing d
  refine ⟨dir, k, name, by simp [List.replicate_succ'], hk, ?_, hn⟩
  rintro rfl
  simp at hc

theorem seen_total {cur : Bytes} (hc : cur.getLast? ≠ some 47) (t : Bytes) : SeenFrom cur t (modulePath cur t) := by
  suffices h : ∃ p, SeenFrom cur t p by
    obtain ⟨p, h⟩ := h
    rw [modulePath_seen h]
    exact h
  by_cases ha : Absolute t
  · exact ⟨_, .absolute _ _ ha⟩
  by_cases hs : 47 ∈ cur
  · obtain ⟨dir, k, name, rfl, h1, h2, h3⟩ := path_split hc hs
    by_cases hd : dir = []
    · subst hd
      exact ⟨_, .inRoot name t k h2 h3 ha⟩
    · exact ⟨_, .inDirectory dir name t k hd h1 h2 h3 ha⟩
  · exact ⟨_, .here _ _ hs ha⟩

/-- What is seen from an absolute path is absolute. -/
theorem seen_absolute {cur t p : Bytes} (h : SeenFrom cur t p) (hc : Absolute cur) : Absolute p := by
  cases h with
  | absolute _ _ h => exact h
  | inDirectory dir name _ k h1 =>
    obtain ⟨r, hr⟩ := hc
    cases dir with
    | nil => exact absurd rfl h1
    | cons a d => cases hr; exact ⟨_, rfl⟩
  | inRoot name _ k => exact ⟨_, rfl⟩
  | here _ _ h4 => obtain ⟨r, rfl⟩ := hc; exact absurd List.mem_cons_self h4

theorem dropWhile_last (p : UInt8 → Bool) (l : Bytes) : l.dropWhile p = [] ∨ (l.dropWhile p).getLast? = l.getLast? := by
  induction l with
  | nil => exact .inl rfl
  | cons x l ih =>
    rw [List.dropWhile_cons]
    split
    · rcases ih with h | h
      · exact .inl h
      · by_cases hn : l.dropWhile p = []
        · exact .inl hn
        · right
          rw [h]
          cases l with
          | nil => exact absurd rfl hn
          | cons y l => simp
    · exact .inr rfl

theorem dropWhile_nothing {p : UInt8 → Bool} {l : Bytes} (h : l.dropWhile p = []) : ∀ x ∈ l, p x = true := by
  induction l with
  | nil => nofun
  | cons y l ih =>
    rw [List.dropWhile_cons] at h
    split at h
    · rename_i hy
      intro x hx
      rcases List.mem_cons.1 hx with rfl | hx
      · exact hy
      · exact ih h x hx
    · cases h

theorem popPath_absolute {cur : Bytes} (hc : Absolute cur) : Absolute (popPath cur) := by
  have h0 : cur.reverse.getLast? = some 47 := by rw [List.getLast?_reverse]; exact absolute_head.1 hc
  have h1 := dropWhile_last (· == sep) cur.reverse
  have h2 := dropWhile_last (· != sep) (cur.reverse.dropWhile (· == sep))
  have h3 := dropWhile_last (· == sep) ((cur.reverse.dropWhile (· == sep)).dropWhile (· != sep))
  unfold popPath
  split
  · exact hc
  · rename_i hq
    have h1 := h1.resolve_left hq
    split
    · rename_i hd
      exfalso
      have hm : (47 : UInt8) ∈ cur.reverse.dropWhile (· == sep) := List.mem_of_getLast? (h1.trans h0)
      have := dropWhile_nothing hd 47 hm
      simp [sep] at this
    · rename_i hd
      have h2 := h2.resolve_left hd
      split
      · exact ⟨[], rfl⟩
      · rename_i he
        have h3 := h3.resolve_left he
        rw [absolute_head, List.head?_reverse, h3, h2, h1, h0]
        rfl

theorem modulePath_absolute {cur : Bytes} (hc : Absolute cur) (t : Bytes) : Absolute (modulePath cur t) := by
  obtain ⟨r, hr⟩ := popPath_absolute hc
  unfold modulePath pushPath
  rw [hr]
  split
  · rename_i h; exact absolute_head.2 h
  · split <;> exact ⟨_, rfl⟩

end Hush

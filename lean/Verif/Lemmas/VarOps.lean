import Verif.Lemmas.VarRel

/-!
Operations on variables: in the interpreter and in the reference semantics.
-/

namespace Hush
open Spec

theorem getElem?_set_eq_some {l : List α} {i : Nat} {a b} (h : l[i]? = some b) : (l.set i a)[i]? = some a := by
  have := (List.getElem?_eq_some_iff.1 h).1
  rw [List.getElem?_set_self this]

theorem nodup_inj {l : List Nat} (h : l.Nodup) {i j x : Nat} (hi : l[i]? = some x) (hj : l[j]? = some x) : i = j := by
  obtain ⟨h1, h2⟩ := List.getElem?_eq_some_iff.1 hi
  obtain ⟨h3, h4⟩ := List.getElem?_eq_some_iff.1 hj
  by_contra hne
  rcases Nat.lt_or_gt_of_ne hne with hlt | hlt
  · exact (List.pairwise_iff_getElem.1 h i j h1 h3 hlt) (h2.trans h4.symm)
  · exact (List.pairwise_iff_getElem.1 h j i h3 h1 hlt) (h4.trans h2.symm)

theorem hrel_regular {κ h h'} (r : HRel κ h h') {x v} (hx : x ∉ κ) : HRel κ h (h'.setCell x v) := by
  refine ⟨r.arrays, r.dicts, r.contexts, r.natives, r.closures, r.bound, r.len, r.nodup, ?_⟩
  intro i l hl
  have : x ≠ l := by rintro rfl; exact hx (List.mem_of_getElem? hl)
  simp only [Heap.setCell, List.getElem?_set_ne this]
  exact r.cells i l hl

theorem hrel_closed {κ h h'} (r : HRel κ h h') {c x v} (hx : κ[c]? = some x) : HRel κ (h.setCell c v) (h'.setCell x v) := by
  refine ⟨r.arrays, r.dicts, r.contexts, r.natives, r.closures, r.bound, by simpa [Heap.setCell] using r.len, r.nodup, ?_⟩
  intro i l hl
  simp only [Heap.setCell]
  by_cases hi : i = c
  · subst hi
    rw [hx] at hl
    cases hl
    have h1 := r.cells i x hx
    have h2 : i < h.cells.length := by rw [← r.len]; exact (List.getElem?_eq_some_iff.1 hx).1
    rw [List.getElem?_eq_getElem h2] at h1
    rw [getElem?_set_eq_some h1, List.getElem?_set_self h2]
  · have : x ≠ l := by rintro rfl; exact hi (nodup_inj r.nodup hl hx)
    rw [List.getElem?_set_ne this, List.getElem?_set_ne (Ne.symm hi)]
    exact r.cells i l hl

section
variable {κ : List Nat} {s : RState} {σ : Vars.State} {k : Nat} {env : List Nat}

theorem Window.get (f : Window κ s σ k env) {ix : Nat} (h : ix < k) : ∃ x, env[ix]? = some x :=
  ⟨_, List.getElem?_eq_getElem (by rw [f.len]; exact h)⟩

theorem Window.slot (f : Window κ s σ k env) {ix : Nat} (h : ix < k) : ∃ x, s.stack[ix]? = some x :=
  ⟨_, List.getElem?_eq_getElem (Nat.lt_of_lt_of_le h f.size)⟩

theorem fetch_eq (hl : Live κ s σ) (f : Window κ s σ k env) {ix : Nat} (h : ix < k) :
    ∃ sl x, s.stack[ix]? = some sl ∧ env[ix]? = some x ∧ σ.base.heap.cell x = sl.fetch s.heap := by
  obtain ⟨x, hx⟩ := f.get h
  obtain ⟨sl, hs⟩ := f.slot h
  refine ⟨sl, x, hs, hx, ?_⟩
  cases sl with
  | regular v =>
    have := (f.regular ix v x h hs hx).2
    simp only [Heap.cell, List.getD_eq_getElem?_getD, this, Slot.fetch, Option.getD_some]
  | closed c =>
    have h1 := f.closed ix c h hs
    rw [hx] at h1
    have h2 := hl.base.heap.cells c x h1
    simp only [Heap.cell, List.getD_eq_getElem?_getD, h2, Slot.fetch]

theorem value_rel (hl : Live κ s σ) (f : Window κ s σ k env) {ix : Nat} (h : ix < k) :
    ∃ v, fetch ix s = (.ok v, s) ∧ Vars.value env ix σ = some (.ok v, σ) := by
  obtain ⟨sl, x, h1, h2, h3⟩ := fetch_eq hl f h
  exact ⟨sl.fetch s.heap, by simp only [fetch, h1], by simp only [Vars.value, h2, h3]⟩

theorem assign_rel (hl : Live κ s σ) (f : Window κ s σ k env) {ix : Nat} (h : ix < k) (v : Value) :
    ∃ s' σ', store ix v s = (.ok (), s') ∧ Vars.assign env ix v σ = some (.ok (), σ') ∧ Live κ s' σ' ∧ Window κ s' σ' k env ∧
      Moves κ env σ κ σ' ∧ σ'.height = σ.height ∧ s'.stack.length = s.stack.length := by
  obtain ⟨x, hx⟩ := f.get h
  obtain ⟨sl, hs⟩ := f.slot h
  have hmem : x ∈ env := List.mem_of_getElem? hx
  have hb := hl.base
  have hlt := f.lt hb h hx
  have hmv : ∀ σ' : Vars.State, σ'.base.heap.cells = σ.base.heap.cells.set x v → Moves κ env σ κ σ' := by
    intro σ' e
    refine ⟨List.prefix_refl _, fun _ h => .inl h, by rw [e]; simp, ?_⟩
    intro l _ _ h3
    have : x ≠ l := by rintro rfl; exact h3 hmem
    rw [e, List.getElem?_set_ne this]
  cases sl with
  | regular v0 =>
    obtain ⟨h1, h2⟩ := f.regular ix v0 x h hs hx
    refine ⟨{ s with stack := s.stack.set ix (.regular v) }, { σ with base := { σ.base with heap := σ.base.heap.setCell x v } }, by simp only [store, hs],
      by simp only [Vars.assign, hx],
      ⟨⟨hrel_regular hb.heap h1, hb.args, hb.modules, hb.files, hb.trace, hb.std, hb.argv⟩, hl.failed, hl.leaked, by simpa using hl.height⟩,
      ⟨f.len, by simpa using f.size, ?_, ?_, ?_⟩, hmv _ rfl, rfl, by simp⟩
    · intro i w y hi h3 h4
      simp only [Heap.setCell]
      by_cases hii : ix = i
      · subst hii
        rw [hx] at h4; cases h4
        simp only at h3
        rw [getElem?_set_eq_some hs] at h3
        cases h3
        exact ⟨h1, getElem?_set_eq_some h2⟩
      · simp only [List.getElem?_set_ne hii] at h3
        obtain ⟨h5, h6⟩ := f.regular i w y hi h3 h4
        have : x ≠ y := by
          rintro rfl
          exact f.apart ix i v0 w h hi hii hs h3 (hx.trans h4.symm)
        exact ⟨h5, by rw [List.getElem?_set_ne this]; exact h6⟩
    · intro i c hi h3
      simp only at h3
      by_cases hii : ix = i
      · subst hii; rw [getElem?_set_eq_some hs] at h3; cases h3
      · rw [List.getElem?_set_ne hii] at h3; exact f.closed i c hi h3
    · have key : ∀ (i : Nat) w, (s.stack.set ix (.regular v))[i]? = some (.regular w) → ∃ w', s.stack[i]? = some (.regular w') := by
        intro i w h3
        by_cases hii : ix = i
        · subst hii; exact ⟨_, hs⟩
        · rw [List.getElem?_set_ne hii] at h3; exact ⟨_, h3⟩
      intro i j w w' hi hj hij h3 h4
      obtain ⟨u, h3⟩ := key i w h3
      obtain ⟨u', h4⟩ := key j w' h4
      exact f.apart i j u u' hi hj hij h3 h4
  | closed c =>
    have h1 := f.closed ix c h hs
    rw [hx] at h1
    refine ⟨{ s with heap := s.heap.setCell c v }, { σ with base := { σ.base with heap := σ.base.heap.setCell x v } }, by simp only [store, hs],
      by simp only [Vars.assign, hx],
      ⟨⟨hrel_closed hb.heap h1, hb.args, hb.modules, hb.files, hb.trace, hb.std, hb.argv⟩, hl.failed, hl.leaked, hl.height⟩,
      ⟨f.len, f.size, ?_, f.closed, f.apart⟩, hmv _ rfl, rfl, rfl⟩
    intro i w y hi h3 h4
    obtain ⟨h5, h6⟩ := f.regular i w y hi h3 h4
    have : x ≠ y := by rintro rfl; exact h5 (List.mem_of_getElem? h1)
    exact ⟨h5, by simp only [Heap.setCell, List.getElem?_set_ne this]; exact h6⟩

theorem ren_append {κ t : List Nat} {c : Closure} (h : ∀ q ∈ c.context, q.1 < κ.length) : ren (κ ++ t) c = ren κ c := by
  simp only [ren]
  congr 1
  refine List.map_congr_left ?_
  intro q hq
  simp only [List.getD_eq_getElem?_getD, List.getElem?_append_left (h q hq)]

theorem capture_rel (hl : Live κ s σ) (f : Window κ s σ k env) {ix : Nat} (h : ix < k) :
    ∃ c s' κ', capture ix s = (.ok c, s') ∧ κ'[c]? = env[ix]? ∧ Live κ' s' σ ∧ Window κ' s' σ k env ∧ Moves κ env σ κ' σ := by
  obtain ⟨x, hx⟩ := f.get h
  obtain ⟨sl, hs⟩ := f.slot h
  have hmem : x ∈ env := List.mem_of_getElem? hx
  have hb := hl.base
  have hh := hb.heap
  cases sl with
  | closed c =>
    have h1 := f.closed ix c h hs
    exact ⟨c, s, κ, by simp only [capture, hs], h1, hl, f, .refl⟩
  | regular v =>
    obtain ⟨h1, h2⟩ := f.regular ix v x h hs hx
    have hlast : (κ ++ [x])[s.heap.cells.length]? = some x := by rw [← hh.len]; simp
    refine ⟨(s.heap.newCell v).1, { s with stack := s.stack.set ix (.closed (s.heap.newCell v).1), heap := (s.heap.newCell v).2 }, κ ++ [x],
      by simp only [capture, hs], by rw [hx]; exact hlast, ⟨⟨?_, hb.args, hb.modules, hb.files, hb.trace, hb.std, hb.argv⟩,
      hl.failed, hl.leaked, by simpa using hl.height⟩, ⟨f.len, by simpa using f.size, ?_, ?_, ?_⟩, ?_⟩
    · refine ⟨hh.arrays, hh.dicts, hh.contexts, hh.natives, ?_, ?_, by simp [Heap.newCell, hh.len], ?_, ?_⟩
      · rw [hh.closures]
        exact List.map_congr_left fun c hc => (ren_append (hh.bound c hc)).symm
      · intro c hc q hq
        have := hh.bound c hc q hq
        simp only [List.length_append]
        omega
      · rw [List.nodup_append]
        refine ⟨hh.nodup, by simp, ?_⟩
        intro a ha b hb' e
        simp only [List.mem_singleton] at hb'
        subst e; subst hb'; exact h1 ha
      · intro i l hi
        simp only [Heap.newCell]
        by_cases hc : i < κ.length
        · rw [List.getElem?_append_left hc] at hi
          rw [hh.cells i l hi, List.getElem?_append_left (by rw [← hh.len]; exact hc)]
        · have h3 : i < (κ ++ [x]).length := (List.getElem?_eq_some_iff.1 hi).1
          simp only [List.length_append, List.length_singleton] at h3
          have h4 : i = s.heap.cells.length := by rw [← hh.len]; omega
          subst h4
          rw [hlast] at hi; cases hi
          rw [h2]; simp
    · intro i w y hi h3 h4
      simp only at h3
      by_cases hii : ix = i
      · subst hii; rw [getElem?_set_eq_some hs] at h3; cases h3
      · rw [List.getElem?_set_ne hii] at h3
        obtain ⟨h5, h6⟩ := f.regular i w y hi h3 h4
        refine ⟨?_, h6⟩
        simp only [List.mem_append, List.mem_singleton, not_or]
        refine ⟨h5, ?_⟩
        rintro rfl
        exact f.apart ix i v w h hi hii hs h3 (hx.trans h4.symm)
    · intro i c hi h3
      simp only at h3
      by_cases hii : ix = i
      · subst hii
        rw [getElem?_set_eq_some hs] at h3
        cases h3
        rw [hx]; exact hlast
      · rw [List.getElem?_set_ne hii] at h3
        have h4 := f.closed i c hi h3
        obtain ⟨y, hy⟩ := f.get hi
        rw [hy] at h4 ⊢
        rw [List.getElem?_append_left (List.getElem?_eq_some_iff.1 h4).1]
        exact h4
    · have key : ∀ (i : Nat) w, (s.stack.set ix (.closed (s.heap.newCell v).1))[i]? = some (.regular w) → s.stack[i]? = some (.regular w) := by
        intro i w h3
        by_cases hii : ix = i
        · subst hii; rw [getElem?_set_eq_some hs] at h3; cases h3
        · rw [List.getElem?_set_ne hii] at h3; exact h3
      intro i j w w' hi hj hij h3 h4
      exact f.apart i j w w' hi hj hij (key i w h3) (key j w' h4)
    · refine ⟨List.prefix_append _ _, ?_, Nat.le_refl _, fun _ _ _ _ => rfl⟩
      intro l hl'
      simp only [List.mem_append, List.mem_singleton] at hl'
      rcases hl' with h3 | rfl
      · exact .inl h3
      · exact .inr (.inl hmem)

end

theorem captures_rel {σ : Vars.State} {k : Nat} {env : List Nat} : ∀ {cs : List Prog.Capture} {κ s}, Live κ s σ → Window κ s σ k env →
    (∀ c ∈ cs, c.from_ < k) →
    ∃ l s' κ', captureAll cs s = (.ok l, s') ∧ Vars.captures env cs σ = some (.ok (l.map (fun q => (κ'.getD q.1 0, q.2))), σ) ∧
      (∀ q ∈ l, q.1 < κ'.length) ∧ Live κ' s' σ ∧ Window κ' s' σ k env ∧ Moves κ env σ κ' σ
  | [], κ, s, hl, f, _ => ⟨[], s, κ, rfl, rfl, by simp, hl, f, .refl⟩
  | c :: cs, κ, s, hl, f, hc => by
    obtain ⟨a, s1, κ1, h1, h2, hl1, f1, m1⟩ := capture_rel hl f (hc c (by simp))
    obtain ⟨l, s2, κ2, h3, h4, h5, hl2, f2, m2⟩ := captures_rel (cs := cs) hl1 f1 (fun c' h' => hc c' (List.mem_cons_of_mem _ h'))
    obtain ⟨x, hx⟩ := f.get (hc c (by simp))
    rw [hx] at h2
    have h6 : κ2[a]? = some x := by
      obtain ⟨t, rfl⟩ := m2.pre
      rw [List.getElem?_append_left (List.getElem?_eq_some_iff.1 h2).1]; exact h2
    refine ⟨(a, c.to) :: l, s2, κ2, ?_, ?_, ?_, hl2, f2, m1.trans m2⟩
    · simp only [captureAll, bind, M.andThen, h1, h3]; rfl
    · simp only [Vars.captures, hx, bind, Vars.VM.andThen, h4, List.map_cons, List.getD_eq_getElem?_getD, h6, Option.getD_some]
      rfl
    · intro q hq
      simp only [List.mem_cons] at hq
      rcases hq with rfl | hq
      · exact (List.getElem?_eq_some_iff.1 h6).1
      · exact h5 q hq

/-- A new function. -/
theorem hrel_newClosure {κ h h'} (r : HRel κ h h') {c : Closure} (hc : ∀ q ∈ c.context, q.1 < κ.length) :
    (h'.newClosure (ren κ c)).1 = (h.newClosure c).1 ∧ HRel κ (h.newClosure c).2 (h'.newClosure (ren κ c)).2 := by
  refine ⟨by simp [Heap.newClosure, r.closures], ⟨r.arrays, r.dicts, r.contexts, r.natives, by simp [Heap.newClosure, r.closures], ?_,
    r.len, r.nodup, r.cells⟩⟩
  intro c' hm
  simp only [Heap.newClosure, List.mem_append, List.mem_singleton] at hm
  rcases hm with hm | rfl
  · exact r.bound c' hm
  · exact hc

/-! ### The variables of a called function -/

theorem assignAll_rel {κ k env} : ∀ {vs : List Value} {ix s σ}, Live κ s σ → Window κ s σ k env → ix + vs.length ≤ k →
    ∃ s' σ', storeArgs ix vs s = (.ok (), s') ∧ Vars.assignAll env ix vs σ = some (.ok (), σ') ∧ Live κ s' σ' ∧
      Window κ s' σ' k env ∧ Moves κ env σ κ σ'
  | [], ix, s, σ, hl, f, _ => ⟨s, σ, rfl, rfl, hl, f, .refl⟩
  | v :: vs, ix, s, σ, hl, f, h => by
    simp only [List.length_cons] at h
    obtain ⟨s1, σ1, h1, h2, hl1, f1, m1, -⟩ := assign_rel hl f (show ix < k by omega) v
    obtain ⟨s2, σ2, h3, h4, hl2, f2, m2⟩ := assignAll_rel (vs := vs) (ix := ix + 1) hl1 f1 (by omega)
    refine ⟨s2, σ2, ?_, ?_, hl2, f2, m1.trans m2⟩
    · simp only [storeArgs, bind, M.andThen, h1, h3]
    · simp only [Vars.assignAll, bind, Vars.VM.andThen, h2, h4]

theorem assignSelf_rel {κ k env} {o : Option Nat} {s σ} (hl : Live κ s σ) (f : Window κ s σ k env) (h : ∀ ix, o = some ix → ix < k)
    (v : Value) : ∃ s' σ', storeSelf v o s = (.ok (), s') ∧ Vars.assignSelf env v o σ = some (.ok (), σ') ∧ Live κ s' σ' ∧
      Window κ s' σ' k env ∧ Moves κ env σ κ σ' := by
  cases o with
  | none => exact ⟨s, σ, rfl, rfl, hl, f, .refl⟩
  | some ix =>
    obtain ⟨s1, σ1, h1, h2, hl1, f1, m1, -⟩ := assign_rel hl f (h ix rfl) v
    exact ⟨s1, σ1, h1, h2, hl1, f1, m1⟩

theorem placeAll_rel {κ k σ} : ∀ {l : List (Nat × Nat)} {env s}, Live κ s σ → Window κ s σ k env →
    (∀ q ∈ l, q.2 < k) → (∀ q ∈ l, q.1 < κ.length) →
    ∃ s', placeAll l s = (.ok (), s') ∧ Live κ s' σ ∧
      Window κ s' σ k (Vars.withCaptured env (l.map (fun q => (κ.getD q.1 0, q.2)))) ∧
      ∀ x ∈ Vars.withCaptured env (l.map (fun q => (κ.getD q.1 0, q.2))), x ∈ κ ∨ x ∈ env
  | [], env, s, hl, f, _, _ => ⟨s, rfl, hl, f, fun _ h => .inr h⟩
  | (c, ix) :: l, env, s, hl, f, h1, h2 => by
    have hix : ix < k := h1 (c, ix) (by simp)
    have hc : c < κ.length := h2 (c, ix) (by simp)
    have hκ : κ[c]? = some (κ.getD c 0) := by
      rw [List.getD_eq_getElem?_getD, List.getElem?_eq_getElem hc]; rfl
    obtain ⟨sl, hs⟩ := f.slot hix
    obtain ⟨x, hx⟩ := f.get hix
    have hl1 : Live κ { s with stack := s.stack.set ix (.closed c) } σ :=
      ⟨⟨hl.base.heap, hl.base.args, hl.base.modules, hl.base.files, hl.base.trace, hl.base.std, hl.base.argv⟩, hl.failed, hl.leaked,
        by simpa using hl.height⟩
    have key : ∀ (i : Nat) w, (s.stack.set ix (.closed c))[i]? = some (.regular w) → ix ≠ i ∧ s.stack[i]? = some (.regular w) := by
      intro i w h3
      by_cases hii : ix = i
      · subst hii; rw [getElem?_set_eq_some hs] at h3; cases h3
      · rw [List.getElem?_set_ne hii] at h3; exact ⟨hii, h3⟩
    have f1 : Window κ { s with stack := s.stack.set ix (.closed c) } σ k (env.set ix (κ.getD c 0)) := by
      refine ⟨by simpa using f.len, by simpa using f.size, ?_, ?_, ?_⟩
      · intro i w y hi h3 h4
        obtain ⟨hii, h3⟩ := key i w h3
        rw [List.getElem?_set_ne hii] at h4
        exact f.regular i w y hi h3 h4
      · intro i c' hi h3
        simp only at h3
        by_cases hii : ix = i
        · subst hii
          rw [getElem?_set_eq_some hs] at h3
          cases h3
          rw [getElem?_set_eq_some hx, hκ]
        · rw [List.getElem?_set_ne hii] at h3 ⊢
          exact f.closed i c' hi h3
      · intro i j w w' hi hj hij h3 h4
        obtain ⟨hii, h3⟩ := key i w h3
        obtain ⟨hjj, h4⟩ := key j w' h4
        rw [List.getElem?_set_ne hii, List.getElem?_set_ne hjj]
        exact f.apart i j w w' hi hj hij h3 h4
    obtain ⟨s2, h3, hl2, f2, h4⟩ := placeAll_rel (l := l) hl1 f1 (fun q hq => h1 q (List.mem_cons_of_mem _ hq)) (fun q hq => h2 q (List.mem_cons_of_mem _ hq))
    refine ⟨s2, ?_, hl2, f2, ?_⟩
    · simp only [placeAll, place, bind, M.andThen, hs]; exact h3
    · intro y hy
      rcases h4 y hy with h | h
      · exact .inl h
      · rcases List.mem_or_eq_of_mem_set h with h | rfl
        · exact .inr h
        · exact .inl (List.mem_of_getElem? hκ)

/-- New variables. -/
theorem enter_rel {κ s σ} (hl : Live κ s σ) (n : Nat) :
    ∃ σ', Vars.newVars n { σ with height := σ.height + n } = some (.ok (List.range' σ.base.heap.cells.length n), σ') ∧
      Live κ { s with stack := List.replicate n (.regular .nil) ++ s.stack } σ' ∧
      Window κ { s with stack := List.replicate n (.regular .nil) ++ s.stack } σ' n (List.range' σ.base.heap.cells.length n) ∧
      Moves κ [] σ κ σ' := by
  have hb := hl.base
  have hh := hb.heap
  have hlt : ∀ l ∈ κ, l < σ.base.heap.cells.length := by
    intro l hm
    obtain ⟨i, hi⟩ := List.getElem?_of_mem hm
    have h1 := hh.cells i l hi
    have h2 : i < s.heap.cells.length := by rw [← hh.len]; exact (List.getElem?_eq_some_iff.1 hi).1
    rw [List.getElem?_eq_getElem h2] at h1
    exact (List.getElem?_eq_some_iff.1 h1).1
  refine ⟨_, rfl, ⟨⟨⟨hh.arrays, hh.dicts, hh.contexts, hh.natives, hh.closures, hh.bound, hh.len, hh.nodup, ?_⟩, hb.args, hb.modules,
    hb.files, hb.trace, hb.std, hb.argv⟩, hl.failed, hl.leaked, by simp [hl.height, Nat.add_comm]⟩, ⟨by simp, by simp, ?_, ?_, ?_⟩, ?_⟩
  · intro i l hi
    simp only
    rw [List.getElem?_append_left (hlt l (List.mem_of_getElem? hi))]
    exact hh.cells i l hi
  · intro i v x hi h1 h2
    simp only at h1
    rw [List.getElem?_append_left (by simpa using hi), List.getElem?_replicate, if_pos hi] at h1
    cases h1
    obtain rfl : σ.base.heap.cells.length + i = x := by simpa [List.getElem?_range', hi] using h2
    refine ⟨?_, ?_⟩
    · intro hm; have := hlt _ hm; omega
    · simp only
      rw [List.getElem?_append_right (by omega), List.getElem?_replicate]
      rw [if_pos (by omega)]
  · intro i c hi h1
    simp only at h1
    rw [List.getElem?_append_left (by simpa using hi), List.getElem?_replicate, if_pos hi] at h1
    cases h1
  · intro i j v v' hi hj hij _ _ he
    rw [List.getElem?_range' hi, List.getElem?_range' hj] at he
    simp only [Option.some.injEq] at he
    omega
  · refine ⟨List.prefix_refl _, fun _ h => .inl h, by simp, ?_⟩
    intro l h1 _ _
    simp only
    rw [List.getElem?_append_left h1]

end Hush

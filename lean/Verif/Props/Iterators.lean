import Verif.Lemmas.Spent
import Verif.Lemmas.Loops

/-!
C90: exhausted iterators stay exhausted.
-/

namespace Hush.Props
open Hush Spec

/-- C90: whatever is executed, an exhausted iterator over a string or a dict, and an exhausted range, stays as it is. -/
theorem spent_stays {w : World} {s s' : RState} (hl : Afterwards w s s') {a : Nat} {st : NState} (hs : Spent st)
    (h : s.heap.natives[a]? = some st) : s'.heap.natives[a]? = some st := by
  induction hl with
  | refl => exact h
  | task n t _ ih => exact (mkept_run w n t _).keeps a st hs ih
  | other _ he ih => rw [he]; exact ih

example (w : World) (s : RState) (t : Task) :
    (run w 9 t { s with heap := { s.heap with natives := [.none, .stringIter (bs "ab") 2] } }).2.heap.natives[1]? =
      some (.stringIter (bs "ab") 2) :=
  spent_stays (.task 9 t .refl) (a := 1) (st := .stringIter (bs "ab") 2) (by decide : (bs "ab").length ≤ 2) rfl

-- An iterator that is not exhausted does change.
example (w : World) (s : RState) :
    (callLib w 9 (bs "std.iter<impl>") 0 [] noPos { s with heap := { s.heap with natives := [.stringIter (bs "ab") 1] } }).2.heap.natives =
      [.stringIter (bs "ab") 2] := rfl

theorem native_of_get {h : Heap} {a : Nat} {st : NState} (ha : h.natives[a]? = some st) : h.native a = st := by
  simp [Heap.native, List.getD_eq_getElem?_getD, ha]

theorem lib_iter_call (w : World) (c : LibCall) (h : Heap) : Lib.call w (bs "std.iter<impl>") c h = Lib.iterImpl w c h := rfl
theorem lib_range_call (w : World) (c : LibCall) (h : Heap) : Lib.call w (bs "std.range<impl>") c h = Lib.rangeImpl w c h := rfl

/-- What a call of an exhausted iterator does. -/
theorem spent_call {w : World} {name : Bytes} {st : NState} (hf : FixedIter name st) (hs : Spent st) {c : LibCall} {h : Heap}
    (hc : c.args = []) (hn : h.native c.addr = st) : Lib.call w name c h = some (.ok (Lib.iteration h none)) := by
  cases hf with
  | string s ix =>
    rw [lib_iter_call]
    simp only [Lib.iterImpl, hc, hn, List.isEmpty_nil, Bool.not_true, Bool.false_eq_true, if_false]
    rw [List.getElem?_eq_none hs]
  | dict es =>
    have he : es = [] := hs
    subst he
    rw [lib_iter_call]
    simp only [Lib.iterImpl, hc, hn, List.isEmpty_nil, Bool.not_true, Bool.false_eq_true, if_false]
    rfl
  | int a b s =>
    rw [lib_range_call]
    simp only [Lib.rangeImpl, hc, hn, List.isEmpty_nil, Bool.not_true, Bool.false_eq_true, if_false]
    refine if_pos ?_
    split
    · rename_i h0; exact hs.1 h0
    · rename_i h0; exact hs.2 (Int.not_lt.1 h0)
  | float a b s =>
    rw [lib_range_call]
    simp only [Lib.rangeImpl, hc, hn, List.isEmpty_nil, Bool.not_true, Bool.false_eq_true, if_false]
    refine if_pos ?_
    split
    · rename_i h0; exact hs.1 h0
    · rename_i h0; exact hs.2 h0

theorem iteration_unfinished {h : Heap} {v : Value} {d : Nat} {h' : Heap} {es}
    (he : Lib.iteration h (some v) = (.dict d, h')) (hd : h'.dicts[d]? = some es) : (Lib.kFinished, Value.bool true) ∉ es := by
  simp only [Lib.iteration, Heap.newDict, Prod.mk.injEq, Value.dict.injEq] at he
  obtain ⟨h1, h2⟩ := he
  subst h1; subst h2
  simp at hd
  subst hd
  have hne : bs "finished" ≠ bs "value" := by decide
  simp [Lib.kFinished, Lib.kValue, hne]

/-- An iterator that tells that it is finished is exhausted, and is left as it is. -/
theorem finished_spent {w : World} {name : Bytes} {st : NState} (hf : FixedIter name st) {c : LibCall} {h h' : Heap} {d : Nat} {es}
    (hc : c.args = []) (hn : h.native c.addr = st) (he : Lib.call w name c h = some (.ok (.dict d, h')))
    (hd : h'.dicts[d]? = some es) (hm : (Lib.kFinished, Value.bool true) ∈ es) : Spent st := by
  cases hf with
  | string s ix =>
    rw [lib_iter_call] at he
    simp only [Lib.iterImpl, hc, hn, List.isEmpty_nil, Bool.not_true, Bool.false_eq_true, if_false] at he
    split at he
    · simp only [Option.some.injEq, Except.ok.injEq] at he
      exact absurd hm (iteration_unfinished he hd)
    · rename_i hx; exact List.getElem?_eq_none_iff.1 hx
  | dict es' =>
    rw [lib_iter_call] at he
    simp only [Lib.iterImpl, hc, hn, List.isEmpty_nil, Bool.not_true, Bool.false_eq_true, if_false] at he
    split at he
    · simp only [Option.some.injEq, Except.ok.injEq] at he
      exact absurd hm (iteration_unfinished he hd)
    · rename_i hx; exact List.getLast?_eq_none_iff.1 hx
  | int a b s =>
    rw [lib_range_call] at he
    simp only [Lib.rangeImpl, hc, hn, List.isEmpty_nil, Bool.not_true, Bool.false_eq_true, if_false] at he
    by_cases h0 : (if 0 < s then b ≤ a else a ≤ b)
    · refine ⟨fun h1 => ?_, fun h1 => ?_⟩
      · rwa [if_pos h1] at h0
      · rwa [if_neg (Int.not_lt.2 h1)] at h0
    · rw [if_neg h0] at he
      split at he
      · simp at he
      · simp only [Option.some.injEq, Except.ok.injEq] at he
        exact absurd hm (iteration_unfinished he hd)
  | float a b s =>
    rw [lib_range_call] at he
    simp only [Lib.rangeImpl, hc, hn, List.isEmpty_nil, Bool.not_true, Bool.false_eq_true, if_false] at he
    by_cases h0 : (if floatCmp s 0 = .gt then floatCmp a b ≠ .lt else floatCmp a b ≠ .gt)
    · refine ⟨fun h1 => ?_, fun h1 => ?_⟩
      · rwa [if_pos h1] at h0
      · rwa [if_neg h1] at h0
    · rw [if_neg h0] at he
      simp only [Option.some.injEq, Except.ok.injEq] at he
      exact absurd hm (iteration_unfinished he hd)

/-- C90: once a call of an iterator over a string or a dict, or of a range, has told that it is finished, every later call does so,
whatever was executed in between. -/
theorem finished_forever {w : World} {name : Bytes} {a n d : Nat} {pos : Pos} {st : NState} {s s1 s2 : RState} {es}
    (hf : FixedIter name st) (ha : s.heap.natives[a]? = some st)
    (hcall : callLib w n name a [] pos s = (.ok (.dict d), s1)) (hd : s1.heap.dicts[d]? = some es)
    (hm : (.string (bs "finished"), .bool true) ∈ es) (hl : Afterwards w s1 s2) :
    ∃ s3, ReturnsDict w s2 name a [] [(.string (bs "finished"), .bool true)] s3 := by
  obtain ⟨h', hlib, hs1⟩ : ∃ h', Lib.call w name ⟨n, a, [], pos, s.argv⟩ s.heap = some (.ok (.dict d, h')) ∧
      s1 = { s with heap := h' } := by
    have hsome : ∃ r, Lib.call w name ⟨n, a, [], pos, s.argv⟩ s.heap = some r := by
      have hn := native_of_get ha
      cases hf with
      | string x ix =>
        rw [lib_iter_call]; simp only [Lib.iterImpl, hn, List.isEmpty_nil, Bool.not_true, Bool.false_eq_true, if_false]
        split <;> exact ⟨_, rfl⟩
      | dict x =>
        rw [lib_iter_call]; simp only [Lib.iterImpl, hn, List.isEmpty_nil, Bool.not_true, Bool.false_eq_true, if_false]
        split <;> exact ⟨_, rfl⟩
      | int x y z =>
        rw [lib_range_call]; simp only [Lib.rangeImpl, hn, List.isEmpty_nil, Bool.not_true, Bool.false_eq_true, if_false]
        repeat' split
        all_goals exact ⟨_, rfl⟩
      | float x y z =>
        rw [lib_range_call]; simp only [Lib.rangeImpl, hn, List.isEmpty_nil, Bool.not_true, Bool.false_eq_true, if_false]
        repeat' split
        all_goals exact ⟨_, rfl⟩
    obtain ⟨r, hr⟩ := hsome
    unfold callLib at hcall
    rw [hr] at hcall
    cases r with
    | error e => simp at hcall
    | ok p =>
      obtain ⟨v, h'⟩ := p
      simp only [Prod.mk.injEq, Except.ok.injEq] at hcall
      exact ⟨h', by rw [hr, hcall.1], hcall.2.symm⟩
  subst hs1
  have hsp := finished_spent hf rfl (native_of_get ha) hlib hd hm
  have h1 : h'.natives[a]? = some st := (libKept_call w name _ s.heap _ _ hlib).keeps a st hsp ha
  have h2 := spent_stays hl hsp h1
  refine ⟨{ s2 with heap := (Lib.iteration s2.heap none).2 }, fun n' pos' => ⟨s2.heap.dicts.length, ?_, ?_⟩⟩
  · unfold callLib
    rw [spent_call hf hsp (c := ⟨n', a, [], pos', s2.argv⟩) rfl (native_of_get h2)]
    rfl
  · simp [Lib.iteration, Heap.newDict, Lib.kFinished]

-- A range from 3 to 3 is finished from the beginning, and stays so when anything was executed.
example (w : World) (s : RState) (t : Task) :
    ∃ s3, ReturnsDict w (run w 9 t { s with heap := { s.heap with dicts := [[(.string (bs "finished"), .bool true)]], natives := [.intRange 3 3 1] } }).2
      (bs "std.range<impl>") 0 [] [(.string (bs "finished"), .bool true)] s3 := by
  refine finished_forever (n := 0) (pos := noPos) (d := 0) (.int 3 3 1) (a := 0)
    (s := { s with heap := { s.heap with dicts := [], natives := [.intRange 3 3 1] } }) rfl rfl (es := [(.string (bs "finished"), .bool true)]) rfl
    (by simp) (.task 9 t .refl)

/-- C90: a `for` loop over an iterator that was exhausted at any earlier moment has no turn: the variable is not assigned, the body not
executed, and only the dict that the iterator returns is new. -/
theorem spent_loop {w : World} {name : Bytes} {a m slot : Nat} {pos : Pos} {body : List Prog.Stmt} {st : NState} {s0 s : RState}
    (hf : FixedIter name st) (hs : Spent st) (ha : s0.heap.natives[a]? = some st) (hl : Afterwards w s0 s) (r : Except Stop Out) (s' : RState) :
    Ends w (.iter m slot (.native name a) pos body) s r s' ↔
      r = .ok (.value .nil noPos) ∧
        s' = { s with heap := { s.heap with dicts := s.heap.dicts ++ [[(.string (bs "finished"), .bool true)]] } } := by
  have hn := spent_stays hl hs ha
  have hq : Supplies w m pos (.native name a) a ⟨fun _ _ => none, fun _ s => asked a st s none⟩ (fun _ => st) := by
    refine ⟨fun k s h => called_of_lib (st := st) (v := none) ?_ fun n => ?_, fun _ _ _ _ h => nomatch h⟩
    · cases hf <;> decide
    · exact spent_call hf hs rfl (native_of_object h)
  have hrun := fun n => run_iter (slot := slot) (body := body) hq (k := 0) (s := s) (by simp [object, hn]) n
  constructor
  · rintro ⟨hr, n, hn⟩
    match n, hn with
    | 0, hn => cases hn; exact absurd rfl hr
    | 1, hn =>
      simp only [run, step, Bind.bind, M.andThen, M.get, M.stop] at hn
      cases hn; exact absurd rfl hr
    | n + 2, hn =>
      rw [hrun n] at hn
      cases hn
      exact ⟨rfl, rfl⟩
  · rintro ⟨rfl, rfl⟩
    exact ⟨nofun, 2, hrun 0⟩

-- A loop over an exhausted iterator, even with a body that would stop the script.
example (w : World) (s : RState) (body : List Prog.Stmt) (r : Except Stop Out) (s' : RState)
    (h : Ends w (.iter 0 1 (.native (bs "std.iter<impl>") 0) noPos body) { s with heap := { s.heap with natives := [.dictIter []] } } r s') :
    r = .ok (.value .nil noPos) :=
  ((spent_loop (.dict []) rfl (s0 := { s with heap := { s.heap with natives := [.dictIter []] } }) rfl .refl r s').1 h).1

/-- C90: an exhausted iterator over an array does not stay exhausted. It tells that it is finished, but yields the element that
`std.push` then adds. -/
theorem array_iterator_resumes (w : World) (s : RState) {i a ix : Nat} {vs : List Value} (v : Value)
    (hi : s.heap.natives[i]? = some (.arrayIter a ix)) (ha : s.heap.arrays[a]? = some vs) (hx : ix = vs.length) :
    ∃ s1 s2 s3, ReturnsDict w s (bs "std.iter<impl>") i [] [(.string (bs "finished"), .bool true)] s1 ∧
      (∀ n addr pos, ∃ r, callLib w n (bs "std.push") addr [.array a, v] pos s1 = (.ok r, s2)) ∧
      ReturnsDict w s2 (bs "std.iter<impl>") i [] [(.string (bs "finished"), .bool false), (.string (bs "value"), v)] s3 := by
  have hn := native_of_get hi
  have hv : s.heap.array a = vs := by simp [Heap.array, ha]
  have hal : a < s.heap.arrays.length := (List.getElem?_eq_some_iff.1 ha).1
  let s1 : RState := { s with heap := (Lib.iteration s.heap none).2 }
  let s2 : RState := { s1 with heap := s1.heap.setArray a (vs ++ [v]) }
  refine ⟨s1, s2, { s2 with heap := (Lib.iteration (s2.heap.setNative i (.arrayIter a (ix + 1))) (some v)).2 }, ?_, ?_, ?_⟩
  · intro n pos
    refine ⟨s.heap.dicts.length, ?_, ?_⟩
    · unfold callLib
      rw [lib_iter_call]
      simp only [Lib.iterImpl, hn, List.isEmpty_nil, Bool.not_true, Bool.false_eq_true, if_false, hv]
      rw [List.getElem?_eq_none (by omega)]
      rfl
    · simp [s1, Lib.iteration, Heap.newDict, Lib.kFinished]
  · intro n addr pos
    have : s1.heap.array a = vs := hv
    refine ⟨.nil, ?_⟩
    unfold callLib
    rw [show Lib.call w (bs "std.push") ⟨n, addr, [.array a, v], pos, s1.argv⟩ s1.heap =
      some (.ok (.nil, s1.heap.setArray a (s1.heap.array a ++ [v]))) from rfl, this]
  · intro n pos
    have h2 : s2.heap.native i = .arrayIter a ix := hn
    have h3 : s2.heap.array a = vs ++ [v] := by
      show (s.heap.arrays.set a (vs ++ [v])).getD a [] = _
      simp [List.getD_eq_getElem?_getD, hal]
    refine ⟨s2.heap.dicts.length, ?_, ?_⟩
    · unfold callLib
      rw [lib_iter_call]
      simp only [Lib.iterImpl, h2, List.isEmpty_nil, Bool.not_true, Bool.false_eq_true, if_false, h3]
      rw [show (vs ++ [v])[ix]? = some v by simp [hx]]
      rfl
    · simp [Lib.iteration, Heap.newDict, Heap.setNative, Lib.kFinished, Lib.kValue]

example (w : World) (s : RState) :
    ∃ s1 s2 s3, ReturnsDict w { s with heap := { s.heap with arrays := [[.int 1]], natives := [.arrayIter 0 1] } } (bs "std.iter<impl>") 0 []
        [(.string (bs "finished"), .bool true)] s1 ∧
      (∀ n addr pos, ∃ r, callLib w n (bs "std.push") addr [.array 0, .int 2] pos s1 = (.ok r, s2)) ∧
      ReturnsDict w s2 (bs "std.iter<impl>") 0 [] [(.string (bs "finished"), .bool false), (.string (bs "value"), .int 2)] s3 :=
  array_iterator_resumes w _ (.int 2) rfl rfl rfl

end Hush.Props

import Verif.Lemmas.Loops
import Verif.Props.Eval

/-!
Objects that nothing refers to, and `for` loops (C29, C49, C50).
-/

namespace Hush.Props
open Hush Hush.Spec
open Hush.Ast (Expr Lit Stmt Block)

/-! ### References -/

/-- C49: an object that nothing refers to is not changed by any task, whatever it does, and nothing refers to it afterwards. -/
theorem unreferenced_unchanged (w : World) (n : Nat) (t : Task) (s : RState) (r : Ref) (c : Object) (ho : object s.heap r = some c)
    (hu : Unreferenced r s) (ht : TaskWithout r t) (res : Except Stop Out) (s' : RState) (h : run w n t s = (res, s')) :
    object s'.heap r = some c ∧ Unreferenced r s' ∧ ∀ o, res = .ok o → FlowWithout r o.flow := by
  have := (hides_run w n (r := r) (c := some c)).hides t ht s ⟨hu, ho⟩ nofun
  rw [h] at this
  exact ⟨this.1.obj, this.1.free, fun o ho => (this.2 o ho).1⟩

-- The second array is not referred to when the first one, which is in a variable, is changed.
example : object { someState.heap with arrays := [[], [.int 5]] } (.array 1) = some (.array [.int 5]) ∧
    Unreferenced (.array 1) { someState with heap := { Heap.empty with arrays := [[], [.int 5]] }, stack := [.regular (.array 0)] } ∧
    TaskWithout (.array 1) (.stmt 0 none (.assign (.access (.ident 0 (q 0)) (.lit (.int 0) (q 2)) (q 1)) (.lit (.int 7) (q 7)))) := by
  refine ⟨rfl, ⟨⟨?_, ?_, ?_, ?_, ?_⟩, ?_, ?_, ?_, ?_, ?_⟩, trivial⟩ <;> simp [Names, Heap.empty, someState, RState.init, stdGroups]

/-- The initial state. -/
theorem no_dangling_init (argv : List Bytes) (file : Sym) : NoDangling (RState.init argv file) := by
  intro r hr
  have hfn : ∀ f, ¬ Names r (stdFn f) := by
    intro f
    cases r with
    | native n =>
      rintro ⟨name, h⟩
      simp only [stdFn, Value.function.injEq, Fn.native.injEq] at h
      rw [← h.2] at hr
      simp [object, RState.init, Heap.empty] at hr
    | array a => simp [Names, stdFn]
    | dict a => simp [Names, stdFn]
  have hd : ∀ d, d < 4 → ¬ Names r (.dict d) := by
    intro d hd
    cases r with
    | dict k =>
      intro h
      simp only [Names, Value.dict.injEq] at h
      subst h
      simp only [object, RState.init, Heap.empty, Option.map_eq_none_iff, List.getElem?_eq_none_iff] at hr
      simp [stdGroups] at hr
      omega
    | array a => simp [Names]
    | native a => simp [Names]
  refine ⟨⟨?_, ?_, ?_, ?_, ?_⟩, ?_, ?_, ?_, ?_, ?_⟩
  · intro vs hvs v hv
    simp only [RState.init, List.mem_singleton] at hvs
    subst hvs
    obtain ⟨x, _, rfl⟩ := List.mem_map.1 hv
    exact clean_string _ _
  · intro es hes e he
    simp only [RState.init, List.mem_append, List.mem_singleton] at hes
    rcases hes with hes | rfl
    · obtain ⟨g, _, rfl⟩ := List.mem_map.1 hes
      obtain ⟨f, _, rfl⟩ := List.mem_map.1 he
      exact ⟨clean_string _ _, hfn _⟩
    · rcases List.mem_append.1 he with he | he
      · obtain ⟨f, _, rfl⟩ := List.mem_map.1 he
        exact ⟨clean_string _ _, hfn _⟩
      · obtain ⟨g, hg, rfl⟩ := List.mem_map.1 he
        refine ⟨clean_string _ _, hd _ ?_⟩
        have := List.mem_zipIdx hg
        simp [stdGroups] at this
        omega
  · simp [RState.init, Heap.empty]
  · simp [RState.init, Heap.empty]
  · simp [RState.init, StateNames]
  · simp [RState.init]
  · simp [RState.init]
  · simp [RState.init]
  · exact hd _ (by simp [stdGroups])
  · intro h
    cases r with
    | array a =>
      simp only [Names, RState.init, Value.array.injEq] at h
      subst h
      simp [object, RState.init] at hr
    | dict d => simp [Names, RState.init] at h
    | native d => simp [Names, RState.init] at h

/-- C50: no task produces a dangling reference, in the state or in its outcome. -/
theorem no_dangling (w : World) (n : Nat) (t : Task) (s : RState) (hs : NoDangling s)
    (ht : ∀ r, object s.heap r = none → TaskWithout r t) (res : Except Stop Out) (s' : RState) (h : run w n t s = (res, s')) :
    NoDangling s' ∧ ∀ o, res = .ok o → ∀ r, object s'.heap r = none → FlowWithout r o.flow ∧ ¬ Names r o.obj := by
  have hg : ∀ r, object s'.heap r = none → object s.heap r = none := fun r hr => by
    have := mgrows_run w n t s
    rw [h] at this
    exact object_sizes this hr
  have h1 : ∀ r, object s'.heap r = none → Hid r none s' ∧ ∀ o, res = .ok o → OHid r o := by
    intro r hr
    have := (hides_run w n (r := r) (c := none)).hides t (ht r (hg r hr)) s ⟨hs r (hg r hr), hg r hr⟩
    rw [h] at this
    exact this fun _ => hr
  exact ⟨fun r hr => (h1 r hr).1.free, fun o ho r hr => (h1 r hr).2 o ho⟩

/-- C50: in particular there are none when a program has come to its end or panics. -/
theorem program_no_dangling (w : World) (n : Nat) (p : Program) (argv : List Bytes) (file : Sym) :
    NoDangling (runProgram w n p argv file).2 :=
  (no_dangling w n (.program 0 p) _ (no_dangling_init argv file) (fun _ _ => trivial) _ _ rfl).1

-- A program that makes objects: three natives exist at the end, two of them made by the program.
set_option maxRecDepth 100000 in
example : (runProgram nilWorld 20 ⟨[.assign (.ident 1 (q 4)) (.lit (.array [.lit (.int 1) (q 9),
      .call (.access (.ident 0 (q 12)) (.lit (.ident (bs "iter")) (q 16)) (q 15)) [.lit (.string (bs "x")) (q 21)] (q 20),
      .lit (.dict [((bs "y"), .call (.access (.ident 0 (q 32)) (.lit (.ident (bs "range")) (q 36)) (q 35))
        [.lit (.int 1) (q 42), .lit (.int 2) (q 45), .lit (.int 1) (q 48)] (q 41))]) (q 27)]) (q 8))], 2⟩ [] []).2.heap.natives.length = 3 := by
  decide +kernel

/-! ### Loops -/

theorem no_dangling_yields {w : World} {m : Nat} {e : Prog.Expr} {s : RState} {v : Value} {p : Pos} {obj : Value} {s' : RState}
    (hs : NoDangling s) (h : Yields w m e s v p obj s') : NoDangling s' ∧ ∀ r, object s'.heap r = none → ¬ Names r v := by
  obtain ⟨_, n, hn⟩ := h
  have := no_dangling w n (.expr m none e) s hs (fun _ _ => trivial) _ _ hn
  exact ⟨this.1, fun r hr => (this.2 _ rfl r hr).1⟩

theorem no_dangling_inOrder {w : World} {m : Nat} {es : List Prog.Expr} {s : RState} {vs : List Value} {s' : RState}
    (hs : NoDangling s) (h : InOrder w m push es s vs s') : NoDangling s' := by
  induction h with
  | nil => exact hs
  | cons h _ ih =>
    obtain ⟨h1, h2⟩ := no_dangling_yields hs h
    refine ih fun r hr => ?_
    obtain ⟨a, b, c, d, e, f⟩ := h1 r hr
    refine ⟨a, b, fun v hv => ?_, d, e, f⟩
    rcases mem_append_one hv with hv | rfl
    · exact c v hv
    · exact h2 r hr

theorem hid_withNative {s : RState} {st : NState} (hs : NoDangling s) (h : ¬ StateNames (.native s.heap.natives.length) st) :
    Hid (.native s.heap.natives.length) (some (.native st)) (withNative st s) := by
  obtain ⟨hp, a, b, c, d, e⟩ := hs (.native s.heap.natives.length) (by simp [object])
  refine ⟨⟨⟨hp.arrays, hp.dicts, hp.cells, hp.contexts, ?_⟩, a, b, c, d, e⟩, by simp [object, withNative]⟩
  intro y hy
  rcases mem_append_one hy with hy | rfl
  · exact hp.natives y hy
  · exact h

/-- A `for` loop over the function that a library function makes. -/
theorem for_made {w : World} {m : Nat} {tail : Option Nat} {slot : Nat} {fe : Prog.Expr} {args : List Prog.Expr} {pos : Pos} {body : List Prog.Stmt}
    {s s1 s2 : RState} {name made : Bytes} {z : Nat} {p : Pos} {obj : Value} {vs : List Value} {st : NState} (hname : ¬ Special name)
    (hf : Yields w m fe s (.function (.native name z)) p obj s1) (ha : InOrder w m push args s1 vs s2) (hargs : s2.args = s1.args ++ vs)
    (hc : ∀ n argv, Lib.call w name ⟨n, z, vs, pos, argv⟩ s2.heap = some (.ok (s2.heap.newNative made st))) (r : Except Stop Out) (s' : RState) :
    Ends w (.stmt m tail (.for_ slot (.call fe args pos) body)) s r s' ↔
      Ends w (.iter m slot (.native made s2.heap.natives.length) pos body) (withNative st (cut s1.args.length s2)) r s' := by
  have hcall : Yields w m (.call fe args pos) s (.function (.native made s2.heap.natives.length)) pos .nil (withNative st (cut s1.args.length s2)) := by
    refine ends_calling.2 ?_
    refine @Calling.call w m fe args pos s _ p obj s1 vs s2
      (.ok (.value (.function (.native made s2.heap.natives.length)) pos)) _ hf ha ⟨nofun, 1, ?_⟩
    rw [run_libcall hname (by simp [hargs]) (by
      rw [show s2.args.drop s1.args.length = vs by rw [hargs, List.drop_left]]
      exact hc 0 s2.argv)]
    rfl
  constructor
  · intro h
    obtain ⟨h1, h2⟩ := id h
    rw [ends_iff] at h
    have h3 := lim_value (w := w) (t := .expr m none (.call fe args pos)) (pos := noPos) (k := fun n v vpos _ =>
      match v with
      | .function f => run w n (.iter m slot f vpos body)
      | v => M.panic (.typeError v (bs "function")) vpos) (by
        intro v p x
        cases v with
        | function f => exact Mono.run w _
        | _ => exact Mono.const _) (s := s) (r := r) (s' := s')
    rcases h3.1 h with ⟨v, p1, x, s3, h4, h5⟩ | ⟨r', rfl, h4, h5⟩
    · obtain ⟨h6, h7⟩ := Ends.unique hcall h4
      cases h6
      subst h7
      exact ends_iff_run.2 h5
    · obtain ⟨h6, h7⟩ := Ends.unique hcall h5
      exact absurd h6.symm (h4 _ _ _)
  · intro h
    exact ends_iff.2 (lim_go hcall (lim_ends h))

/-- C29: `for x in std.iter(a) do ... end` for an array `a`. In turn `k` the loop variable gets the element of index `k`, as it is at
that time; the loop ends when there is none, or when it is left by its body. -/
theorem for_array (w : World) (m : Nat) (tail : Option Nat) (slot : Nat) (fe e : Prog.Expr) (pos : Pos) (body : List Prog.Stmt)
    (s s1 s2 : RState) (z a : Nat) (p p' : Pos) (obj obj' : Value) (hs : NoDangling s)
    (hf : Yields w m fe s (.function (.native (bs "std.iter") z)) p obj s1) (ha : Yields w m e s1 (.array a) p' obj' s2)
    (hargs : s2.args = s1.args) (r : Except Stop Out) (s' : RState) :
    Ends w (.stmt m tail (.for_ slot (.call fe [e] pos) body)) s r s' ↔
      ∃ vs fin, Visits w m slot body (arraySource s2.heap.natives.length a) 0 (withNative (.arrayIter a 0) s2) vs fin r s' := by
  have h2 := (no_dangling_yields (no_dangling_yields hs hf).1 ha).1
  rw [for_made (vs := [.array a]) (s2 := push (.array a) s2) (made := bs "std.iter<impl>") (st := .arrayIter a 0) (by decide) hf
    (.cons ha (.nil _)) (by simp [push, hargs]) (fun n argv => rfl)]
  rw [show cut s1.args.length (push (.array a) s2) = s2 by simp [cut, push, ← hargs]]
  exact ends_iter (supplies_array w m pos _ a) (hid_withNative h2 (by simp [StateNames, Names]))

/-- C29: `for x in std.iter(a) do ... end` for a string: the loop variable gets the bytes in order. -/
theorem for_string (w : World) (m : Nat) (tail : Option Nat) (slot : Nat) (fe e : Prog.Expr) (pos : Pos) (body : List Prog.Stmt)
    (s s1 s2 : RState) (z : Nat) (x : Bytes) (p p' : Pos) (obj obj' : Value) (hs : NoDangling s)
    (hf : Yields w m fe s (.function (.native (bs "std.iter") z)) p obj s1) (ha : Yields w m e s1 (.string x) p' obj' s2)
    (hargs : s2.args = s1.args) (r : Except Stop Out) (s' : RState) :
    Ends w (.stmt m tail (.for_ slot (.call fe [e] pos) body)) s r s' ↔
      ∃ vs fin, Visits w m slot body (stringSource s2.heap.natives.length x) 0 (withNative (.stringIter x 0) s2) vs fin r s' := by
  have h2 := (no_dangling_yields (no_dangling_yields hs hf).1 ha).1
  rw [for_made (vs := [.string x]) (s2 := push (.string x) s2) (made := bs "std.iter<impl>") (st := .stringIter x 0) (by decide) hf
    (.cons ha (.nil _)) (by simp [push, hargs]) (fun n argv => rfl)]
  rw [show cut s1.args.length (push (.string x) s2) = s2 by simp [cut, push, ← hargs]]
  exact ends_iter (supplies_string w m pos _ x) (hid_withNative h2 (by simp [StateNames]))

/-- C29: `for x in std.iter(d) do ... end` for a dict: the loop variable gets each of the entries that the dict had at the beginning. -/
theorem for_dict (w : World) (m : Nat) (tail : Option Nat) (slot : Nat) (fe e : Prog.Expr) (pos : Pos) (body : List Prog.Stmt)
    (s s1 s2 : RState) (z d : Nat) (p p' : Pos) (obj obj' : Value) (hs : NoDangling s)
    (hf : Yields w m fe s (.function (.native (bs "std.iter") z)) p obj s1) (ha : Yields w m e s1 (.dict d) p' obj' s2)
    (hargs : s2.args = s1.args) (r : Except Stop Out) (s' : RState) :
    Ends w (.stmt m tail (.for_ slot (.call fe [e] pos) body)) s r s' ↔
      ∃ vs fin, Visits w m slot body (entriesSource s2.heap.natives.length (s2.heap.dict d)) 0
        (withNative (.dictIter (s2.heap.dict d)) s2) vs fin r s' := by
  have h2 := (no_dangling_yields (no_dangling_yields hs hf).1 ha).1
  rw [for_made (vs := [.dict d]) (s2 := push (.dict d) s2) (made := bs "std.iter<impl>") (st := .dictIter (s2.heap.dict d)) (by decide) hf
    (.cons ha (.nil _)) (by simp [push, hargs]) (fun n argv => rfl)]
  rw [show cut s1.args.length (push (.dict d) s2) = s2 by simp [cut, push, ← hargs]]
  refine ends_iter (k := 0) (supplies_entries w m pos _ (s2.heap.dict d)) ?_
  rw [List.drop_zero, List.reverse_reverse]
  refine hid_withNative h2 ?_
  rintro ⟨x, hx, h⟩
  have hh : HHid (.native s2.heap.natives.length) none s2.heap := ⟨(h2 _ (by simp [object])).heap, by simp [object]⟩
  have := hh.dict hx
  exact h.elim this.1 this.2

/-- C29: `for x in std.range(a, b, st) do ... end` with integers: the loop variable gets `a`, `a + st`, `a + 2 * st`, ... as long as that
is below `b` (above `b`, if `st` is not positive). Missing: `b + st` must be a number of 64 bits, see `range_violated`. -/
theorem for_range_partial (w : World) (m : Nat) (tail : Option Nat) (slot : Nat) (fe : Prog.Expr) (args : List Prog.Expr) (pos : Pos)
    (body : List Prog.Stmt) (s s1 s2 : RState) (z : Nat) (a b st : Int) (p : Pos) (obj : Value) (hs : NoDangling s)
    (hf : Yields w m fe s (.function (.native (bs "std.range") z)) p obj s1) (ha : InOrder w m push args s1 [.int a, .int b, .int st] s2)
    (hargs : s2.args = s1.args ++ [.int a, .int b, .int st]) (h64 : Is64 a) (hb : Is64 (b + st))
    (r : Except Stop Out) (s' : RState) :
    Ends w (.stmt m tail (.for_ slot (.call fe args pos) body)) s r s' ↔
      ∃ vs fin, Visits w m slot body (rangeSource s2.heap.natives.length a b st) 0
        (withNative (.intRange a b st) (cut s1.args.length s2)) vs fin r s' := by
  rw [for_made (vs := [.int a, .int b, .int st]) (made := bs "std.range<impl>") (st := .intRange a b st) (by decide) hf
    ha hargs (fun n argv => rfl)]
  have h2 := no_dangling_inOrder (no_dangling_yields hs hf).1 ha
  have h3 : NoDangling (cut s1.args.length s2) := fun r hr =>
    let ⟨h, a, b, c, d, e⟩ := h2 r hr
    ⟨h, a, fun v hv => b v (List.mem_of_mem_take hv), c, d, e⟩
  refine ends_iter (k := 0) (supplies_range w m pos _ h64 hb) ?_
  rw [show a + ((0 : Nat) : Int) * st = a by simp]
  exact hid_withNative h3 (by simp [StateNames])

/-- The values of the loop variable are what the source has, as long as the source is not changed. -/
theorem visits_values {w : World} {m slot : Nat} {body : List Prog.Stmt} {q : Source} (I : RState → Prop) (el : Nat → Option Value)
    (hel : ∀ k s, I s → q.element k s = el k) (hasked : ∀ k s, I s → I (q.asked k s)) (hstore : ∀ v s s1, store slot v s = (.ok (), s1) → I s → I s1)
    (hbody : ∀ s1 r s2, I s1 → Ends w (.block m none body) s1 r s2 → I s2) {k : Nat} {s : RState} {vs : List Value} {fin : Bool}
    {r : Except Stop Out} {s' : RState} (h : Visits w m slot body q k s vs fin r s') (hI : I s) :
    (∀ i v, vs[i]? = some v → el (k + i) = some v) ∧ (fin = true → el (k + vs.length) = none) := by
  induction h with
  | finish h => exact ⟨by simp, fun _ => (hel _ _ hI).symm.trans h⟩
  | turn h h1 h2 h3 ih =>
    obtain ⟨ih1, ih2⟩ := ih (hbody _ _ _ (hstore _ _ _ h1 (hasked _ _ hI)) h2)
    constructor
    · intro i v hv
      cases i with
      | zero => cases hv; exact (hel _ _ hI).symm.trans h
      | succ i =>
        have := ih1 i v (by simpa using hv)
        rwa [Nat.add_right_comm, Nat.add_assoc] at this
    · intro hf
      have := ih2 hf
      rwa [List.length_cons, ← Nat.add_assoc, Nat.add_right_comm]
  | broken h _ _ | returned h _ _ | stopped h _ _ =>
    refine ⟨fun i v hv => ?_, nofun⟩
    cases i with
    | zero => cases hv; exact (hel _ _ hI).symm.trans h
    | succ i => simp at hv
  | noVariable h _ => exact ⟨by simp, nofun⟩

theorem prefix_of_values {xs vs : List Value} (h : ∀ i v, vs[i]? = some v → xs[0 + i]? = some v) : vs <+: xs := by
  rw [List.prefix_iff_eq_take]
  apply List.ext_getElem?
  intro i
  rw [List.getElem?_take]
  split
  · rename_i hi
    rw [List.getElem?_eq_getElem hi]
    have := h i _ (List.getElem?_eq_getElem hi)
    rw [Nat.zero_add] at this
    exact this.symm
  · rename_i hi
    exact List.getElem?_eq_none (by omega)

theorem all_of_values {xs vs : List Value} (h : vs <+: xs) (hn : xs[0 + vs.length]? = none) : vs = xs := by
  rw [Nat.zero_add, List.getElem?_eq_none_iff] at hn
  exact h.eq_of_length_le hn

theorem store_heap {slot : Nat} {v : Value} {s s1 : RState} (h : store slot v s = (.ok (), s1)) : s1.heap.arrays = s.heap.arrays := by
  unfold store at h
  split at h
  · cases h; rfl
  · cases h; rfl
  · cases h

/-- C29: a loop over an array that its body does not change visits the elements in order from the first on, and all of them if it is
not left by its body. -/
theorem array_elements (w : World) (m slot : Nat) (body : List Prog.Stmt) (it a : Nat) (s : RState) (vs : List Value) (fin : Bool)
    (r : Except Stop Out) (s' : RState) (h : Visits w m slot body (arraySource it a) 0 s vs fin r s')
    (hbody : ∀ s1 r s2, s1.heap.array a = s.heap.array a → Ends w (.block m none body) s1 r s2 → s2.heap.array a = s.heap.array a) :
    vs <+: s.heap.array a ∧ (fin = true → vs = s.heap.array a) := by
  have := visits_values (fun s1 => s1.heap.array a = s.heap.array a) (fun k => (s.heap.array a)[k]?)
    (fun k s1 h => by simp only [arraySource, h]) (fun k s1 h => by
      simp only [arraySource, asked]
      split <;> exact h) (fun v s1 s2 h hs => by
      simp only [Heap.array, store_heap h]
      exact hs) hbody h rfl
  have hp := prefix_of_values this.1
  exact ⟨hp, fun hf => all_of_values hp (this.2 hf)⟩

/-- C29: a loop over a string visits its bytes in order from the first on, and all of them if it is not left by its body. -/
theorem string_elements (w : World) (m slot : Nat) (body : List Prog.Stmt) (it : Nat) (x : Bytes) (s : RState) (vs : List Value) (fin : Bool)
    (r : Except Stop Out) (s' : RState) (h : Visits w m slot body (stringSource it x) 0 s vs fin r s') :
    vs <+: x.map .byte ∧ (fin = true → vs = x.map .byte) := by
  have := visits_values (fun _ => True) (fun k => (x.map Value.byte)[k]?) (fun k s1 _ => by simp [stringSource])
    (fun _ _ _ => trivial) (fun _ _ _ _ _ => trivial) (fun _ _ _ _ _ => trivial) h trivial
  have hp := prefix_of_values this.1
  exact ⟨hp, fun hf => all_of_values hp (this.2 hf)⟩

/-- C29: a loop over a range of integers visits `a`, `a + st`, `a + 2 * st`, ..., all of them before the limit `b`; and if it is not left by
its body, the next one would be at or beyond the limit. -/
theorem range_elements (w : World) (m slot : Nat) (body : List Prog.Stmt) (it : Nat) (a b st : Int) (s : RState) (vs : List Value) (fin : Bool)
    (r : Except Stop Out) (s' : RState) (h : Visits w m slot body (rangeSource it a b st) 0 s vs fin r s') :
    (vs = (List.range vs.length).map fun i => .int (a + i * st)) ∧
    (∀ i : Nat, i < vs.length → if 0 < st then a + i * st < b else b < a + i * st) ∧
    (fin = true → if 0 < st then b ≤ a + vs.length * st else a + vs.length * st ≤ b) := by
  have := visits_values (fun _ => True) (fun k => (rangeElement a b st k).map .int) (fun k s1 _ => rfl)
    (fun _ _ _ => trivial) (fun _ _ _ _ _ => trivial) (fun _ _ _ _ _ => trivial) h trivial
  obtain ⟨h1, h2⟩ := this
  have h3 : ∀ i (hi : i < vs.length), vs[i] = .int (a + i * st) ∧ if 0 < st then a + i * st < b else b < a + i * st := by
    intro i hi
    have := h1 i _ (List.getElem?_eq_getElem hi)
    simp only [Nat.zero_add, rangeElement, Option.map_eq_some_iff] at this
    obtain ⟨x, hx, hv⟩ := this
    split at hx
    · rename_i hc
      cases hx
      refine ⟨hv.symm, ?_⟩
      split
      · exact hc.elim (·.2) (fun h => absurd ‹_› h.1)
      · exact hc.elim (fun h => absurd h.1 ‹_›) (·.2)
    · cases hx
  refine ⟨?_, fun i hi => (h3 i hi).2, fun hf => ?_⟩
  · apply List.ext_getElem (by simp)
    intro i hi _
    simp [(h3 i hi).1]
  · have := h2 hf
    simp only [Nat.zero_add, rangeElement, Option.map_eq_none_iff] at this
    split at this
    · cases this
    · rename_i hc
      split
      · exact Int.not_lt.1 fun h => hc (.inl ⟨‹_›, h⟩)
      · exact Int.not_lt.1 fun h => hc (.inr ⟨‹_›, h⟩)

/-- C29: a loop over a dict has one turn for each entry, and in the turn the variable is a new dict with the key and the value. -/
theorem dict_elements (w : World) (m slot : Nat) (body : List Prog.Stmt) (it : Nat) (es : List (Value × Value)) (s : RState) (vs : List Value)
    (fin : Bool) (r : Except Stop Out) (s' : RState) (h : Visits w m slot body (entriesSource it es) 0 s vs fin r s') :
    vs.length ≤ es.length ∧ (fin = true → vs.length = es.length) := by
  have hlen : ∀ {k s vs fin r s'}, Visits w m slot body (entriesSource it es) k s vs fin r s' →
      k ≤ es.length → k + vs.length ≤ es.length ∧ (fin = true → k + vs.length = es.length) := by
    intro k s vs fin r s' h
    have hlt : ∀ {k s v}, (entriesSource it es).element k s = some v → k < es.length := by
      intro k s v h
      simp only [entriesSource, Option.map_eq_some_iff] at h
      obtain ⟨e, he, _⟩ := h
      have := (List.getElem?_eq_some_iff.1 he).1
      simpa using this
    induction h with
    | finish h =>
      intro hk
      simp only [entriesSource, Option.map_eq_none_iff, List.getElem?_eq_none_iff, List.length_reverse] at h
      simp only [List.length_nil]
      omega
    | turn h _ _ _ ih =>
      intro hk
      have := hlt h
      have := ih (by omega)
      simp only [List.length_cons]
      refine ⟨by omega, fun hf => ?_⟩
      have := this.2 hf
      omega
    | broken h _ _ | returned h _ _ | stopped h _ _ =>
      intro hk
      have := hlt h
      exact ⟨by simp only [List.length_cons, List.length_nil]; omega, nofun⟩
    | noVariable h _ => intro hk; exact ⟨by simpa using hk, nofun⟩
  have := hlen h (Nat.zero_le _)
  simpa using this

/-- C29: what the loop variable is in a turn of a loop over a dict: a dict of which the keys are `key` and `value`. -/
theorem dict_entry (it : Nat) (es : List (Value × Value)) (k : Nat) (s : RState) (v : Value)
    (h : (entriesSource it es).element k s = some v) :
    ∃ key x d, es[es.length - 1 - k]? = some (key, x) ∧ v = .dict d ∧ s.heap.dicts[d]? = none ∧
      ((entriesSource it es).asked k s).heap.dicts[d]? = some [(.string (bs "key"), key), (.string (bs "value"), x)] := by
  simp only [entriesSource, Option.map_eq_some_iff] at h
  obtain ⟨⟨key, x⟩, he, rfl⟩ := h
  have hk : k < es.length := by simpa using (List.getElem?_eq_some_iff.1 he).1
  refine ⟨key, x, _, by rwa [List.getElem?_reverse hk] at he, rfl, by simp, ?_⟩
  simp only [entriesSource, he, withDicts, withPrivate]
  rw [List.getElem?_append_right (Nat.le_refl _), Nat.sub_self]
  rfl

/-- The program `for x in std.range(9223372036854775806, 9223372036854775807, 2) do end`. -/
def rangeProgram : Program :=
  ⟨[.for_ 1 (.call (.access (.ident 0 (q 9)) (.lit (.ident (bs "range")) (q 13)) (q 12))
    [.lit (.int 9223372036854775806) (q 19), .lit (.int 9223372036854775807) (q 40), .lit (.int 2) (q 61)] (q 18)) []], 2⟩

set_option maxRecDepth 100000 in
/-- C29 is violated for ranges near the largest number: the interpreter panics, though there is only one turn to do. -/
theorem range_violated :
    Accepts (bs "for x in std.range(9223372036854775806, 9223372036854775807, 2) do end") rangeProgram ∧
    (runProgram nilWorld 20 rangeProgram [] []).1 = .error (.crash .arith) :=
  ⟨accepts_of (by decide +kernel), by decide +kernel⟩

/-- A state for the examples: the variables are `std`, an array of two strings, and the loop variable. -/
def loopState : RState :=
  { RState.init [bs "p", bs "q"] [] with stack := [.regular (.dict 3), .regular (.array 0), .regular .nil] }

theorem loopState_noDangling : NoDangling loopState := by
  intro r hr
  obtain ⟨a, b, c, d, e, f⟩ := no_dangling_init [bs "p", bs "q"] [] r hr
  refine ⟨a, ?_, c, d, e, f⟩
  simp only [loopState, List.mem_cons, List.not_mem_nil, or_false]
  rintro v (h | h | h)
  · cases h; exact e
  · cases h; exact f
  · cases h; exact clean_nil r

/-- `std.iter` and `std.range`. -/
def iterExpr : Prog.Expr := .access (.ident 0 (q 9)) (.lit (.ident (bs "iter")) (q 13)) (q 12)
def rangeExpr : Prog.Expr := .access (.ident 0 (q 9)) (.lit (.ident (bs "range")) (q 13)) (q 12)

-- The hypotheses of `for_array`, `for_string` and `for_dict`.
example : NoDangling loopState ∧
    Yields nilWorld 0 iterExpr loopState (.function (.native (bs "std.iter") 0)) (q 12) (.dict 3) loopState ∧
    Yields nilWorld 0 (.ident 1 (q 18)) loopState (.array 0) (q 18) .nil loopState ∧
    Yields nilWorld 0 (.lit (.string (bs "ab")) (q 18)) loopState (.string (bs "ab")) (q 18) .nil loopState ∧
    Yields nilWorld 0 (.ident 0 (q 18)) loopState (.dict 3) (q 18) .nil loopState :=
  ⟨loopState_noDangling, ⟨nofun, 5, rfl⟩, ⟨nofun, 5, rfl⟩, ⟨nofun, 5, rfl⟩, ⟨nofun, 5, rfl⟩⟩

-- The hypotheses of `for_range_partial`.
example : Yields nilWorld 0 rangeExpr loopState (.function (.native (bs "std.range") 0)) (q 12) (.dict 3) loopState ∧
    InOrder nilWorld 0 push [.lit (.int 1) (q 19), .lit (.int 6) (q 22), .lit (.int 2) (q 25)] loopState [.int 1, .int 6, .int 2]
      { loopState with args := [.int 1, .int 6, .int 2] } ∧ Is64 1 ∧ Is64 (6 + 2) :=
  ⟨⟨nofun, 5, rfl⟩, .cons ⟨nofun, 5, rfl⟩ (.cons ⟨nofun, 5, rfl⟩ (.cons ⟨nofun, 5, rfl⟩ (.nil _))), ⟨by decide, by decide⟩, ⟨by decide, by decide⟩⟩

-- The loop `for x in std.iter(a) do end` visits both elements of the array.
example : ∃ r s', Visits nilWorld 0 2 [] (arraySource 1 0) 0 (withNative (.arrayIter 0 0) loopState) [.string (bs "p"), .string (bs "q")] true r s' :=
  ⟨_, _, .turn rfl rfl ⟨nofun, 5, rfl⟩ (.turn rfl rfl ⟨nofun, 5, rfl⟩ (.finish rfl))⟩

-- It visits one if the body is `break`; the loop over a range visits 1, 3, 5.
example : (∃ r s', Visits nilWorld 0 2 [.break_] (arraySource 1 0) 0 (withNative (.arrayIter 0 0) loopState) [.string (bs "p")] false r s') ∧
    ∃ r s', Visits nilWorld 0 2 [] (rangeSource 1 1 6 2) 0 (withNative (.intRange 1 6 2) loopState) [.int 1, .int 3, .int 5] true r s' :=
  ⟨⟨_, _, .broken rfl rfl ⟨nofun, 5, rfl⟩⟩,
   ⟨_, _, .turn rfl rfl ⟨nofun, 5, rfl⟩ (.turn rfl rfl ⟨nofun, 5, rfl⟩ (.turn rfl rfl ⟨nofun, 5, rfl⟩ (.finish rfl)))⟩⟩

-- A whole program: a loop of which the body adds elements to the array that it goes through.
set_option maxRecDepth 100000 in
example : (runProgram nilWorld 60 ⟨[.assign (.ident 1 (q 4)) (.lit (.array [.lit (.int 1) (q 9)]) (q 8)), .assign (.ident 2 (q 16)) (.lit (.int 0) (q 20)),
    .for_ 3 (.call iterExpr [.ident 1 (q 18)] (q 17))
      [.assign (.ident 2 (q 2)) (.binary (.binary (.ident 2 (q 6)) .times (.lit (.int 10) (q 10)) (q 8)) .plus (.ident 3 (q 15)) (q 13)),
       .expr (.if_ (.binary (.ident 3 (q 5)) .lower (.lit (.int 3) (q 9)) (q 7))
        [.expr (.call (.access (.ident 0 (q 16)) (.lit (.ident (bs "push")) (q 20)) (q 19))
          [.ident 1 (q 25), .binary (.ident 3 (q 28)) .plus (.lit (.int 1) (q 32)) (q 30)] (q 24))] [] (q 2))],
    .expr (.ident 2 (q 0))], 4⟩ [] []).1 = .ok ⟨.regular (.int 123), noPos, .nil⟩ := by decide +kernel

end Hush.Props

import Verif.Lemmas.Hash
import Verif.Props.Loops

/-!
Equality and order of values, sorting (C23, C24).
-/

namespace Hush.Props
open Hush Hush.Spec
open Hush.Ast (Expr Lit Stmt Block)

/-! ### C23 -/

theorem equal_agree {h : Heap} {a b : Value} {n : Nat} {r : Bool} (h1 : valueEq h n a b = some r) : (Equal h a b ↔ r = true) ∧ (Different h a b ↔ r = false) := by
  have agree : ∀ {m r'}, valueEq h m a b = some r' → r' = r := by
    intro m r' hm
    have e1 := valueEq_mono h (Nat.le_max_left n m) a b _ h1
    have e2 := valueEq_mono h (Nat.le_max_right n m) a b _ hm
    rw [e1] at e2
    exact (Option.some.inj e2).symm
  exact ⟨⟨fun ⟨m, hm⟩ => (agree hm).symm, fun e => ⟨n, e ▸ h1⟩⟩, ⟨fun ⟨m, hm⟩ => (agree hm).symm, fun e => ⟨n, e ▸ h1⟩⟩⟩

/-- C23: two finite values are either equal or different, not both; and equality is an equivalence relation. A value is finite if
it has no float in it that is not a number, and does not contain itself. -/
theorem equality_equivalence_partial (h : Heap) (hk : DistinctKeys h) :
    (∀ a b, Finite h true a → Finite h true b → (Equal h a b ∨ Different h a b) ∧ ¬ (Equal h a b ∧ Different h a b)) ∧
    (∀ a, Finite h true a → Equal h a a) ∧
    (∀ a b, Finite h true a → Finite h true b → Equal h a b → Equal h b a) ∧
    (∀ a b c, Finite h true a → Finite h true b → Finite h true c → Equal h a b → Equal h b c → Equal h a c) := by
  refine ⟨?_, ?_, ?_, ?_⟩
  · intro a b ha hb
    obtain ⟨n, h1, h2⟩ := depth_two ha hb
    obtain ⟨r, hr⟩ := (equivOn_values h hk n).total h1 h2
    have := equal_agree hr
    rw [this.1, this.2]
    cases r <;> simp
  · intro a ha
    obtain ⟨n, h1⟩ := depth_of_finite ha
    exact ⟨n, (equivOn_values h hk n).refl h1⟩
  · rintro a b ha hb he
    obtain ⟨n, h1, h2⟩ := depth_two ha hb
    obtain ⟨r, hr⟩ := (equivOn_values h hk n).total h1 h2
    rw [(equal_agree hr).1.1 he] at hr
    exact ⟨n, (equivOn_values h hk n).symm h1 h2 hr⟩
  · rintro a b c ha hb hc he he'
    obtain ⟨n, h1, h2⟩ := depth_two ha hb
    obtain ⟨m, h3⟩ := depth_of_finite hc
    have h1 := depth_mono (Nat.le_max_left n m) h1
    have h2 := depth_mono (Nat.le_max_left n m) h2
    have h3 := depth_mono (Nat.le_max_right n m) h3
    have e := equivOn_values h hk (max n m)
    obtain ⟨r, hr⟩ := e.total h1 h2
    obtain ⟨r', hr'⟩ := e.total h2 h3
    rw [(equal_agree hr).1.1 he] at hr
    rw [(equal_agree hr').1.1 he'] at hr'
    exact ⟨_, e.trans h1 h2 h3 hr hr'⟩

/-- Memory for the examples: two arrays with equal elements, two dicts with the same entries in a different order. -/
def twinHeap : Heap :=
  { Heap.empty with
    arrays := [[.int 1, .string (bs "x")], [.int 1, .string (bs "x")]],
    dicts := [[(.int 1, .array 0), (.nil, .int 2)], [(.nil, .int 2), (.int 1, .array 1)]] }

theorem twinHeap_keys : DistinctKeys twinHeap := by
  intro d
  have key : ∀ {a b : Value}, sameHash twinHeap 1 a b = some false → ¬ SameKey twinHeap a b := by
    rintro a b h ⟨n, h1, _⟩
    have e1 := sameHash_mono twinHeap (Nat.le_max_left n 1) a b _ h1
    have e2 := sameHash_mono twinHeap (Nat.le_max_right n 1) a b _ h
    rw [e1] at e2
    cases e2
  match d with
  | 0 => exact List.pairwise_cons.2 ⟨by simpa using key rfl, by simp⟩
  | 1 => exact List.pairwise_cons.2 ⟨by simpa using key rfl, by simp⟩
  | d + 2 => exact List.Pairwise.nil

theorem twinHeap_array (a : Nat) : Finite twinHeap c (.array a) := by
  refine .array _ fun v hv => ?_
  match a with
  | 0 | 1 =>
    simp only [twinHeap, Heap.array, List.getD_cons_zero, List.getD_cons_succ, List.mem_cons, List.not_mem_nil, or_false] at hv
    rcases hv with rfl | rfl
    · exact .int 1
    · exact .string _
  | a + 2 => cases hv

theorem twinHeap_dict (d : Nat) : Finite twinHeap c (.dict d) := by
  match d with
  | 0 | 1 =>
    refine .dict _ ?_ ?_ <;>
    · simp only [twinHeap, Heap.dict, List.getD_cons_zero, List.getD_cons_succ, List.mem_cons, List.not_mem_nil, or_false]
      rintro e (rfl | rfl)
      all_goals first | exact .int _ | exact .nil | exact twinHeap_array _
  | d + 2 => exact .dict _ (fun e he => by cases he) (fun e he => by cases he)

-- The two dicts are finite and equal.
example : DistinctKeys twinHeap ∧ Finite twinHeap true (.dict 0) ∧ Finite twinHeap true (.dict 1) ∧ Equal twinHeap (.dict 0) (.dict 1) ∧
    Different twinHeap (.dict 0) (.array 0) :=
  ⟨twinHeap_keys, twinHeap_dict 0, twinHeap_dict 1, ⟨5, rfl⟩, ⟨5, rfl⟩⟩

/-- C23 is violated: the float that is not a number is different from itself. -/
theorem equal_self_violated : ∃ a : Value, ¬ Equal Heap.empty a a :=
  ⟨.float 0x7FF8000000000000, fun h => by
    have := (equal_agree (h := Heap.empty) (a := .float 0x7FF8000000000000) (b := .float 0x7FF8000000000000) (n := 1) (r := false) rfl).1.1 h
    cases this⟩

/-- C23 is violated: a recursive function (here one that has captured the variable that it is in) is not equal to itself: the comparison does
not come to an end. -/
theorem recursive_function_violated : ∃ (h : Heap) (f : Nat), ∀ n, valueEq h n (.function (.hush f)) (.function (.hush f)) = none := by
  refine ⟨{ Heap.empty with cells := [.function (.hush 0)], closures := [⟨0, ⟨1, [], none⟩, [], [(0, 0)], 0, ⟨1, 1⟩⟩] }, 0, fun n => ?_⟩
  induction n with
  | zero => rfl
  | succ n ih =>
    simp only [valueEq, Heap.closure, List.getD_cons_zero, beq_self_eq_true, Bool.and_self, if_true, sliceEq, listEq, Heap.cell]
    rw [ih]
    rfl

/-- C23: equal finite values are the same key of a dict. Missing: values that have the float -0.0 in them, or a dict with a key that has a
function of hush in it; see `equal_same_key_violated` and `equal_dicts_violated`. -/
theorem equal_same_key_partial (h : Heap) (hk : DistinctKeys h) (a b : Value) (ha : Hashed h a) (hb : Hashed h b) (fa : Finite h true a)
    (fb : Finite h true b) : Equal h a b ↔ SameKey h a b := by
  refine ⟨fun ⟨n, hn⟩ => ?_, fun ⟨n, _, hn⟩ => ⟨n, hn⟩⟩
  obtain ⟨m, h1, h2⟩ := depth_two fa fb
  have h1 := depth_mono (Nat.le_max_right n m) h1
  have h2 := depth_mono (Nat.le_max_right n m) h2
  have h3 := valueEq_mono h (Nat.le_max_left n m) a b _ hn
  exact ⟨_, (keysAgree h hk _).hash ha hb h1 h2 h3, h3⟩

theorem twinHeap_exact (a : Nat) : Exact twinHeap (.array a) := by
  refine .array _ fun v hv => ?_
  match a with
  | 0 | 1 =>
    simp only [twinHeap, Heap.array, List.getD_cons_zero, List.getD_cons_succ, List.mem_cons, List.not_mem_nil, or_false] at hv
    rcases hv with rfl | rfl
    · exact .int 1
    · exact .string _
  | a + 2 => cases hv

theorem twinHeap_exact_dict (d : Nat) : Exact twinHeap (.dict d) := by
  match d with
  | 0 | 1 =>
    refine .dict _ ?_ ?_ <;>
    · simp only [twinHeap, Heap.dict, List.getD_cons_zero, List.getD_cons_succ, List.mem_cons, List.not_mem_nil, or_false]
      rintro e (rfl | rfl)
      all_goals first | exact .int _ | exact .nil | exact twinHeap_exact _
  | d + 2 => exact .dict _ (fun e he => by cases he) (fun e he => by cases he)

-- Two dicts with the same entries in a different order.
example : DistinctKeys twinHeap ∧ Hashed twinHeap (.dict 0) ∧ Hashed twinHeap (.dict 1) ∧ Equal twinHeap (.dict 0) (.dict 1) ∧
    SameKey twinHeap (.dict 0) (.dict 1) :=
  ⟨twinHeap_keys, exact_hashed (twinHeap_exact_dict 0), exact_hashed (twinHeap_exact_dict 1), ⟨5, rfl⟩,
    (equal_same_key_partial twinHeap twinHeap_keys _ _ (exact_hashed (twinHeap_exact_dict 0)) (exact_hashed (twinHeap_exact_dict 1))
      (twinHeap_dict 0) (twinHeap_dict 1)).1 ⟨5, rfl⟩⟩

/-- Memory with two functions from the same place of the source, which have captured 1 and 2, and two dicts that have these functions as keys, in a
different order. -/
def closureHeap : Heap :=
  { Heap.empty with
    cells := [.int 1, .int 2]
    closures := [⟨0, ⟨1, [], none⟩, [], [(0, 0)], 0, ⟨1, 1⟩⟩, ⟨0, ⟨1, [], none⟩, [], [(1, 0)], 0, ⟨1, 1⟩⟩]
    dicts := [[(.function (.hush 0), .int 1), (.function (.hush 1), .int 2)], [(.function (.hush 1), .int 2), (.function (.hush 0), .int 1)]] }

/-- C23 is violated: dicts that are equal need not be the same key, if functions are keys of them. -/
theorem equal_dicts_violated : ∃ (h : Heap) (a b : Value), Finite h true a ∧ Finite h true b ∧ Equal h a b ∧ ¬ SameKey h a b := by
  have hf : ∀ f, Finite closureHeap true (.function (.hush f)) := by
    intro f
    refine .hush _ fun _ c hc => ?_
    match f with
    | 0 | 1 =>
      simp only [closureHeap, Heap.closure, List.getD_cons_zero, List.getD_cons_succ, List.mem_cons, List.not_mem_nil, or_false] at hc
      subst hc
      exact .int _
    | f + 2 => cases hc
  have hd : ∀ d, Finite closureHeap true (.dict d) := by
    intro d
    match d with
    | 0 | 1 =>
      refine .dict _ ?_ ?_ <;>
      · simp only [closureHeap, Heap.dict, List.getD_cons_zero, List.getD_cons_succ, List.mem_cons, List.not_mem_nil, or_false]
        rintro e (rfl | rfl)
        all_goals first | exact .int _ | exact hf _
    | d + 2 => exact .dict _ (fun e he => by cases he) (fun e he => by cases he)
  refine ⟨closureHeap, .dict 0, .dict 1, hd 0, hd 1, ⟨5, rfl⟩, ?_⟩
  rintro ⟨n, h, _⟩
  have e1 := sameHash_mono closureHeap (Nat.le_max_left n 5) _ _ _ h
  have e2 := sameHash_mono closureHeap (Nat.le_max_right n 5) (.dict 0) (.dict 1) false rfl
  rw [e1] at e2
  cases e2

/-- C23 is violated: 0.0 and -0.0 are equal but not the same key. -/
theorem equal_same_key_violated : ∃ a b : Value, Equal Heap.empty a b ∧ ¬ SameKey Heap.empty a b := by
  refine ⟨.float 0, .float 0x8000000000000000, ⟨1, rfl⟩, ?_⟩
  rintro ⟨n, h, _⟩
  have e1 := sameHash_mono Heap.empty (Nat.le_max_left n 1) _ _ _ h
  have e2 := sameHash_mono Heap.empty (Nat.le_max_right n 1) (.float 0) (.float 0x8000000000000000) false rfl
  rw [e1] at e2
  cases e2

/-! ### C24 -/

theorem compare_agree {h : Heap} {a b : Value} {n : Nat} {o o' : Ordering} (h1 : valueCmp h n a b = some o) (h2 : Compare h a b o') : o' = o := by
  obtain ⟨m, hm⟩ := h2
  have e1 := valueCmp_mono h (Nat.le_max_left n m) a b _ h1
  have e2 := valueCmp_mono h (Nat.le_max_right n m) a b _ hm
  rw [e1] at e2
  exact (Option.some.inj e2).symm

/-- C24: the order of finite values is total and transitive. -/
theorem order_total_partial (h : Heap) :
    (∀ a b, Finite h false a → Finite h false b → ∃ o, Compare h a b o ∧ ∀ o', Compare h a b o' → o' = o) ∧
    (∀ a b o, Finite h false a → Finite h false b → Compare h a b o → Compare h b a o.swap) ∧
    (∀ a b c, Finite h false a → Finite h false b → Finite h false c → ¬ Compare h b a .lt → ¬ Compare h c b .lt → ¬ Compare h c a .lt) := by
  refine ⟨?_, ?_, ?_⟩
  · intro a b ha hb
    obtain ⟨n, h1, h2⟩ := depth_two ha hb
    obtain ⟨o, ho⟩ := (totalOn_values h false n).total h1 h2
    exact ⟨o, ⟨n, ho⟩, fun o' ho' => compare_agree ho ho'⟩
  · intro a b o ha hb hc
    obtain ⟨n, h1, h2⟩ := depth_two ha hb
    obtain ⟨o', ho⟩ := (totalOn_values h false n).total h1 h2
    cases compare_agree ho hc
    exact ⟨n, (totalOn_values h false n).swap h1 h2 ho⟩
  · intro a b c ha hb hc h1 h2 h3
    obtain ⟨n, ha', hb'⟩ := depth_two ha hb
    obtain ⟨m, hc'⟩ := depth_of_finite hc
    have ha' := depth_mono (Nat.le_max_left n m) ha'
    have hb' := depth_mono (Nat.le_max_left n m) hb'
    have hc' := depth_mono (Nat.le_max_right n m) hc'
    have t := totalOn_values h false (max n m)
    obtain ⟨o, ho⟩ := t.total ha' hc'
    have hs := t.swap ha' hc' ho
    have h4 := compare_agree hs h3
    refine t.le_trans ha' hb' hc' (fun h => h1 ⟨_, t.swap ha' hb' h⟩) (fun h => h2 ⟨_, t.swap hb' hc' h⟩) ?_
    rw [ho]
    cases o <;> first | rfl | cases h4

/-- C24: integers and strings are in their usual order. -/
theorem order_usual (h : Heap) : (∀ a b : Int, Compare h (.int a) (.int b) .lt ↔ a < b) ∧
    (∀ a b : Bytes, Compare h (.string a) (.string b) .lt ↔ a < b) := by
  constructor
  · intro a b
    have : valueCmp h 1 (.int a) (.int b) = some (compare a b) := rfl
    refine ⟨fun h1 => Int.compare_eq_lt.1 (compare_agree this h1).symm, fun h1 => ⟨1, ?_⟩⟩
    rw [this, Int.compare_eq_lt.2 h1]
  · intro a b
    have h0 : valueCmp h 1 (.string a) (.string b) = some (bytesCmp a b) := rfl
    have key : ∀ a b : Bytes, bytesCmp a b = .lt ↔ a < b := by
      intro a
      induction a with
      | nil => intro b; cases b <;> simp [bytesCmp]
      | cons x a ih =>
        intro b
        cases b with
        | nil => simp [bytesCmp]
        | cons y b =>
          rw [List.cons_lt_cons_iff, ← ih]
          simp only [bytesCmp]
          by_cases h1 : x < y
          · simp [h1]
          · by_cases h2 : y < x
            · have : x ≠ y := fun h => UInt8.lt_irrefl _ (h ▸ h2)
              simp [h1, h2, this]
            · simp [UInt8.le_antisymm (UInt8.not_lt.1 h2) (UInt8.not_lt.1 h1)]
    refine ⟨fun h1 => (key a b).1 (compare_agree h0 h1).symm, fun h1 => ⟨1, ?_⟩⟩
    rw [h0, (key a b).2 h1]

/-- C24: `std.sort(a)` of a finite array returns nil and changes nothing but the array. Afterwards it has the same elements, none of them less
than one before it, and elements that compare equal are in the order in which they were. Missing: arrays with a float that is
not a number, see `order_violated`. -/
theorem sort_sorts_partial (w : World) (m : Nat) (fe e : Prog.Expr) (pos : Pos) (s s1 s2 : RState) (z a : Nat) (p p' : Pos) (obj obj' : Value)
    (hf : Yields w m fe s (.function (.native (bs "std.sort") z)) p obj s1) (ha : Yields w m e s1 (.array a) p' obj' s2)
    (hargs : s2.args = s1.args) (hfin : Finite s2.heap false (.array a)) :
    ∃ vs, Yields w m (.call fe [e] pos) s .nil pos .nil { s2 with heap := s2.heap.setArray a vs } ∧
      vs.Perm (s2.heap.array a) ∧ vs.Pairwise (fun x y => ¬ Compare s2.heap y x .lt) ∧
      ∀ x y, [x, y].Sublist (s2.heap.array a) → Compare s2.heap x y .eq → [x, y].Sublist vs := by
  obtain ⟨n, vs, h1, h2⟩ := lib_sort (w := w) hfin
  refine ⟨vs, ends_calling.2 ?_, h2⟩
  refine @Calling.call w m fe [e] pos s _ p obj s1 [.array a] (push (.array a) s2)
    (.ok (.value .nil pos)) _ hf (.cons ha (.nil _)) ⟨nofun, n + 1, ?_⟩
  rw [run_libcall (name := bs "std.sort") (h := s2.heap.setArray a vs) (v := .nil) (by decide) (by simp [push, hargs]) (by
    rw [show (push (.array a) s2).args.drop s1.args.length = [.array a] by simp [push, hargs]]
    exact h1 _ _ _)]
  simp [push, ← hargs]

/-- `std.sort`. -/
def sortExpr : Prog.Expr := .access (.ident 0 (q 9)) (.lit (.ident (bs "sort")) (q 13)) (q 12)

-- The hypotheses, for an array of two strings.
example : Yields nilWorld 0 sortExpr loopState (.function (.native (bs "std.sort") 0)) (q 12) (.dict 3) loopState ∧
    Yields nilWorld 0 (.ident 1 (q 18)) loopState (.array 0) (q 18) .nil loopState ∧ Finite loopState.heap false (.array 0) :=
  ⟨⟨nofun, 5, rfl⟩, ⟨nofun, 5, rfl⟩, .array _ fun v hv => by
    simp only [show loopState.heap.array 0 = [.string (bs "p"), .string (bs "q")] from rfl, List.mem_cons, List.not_mem_nil, or_false] at hv
    rcases hv with rfl | rfl <;> exact .string _⟩

/-- C24 is violated: with the float that is not a number the order is not one, as it is less than itself. -/
theorem order_violated : ∃ a : Value, Compare Heap.empty a a .lt := ⟨.float 0x7FF8000000000000, 1, rfl⟩

end Hush.Props

import Verif.Lemmas.Elements
import Verif.Lemmas.ProgEq
import Verif.Props.Interp

/-!
Properties C20, C21, C22, C25, C27 and C28: evaluation of expressions.
-/

namespace Hush.Props
open Hush Hush.Spec

/-! ### C20 -/

/-- C20: if performing a task (running a program, say) comes to an end, a larger budget leads to the same outcome, with the same
state, which includes all that was done to the outside. -/
theorem budget_irrelevant (w : World) (t : Task) (s : RState) (n n' : Nat) (hn : n ≤ n')
    (h : (run w n t s).1 ≠ .error .timeout) : run w n' t s = run w n t s := by
  rcases runTask_mono w hn t s with h' | h'
  · exact absurd h' h
  · exact h'.symm

/-- C20: any two runs of a program that come to an end agree. -/
theorem program_deterministic (w : World) (p : Program) (argv : List Bytes) (file : Sym) (n n' : Nat)
    (h : (runProgram w n p argv file).1 ≠ .error .timeout) (h' : (runProgram w n' p argv file).1 ≠ .error .timeout) :
    runProgram w n p argv file = runProgram w n' p argv file := by
  rcases Nat.le_total n n' with hn | hn
  · exact (budget_irrelevant w _ _ n n' hn h).symm
  · exact budget_irrelevant w _ _ n' n hn h'

-- A program with a call that comes to an end.
set_option maxRecDepth 100000 in
example : (runProgram (fileWorld fun _ => none) 15 panicProgram [] []).1 ≠ .error .timeout := by decide +kernel

/-! ### C22 -/

/-- C22: the evaluation of `a and b` and `a or b` is that of the rules `Logical`: `b` is evaluated only if `a` is true (false),
after `a`, and a boolean is required. -/
theorem short_circuit (w : World) (m : Nat) (a b : Prog.Expr) (pos : Pos) (s : RState) (r : Except Stop Out) (s' : RState) :
    (Eval w m (.binary a .and b pos) s r s' ↔ Logical w m false a b pos s r s') ∧
    (Eval w m (.binary a .or b pos) s r s' ↔ Logical w m true a b pos s r s') :=
  ⟨ends_logical (.inl rfl), ends_logical (.inr rfl)⟩

/-- C22: the operands of all other binary operators are evaluated left to right, each exactly once. -/
theorem operands_in_order (w : World) (m : Nat) (a b : Prog.Expr) (op : BinOp) (pos : Pos) (s : RState) (r : Except Stop Out)
    (s' : RState) (h1 : op ≠ .and) (h2 : op ≠ .or) :
    Eval w m (.binary a op b pos) s r s' ↔ Strict w m (Applies w op pos) a b pos s r s' := ends_strict h1 h2

/-- C22: the items of an array are evaluated left to right, each exactly once; the array consists of their values. If an item panics
or returns, the others are not evaluated. -/
theorem items_in_order (w : World) (m : Nat) (es : List Prog.Expr) (pos : Pos) (s : RState) (r : Except Stop Out) (s' : RState) :
    Eval w m (.lit (.array es) pos) s r s' ↔
      (∃ vs s1, InOrder w m hold es s vs s1 ∧ r = done (.array s1.heap.arrays.length) pos ∧
        s' = { s1 with heap := { s1.heap with arrays := s1.heap.arrays ++ [vs] } }) ∨
      (∃ r', UpTo w m hold es s r' s' ∧ r = passed pos r') := ends_array

/-- C22: in a call the function, then the arguments are evaluated left to right, each exactly once, then the function is called. -/
theorem arguments_in_order (w : World) (m : Nat) (f : Prog.Expr) (args : List Prog.Expr) (pos : Pos) (s : RState)
    (r : Except Stop Out) (s' : RState) : Eval w m (.call f args pos) s r s' ↔ Calling w m f args pos s r s' := ends_calling

/-- Some state. -/
def someState : RState := RState.init [] []

/-- A literal has its value. -/
theorem yields_int (w : World) (m : Nat) (i : Int) (pos : Pos) (s : RState) : Yields w m (.lit (.int i) pos) s (.int i) pos .nil s :=
  ⟨nofun, 1, rfl⟩

/-- A literal has its value. -/
theorem yields_bool (w : World) (m : Nat) (b : Bool) (pos : Pos) (s : RState) : Yields w m (.lit (.bool b) pos) s (.bool b) pos .nil s :=
  ⟨nofun, 1, rfl⟩

-- `false and (1 + true)` is `false`: the panic in the right operand does not come about.
example : Eval (fileWorld fun _ => none) 0
    (.binary (.lit (.bool false) (q 0)) .and (.binary (.lit (.int 1) (q 11)) .plus (.lit (.bool true) (q 15)) (q 13)) (q 6)) someState
    (done (.bool false) (q 6)) someState := ⟨nofun, 5, rfl⟩

-- `true and (1 + true)` panics.
example : Eval (fileWorld fun _ => none) 0
    (.binary (.lit (.bool true) (q 0)) .and (.binary (.lit (.int 1) (q 11)) .plus (.lit (.bool true) (q 15)) (q 13)) (q 6)) someState
    (typeError (.bool true) (bs "int") (q 15)) someState := ⟨nofun, 5, rfl⟩

-- `[1, true]`.
example : InOrder (fileWorld fun _ => none) 0 hold [.lit (.int 1) (q 1), .lit (.bool true) (q 4)] someState [.int 1, .bool true] someState :=
  .cons (yields_int _ _ _ _ _) (.cons (yields_bool _ _ _ _ _) (.nil _))

/-! ### C21 -/

theorem isI64_iff (x : Int) : isI64 x = true ↔ Is64 x := by
  unfold isI64 Is64
  rw [decide_eq_true_iff]
  omega

theorem checked_is {x : Int} : (Is64 x → checked x = some x) ∧ (¬ Is64 x → checked x = none) := by
  unfold checked
  constructor
  · intro h; rw [if_pos ((isI64_iff x).2 h)]
  · intro h; rw [if_neg (fun h' => h ((isI64_iff x).1 h'))]

theorem tdiv_range {x y : Int} (hx : Is64 x) (hy : Is64 y) (h0 : y ≠ 0) (h : ¬ Is64 (x.tdiv y)) : x = -(2 ^ 63) ∧ y = -1 := by
  have h1 : (x.tdiv y).natAbs = x.natAbs / y.natAbs := Int.natAbs_tdiv x y
  have h2 : x.natAbs / y.natAbs ≤ x.natAbs := Nat.div_le_self ..
  have h4 : y.natAbs ≠ 0 := by omega
  unfold Is64 at *
  by_cases h5 : y.natAbs = 1
  · have : y = 1 ∨ y = -1 := by omega
    rcases this with rfl | rfl
    · rw [Int.tdiv_one] at h; exact absurd hx h
    · refine ⟨?_, rfl⟩
      have : x.tdiv (-1) = -x := by rw [Int.tdiv_neg, Int.tdiv_one]
      rw [this] at h
      omega
  · have h6 : x.natAbs / y.natAbs ≤ x.natAbs / 2 := Nat.div_le_div_left (by omega) (by omega)
    omega

/-- C21, binary operators: the result is the mathematically exact one, if that is an integer of 64 bits; otherwise the result is a panic
at the operator. The only panics on an exact result of 64 bits are those of the remainder of `-2^63` by `-1`. -/
theorem integers_exact (w : World) (m : Nat) (a b : Prog.Expr) (op : BinOp) (pos : Pos) (s s1 s2 : RState) (x y : Int)
    (p p' : Pos) (o o' : Value) (hop : op = .plus ∨ op = .minus ∨ op = .times ∨ op = .div ∨ op = .mod)
    (hx : Is64 x) (hy : Is64 y) (ha : Yields w m a s (.int x) p o s1) (hb : Yields w m b s1 (.int y) p' o' s2) :
    (∃ z, exact op x y = some z ∧ Is64 z ∧ Eval w m (.binary a op b pos) s (done (.int z) pos) s2) ∨
    (∃ z, exact op x y = some z ∧ ¬ Is64 z ∧ (op = .plus ∨ op = .minus ∨ op = .times) ∧
      Eval w m (.binary a op b pos) s (.error (.panic ⟨.integerOverflow, pos⟩)) s2) ∨
    ((op = .div ∨ op = .mod) ∧ (y = 0 ∨ x = -(2 ^ 63) ∧ y = -1) ∧
      Eval w m (.binary a op b pos) s (.error (.panic ⟨.divisionByZero, pos⟩)) s2) := by
  have hop1 : op ≠ .and := by rcases hop with h | h | h | h | h <;> rw [h] <;> exact nofun
  have hop2 : op ≠ .or := by rcases hop with h | h | h | h | h <;> rw [h] <;> exact nofun
  have hA : op.isArith = true := by rcases hop with h | h | h | h | h <;> rw [h] <;> rfl
  have good : ∀ z, intOp op x y = .ok z → Eval w m (.binary a op b pos) s (done (.int z) pos) s2 := by
    intro z hz
    refine (ends_strict hop1 hop2).2 (.value ha hb ⟨nofun, 0, ?_⟩)
    simp only [strictValue, hA, if_true, arithValue, hz]
  have bad : ∀ k, intOp op x y = .error k → Eval w m (.binary a op b pos) s (.error (.panic ⟨k, pos⟩)) s2 := by
    intro k hk
    refine (ends_strict hop1 hop2).2 (.stops ha hb ⟨nofun, 0, ?_⟩)
    simp only [strictValue, hA, if_true, arithValue, hk]
  have three : ∀ z, exact op x y = some z → intOp op x y = (checked z).elim (.error .integerOverflow) .ok →
      (op = .plus ∨ op = .minus ∨ op = .times) →
      (∃ z, exact op x y = some z ∧ Is64 z ∧ Eval w m (.binary a op b pos) s (done (.int z) pos) s2) ∨
      (∃ z, exact op x y = some z ∧ ¬ Is64 z ∧ (op = .plus ∨ op = .minus ∨ op = .times) ∧
        Eval w m (.binary a op b pos) s (.error (.panic ⟨.integerOverflow, pos⟩)) s2) := by
    intro z hz hi h3
    by_cases h : Is64 z
    · rw [checked_is.1 h] at hi
      exact .inl ⟨z, hz, h, good z hi⟩
    · rw [checked_is.2 h] at hi
      exact .inr ⟨z, hz, h, h3, bad _ hi⟩
  rcases hop with h | h | h | h | h
  · exact (three (x + y) (by rw [h]; rfl) (by rw [h]; rfl) (.inl h)).elim .inl (fun h => .inr (.inl h))
  · exact (three (x - y) (by rw [h]; rfl) (by rw [h]; rfl) (.inr (.inl h))).elim .inl (fun h => .inr (.inl h))
  · exact (three (x * y) (by rw [h]; rfl) (by rw [h]; rfl) (.inr (.inr h))).elim .inl (fun h => .inr (.inl h))
  · by_cases h0 : y = 0
    · refine .inr (.inr ⟨.inl h, .inl h0, bad _ ?_⟩)
      rw [h]; simp [intOp, checkedDiv, h0]
    · have he : exact op x y = some (x.tdiv y) := by rw [h]; simp [exact, h0]
      by_cases h1 : Is64 (x.tdiv y)
      · refine .inl ⟨_, he, h1, good _ ?_⟩
        rw [h]; simp [intOp, checkedDiv, h0, checked_is.1 h1]
      · refine .inr (.inr ⟨.inl h, .inr (tdiv_range hx hy h0 h1), bad _ ?_⟩)
        rw [h]; simp [intOp, checkedDiv, h0, checked_is.2 h1]
  · by_cases h0 : y = 0
    · refine .inr (.inr ⟨.inr h, .inl h0, bad _ ?_⟩)
      rw [h]; simp [intOp, checkedRem, h0]
    · have he : exact op x y = some (x.tmod y) := by rw [h]; simp [exact, h0]
      by_cases h1 : Is64 (x.tdiv y)
      · have h2 : Is64 (x.tmod y) := by
          have h3 : (x.tmod y).natAbs = x.natAbs % y.natAbs := Int.natAbs_tmod x y
          have h4 : x.natAbs % y.natAbs < y.natAbs := Nat.mod_lt _ (by omega)
          unfold Is64 at *
          omega
        refine .inl ⟨_, he, h2, good _ ?_⟩
        rw [h]; simp [intOp, checkedRem, h0, (isI64_iff _).2 h1]
      · refine .inr (.inr ⟨.inr h, .inr (tdiv_range hx hy h0 h1), bad _ ?_⟩)
        have : isI64 (x.tdiv y) = false := by
          cases hb : isI64 (x.tdiv y) with
          | false => rfl
          | true => exact absurd ((isI64_iff _).1 hb) h1
        rw [h]; simp [intOp, checkedRem, h0, this]

-- `9223372036854775807 + 1` is a panic, `7 / -2` is `-3`.
example : Eval (fileWorld fun _ => none) 0 (.binary (.lit (.int 9223372036854775807) (q 0)) .plus (.lit (.int 1) (q 22)) (q 20)) someState
    (.error (.panic ⟨.integerOverflow, q 20⟩)) someState := ⟨nofun, 3, rfl⟩
example : exact .div 7 (-2) = some (-3) ∧ exact .mod (-7) 2 = some (-1) := ⟨rfl, rfl⟩

/-- C21, unary minus, partially: the result is exact unless the operand is `-2^63`. Missing from C21: that the result for `-2^63` is a
panic; see `negate_violated`. -/
theorem negate_exact_partial (w : World) (m : Nat) (a : Prog.Expr) (pos : Pos) (s s1 : RState) (x : Int) (p : Pos) (o : Value)
    (hx : Is64 x) (h : x ≠ -(2 ^ 63)) (ha : Yields w m a s (.int x) p o s1) :
    Is64 (-x) ∧ Eval w m (.unary .minus a pos) s (done (.int (-x)) pos) s1 := by
  have hi : Is64 (-x) := by unfold Is64 at *; omega
  refine ⟨hi, ends_iff.2 (lim_go ha (lim_const.2 ⟨nofun, ?_⟩))⟩
  simp only [unaryValue, World.arith, (isI64_iff (-x)).2 hi, if_true]
  rfl

/-- The program `-(-9223372036854775807 - 1)`. -/
def negateProgram : Program :=
  ⟨[.expr (.unary .minus (.binary (.unary .minus (.lit (.int 9223372036854775807) (q 3)) (q 2)) .minus (.lit (.int 1) (q 25)) (q 23)) (q 0))], 1⟩

set_option maxRecDepth 100000 in
/-- C21 is violated by unary minus: in a release build the result of `-x` is `x` for `-2^63`; in a debug build it is a Rust panic. -/
theorem negate_violated : ∃ src p w w' n, Accepts src p ∧ w.checks = false ∧
    (runProgram w n p [] []).1 = done (.int (-9223372036854775808)) noPos ∧
    w'.checks = true ∧ (runProgram w' n p [] []).1 = .error (.crash .arith) :=
  ⟨bs "-(-9223372036854775807 - 1)", negateProgram, { fileWorld (fun _ => none) with checks := false }, fileWorld fun _ => none, 10,
    accepts_of (by decide +kernel), rfl, by decide +kernel, rfl, by decide +kernel⟩

/-! ### C25 -/

/-- C25: reading an element of an array. -/
theorem array_read (w : World) (m : Nat) (a b : Prog.Expr) (pos : Pos) (s s1 s2 : RState) (x : Nat) (i : Int) (p p' : Pos)
    (o o' : Value) (ha : Yields w m a s (.array x) p o s1) (hb : Yields w m b s1 (.int i) p' o' s2) :
    (InRange i (s2.heap.array x).length →
      ∃ v, (s2.heap.array x)[i.toNat]? = some v ∧ Yields w m (.access a b pos) s v pos (.array x) s2) ∧
    (¬ InRange i (s2.heap.array x).length →
      Eval w m (.access a b pos) s (.error (.panic ⟨.indexOutOfBounds (.int i), p'⟩)) s2) := by
  constructor
  · intro h
    obtain ⟨v, h1, h2⟩ := indexOf_inRange h
    exact ⟨v, h2, ends_access ha hb (n := 0) (r := .ok v) (by simp [accessValue, h1, orOutOfBounds]) nofun⟩
  · intro h
    exact ends_access ha hb (n := 0) (r := .error (.panic _)) (by simp [accessValue, indexOf_outside h, orOutOfBounds]) nofun

/-- C25: assigning to an element of an array changes this element of this array and nothing else; the number of elements stays. Outside the
range nothing is changed. -/
theorem array_write (w : World) (m : Nat) (a b e : Prog.Expr) (pos : Pos) (s s1 s2 s3 : RState) (v : Value) (x : Nat) (i : Int)
    (p p' p'' : Pos) (o o' o'' : Value) (he : Yields w m e s v p o s1) (ha : Yields w m a s1 (.array x) p' o' s2)
    (hb : Yields w m b s2 (.int i) p'' o'' s3) (hx : x < s3.heap.arrays.length) :
    (InRange i (s3.heap.array x).length →
      ∃ h', Ends w (.stmt m none (.assign (.access a b pos) e)) s (done .nil noPos) { s3 with heap := h' } ∧
        SameButArray x s3.heap h' ∧ (h'.array x).length = (s3.heap.array x).length ∧
        ∀ j, (h'.array x)[j]? = if j = i.toNat then some v else (s3.heap.array x)[j]?) ∧
    (¬ InRange i (s3.heap.array x).length →
      ∃ q, Ends w (.stmt m none (.assign (.access a b pos) e)) s (.error (.panic ⟨.indexOutOfBounds (.int i), q⟩)) s3) := by
  constructor
  · intro h
    have h1 : ¬ (i ≥ ((s3.heap.array x).length : Int)) := by unfold InRange at h; omega
    have h2 : ¬ i < 0 := by unfold InRange at h; omega
    refine ⟨s3.heap.setArray x ((s3.heap.array x).set i.toNat v), ?_, setArray_same _ _ _, ?_, ?_⟩
    · exact ends_assign he ha hb (n := 0) (r := .ok _) (by simp only [assignValue, if_neg h1, if_neg h2]) nofun
    · rw [setArray_get hx, List.length_set]
    · intro j
      rw [setArray_get hx, List.getElem?_set]
      by_cases hj : j = i.toNat
      · subst hj
        rw [if_pos rfl, if_pos rfl, if_pos (by unfold InRange at h; omega)]
      · rw [if_neg (Ne.symm hj), if_neg hj]
  · intro h
    by_cases h1 : i ≥ ((s3.heap.array x).length : Int)
    · exact ⟨p'', ends_assign he ha hb (n := 0) (r := .error (.panic _)) (by simp only [assignValue, if_pos h1]) nofun⟩
    · have h2 : i < 0 := by unfold InRange at h; omega
      exact ⟨pos, ends_assign he ha hb (n := 0) (r := .error (.panic _)) (by simp only [assignValue, if_neg h1, if_pos h2]) nofun⟩

/-- C25: reading a byte of a string. -/
theorem string_read (w : World) (m : Nat) (a b : Prog.Expr) (pos : Pos) (s s1 s2 : RState) (x : Bytes) (i : Int) (p p' : Pos)
    (o o' : Value) (ha : Yields w m a s (.string x) p o s1) (hb : Yields w m b s1 (.int i) p' o' s2) :
    (InRange i x.length → ∃ c, x[i.toNat]? = some c ∧ Yields w m (.access a b pos) s (.byte c) pos (.string x) s2) ∧
    (¬ InRange i x.length → Eval w m (.access a b pos) s (.error (.panic ⟨.indexOutOfBounds (.int i), p'⟩)) s2) := by
  constructor
  · intro h
    obtain ⟨v, h1, h2⟩ := indexOf_inRange h
    exact ⟨v, h2, ends_access ha hb (n := 0) (r := .ok (.byte v)) (by simp [accessValue, h1, orOutOfBounds]) nofun⟩
  · intro h
    exact ends_access ha hb (n := 0) (r := .error (.panic _)) (by simp [accessValue, indexOf_outside h, orOutOfBounds]) nofun

/-- C25, partially: reading an entry of a dict. Missing from C25: keys that are not simple (floats that are not a number, arrays, dicts,
errors, functions). -/
theorem dict_read_partial (w : World) (m : Nat) (a b : Prog.Expr) (pos : Pos) (s s1 s2 : RState) (x : Nat) (k : Value) (p p' : Pos)
    (o o' : Value) (hk : Simple k) (ha : Yields w m a s (.dict x) p o s1) (hb : Yields w m b s1 k p' o' s2) :
    (∀ v, look (s2.heap.dict x) k = some v → Yields w m (.access a b pos) s v pos (.dict x) s2) ∧
    (look (s2.heap.dict x) k = none → Eval w m (.access a b pos) s (.error (.panic ⟨.indexOutOfBounds k, p'⟩)) s2) := by
  constructor
  · intro v h
    exact ends_access ha hb (n := 1) (r := .ok v) (by simp only [accessValue, dictGet_simple _ 0 _ hk, h, orOutOfBounds]) nofun
  · intro h
    exact ends_access ha hb (n := 1) (r := .error (.panic _)) (by simp only [accessValue, dictGet_simple _ 0 _ hk, h, orOutOfBounds]) nofun

/-- C25, partially: assigning to an entry of a dict changes (or adds) this entry and nothing else. Missing from C25: keys that are not
simple; see `nan_key_violated`. -/
theorem dict_write_partial (w : World) (m : Nat) (a b e : Prog.Expr) (pos : Pos) (s s1 s2 s3 : RState) (v : Value) (x : Nat) (k : Value)
    (p p' p'' : Pos) (o o' o'' : Value) (hk : Simple k) (he : Yields w m e s v p o s1) (ha : Yields w m a s1 (.dict x) p' o' s2)
    (hb : Yields w m b s2 k p'' o'' s3) (hx : x < s3.heap.dicts.length) :
    ∃ h', Ends w (.stmt m none (.assign (.access a b pos) e)) s (done .nil noPos) { s3 with heap := h' } ∧
      SameButDict x s3.heap h' ∧ ∀ k', look (h'.dict x) k' = if k' = k then some v else look (s3.heap.dict x) k' := by
  refine ⟨s3.heap.setDict x (put (s3.heap.dict x) k v), ?_, setDict_same _ _ _, ?_⟩
  · exact ends_assign he ha hb (n := 1) (r := .ok _)
      (by simp only [assignValue, touches_simple _ 0 _ hk, dictInsert_simple _ 0 _ hk]) nofun
  · intro k'
    rw [setDict_get hx]
    exact look_put _ _ _ _

/-- A state with the array `[true, 3]` (0), the empty dict (0) and these two as local variables. -/
def arrayState : RState :=
  { RState.init [] [] with
    heap := { Heap.empty with arrays := [[.bool true, .int 3]], dicts := [[]] }
    stack := [.regular (.array 0), .regular (.dict 0)] }

-- The array `[true, 3]` is read and written at 1 and at -1.
example : Yields (fileWorld fun _ => none) 0 (.ident 0 (q 0)) arrayState (.array 0) (q 0) .nil arrayState := ⟨nofun, 1, rfl⟩
example : InRange 1 (arrayState.heap.array 0).length ∧ ¬ InRange (-1) (arrayState.heap.array 0).length := by
  show (0 ≤ (1 : Int) ∧ (1 : Int) < 2) ∧ ¬ (0 ≤ (-1 : Int) ∧ (-1 : Int) < 2)
  omega

-- The dict is read and written at 3.
example : Yields (fileWorld fun _ => none) 0 (.ident 1 (q 0)) arrayState (.dict 0) (q 0) .nil arrayState ∧ Simple (.int 3) ∧
    0 < arrayState.heap.dicts.length := ⟨⟨nofun, 1, rfl⟩, trivial, by decide⟩

set_option maxRecDepth 10000 in
/-- C25 is violated by the float that is not a number: the entry `d[x] = 1` is not found by `d[x]`. -/
theorem nan_key_violated : ∃ (w : World) (s s' : RState) (d x : Prog.Expr), ∃ p : Pos,
    Ends w (.stmt 0 none (.assign (.access d x p) (.lit (.int 1) p))) s (done .nil noPos) s' ∧
    Eval w 0 (.access d x p) s' (.error (.panic ⟨.indexOutOfBounds (.float 9221120237041090560), p⟩)) s' :=
  ⟨{ fileWorld (fun _ => none) with parseFloat := fun _ => 9221120237041090560 }, arrayState,
    { arrayState with heap := { arrayState.heap with dicts := [[(.float 9221120237041090560, .int 1)]] } },
    .ident 1 (q 0), .lit (.float []) (q 0), q 0, ⟨nofun, 5, rfl⟩, ⟨nofun, 5, rfl⟩⟩

/-! ### C27 -/

theorem andThen_value {m : M α} {f : α → M β} {s : RState} {b : β} {s' : RState} (h : m.andThen f s = (.ok b, s')) :
    ∃ a s1, m s = (.ok a, s1) ∧ f a s1 = (.ok b, s') := by
  unfold M.andThen at h
  split at h
  · exact ⟨_, _, by assumption, h⟩
  · cases h

/-- The outcome of a call is a value or a stop. -/
theorem call_flow {w : World} {m : Nat} {obj : Value} {f : Fn} {start : Nat} {pos : Pos} {s : RState} {o : Out} {s' : RState}
    (h : Ends w (.call m obj f start pos) s (.ok o) s') : ∃ v, o = ⟨.regular v, pos, .nil⟩ := by
  obtain ⟨_, n, hn⟩ := h
  cases n with
  | zero => cases hn
  | succ n =>
    simp only [run, step, stepCall] at hn
    split at hn
    · cases hn
    · cases f with
      | hush a =>
        simp only [Bind.bind, M.andThen, M.modify] at hn
        split at hn
        · cases hn
        · obtain ⟨_, _, _, hn⟩ := andThen_value hn
          obtain ⟨_, _, _, hn⟩ := andThen_value hn
          obtain ⟨_, _, _, hn⟩ := andThen_value hn
          obtain ⟨_, _, _, hn⟩ := andThen_value hn
          obtain ⟨⟨fl, _, _⟩, _, _, hn⟩ := andThen_value hn
          cases fl <;> cases hn <;> exact ⟨_, rfl⟩
      | native name addr =>
        simp only [Bind.bind, M.andThen] at hn
        split at hn
        · cases hn; exact ⟨_, rfl⟩
        · cases hn

/-- `catching` catches all panics. -/
theorem catching_ne (w : World) (f : M Out) (s : RState) (p : Panic) : (catching w f s).1 ≠ .error (.panic p) := by
  unfold catching
  split
  · split <;> exact nofun
  · exact nofun
  · rename_i e _ hne _
    intro h
    cases h
    exact hne p rfl

/-- C27: `std.catch(f)` calls `f` without arguments. If `f` returns a value, this is the result; if `f` panics, the result is an error
value; all that `f` did to the state is kept, and nothing else is changed. (The end of the program by `std.exit` and Rust panics are
not caught.) -/
theorem catch_result (w : World) (m : Nat) (obj : Value) (addr start : Nat) (pos : Pos) (s : RState) (f : Fn)
    (hstart : start ≤ s.args.length) (hargs : s.args.drop start = [.function f]) (r1 : Except Stop Out) (s1 : RState)
    (h : Ends w (.call m .nil f (start + 1) pos) s r1 s1) :
    ∃ r s', Ends w (.call m obj (.native (bs "std.catch") addr) start pos) s r s' ∧ Caught w start pos r1 s1 r s' := by
  have key : ∀ (r : Except Stop Value) (s' : RState), (∀ n, run w n (.call m .nil f (start + 1) pos) s = (r1, s1) →
      catching w (run w n (.call m .nil f (start + 1) pos)) s = (r, s')) → r ≠ .error .timeout →
      Ends w (.call m obj (.native (bs "std.catch") addr) start pos) s
        (match r with | .ok v => done v pos | .error e => .error e) (cut start s') := by
    intro r s' hr ht
    obtain ⟨_, N, hN⟩ := ends_iff_run.1 h
    refine ends_iff.2 ⟨by cases r with | ok v => exact nofun | error e => exact fun h => ht (by cases h; rfl), N, fun n hn => ?_⟩
    simp only [step, stepCall, if_neg (Nat.not_lt.2 hstart)]
    show M.andThen _ _ s = _
    unfold M.andThen finally_ nativeCall
    simp only [Bind.bind, M.andThen, M.get, if_true, hargs]
    rw [hr n (hN n hn)]
    cases r <;> rfl
  cases r1 with
  | ok o =>
    obtain ⟨v, rfl⟩ := call_flow h
    exact ⟨_, _, key (.ok v) s1 (fun n hn => by simp only [catching, hn]) nofun, .value⟩
  | error e =>
    cases e with
    | panic k =>
      exact ⟨_, _, key (.ok _) _ (fun n hn => by simp only [catching, hn]; rfl) nofun, .panic⟩
    | exit c => exact ⟨_, _, key (.error (.exit c)) s1 (fun n hn => by simp only [catching, hn]) nofun, .exit⟩
    | crash k => exact ⟨_, _, key (.error (.crash k)) s1 (fun n hn => by simp only [catching, hn]) nofun, .crash⟩
    | timeout => exact absurd rfl h.1

/-- C27: `std.catch(f)` never panics, whatever the function. -/
theorem catch_never_panics (w : World) (m : Nat) (obj : Value) (addr start : Nat) (pos : Pos) (s : RState) (f : Fn)
    (hstart : start ≤ s.args.length) (hargs : s.args.drop start = [.function f]) (r : Except Stop Out) (s' : RState)
    (h : Ends w (.call m obj (.native (bs "std.catch") addr) start pos) s r s') (p : Panic) : r ≠ .error (.panic p) := by
  obtain ⟨_, n, hn⟩ := h
  cases n with
  | zero => cases hn; exact nofun
  | succ n =>
    simp only [run, step, stepCall, if_neg (Nat.not_lt.2 hstart)] at hn
    simp only [Bind.bind, M.andThen, finally_, nativeCall, M.get, if_true, hargs] at hn
    have hc := catching_ne w (run w n (.call m .nil f (start + 1) pos)) s
    revert hn hc
    generalize catching w (run w n (.call m .nil f (start + 1) pos)) s = x
    rcases x with ⟨e | v, s2⟩
    · rintro h hc
      cases h
      intro h
      cases h
      exact hc p rfl
    · rintro h _
      cases h
      exact nofun

-- `std.catch(f)` for the function `function () return 1 / 0 end`.
/-- A state in which `std.catch` is about to be called with a function that panics. -/
def catchState : RState :=
  { RState.init [] [] with
    heap := { Heap.empty with
      closures := [⟨0, ⟨0, [], none⟩, [.return_ (.binary (.lit (.int 1) (q 20)) .div (.lit (.int 0) (q 24)) (q 22))], [], 0, q 0⟩] }
    args := [.function (.hush 0)] }

set_option maxRecDepth 10000 in
example : Ends (fileWorld fun _ => none) (.call 0 .nil (.hush 0) 1 (q 9)) catchState (.error (.panic ⟨.divisionByZero, q 22⟩)) catchState :=
  ⟨nofun, 8, rfl⟩

/-! ### C28 -/

/-- C28: the evaluation of `e?`. -/
theorem try_value (w : World) (m : Nat) (e : Prog.Expr) (pos : Pos) (s s' : RState) (v : Value) (p : Pos) (o : Value)
    (h : Yields w m e s v p o s') :
    ((∀ d c, v ≠ .error d c) → Eval w m (.unary .try_ e pos) s (done v pos) s') ∧
    (∀ d c, v = .error d c → Eval w m (.unary .try_ e pos) s (.ok ⟨.return_ v, pos, .nil⟩) s') := by
  constructor
  · intro hv
    refine ends_iff.2 (lim_go h (lim_const.2 ⟨nofun, ?_⟩))
    cases v with
    | error d c => exact absurd rfl (hv d c)
    | _ => rfl
  · rintro d c rfl
    exact ends_iff.2 (lim_go h (lim_const.2 ⟨nofun, rfl⟩))

/-- C28: wherever in a function body (at any depth of expressions, statements and loops of this activation) `e?` is evaluated, if `e` is an
error, the evaluation of the body ends at once with this error as the returned value: the state is that after the evaluation of `e`, except
that arguments evaluated for calls that do not take place are dropped. -/
theorem try_returns (w : World) (body : Task) (s0 : RState) (m : Nat) (tail : Option Nat) (e : Prog.Expr) (pos : Pos) (s1 s2 : RState)
    (d : Bytes) (c : Nat) (p : Pos) (o : Value) (hw : Within w body s0 (.expr m tail (.unary .try_ e pos)) s1)
    (he : Yields w m e s1 (.error d c) p o s2) :
    ∃ q x s', Ends w body s0 (.ok ⟨.return_ (.error d c), q, x⟩) s' ∧ (s' = s2 ∨ ∃ k, s' = cut k s2) := by
  have h1 : Ends w (.expr m tail (.unary .try_ e pos)) s1 (.ok ⟨.return_ (.error d c), pos, .nil⟩) s2 :=
    ends_iff.2 (lim_go he (lim_const.2 ⟨nofun, rfl⟩))
  obtain ⟨r', s', h2, hs, hc⟩ := within_passes hw h1 (.return_ _ _ _ _ _)
  cases hs with
  | return_ v p q x y =>
    refine ⟨q, y, s', h2, ?_⟩
    cases hc with
    | same => exact .inl rfl
    | drop o k => exact .inr ⟨k, rfl⟩

/-- C28: the call of the function then has the error as its value. (The alternative, an internal crash, is excluded by C16 for
executions of accepted programs.) -/
theorem try_result (w : World) (m : Nat) (obj : Value) (a start : Nat) (pos : Pos) (s s0 s1 s2 : RState) (k : Nat) (tail : Option Nat)
    (e : Prog.Expr) (pos' : Pos) (d : Bytes) (c : Nat) (p : Pos) (o : Value) (hb : Begins w obj a start pos s s0)
    (hw : Within w (bodyOf s.heap a) s0 (.expr k tail (.unary .try_ e pos')) s1) (he : Yields w k e s1 (.error d c) p o s2) :
    ∃ r s', Ends w (.call m obj (.hush a) start pos) s r s' ∧ (r = done (.error d c) pos ∨ r = .error (.crash .slot)) := by
  obtain ⟨q, x, s3, hr, _⟩ := try_returns w _ s0 k tail e pos' s1 s2 d c p o hw he
  obtain ⟨_, N, hN⟩ := ends_iff_run.1 hr
  obtain ⟨h1, h2, s4, h3, rfl⟩ := hb
  have hwf : ∃ r4 s5, (r4 = Except.ok ⟨.return_ (.error d c), q, x⟩ ∨ r4 = .error (.crash .slot)) ∧
      ∀ n, N ≤ n → withFrame (s.heap.closure a).frame.slots (run w n (bodyOf s.heap a)) s4 = (r4, s5) := by
    by_cases hsh : s3.shrunk = true
    · exact ⟨_, _, .inl rfl, fun n hn => by unfold withFrame; dsimp only at hN; rw [hN n hn]; simp only [hsh, if_true]; rfl⟩
    · by_cases hlen : s3.stack.length < (s.heap.closure a).frame.slots
      · exact ⟨_, _, .inr rfl, fun n hn => by
          unfold withFrame; dsimp only at hN; rw [hN n hn]; simp only [hsh, shrink, hlen, if_true]; rfl⟩
      · exact ⟨_, _, .inl rfl, fun n hn => by
          unfold withFrame; dsimp only at hN; rw [hN n hn]; simp only [hsh, shrink, hlen, if_false]; rfl⟩
  obtain ⟨r4, s5, hr4, hwf⟩ := hwf
  have hf : Lim (fun n => withFrame (s.heap.closure a).frame.slots (run w n (bodyOf s.heap a))) s4 r4 s5 :=
    ⟨by rcases hr4 with rfl | rfl <;> exact nofun, N, hwf⟩
  have hpre : ∀ {f : Nat → M Out} {r s'}, Lim f s4 r s' → Lim (fun n => (do
      extend w (s.heap.closure a).frame.slots pos
      storeArgs 0 (s.args.drop start)
      placeAll (s.heap.closure a).context
      storeSelf obj (s.heap.closure a).frame.selfSlot
      f n : M Out)) (cut start s) r s' := by
    intro f r s' hl
    simp only [Bind.bind, M.andThen] at h3
    obtain ⟨hr, N', hN'⟩ := hl
    refine ⟨hr, N', fun n hn => ?_⟩
    simp only [Bind.bind, M.andThen]
    revert h3
    generalize extend w (s.heap.closure a).frame.slots pos (cut start s) = x1
    rcases x1 with ⟨_ | _, y1⟩
    · intro h; cases h
    · dsimp only
      generalize storeArgs 0 (s.args.drop start) y1 = x2
      rcases x2 with ⟨_ | _, y2⟩
      · intro h; cases h
      · dsimp only
        generalize placeAll (s.heap.closure a).context y2 = x3
        rcases x3 with ⟨_ | _, y3⟩
        · intro h; cases h
        · dsimp only
          intro h
          rw [h]
          exact hN' n hn
  have hcall : ∀ {r s'}, Lim (fun n => (do
      extend w (s.heap.closure a).frame.slots pos
      storeArgs 0 (s.args.drop start)
      placeAll (s.heap.closure a).context
      storeSelf obj (s.heap.closure a).frame.selfSlot
      let o ← withFrame (s.heap.closure a).frame.slots (run w n (bodyOf s.heap a))
      match o.flow with
      | .regular v => pure (.value v pos)
      | .return_ v => pure (.value v pos)
      | .break_ => M.crash .flow : M Out)) (cut start s) r s' → Ends w (.call m obj (.hush a) start pos) s r s' := by
    intro r s' hl
    obtain ⟨hr, N', hN'⟩ := hl
    refine ends_iff.2 ⟨hr, N', fun n hn => ?_⟩
    simp only [step, stepCall, if_neg (Nat.not_lt.2 h1)]
    rw [← hN' n hn]
    show M.andThen _ _ s = _
    unfold M.andThen M.modify
    simp only [h2, ne_eq, not_true, if_false]
    rfl
  rcases hr4 with rfl | rfl
  · exact ⟨_, _, hcall (hpre (lim_then hf (lim_pure.2 ⟨rfl, rfl⟩))), .inl rfl⟩
  · exact ⟨_, _, hcall (hpre (lim_fails hf)), .inr rfl⟩

/-- C28: a panic in a part ends a task at once as well, with the same panic and state. -/
theorem panic_passes (w : World) (t : Task) (s0 : RState) (t' : Task) (s1 s2 : RState) (e : Stop) (hw : Within w t s0 t' s1)
    (he : Ends w t' s1 (.error e) s2) : Ends w t s0 (.error e) s2 := by
  obtain ⟨r', s', h2, hs, hc⟩ := within_passes hw he (.error e)
  cases hs
  cases hc
  exact h2

/-- A state with an error as the only local variable. -/
def tryState : RState :=
  { RState.init [] [] with
    heap := { Heap.empty with contexts := [.nil] }
    stack := [.regular (.error (bs "oops") 0)] }

-- In `while true do [1, x?] end` the loop is left with the error.
example : Within (fileWorld fun _ => none)
    (.block 0 none [.while_ (.lit (.bool true) (q 6)) [.expr (.lit (.array [.lit (.int 1) (q 15), .unary .try_ (.ident 0 (q 18)) (q 19)]) (q 14))]])
    tryState (.expr 0 none (.unary .try_ (.ident 0 (q 18)) (q 19))) tryState :=
  .part .last (.part .while_ (.part (.whileBody (yields_bool _ _ _ _ _)) (.part .last (.part .statement
    (.part (.item (before := [_]) (.cons (yields_int _ _ _ _ _) (.nil _))) (.self _ _))))))

example : Yields (fileWorld fun _ => none) 0 (.ident 0 (q 18)) tryState (.error (bs "oops") 0) (q 18) .nil tryState := ⟨nofun, 1, rfl⟩

end Hush.Props

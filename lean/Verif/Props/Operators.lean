import Verif.Lemmas.Operators
import Verif.Props.Eval
import Verif.Props.Structure

/-!
Properties C58 and C59: operators on values, `if`, `while` and sequences.
-/

namespace Hush.Props
open Hush Hush.Spec

/-! ### C58 -/

theorem typed_strict {op : BinOp} (h : Typed op) : op ≠ .and ∧ op ≠ .or := by cases h <;> exact ⟨nofun, nofun⟩

theorem strict_value {w : World} {m : Nat} {a b : Prog.Expr} {op : BinOp} {pos : Pos} {s s1 s2 : RState} {v v' : Value} {p p' : Pos} {o o' : Value}
    {x : Value} (h1 : op ≠ .and) (h2 : op ≠ .or) (ha : Yields w m a s v p o s1) (hb : Yields w m b s1 v' p' o' s2) {n : Nat}
    (hx : strictValue w s2.heap n op pos v p v' p' = .ok x) : Eval w m (.binary a op b pos) s (done x pos) s2 :=
  (ends_strict h1 h2).2 (.value ha hb ⟨nofun, n, hx⟩)

theorem strict_type {w : World} {m : Nat} {a b : Prog.Expr} {op : BinOp} {pos : Pos} {s s1 s2 : RState} {v v' : Value} {p p' : Pos} {o o' : Value}
    {k : PanicKind} {q : Pos} (h1 : op ≠ .and) (h2 : op ≠ .or) (ha : Yields w m a s v p o s1) (hb : Yields w m b s1 v' p' o' s2) {n : Nat}
    (hx : strictValue w s2.heap n op pos v p v' p' = .error (.panic ⟨k, q⟩)) : Eval w m (.binary a op b pos) s (.error (.panic ⟨k, q⟩)) s2 :=
  (ends_strict h1 h2).2 (.stops ha hb ⟨nofun, n, hx⟩)

/-- The type tells the kind of value. -/
theorem typeName_int {v : Value} : typeName v = bs "int" ↔ ∃ i, v = .int i := by
  cases v <;> first
    | exact ⟨fun _ => ⟨_, rfl⟩, fun _ => rfl⟩
    | exact ⟨fun h => absurd h (by simp only [typeName]; decide), nofun⟩

/-- The type tells the kind of value. -/
theorem typeName_float {v : Value} : typeName v = bs "float" ↔ ∃ i, v = .float i := by
  cases v <;> first
    | exact ⟨fun _ => ⟨_, rfl⟩, fun _ => rfl⟩
    | exact ⟨fun h => absurd h (by simp only [typeName]; decide), nofun⟩

/-- The type tells the kind of value. -/
theorem typeName_byte {v : Value} : typeName v = bs "char" ↔ ∃ i, v = .byte i := by
  cases v <;> first
    | exact ⟨fun _ => ⟨_, rfl⟩, fun _ => rfl⟩
    | exact ⟨fun h => absurd h (by simp only [typeName]; decide), nofun⟩

/-- The type tells the kind of value. -/
theorem typeName_string {v : Value} : typeName v = bs "string" ↔ ∃ i, v = .string i := by
  cases v <;> first
    | exact ⟨fun _ => ⟨_, rfl⟩, fun _ => rfl⟩
    | exact ⟨fun h => absurd h (by simp only [typeName]; decide), nofun⟩

/-- The result of a typed operator on two values. -/
def OperandTypes (types : List Bytes) (words : Bytes) (pos : Pos) (v : Value) (p : Pos) (v' : Value) (p' : Pos) (r : Except Stop Value) : Prop :=
  (typeName v ∉ types → r = .error (.panic ⟨.typeError v words, p⟩)) ∧
  (typeName v ∈ types → typeName v' ≠ typeName v → r = .error (.panic ⟨.typeError v' (typeName v), p'⟩)) ∧
  (typeName v ∈ types → typeName v' = typeName v → (∃ x, r = .ok x) ∨
    ∃ k, (k = .integerOverflow ∨ k = .divisionByZero) ∧ r = .error (.panic ⟨k, pos⟩))

theorem intOp_error {op : BinOp} {a b : Int} {k : PanicKind} (h : intOp op a b = .error k) : k = .integerOverflow ∨ k = .divisionByZero := by
  have key : ∀ (o : Option Int) (e : PanicKind), o.elim (Except.error e) Except.ok = Except.error k → k = e := by
    intro o e h
    cases o with
    | none => cases h; rfl
    | some x => cases h
  unfold intOp at h
  split at h
  all_goals first
    | exact .inl (key _ _ h)
    | exact .inr (key _ _ h)

theorem arithValue_types (w : World) (op : BinOp) (pos : Pos) (v : Value) (p : Pos) (v' : Value) (p' : Pos) :
    OperandTypes [bs "int", bs "float"] (bs "int or float") pos v p v' p' (arithValue w op pos v p v' p') := by
  unfold OperandTypes
  simp only [List.mem_cons, List.not_mem_nil, or_false, typeName_int, typeName_float]
  refine ⟨?_, ?_, ?_⟩
  · intro h
    cases v <;> first | exact absurd (.inl ⟨_, rfl⟩) h | exact absurd (.inr ⟨_, rfl⟩) h | rfl
  · rintro (⟨i, rfl⟩ | ⟨f, rfl⟩) hn <;> cases v' <;> first | rfl | exact absurd rfl hn
  · rintro (⟨i, rfl⟩ | ⟨f, rfl⟩) he
    · obtain ⟨j, rfl⟩ := typeName_int.1 he
      simp only [arithValue]
      cases hi : intOp op i j with
      | ok x => exact .inl ⟨_, rfl⟩
      | error k => exact .inr ⟨k, intOp_error hi, rfl⟩
    · obtain ⟨j, rfl⟩ := typeName_float.1 he
      exact .inl ⟨_, rfl⟩

theorem ordValue_types (op : BinOp) (pos : Pos) (v : Value) (p : Pos) (v' : Value) (p' : Pos) :
    OperandTypes [bs "int", bs "float", bs "char", bs "string"] (bs "int, float, byte or string") pos v p v' p' (ordValue op v p v' p') := by
  unfold OperandTypes
  simp only [List.mem_cons, List.not_mem_nil, or_false, typeName_int, typeName_float, typeName_byte, typeName_string]
  refine ⟨?_, ?_, ?_⟩
  · intro h
    cases v <;> first
      | exact absurd (.inl ⟨_, rfl⟩) h | exact absurd (.inr (.inl ⟨_, rfl⟩)) h | exact absurd (.inr (.inr (.inl ⟨_, rfl⟩))) h
      | exact absurd (.inr (.inr (.inr ⟨_, rfl⟩))) h | rfl
  · rintro (⟨i, rfl⟩ | ⟨f, rfl⟩ | ⟨f, rfl⟩ | ⟨f, rfl⟩) hn <;> cases v' <;> first | rfl | exact absurd rfl hn
  · rintro (⟨i, rfl⟩ | ⟨f, rfl⟩ | ⟨f, rfl⟩ | ⟨f, rfl⟩) he
    · obtain ⟨j, rfl⟩ := typeName_int.1 he
      exact .inl ⟨_, rfl⟩
    · obtain ⟨j, rfl⟩ := typeName_float.1 he
      exact .inl ⟨_, rfl⟩
    · obtain ⟨j, rfl⟩ := typeName_byte.1 he
      exact .inl ⟨_, rfl⟩
    · obtain ⟨j, rfl⟩ := typeName_string.1 he
      exact .inl ⟨_, rfl⟩

theorem concatValue_types (pos : Pos) (v : Value) (p : Pos) (v' : Value) (p' : Pos) :
    OperandTypes [bs "string"] (bs "string") pos v p v' p' (concatValue v p v' p') := by
  unfold OperandTypes
  simp only [List.mem_cons, List.not_mem_nil, or_false, typeName_string]
  refine ⟨?_, ?_, ?_⟩
  · intro h
    cases v <;> first | exact absurd ⟨_, rfl⟩ h | rfl
  · rintro ⟨i, rfl⟩ hn
    cases v' <;> first | rfl | exact absurd rfl hn
  · rintro ⟨i, rfl⟩ he
    obtain ⟨j, rfl⟩ := typeName_string.1 he
    exact .inl ⟨_, rfl⟩

/-- C58, types: an operator rejects a left operand whose type is none of its own with a type error for it, then a right operand
whose type is not that of the left one with a type error for that, each at the position of the operand. On all others it has a value, or
panics because the result is no integer of 64 bits or the divisor is zero. -/
theorem operand_types (w : World) (m : Nat) (a b : Prog.Expr) (op : BinOp) (pos : Pos) (s s1 s2 : RState) (v v' : Value) (p p' : Pos)
    (o o' : Value) (hop : Typed op) (ha : Yields w m a s v p o s1) (hb : Yields w m b s1 v' p' o' s2) :
    (typeName v ∉ operandTypes op → Eval w m (.binary a op b pos) s (typeError v (operandWords op) p) s2) ∧
    (typeName v ∈ operandTypes op → typeName v' ≠ typeName v → Eval w m (.binary a op b pos) s (typeError v' (typeName v) p') s2) ∧
    (typeName v ∈ operandTypes op → typeName v' = typeName v → (∃ x, Eval w m (.binary a op b pos) s (done x pos) s2) ∨
      ∃ k, (k = .integerOverflow ∨ k = .divisionByZero) ∧ Eval w m (.binary a op b pos) s (.error (.panic ⟨k, pos⟩)) s2) := by
  obtain ⟨h1, h2⟩ := typed_strict hop
  have key : OperandTypes (operandTypes op) (operandWords op) pos v p v' p' (strictValue w s2.heap 0 op pos v p v' p') := by
    cases hop
    case concat => exact concatValue_types pos v p v' p'
    case lower | lowerEquals | greater | greaterEquals => exact ordValue_types _ pos v p v' p'
    all_goals exact arithValue_types w _ pos v p v' p'
  refine ⟨fun ht => strict_type h1 h2 ha hb (key.1 ht), fun ht hn => strict_type h1 h2 ha hb (key.2.1 ht hn), fun ht he => ?_⟩
  rcases key.2.2 ht he with ⟨x, hx⟩ | ⟨k, hk, hx⟩
  · exact .inl ⟨x, strict_value h1 h2 ha hb hx⟩
  · exact .inr ⟨k, hk, strict_type h1 h2 ha hb hx⟩

/-- C58, comparisons: `<`, `<=`, `>` and `>=` are those of the numbers for integers, bytes and floats (other than "not a number"), and the order of
dictionaries by bytes for strings. -/
theorem comparisons_decide (w : World) (m : Nat) (a b : Prog.Expr) (op : BinOp) (pos : Pos) (s s1 s2 : RState) (p p' : Pos)
    (o o' : Value) (hop : op ∈ comparisons) :
    (∀ x y : Int, Yields w m a s (.int x) p o s1 → Yields w m b s1 (.int y) p' o' s2 →
      Decides w m (.binary a op b pos) pos s (Says (· < ·) op x y) s2) ∧
    (∀ x y : UInt8, Yields w m a s (.byte x) p o s1 → Yields w m b s1 (.byte y) p' o' s2 →
      Decides w m (.binary a op b pos) pos s (Says (· < ·) op x.toNat y.toNat) s2) ∧
    (∀ x y : UInt64, ¬ NotNumber x → ¬ NotNumber y → Yields w m a s (.float x) p o s1 → Yields w m b s1 (.float y) p' o' s2 →
      Decides w m (.binary a op b pos) pos s (Says (· < ·) op (floatUnits x) (floatUnits y)) s2) ∧
    (∀ x y : Bytes, Yields w m a s (.string x) p o s1 → Yields w m b s1 (.string y) p' o' s2 →
      Decides w m (.binary a op b pos) pos s (Says (· < ·) op x y) s2) := by
  have h1 : op ≠ .and := by rintro rfl; revert hop; decide
  have h2 : op ≠ .or := by rintro rfl; revert hop; decide
  have hA : op.isArith = false := by revert hop; cases op <;> decide
  have hO : op.isOrd = true := by revert hop; cases op <;> decide
  -- A comparison that agrees with the order decides it.
  have key : ∀ {α : Type} (lt : α → α → Prop) (x y : α) (c : Ordering), (c = .lt ↔ lt x y) → (c = .gt ↔ lt y x) →
      (ordHolds op c = true ↔ Says lt op x y) := by
    intro α lt x y c hl hg
    simp only [comparisons, List.mem_cons, List.not_mem_nil, or_false] at hop
    rcases hop with rfl | rfl | rfl | rfl <;> simp only [ordHolds, Says, ← hl, ← hg] <;> cases c <;> simp
  have fin : ∀ {v v' : Value} {c : Ordering}, Yields w m a s v p o s1 → Yields w m b s1 v' p' o' s2 →
      ordValue op v p v' p' = .ok (.bool (ordHolds op c)) → Eval w m (.binary a op b pos) s (done (.bool (ordHolds op c)) pos) s2 := by
    intro v v' c ha hb hc
    refine strict_value h1 h2 ha hb (n := 0) ?_
    simp only [strictValue, hA, hO, if_true, Bool.false_eq_true, if_false, hc]
  refine ⟨?_, ?_, ?_, ?_⟩
  · intro x y ha hb
    exact ⟨_, fin ha hb rfl, key (· < ·) x y _ Int.compare_eq_lt (Int.compare_eq_gt)⟩
  · intro x y ha hb
    exact ⟨_, fin ha hb rfl, key (· < ·) x.toNat y.toNat _ Nat.compare_eq_lt (Nat.compare_eq_gt)⟩
  · intro x y hx hy ha hb
    refine ⟨_, fin ha hb rfl, key (· < ·) (floatUnits x) (floatUnits y) _ ?_ ?_⟩ <;> rw [notNumber_false] at hx hy <;>
      simp only [floatCmp, hx, hy, floatUnits_lt]
    · exact Int.compare_eq_lt
    · exact Int.compare_eq_gt
  · intro x y ha hb
    refine ⟨_, fin ha hb rfl, key (· < ·) x y _ ?_ ?_⟩
    · have := (order_usual Heap.empty).2 x y
      rwa [compare_of (o := bytesCmp x y) rfl] at this
    · have := (order_usual Heap.empty).2 y x
      rw [compare_of (o := bytesCmp y x) rfl, bytesCmp_swap] at this
      rw [← this]
      cases bytesCmp x y <;> decide

/-- C58, equality: `==` tells whether finite values have the same contents, and `!=` whether they have not. Missing: dicts with a key that has a
dict or the float -0.0 in it, see `equal_same_key_violated`. -/
theorem equality_decides_partial (w : World) (m : Nat) (a b : Prog.Expr) (pos : Pos) (s s1 s2 : RState) (v v' : Value) (p p' : Pos) (o o' : Value)
    (hk : DistinctKeys s2.heap) (hh : HashedKeys s2.heap) (hv : Finite s2.heap true v) (hv' : Finite s2.heap true v')
    (ha : Yields w m a s v p o s1) (hb : Yields w m b s1 v' p' o' s2) :
    Decides w m (.binary a .equals b pos) pos s (SameContents s2.heap v v') s2 ∧
    Decides w m (.binary a .notEquals b pos) pos s (¬ SameContents s2.heap v v') s2 := by
  obtain ⟨h1, h2⟩ := equality_contents_partial s2.heap hk hh v v' hv hv'
  have key : ∀ r n, valueEq s2.heap n v v' = some r →
      Eval w m (.binary a .equals b pos) s (done (.bool r) pos) s2 ∧ Eval w m (.binary a .notEquals b pos) s (done (.bool !r) pos) s2 := by
    intro r n hr
    refine ⟨strict_value nofun nofun ha hb (n := n) ?_, strict_value nofun nofun ha hb (n := n) ?_⟩ <;> simp only [strictValue, hr] <;> rfl
  by_cases hs : SameContents s2.heap v v'
  · obtain ⟨n, hn⟩ := h1.2 hs
    obtain ⟨h3, h4⟩ := key _ n hn
    exact ⟨⟨_, h3, by simp [hs]⟩, ⟨_, h4, by simp [hs]⟩⟩
  · obtain ⟨n, hn⟩ := h2.2 hs
    obtain ⟨h3, h4⟩ := key _ n hn
    exact ⟨⟨_, h3, by simp [hs]⟩, ⟨_, h4, by simp [hs]⟩⟩

/-- C58: `++` joins two strings. -/
theorem concat_joins (w : World) (m : Nat) (a b : Prog.Expr) (pos : Pos) (s s1 s2 : RState) (x y : Bytes) (p p' : Pos) (o o' : Value)
    (ha : Yields w m a s (.string x) p o s1) (hb : Yields w m b s1 (.string y) p' o' s2) :
    Eval w m (.binary a .concat b pos) s (done (.string (x ++ y)) pos) s2 :=
  strict_value nofun nofun ha hb (n := 0) rfl

/-- C58, unary operators: `not` negates a boolean, and `-` and `not` reject operands of other types. -/
theorem unary_types (w : World) (m : Nat) (a : Prog.Expr) (pos : Pos) (s s1 : RState) (v : Value) (p : Pos) (o : Value)
    (ha : Yields w m a s v p o s1) :
    (∀ x : Bool, v = .bool x → Eval w m (.unary .not a pos) s (done (.bool !x) pos) s1) ∧
    (typeName v ≠ bs "bool" → Eval w m (.unary .not a pos) s (typeError v (bs "bool") p) s1) ∧
    (typeName v ≠ bs "int" → typeName v ≠ bs "float" → Eval w m (.unary .minus a pos) s (typeError v (bs "int or float") p) s1) ∧
    (∀ x : UInt64, v = .float x → Eval w m (.unary .minus a pos) s (done (.float (w.fneg x)) pos) s1) := by
  have go : ∀ {op r}, r ≠ .error .timeout → unaryValue w op v p = r →
      Eval w m (.unary op a pos) s (match r with | .ok f => .ok ⟨f, pos, .nil⟩ | .error e => .error e) s1 := by
    intro op r hr hu
    refine ends_iff.2 (lim_go ha (lim_const.2 ⟨?_, ?_⟩))
    · cases r with
      | ok f => exact nofun
      | error e => exact fun h => hr (by cases h; rfl)
    · rw [hu]
      cases r <;> rfl
  refine ⟨?_, ?_, ?_, ?_⟩
  · rintro x rfl
    exact go (r := .ok _) nofun rfl
  · intro hn
    refine go (r := .error (.panic _)) nofun ?_
    cases v <;> first | rfl | exact absurd rfl hn
  · intro hn hf
    refine go (r := .error (.panic _)) nofun ?_
    cases v
    case int i => exact absurd rfl hn
    case float i => exact absurd rfl hf
    all_goals rfl
  · rintro x rfl
    exact go (r := .ok _) nofun rfl

/-- C58 is violated by floats that are not numbers: such a float is less than every float, including itself, and every other float is greater than it. -/
theorem comparison_nan_violated (w : World) (m : Nat) (a b : Prog.Expr) (pos : Pos) (s s1 s2 : RState) (x y : UInt64) (p p' : Pos) (o o' : Value)
    (hx : NotNumber x) (ha : Yields w m a s (.float x) p o s1) (hb : Yields w m b s1 (.float y) p' o' s2) :
    Eval w m (.binary a .lower b pos) s (done (.bool true) pos) s2 ∧ Eval w m (.binary a .greater b pos) s (done (.bool false) pos) s2 ∧
    Eval w m (.binary a .equals b pos) s (done (.bool false) pos) s2 := by
  rw [notNumber_iff] at hx
  refine ⟨strict_value nofun nofun ha hb (n := 1) ?_, strict_value nofun nofun ha hb (n := 1) ?_, strict_value nofun nofun ha hb (n := 1) ?_⟩
  · show Except.ok (Value.bool (ordHolds .lower (floatCmp x y))) = _
    rw [floatCmp, hx]; rfl
  · show Except.ok (Value.bool (ordHolds .greater (floatCmp x y))) = _
    rw [floatCmp, hx]; rfl
  · show (M.deep (some (floatEq x y))).map Value.bool = _
    rw [floatEq, hx]; rfl

-- `1 < true` rejects `true`, `nil - 2` rejects `nil`.
example : Typed .lower ∧ typeName (.int 1) ∈ operandTypes .lower ∧ typeName (.bool true) ≠ typeName (.int 1) ∧
    typeName .nil ∉ operandTypes .minus := ⟨.lower, by decide +kernel, by decide +kernel, by decide +kernel⟩
example : Eval (fileWorld fun _ => none) 0 (.binary (.lit (.int 1) (q 0)) .lower (.lit (.bool true) (q 4)) (q 2)) someState
    (typeError (.bool true) (bs "int") (q 4)) someState :=
  (operand_types _ 0 _ _ _ _ _ _ _ _ _ _ _ _ _ .lower (yields_int _ _ _ _ _) (yields_bool _ _ _ _ _)).2.1 (by decide +kernel) (by decide +kernel)

-- `2 >= 3` is false; "ab" < "b".
example : Decides (fileWorld fun _ => none) 0 (.binary (.lit (.int 2) (q 0)) .greaterEquals (.lit (.int 3) (q 5)) (q 2)) (q 2) someState
    (¬ (2 : Int) < 3) someState :=
  (comparisons_decide _ 0 _ _ _ _ _ _ _ _ _ _ _ (by decide)).1 2 3 (yields_int _ _ _ _ _) (yields_int _ _ _ _ _)
example : Says (· < ·) .lower (bs "ab") (bs "b") := show bs "ab" < bs "b" by decide +kernel

-- Something to compare: the arrays of `twinHeap`.
example : Finite twinHeap true (.dict 0) ∧ SameContents twinHeap (.dict 0) (.dict 1) := ⟨twinHeap_dict 0, contents_of_equal (n := 4) rfl⟩

-- Two bit patterns that are not numbers.
example : NotNumber 0x7FF8000000000000 ∧ NotNumber 0xFFF0000000000001 := by unfold NotNumber; decide +kernel

/-! ### C25: types -/

/-- C25: elements can be read from strings, arrays, dicts and errors only, those of strings and arrays at integers only; otherwise the object, or
the index, is rejected with a type error. -/
theorem read_element_types (w : World) (m : Nat) (a b : Prog.Expr) (pos : Pos) (s s1 s2 : RState) (v k : Value) (p p' : Pos) (o o' : Value)
    (ha : Yields w m a s v p o s1) (hb : Yields w m b s1 k p' o' s2) :
    (typeName v ∉ [bs "string", bs "array", bs "dict", bs "error"] →
      Eval w m (.access a b pos) s (typeError v (bs "string, array, dict or error") p) s2) ∧
    (typeName v ∈ [bs "string", bs "array"] → typeName k ≠ bs "int" → Eval w m (.access a b pos) s (typeError k (bs "int") p') s2) := by
  refine ⟨fun h => ?_, fun h hk => ?_⟩
  · refine ends_access ha hb (n := 0) (r := .error (.panic _)) ?_ nofun
    cases v
    case string | array | dict | error => exact absurd (by simp only [typeName]; decide) h
    all_goals rfl
  · refine ends_access ha hb (n := 0) (r := .error (.panic _)) ?_ nofun
    cases v
    case string | array => cases k <;> first | rfl | exact absurd rfl hk
    all_goals exact absurd h (by simp only [typeName]; decide)

/-- C25 and C26: elements can be assigned in arrays and dicts only, those of arrays at integers only; otherwise the object, or the index, is rejected
with a type error, and nothing is changed; the fields of an error are read-only. -/
theorem write_element_types (w : World) (m : Nat) (a b e : Prog.Expr) (pos : Pos) (s s1 s2 s3 : RState) (x v k : Value) (p p' p'' : Pos)
    (o o' o'' : Value) (he : Yields w m e s x p o s1) (ha : Yields w m a s1 v p' o' s2) (hb : Yields w m b s2 k p'' o'' s3) :
    (typeName v ∉ [bs "array", bs "dict", bs "error"] →
      Ends w (.stmt m none (.assign (.access a b pos) e)) s (typeError v (bs "array, dict or error") p') s3) ∧
    (typeName v = bs "array" → typeName k ≠ bs "int" →
      Ends w (.stmt m none (.assign (.access a b pos) e)) s (typeError k (bs "int") p'') s3) ∧
    (typeName v = bs "error" →
      Ends w (.stmt m none (.assign (.access a b pos) e)) s (.error (.panic ⟨.assignToReadonlyField k, p''⟩)) s3) := by
  refine ⟨fun h => ?_, fun h hk => ?_, fun h => ?_⟩
  · refine ends_assign he ha hb (n := 0) (r := .error (.panic _)) ?_ nofun
    cases v
    case array | dict | error => exact absurd (by simp only [typeName]; decide) h
    all_goals rfl
  · refine ends_assign he ha hb (n := 0) (r := .error (.panic _)) ?_ nofun
    cases v
    case array => cases k <;> first | rfl | exact absurd rfl hk
    all_goals exact absurd h (by simp only [typeName]; decide)
  · refine ends_assign he ha hb (n := 0) (r := .error (.panic _)) ?_ nofun
    cases v
    case error => rfl
    all_goals exact absurd h (by simp only [typeName]; decide)

-- `1[true]` rejects the 1.
example : Eval (fileWorld fun _ => none) 0 (.access (.lit (.int 1) (q 0)) (.lit (.bool true) (q 2)) (q 1)) someState
    (typeError (.int 1) (bs "string, array, dict or error") (q 0)) someState :=
  (read_element_types _ 0 _ _ _ _ _ _ _ _ _ _ _ _ (yields_int _ _ _ _ _) (yields_bool _ _ _ _ _)).1 (by decide +kernel)

/-! ### C59 -/

/-- C59: `if` evaluates its condition, which must be a boolean, and then exactly one block: the first one if it is true, the second one if it
is false. -/
theorem if_branches (w : World) (m : Nat) (c : Prog.Expr) (t e : List Prog.Stmt) (pos : Pos) (s : RState) (r : Except Stop Out) (s' : RState) :
    Eval w m (.if_ c t e pos) s r s' ↔ Branching w m c t e pos s r s' := ends_branching

/-- C59: `while` evaluates its condition, which must be a boolean, and as long as it is true its body and the condition again; `break` in the body ends
it, `return` and panics are passed on. -/
theorem while_loops (w : World) (m : Nat) (c : Prog.Expr) (b : List Prog.Stmt) (s : RState) (r : Except Stop Out) (s' : RState) :
    Ends w (.stmt m none (.while_ c b)) s r s' ↔ Looping w m c b s r s' := by
  rw [← ends_looping, ends_iff]
  simp only [step, stepStmt]
  rw [← ends_iff_run]

/-- C59: the statements of a block are executed in order, each exactly once, up to one that returns, breaks or panics; the value of the block is
that of its last statement. -/
theorem block_sequence (w : World) (m : Nat) (b : List Prog.Stmt) (s : RState) (r : Except Stop Out) (s' : RState) :
    Ends w (.block m none b) s r s' ↔ Sequence w m b s r s' := ends_sequence

/-- C59: when `while c do b end` has come to its end, and its body never breaks, the condition has just been evaluated to false. -/
theorem while_exit (w : World) (m : Nat) (c : Prog.Expr) (b : List Prog.Stmt) (s s' : RState)
    (hb : ∀ s1 s2 p o, ¬ Ends w (.block m none b) s1 (.ok ⟨.break_, p, o⟩) s2)
    (h : Ends w (.stmt m none (.while_ c b)) s (done .nil noPos) s') : ∃ s0 p o, Yields w m c s0 (.bool false) p o s' := by
  rw [while_loops] at h
  generalize hr : done .nil noPos = r at h
  induction h with
  | conditionLeaves h hl =>
    rename_i r' _
    cases r' with
    | error e => cases hr
    | ok o' =>
      rcases o' with ⟨f, p, x⟩
      cases f with
      | regular v => exact absurd rfl (hl v p x)
      | return_ v => cases hr
      | break_ => cases hr
  | notBool h hv => cases hr
  | isFalse h => exact ⟨_, _, _, h⟩
  | bodyStops h h' => cases hr
  | bodyReturns h h' => cases hr
  | bodyBreaks h h' => exact absurd h' (hb _ _ _ _)
  | again h h' _ ih => exact ih hr

-- `if true then 1 else 2 end` and `while true do break end`.
example : Eval (fileWorld fun _ => none) 0 (.if_ (.lit (.bool true) (q 3)) [.expr (.lit (.int 1) (q 13))] [.expr (.lit (.int 2) (q 20))] (q 0)) someState
    (done (.int 1) (q 0)) someState :=
  (if_branches _ 0 _ _ _ _ _ _ _).2 (.isTrue (r := done (.int 1) (q 13)) (yields_bool _ _ _ _ _)
    ((block_sequence _ 0 _ _ _ _).2 (.last ⟨nofun, 3, rfl⟩)))
example : Ends (fileWorld fun _ => none) (.stmt 0 none (.while_ (.lit (.bool true) (q 6)) [.break_])) someState (done .nil noPos) someState :=
  (while_loops _ 0 _ _ _ _ _).2 (.bodyBreaks (yields_bool _ _ _ _ _) ⟨nofun, 3, rfl⟩)

end Hush.Props

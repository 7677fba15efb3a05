import Verif.Model.Interp

/-!
Finite values, and what it means for a relation to be an order or an equivalence on them.
-/

namespace Hush.Spec
open Hush

/-- The value is finite: following references into arrays, dicts, errors and, if `captured`, into captured variables comes to an end; and
there is no float that is not a number in it. -/
inductive Finite (h : Heap) (captured : Bool) : Value → Prop
  | nil : Finite h captured .nil
  | bool (b) : Finite h captured (.bool b)
  | byte (b) : Finite h captured (.byte b)
  | int (i) : Finite h captured (.int i)
  | float (x) : floatIsNaN x = false → Finite h captured (.float x)
  | string (x) : Finite h captured (.string x)
  | array (a) : (∀ v ∈ h.array a, Finite h captured v) → Finite h captured (.array a)
  | dict (d) : (∀ e ∈ h.dict d, Finite h captured e.1) → (∀ e ∈ h.dict d, Finite h captured e.2) → Finite h captured (.dict d)
  | native (name addr) : Finite h captured (.function (.native name addr))
  | hush (f) : (captured = true → ∀ c ∈ (h.closure f).context, Finite h captured (h.cell c.1)) → Finite h captured (.function (.hush f))
  | error (x c) : Finite h captured (h.context c) → Finite h captured (.error x c)

/-- How two values compare in the order of all values (`Ord for Value`). -/
def Compare (h : Heap) (a b : Value) (o : Ordering) : Prop := ∃ n, valueCmp h n a b = some o

/-- The values are equal (`==` of the language). -/
def Equal (h : Heap) (a b : Value) : Prop := ∃ n, valueEq h n a b = some true

/-- The values are different. -/
def Different (h : Heap) (a b : Value) : Prop := ∃ n, valueEq h n a b = some false

/-- A dict that has an entry for one of the values as the key finds it for the other one. -/
def SameKey (h : Heap) (a b : Value) : Prop := ∃ n, sameHash h n a b = some true ∧ valueEq h n a b = some true

/-- No dict has two entries for the same key. -/
def DistinctKeys (h : Heap) : Prop := ∀ d, (h.dict d).Pairwise (fun e e' => ¬ SameKey h e.1 e'.1)

/-- A finite value without functions of hush and without the float -0.0. -/
inductive Exact (h : Heap) : Value → Prop
  | nil : Exact h .nil
  | bool (b) : Exact h (.bool b)
  | byte (b) : Exact h (.byte b)
  | int (i) : Exact h (.int i)
  | float (x) : floatIsNaN x = false → x ≠ 0x8000000000000000 → Exact h (.float x)
  | string (x) : Exact h (.string x)
  | array (a) : (∀ v ∈ h.array a, Exact h v) → Exact h (.array a)
  | dict (d) : (∀ e ∈ h.dict d, Exact h e.1) → (∀ e ∈ h.dict d, Exact h e.2) → Exact h (.dict d)
  | native (name addr) : Exact h (.function (.native name addr))
  | error (x c) : Exact h (h.context c) → Exact h (.error x c)

/-- A finite value without the float -0.0, in which no key of a dict has a function of hush in it. -/
inductive Hashed (h : Heap) : Value → Prop
  | nil : Hashed h .nil
  | bool (b) : Hashed h (.bool b)
  | byte (b) : Hashed h (.byte b)
  | int (i) : Hashed h (.int i)
  | float (x) : floatIsNaN x = false → x ≠ 0x8000000000000000 → Hashed h (.float x)
  | string (x) : Hashed h (.string x)
  | array (a) : (∀ v ∈ h.array a, Hashed h v) → Hashed h (.array a)
  | dict (d) : (∀ e ∈ h.dict d, Exact h e.1) → (∀ e ∈ h.dict d, Hashed h e.2) → Hashed h (.dict d)
  | function (f) : Hashed h (.function f)
  | error (x c) : Hashed h (h.context c) → Hashed h (.error x c)

end Hush.Spec

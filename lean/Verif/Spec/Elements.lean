import Verif.Spec.Values

/-!
Elements of arrays and dicts, as lists and finite maps.
-/

namespace Hush.Spec
open Hush

/-- Values that are compared by what they are: not references to objects, not functions, not the float that is not a number. -/
def Simple : Value → Prop
  | .nil | .bool _ | .byte _ | .int _ | .string _ => True
  | .float b => floatIsNaN b = false
  | _ => False

/-- The entry of a dict, as a finite map. -/
def look (es : List (Value × Value)) (k : Value) : Option Value := (es.find? (fun e => e.1 = k)).map (·.2)

/-- The index is one of a list of that length. -/
def InRange (i : Int) (length : Nat) : Prop := 0 ≤ i ∧ i < length

/-- The two memories differ at most in the contents of the array `a`. -/
structure SameButArray (a : Nat) (h h' : Heap) : Prop where
  arrays : ∀ b, b ≠ a → h'.array b = h.array b
  count : h'.arrays.length = h.arrays.length
  dicts : h'.dicts = h.dicts
  cells : h'.cells = h.cells
  closures : h'.closures = h.closures
  contexts : h'.contexts = h.contexts
  natives : h'.natives = h.natives

/-- The two memories differ at most in the contents of the dict `d`. -/
structure SameButDict (d : Nat) (h h' : Heap) : Prop where
  dicts : ∀ b, b ≠ d → h'.dict b = h.dict b
  count : h'.dicts.length = h.dicts.length
  arrays : h'.arrays = h.arrays
  cells : h'.cells = h.cells
  closures : h'.closures = h.closures
  contexts : h'.contexts = h.contexts
  natives : h'.natives = h.natives

/-- The dict has this value for a key that is equal to the given one. -/
def HasEntry (h : Heap) (d : Nat) (k v : Value) : Prop := ∃ e ∈ h.dict d, Equal h k e.1 ∧ e.2 = v

/-- The dict is not in the value, and following references from it (also into captured variables) comes to an end. -/
inductive Avoids (h : Heap) (x : Nat) : Value → Prop
  | nil : Avoids h x .nil
  | bool (b) : Avoids h x (.bool b)
  | byte (b) : Avoids h x (.byte b)
  | int (i) : Avoids h x (.int i)
  | float (b) : Avoids h x (.float b)
  | string (s) : Avoids h x (.string s)
  | array (a) : (∀ v ∈ h.array a, Avoids h x v) → Avoids h x (.array a)
  | dict (d) : d ≠ x → (∀ e ∈ h.dict d, Avoids h x e.1) → (∀ e ∈ h.dict d, Avoids h x e.2) → Avoids h x (.dict d)
  | native (name addr) : Avoids h x (.function (.native name addr))
  | hush (f) : (∀ c ∈ (h.closure f).context, Avoids h x (h.cell c.1)) → Avoids h x (.function (.hush f))
  | error (s c) : Avoids h x (h.context c) → Avoids h x (.error s c)

/-- A key for which equality and hashing agree: a finite value without the float -0.0, in which no key of a dict has a function of hush in it. -/
structure GoodKey (h : Heap) (k : Value) : Prop where
  finite : Finite h true k
  hashed : Hashed h k

end Hush.Spec

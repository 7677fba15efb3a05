import Verif.Spec.Values

/-!
What it means for values to be equal, or one before the other, by their contents. Nothing here refers to how the code compares them.
-/

namespace Hush.Spec
open Hush

/-- A float (64 bits of IEEE 754: sign, 11 bits of exponent, 52 bits of fraction) in units of 2^-1074, the smallest
positive float. Infinity counts as 2^1024. -/
def floatUnits (b : UInt64) : Int :=
  let e := b.toNat / 2 ^ 52 % 2 ^ 11
  let f := b.toNat % 2 ^ 52
  let m : Nat := if e = 0 then f else (2 ^ 52 + f) * 2 ^ (e - 1)
  if b.toNat < 2 ^ 63 then m else -m

/-- The float is not a number: all bits of the exponent are set, and some bit of the fraction. -/
def NotNumber (b : UInt64) : Prop := b.toNat / 2 ^ 52 % 2 ^ 11 = 2047 ∧ b.toNat % 2 ^ 52 ≠ 0

/-- The values have the same contents. Arrays have the same elements in the same order; dicts have the same keys, with the
same values; errors have the same description and context; functions of hush have the same source position and captured variables with the same
contents; native functions have the same name. -/
inductive SameContents (h : Heap) : Value → Value → Prop
  | nil : SameContents h .nil .nil
  | bool (b) : SameContents h (.bool b) (.bool b)
  | byte (b) : SameContents h (.byte b) (.byte b)
  | int (i) : SameContents h (.int i) (.int i)
  | string (s) : SameContents h (.string s) (.string s)
  | float (x y) : ¬ NotNumber x → ¬ NotNumber y → floatUnits x = floatUnits y → SameContents h (.float x) (.float y)
  | array (a b) : (h.array a).length = (h.array b).length →
    (∀ (i : Nat) (x y : Value), (h.array a)[i]? = some x → (h.array b)[i]? = some y → SameContents h x y) → SameContents h (.array a) (.array b)
  | dict (d d') (entry : Value × Value → Value × Value) : (h.dict d).length = (h.dict d').length →
    (∀ e ∈ h.dict d, entry e ∈ h.dict d') → (∀ e ∈ h.dict d, SameContents h e.1 (entry e).1) →
    (∀ e ∈ h.dict d, SameContents h e.2 (entry e).2) → SameContents h (.dict d) (.dict d')
  | error (s c c') : SameContents h (h.context c) (h.context c') → SameContents h (.error s c) (.error s c')
  | native (name addr addr') : SameContents h (.function (.native name addr)) (.function (.native name addr'))
  | hush (f g) : (h.closure f).module = (h.closure g).module → (h.closure f).pos = (h.closure g).pos →
    (h.closure f).context.length = (h.closure g).context.length →
    (∀ (i : Nat) (x y : Nat × Nat), (h.closure f).context[i]? = some x → (h.closure g).context[i]? = some y → x.2 = y.2) →
    (∀ (i : Nat) (x y : Nat × Nat), (h.closure f).context[i]? = some x → (h.closure g).context[i]? = some y →
      SameContents h (h.cell x.1) (h.cell y.1)) → SameContents h (.function (.hush f)) (.function (.hush g))

/-- The keys of all dicts are values without the float -0.0, in which no key of a dict has a function of hush in it. -/
def HashedKeys (h : Heap) : Prop := ∀ d, ∀ e ∈ h.dict d, Hashed h e.1

/-- The list is before the other one in the order of dictionaries: after a common part, it ends or has the lesser element. -/
inductive Before {α : Type} (eq lt : α → α → Prop) : List α → List α → Prop
  | ends (b bs) : Before eq lt [] (b :: bs)
  | less {a b} (as bs) : lt a b → Before eq lt (a :: as) (b :: bs)
  | next {a b as bs} : eq a b → Before eq lt as bs → Before eq lt (a :: as) (b :: bs)

/-- The types in their order. -/
def typeOrder : List Bytes :=
  [bs "nil", bs "bool", bs "char", bs "int", bs "float", bs "string", bs "array", bs "dict", bs "function", bs "error"]

end Hush.Spec

import Verif.Model.World

/-!
The data that JSON can express, and how values stand for them. Nothing here refers to how the code writes or reads.
-/

namespace Hush.Spec
open Hush

/-- Data: texts are sequences of characters. -/
inductive Data where
  | nil
  | bool (b : Bool)
  | int (i : Int)
  | float (bits : UInt64)
  | text (s : List Char)
  | list (items : List Data)
  | record (entries : List (List Char × Data))

/-- A text as bytes: UTF-8. -/
def utf8 (s : List Char) : Bytes := s.flatMap String.utf8EncodeChar

mutual
/-- The value has the contents of the data: arrays for lists, dicts with strings as keys for records. -/
def Holds (h : Heap) : Data → Value → Prop
  | .nil, v => v = .nil
  | .bool b, v => v = .bool b
  | .int i, v => v = .int i
  | .float f, v => v = .float f
  | .text s, v => v = .string (utf8 s)
  | .list js, v => ∃ a vs, v = .array a ∧ h.arrays[a]? = some vs ∧ HoldItems h js vs
  | .record es, v => ∃ a kvs, v = .dict a ∧ h.dicts[a]? = some kvs ∧ HoldEntries h es kvs
/-- The values have the contents of the data, one by one. -/
def HoldItems (h : Heap) : List Data → List Value → Prop
  | [], vs => vs = []
  | j :: js, vs => ∃ v rest, vs = v :: rest ∧ Holds h j v ∧ HoldItems h js rest
/-- The entries have the contents of those of the record. -/
def HoldEntries (h : Heap) : List (List Char × Data) → List (Value × Value) → Prop
  | [], kvs => kvs = []
  | (k, j) :: es, kvs => ∃ v rest, kvs = (.string (utf8 k), v) :: rest ∧ Holds h j v ∧ HoldEntries h es rest
end

/-- One or more decimal digits. -/
def AllDigits (s : Bytes) : Prop := s ≠ [] ∧ ∀ c ∈ s, 48 ≤ c ∧ c ≤ 57

/-- The text of a number with a fraction or an exponent, as in RFC 8259. -/
def JsonFloatText (t : Bytes) : Prop :=
  ∃ sign whole frac exp, t = sign ++ whole ++ frac ++ exp ∧ (sign = [] ∨ sign = [45]) ∧
    AllDigits whole ∧ (whole.head? = some 48 → whole = [48]) ∧
    (frac = [] ∨ ∃ ds, AllDigits ds ∧ frac = 46 :: ds) ∧
    (exp = [] ∨ ∃ e s ds, (e = 101 ∨ e = 69) ∧ (s = [] ∨ s = [43] ∨ s = [45]) ∧ AllDigits ds ∧ exp = e :: (s ++ ds)) ∧ frac ++ exp ≠ []

/-- The float is finite, its text is that of a number with fraction or exponent, and it is read back as the same float. -/
def FloatKept (w : World) (f : UInt64) : Prop :=
  f.toNat / 2 ^ 52 % 2 ^ 11 ≠ 2047 ∧ JsonFloatText (w.jsonFloat f) ∧ w.jsonNumber (w.jsonFloat f) = some f

mutual
/-- Integers have 64 bits, floats are kept, and the keys of a record are different. -/
def Proper (w : World) : Data → Prop
  | .int i => -2 ^ 63 ≤ i ∧ i < 2 ^ 63
  | .float f => FloatKept w f
  | .list js => ProperItems w js
  | .record es => (es.map (·.1)).Nodup ∧ ProperEntries w es
  | _ => True
/-- All of them. -/
def ProperItems (w : World) : List Data → Prop
  | [] => True
  | j :: js => Proper w j ∧ ProperItems w js
/-- All of them. -/
def ProperEntries (w : World) : List (List Char × Data) → Prop
  | [] => True
  | (_, j) :: es => Proper w j ∧ ProperEntries w es
end

mutual
/-- How deep lists and records are nested. -/
def Data.depth : Data → Nat
  | .list js => depthItems js + 1
  | .record es => depthEntries es + 1
  | _ => 0
/-- The greatest depth of the items. -/
def depthItems : List Data → Nat
  | [] => 0
  | j :: js => max j.depth (depthItems js)
/-- The greatest depth of the entries. -/
def depthEntries : List (List Char × Data) → Nat
  | [] => 0
  | (_, j) :: es => max j.depth (depthEntries es)
end

/-- The value has no text: a function or an error is in it, or a dict with a key that is no string. -/
inductive Unwritable (h : Heap) : Value → Prop
  | function (f : Fn) : Unwritable h (.function f)
  | error (d : Bytes) (c : Nat) : Unwritable h (.error d c)
  | item {a : Nat} {v : Value} : v ∈ h.array a → Unwritable h v → Unwritable h (.array a)
  | key {d : Nat} {k v : Value} : (k, v) ∈ h.dict d → (∀ s, k ≠ .string s) → Unwritable h (.dict d)
  | value {d : Nat} {k v : Value} : (k, v) ∈ h.dict d → Unwritable h v → Unwritable h (.dict d)

end Hush.Spec

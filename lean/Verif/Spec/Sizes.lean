import Verif.Model.Heap

/-!
C89: how many elements a collection has.
-/

namespace Hush.Spec
open Hush

/-- The string, array or dict has `n` bytes, elements or entries. -/
inductive Size (h : Heap) : Value → Nat → Prop
  | string {s : Bytes} : Size h (.string s) s.length
  | array {a : Nat} {vs : List Value} : h.arrays[a]? = some vs → Size h (.array a) vs.length
  | dict {d : Nat} {es : List (Value × Value)} : h.dicts[d]? = some es → Size h (.dict d) es.length

end Hush.Spec

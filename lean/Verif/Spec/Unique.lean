import Verif.Spec.Elements
import Verif.Model.World

/-!
Dicts with at most one entry for a key.
-/

namespace Hush.Spec
open Hush

/-- No key that is compared by what it is occurs twice in the entries. -/
def NoRepeat (es : List (Value × Value)) : Prop := es.Pairwise (fun e e' => Simple e.1 → e.1 ≠ e'.1)

/-- No dict in memory has two entries with the same key, where keys that are arrays, dicts, errors, functions or the float that is not a number
do not count. -/
def UniqueKeys (h : Heap) : Prop := ∀ d, NoRepeat (h.dict d)

/-- A value made by the outside in which the keys of every dict are different strings. -/
inductive DistinctTree : Tree → Prop
  | arg (i) : DistinctTree (.arg i)
  | nil : DistinctTree .nil
  | bool (b) : DistinctTree (.bool b)
  | byte (b) : DistinctTree (.byte b)
  | int (i) : DistinctTree (.int i)
  | float (b) : DistinctTree (.float b)
  | string (s) : DistinctTree (.string s)
  | array (ts) : (∀ t ∈ ts, DistinctTree t) → DistinctTree (.array ts)
  | dict (es : List (Bytes × Tree)) : (es.map (·.1)).Nodup → (∀ e ∈ es, DistinctTree e.2) → DistinctTree (.dict (es.map (fun e => (.string e.1, e.2))))
  | native (name data) : DistinctTree (.native name data)
  | error (d c) : DistinctTree c → DistinctTree (.error d c)

/-- What native functions, commands and threads return are such values. -/
structure DistinctReplies (w : World) : Prop where
  native : ∀ tr name st args h t, w.native tr name st args h = .value t → DistinctTree t
  command : ∀ tr kind b t, w.command tr kind b = .value t → DistinctTree t
  joined : ∀ tr j t, w.joined tr j = .value t → DistinctTree t

end Hush.Spec

import Verif.Model.Interp

/-!
What it means for an iterator to be exhausted.
-/

namespace Hush.Spec
open Hush

/-- The iterator has no further element: the bytes of a string, the entries of a dict or the numbers of a range are used up.
Iterators over arrays are not included, since arrays can grow. -/
def Spent : NState → Prop
  | .stringIter s ix => s.length ≤ ix
  | .dictIter es => es = []
  | .intRange a b s => (0 < s → b ≤ a) ∧ (s ≤ 0 → a ≤ b)
  | .floatRange a b s => (floatCmp s 0 = .gt → floatCmp a b ≠ .lt) ∧ (floatCmp s 0 ≠ .gt → floatCmp a b ≠ .gt)
  | _ => False

/-- The functions made by `std.iter` for strings and dicts and by `std.range`: the name and the state. -/
inductive FixedIter : Bytes → NState → Prop
  | string (s : Bytes) (ix : Nat) : FixedIter (bs "std.iter<impl>") (.stringIter s ix)
  | dict (es : List (Value × Value)) : FixedIter (bs "std.iter<impl>") (.dictIter es)
  | int (a b s : Int) : FixedIter (bs "std.range<impl>") (.intRange a b s)
  | float (a b s : UInt64) : FixedIter (bs "std.range<impl>") (.floatRange a b s)

/-- A later state: any tasks of the interpreter were executed, whether they succeeded or not, and between them anything happened
that leaves the states of function objects alone. -/
inductive Afterwards (w : World) (s : RState) : RState → Prop
  | refl : Afterwards w s s
  | task {s' : RState} (n : Nat) (t : Task) : Afterwards w s s' → Afterwards w s (run w n t s').2
  | other {s' s'' : RState} : Afterwards w s s' → s''.heap.natives = s'.heap.natives → Afterwards w s s''

/-- In this state, a call of the native function returns a dict with exactly the given entries. -/
def ReturnsDict (w : World) (s : RState) (name : Bytes) (addr : Nat) (args : List Value) (es : List (Value × Value)) (s' : RState) : Prop :=
  ∀ (n : Nat) (pos : Pos), ∃ d : Nat, callLib w n name addr args pos s = (.ok (.dict d), s') ∧ s'.heap.dicts[d]? = some es

end Hush.Spec

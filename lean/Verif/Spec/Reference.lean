import Verif.Model.Interp

/-!
References to objects, independent of the interpreter.
-/

namespace Hush.Spec
open Hush

/-- An object that can change: an array, a dict or the private state of a native function. -/
inductive Ref where
  | array (a : Nat)
  | dict (d : Nat)
  | native (n : Nat)

/-- The contents of an object. -/
inductive Object where
  | array (items : List Value)
  | dict (entries : List (Value × Value))
  | native (state : NState)

/-- The object in a memory; `none` if there is none at this address. -/
def object (h : Heap) : Ref → Option Object
  | .array a => h.arrays[a]?.map .array
  | .dict d => h.dicts[d]?.map .dict
  | .native n => h.natives[n]?.map .native

/-- The value is a reference to the object. -/
def Names : Ref → Value → Prop
  | .array a, v => v = .array a
  | .dict d, v => v = .dict d
  | .native n, v => ∃ name, v = .function (.native name n)

/-- The private state of a native function contains a reference to the object. -/
def StateNames (r : Ref) : NState → Prop
  | .arrayIter a _ => Names r (.array a)
  | .dictIter entries => ∃ e ∈ entries, Names r e.1 ∨ Names r e.2
  | .bound obj f => Names r obj ∨ Names r (.function f)
  | _ => False

/-- No object in memory contains a reference to the object. -/
structure NotInHeap (r : Ref) (h : Heap) : Prop where
  arrays : ∀ vs ∈ h.arrays, ∀ v ∈ vs, ¬ Names r v
  dicts : ∀ es ∈ h.dicts, ∀ e ∈ es, ¬ Names r e.1 ∧ ¬ Names r e.2
  cells : ∀ v ∈ h.cells, ¬ Names r v
  contexts : ∀ v ∈ h.contexts, ¬ Names r v
  natives : ∀ n ∈ h.natives, ¬ StateNames r n

/-- Nothing in the state contains a reference to the object: no object in memory, no variable, no pending argument, no module. -/
structure Unreferenced (r : Ref) (s : RState) : Prop where
  heap : NotInHeap r s.heap
  stack : ∀ v, .regular v ∈ s.stack → ¬ Names r v
  args : ∀ v ∈ s.args, ¬ Names r v
  modules : ∀ m ∈ s.modules, ¬ Names r m.2
  std : ¬ Names r s.std
  argv : ¬ Names r s.argv

/-- The task itself has no reference to the object. -/
def TaskWithout (r : Ref) : Task → Prop
  | .items _ _ acc => ∀ v ∈ acc, ¬ Names r v
  | .fields _ _ acc => ∀ e ∈ acc, ¬ Names r e.1 ∧ ¬ Names r e.2
  | .iter _ _ f _ _ => ¬ Names r (.function f)
  | .call _ obj f _ _ => ¬ Names r obj ∧ ¬ Names r (.function f)
  | _ => True

/-- The outcome has no reference to the object. -/
def FlowWithout (r : Ref) : Flow → Prop
  | .regular v => ¬ Names r v
  | .return_ v => ¬ Names r v
  | .break_ => True

/-- Every reference in the state is to an object that exists. -/
def NoDangling (s : RState) : Prop := ∀ r, object s.heap r = none → Unreferenced r s

end Hush.Spec

import Verif.Spec.Evaluation

/-!
What a call of a function does, from the values of its arguments to its value.
-/

namespace Hush.Spec
open Hush

/-- The variable in slot `i` of the function when its body begins: a captured variable is the one of the function that created it;
`self` has the object; the parameters come first and have the arguments in order; the others are nil. -/
def initial (c : Closure) (args : List Value) (obj : Value) (i : Nat) : Slot :=
  match c.context.find? (fun q => q.2 = i) with
  | some q => .closed q.1
  | none => if c.frame.selfSlot = some i then .regular obj else .regular (args.getD i .nil)

/-- The variables of the function when its body begins. -/
def newFrame (c : Closure) (args : List Value) (obj : Value) : List Slot := (List.range c.frame.slots).map (initial c args obj)

/-- The state in which the body begins: the arguments are taken, the new variables are on top. -/
def entered (c : Closure) (obj : Value) (start : Nat) (s : RState) : RState :=
  { s with args := s.args.take start, stack := newFrame c (s.args.drop start) obj ++ s.stack, shrunk := false }

/-- The state after the call, from that after the body: the variables of the function are gone. (A tail call gave them up before, and
remembered so in `shrunk`.) -/
def left (c : Closure) (s s1 : RState) : RState :=
  { s1 with stack := if s1.shrunk then s1.stack else s1.stack.drop c.frame.slots, shrunk := s.shrunk }

/-- The call of the function object `a`, as a member of `obj`, with the arguments beyond `start`. -/
inductive Called (w : World) (obj : Value) (a : Nat) (start : Nat) (pos : Pos) (s : RState) : Except Stop Out → RState → Prop
  | wrongNumber : (s.args.drop start).length ≠ (s.heap.closure a).params →
    Called w obj a start pos s (.error (.panic ⟨.invalidArgs (s.args.drop start).length (s.heap.closure a).params, pos⟩)) (cut start s)
  | overflow : (s.args.drop start).length = (s.heap.closure a).params → w.limit < s.stack.length + (s.heap.closure a).frame.slots →
    Called w obj a start pos s (.error (.panic ⟨.stackOverflow, pos⟩)) (cut start s)
  | stops {e s1} : (s.args.drop start).length = (s.heap.closure a).params → s.stack.length + (s.heap.closure a).frame.slots ≤ w.limit →
    Ends w (bodyOf s.heap a) (entered (s.heap.closure a) obj start s) (.error e) s1 →
    Called w obj a start pos s (.error e) (left (s.heap.closure a) s s1)
  | falls {v p o s1} : (s.args.drop start).length = (s.heap.closure a).params → s.stack.length + (s.heap.closure a).frame.slots ≤ w.limit →
    Ends w (bodyOf s.heap a) (entered (s.heap.closure a) obj start s) (.ok ⟨.regular v, p, o⟩) s1 →
    Called w obj a start pos s (done v pos) (left (s.heap.closure a) s s1)
  | returns {v p o s1} : (s.args.drop start).length = (s.heap.closure a).params → s.stack.length + (s.heap.closure a).frame.slots ≤ w.limit →
    Ends w (bodyOf s.heap a) (entered (s.heap.closure a) obj start s) (.ok ⟨.return_ v, p, o⟩) s1 →
    Called w obj a start pos s (done v pos) (left (s.heap.closure a) s s1)

end Hush.Spec

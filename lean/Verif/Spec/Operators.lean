import Verif.Spec.Evaluation
import Verif.Spec.Structure

/-!
What the operators, `if` and `while` do, as rules on values and on parts.
-/

namespace Hush.Spec
open Hush

/-- The operators that accept only some types. -/
inductive Typed : BinOp → Prop
  | plus : Typed .plus
  | minus : Typed .minus
  | times : Typed .times
  | div : Typed .div
  | mod : Typed .mod
  | lower : Typed .lower
  | lowerEquals : Typed .lowerEquals
  | greater : Typed .greater
  | greaterEquals : Typed .greaterEquals
  | concat : Typed .concat

/-- The types of operands of an operator. The second operand must have the type of the first. -/
def operandTypes : BinOp → List Bytes
  | .plus | .minus | .times | .div | .mod => [bs "int", bs "float"]
  | .lower | .lowerEquals | .greater | .greaterEquals => [bs "int", bs "float", bs "char", bs "string"]
  | .concat => [bs "string"]
  | _ => []

/-- The types as the message for the first operand gives them. -/
def operandWords : BinOp → Bytes
  | .plus | .minus | .times | .div | .mod => bs "int or float"
  | .lower | .lowerEquals | .greater | .greaterEquals => bs "int, float, byte or string"
  | _ => bs "string"

/-- What a comparison operator says, for an order. -/
def Says (lt : α → α → Prop) : BinOp → α → α → Prop
  | .lower, a, b => lt a b
  | .lowerEquals, a, b => ¬ lt b a
  | .greater, a, b => lt b a
  | .greaterEquals, a, b => ¬ lt a b
  | _, _, _ => False

/-- The comparison operators. -/
def comparisons : List BinOp := [.lower, .lowerEquals, .greater, .greaterEquals]

/-- The expression has a boolean value: whether the proposition holds. -/
def Decides (w : World) (m : Nat) (e : Prog.Expr) (pos : Pos) (s : RState) (p : Prop) (s' : RState) : Prop :=
  ∃ b : Bool, Eval w m e s (done (.bool b) pos) s' ∧ (b = true ↔ p)

/-- `if c then t else e end`: the condition, then one of the blocks, in the state that the condition left. -/
inductive Branching (w : World) (m : Nat) (c : Prog.Expr) (t e : List Prog.Stmt) (pos : Pos) (s : RState) :
    Except Stop Out → RState → Prop
  | conditionLeaves {r s'} : Eval w m c s r s' → Leaving r → Branching w m c t e pos s (passed pos r) s'
  | notBool {v p obj s'} : Yields w m c s v p obj s' → (∀ x, v ≠ .bool x) →
    Branching w m c t e pos s (.error (.panic ⟨.invalidCondition v, p⟩)) s'
  | isTrue {p obj s1 r s'} : Yields w m c s (.bool true) p obj s1 → Ends w (.block m none t) s1 r s' →
    Branching w m c t e pos s (passed pos r) s'
  | isFalse {p obj s1 r s'} : Yields w m c s (.bool false) p obj s1 → Ends w (.block m none e) s1 r s' →
    Branching w m c t e pos s (passed pos r) s'

/-- `while c do b end`: the condition; if it is true, the body, then the same again in the state that the body left. `break` ends the loop,
`return` and panics are passed on. -/
inductive Looping (w : World) (m : Nat) (c : Prog.Expr) (b : List Prog.Stmt) : RState → Except Stop Out → RState → Prop
  | conditionLeaves {s r s'} : Eval w m c s r s' → Leaving r → Looping w m c b s (passed noPos r) s'
  | notBool {s v p obj s'} : Yields w m c s v p obj s' → (∀ x, v ≠ .bool x) →
    Looping w m c b s (.error (.panic ⟨.invalidCondition v, p⟩)) s'
  | isFalse {s p obj s'} : Yields w m c s (.bool false) p obj s' → Looping w m c b s (done .nil noPos) s'
  | bodyStops {s p obj s1 e s'} : Yields w m c s (.bool true) p obj s1 → Ends w (.block m none b) s1 (.error e) s' →
    Looping w m c b s (.error e) s'
  | bodyReturns {s p obj s1 v p' obj' s'} : Yields w m c s (.bool true) p obj s1 →
    Ends w (.block m none b) s1 (.ok ⟨.return_ v, p', obj'⟩) s' → Looping w m c b s (.ok ⟨.return_ v, noPos, .nil⟩) s'
  | bodyBreaks {s p obj s1 p' obj' s'} : Yields w m c s (.bool true) p obj s1 →
    Ends w (.block m none b) s1 (.ok ⟨.break_, p', obj'⟩) s' → Looping w m c b s (done .nil noPos) s'
  | again {s p obj s1 v p' obj' s2 r s'} : Yields w m c s (.bool true) p obj s1 →
    Ends w (.block m none b) s1 (.ok ⟨.regular v, p', obj'⟩) s2 → Looping w m c b s2 r s' → Looping w m c b s r s'

/-- A sequence of statements: each in the state that the one before left, up to one that returns, breaks or panics. The value is that of
the last statement. -/
inductive Sequence (w : World) (m : Nat) : List Prog.Stmt → RState → Except Stop Out → RState → Prop
  | empty (s) : Sequence w m [] s (done .nil noPos) s
  | last {x s r s'} : Ends w (.stmt m none x) s r s' → Sequence w m [x] s r s'
  | leaves {x y rest s r s'} : Ends w (.stmt m none x) s r s' → Leaving r → Sequence w m (x :: y :: rest) s (passed noPos r) s'
  | next {x y rest s v p obj s1 r s'} : Ends w (.stmt m none x) s (.ok ⟨.regular v, p, obj⟩) s1 → Sequence w m (y :: rest) s1 r s' →
    Sequence w m (x :: y :: rest) s r s'

end Hush.Spec

import Verif.Model.Interp

/-!
Outcomes of tasks without reference to the budget, and rules for some of the constructs of the language, independent of the
interpreter: each rule names the parts that are evaluated, in which states and in which order.
-/

namespace Hush.Spec
open Hush

/-- Performing the task from the state `s` comes to an end, with outcome `r` and final state `s'`. -/
def Ends (w : World) (t : Task) (s : RState) (r : Except Stop Out) (s' : RState) : Prop :=
  r ≠ .error .timeout ∧ ∃ n, run w n t s = (r, s')

/-- The expression of module `m` has outcome `r` when it is evaluated in the state `s`; the state is `s'` then. -/
abbrev Eval (w : World) (m : Nat) (e : Prog.Expr) (s : RState) (r : Except Stop Out) (s' : RState) : Prop :=
  Ends w (.expr m none e) s r s'

/-- The expression evaluates to a value; `pos` is the position reported for it, `obj` the object it is a member of. -/
abbrev Yields (w : World) (m : Nat) (e : Prog.Expr) (s : RState) (v : Value) (pos : Pos) (obj : Value) (s' : RState) : Prop :=
  Eval w m e s (.ok ⟨.regular v, pos, obj⟩) s'

/-- The outcome is not a value: a panic, the end of the program, a Rust panic, or a `return` or `break` (from `?` or an
`if`-block in the expression). -/
def Leaving (r : Except Stop Out) : Prop := ∀ v pos obj, r ≠ .ok ⟨.regular v, pos, obj⟩

/-- The outcome of an expression at `pos` that is left because of the outcome of a part. -/
def passed (pos : Pos) : Except Stop Out → Except Stop Out
  | .ok o => .ok ⟨o.flow, pos, .nil⟩
  | .error e => .error e

/-- The value of an expression at `pos`. -/
def done (v : Value) (pos : Pos) : Except Stop Out := .ok ⟨.regular v, pos, .nil⟩

/-- The type error. -/
def typeError (v : Value) (expected : Bytes) (pos : Pos) : Except Stop Out := .error (.panic ⟨.typeError v expected, pos⟩)

/-- `a and b` (`skip = false`) and `a or b` (`skip = true`): `b` is evaluated only if `a` has a boolean value other than
`skip`, in the state that the evaluation of `a` left. -/
inductive Logical (w : World) (m : Nat) (skip : Bool) (a b : Prog.Expr) (pos : Pos) (s : RState) :
    Except Stop Out → RState → Prop
  | leftLeaves {r s'} : Eval w m a s r s' → Leaving r → Logical w m skip a b pos s (passed pos r) s'
  | leftType {v p obj s'} : Yields w m a s v p obj s' → (∀ x, v ≠ .bool x) →
    Logical w m skip a b pos s (typeError v (bs "bool") p) s'
  | decided {p obj s'} : Yields w m a s (.bool skip) p obj s' → Logical w m skip a b pos s (done (.bool skip) pos) s'
  | rightLeaves {p obj s1 r s'} : Yields w m a s (.bool !skip) p obj s1 → Eval w m b s1 r s' → Leaving r →
    Logical w m skip a b pos s (passed pos r) s'
  | rightType {p obj s1 v q obj' s'} : Yields w m a s (.bool !skip) p obj s1 → Yields w m b s1 v q obj' s' →
    (∀ x, v ≠ .bool x) → Logical w m skip a b pos s (typeError v (bs "bool") q) s'
  | right {p obj s1 x q obj' s'} : Yields w m a s (.bool !skip) p obj s1 → Yields w m b s1 (.bool x) q obj' s' →
    Logical w m skip a b pos s (done (.bool x) pos) s'

/-- Any other binary operator: the left operand is evaluated, then the right one in the state it left, then `f` is applied
to the values in the final memory. If one operand is left, nothing else is evaluated. -/
inductive Strict (w : World) (m : Nat) (f : Heap → Value → Pos → Value → Pos → Except Stop Value → Prop) (a b : Prog.Expr)
    (pos : Pos) (s : RState) : Except Stop Out → RState → Prop
  | leftLeaves {r s'} : Eval w m a s r s' → Leaving r → Strict w m f a b pos s (passed pos r) s'
  | rightLeaves {v p obj s1 r s'} : Yields w m a s v p obj s1 → Eval w m b s1 r s' → Leaving r →
    Strict w m f a b pos s (passed pos r) s'
  | value {v p obj s1 v' p' obj' s' x} : Yields w m a s v p obj s1 → Yields w m b s1 v' p' obj' s' →
    f s'.heap v p v' p' (.ok x) → Strict w m f a b pos s (done x pos) s'
  | stops {v p obj s1 v' p' obj' s' e} : Yields w m a s v p obj s1 → Yields w m b s1 v' p' obj' s' →
    f s'.heap v p v' p' (.error e) → Strict w m f a b pos s (.error e) s'

/-- The result of an operator, in the absence of a bound on the depth of comparisons. -/
def Applies (w : World) (op : BinOp) (pos : Pos) (h : Heap) (v : Value) (p : Pos) (v' : Value) (p' : Pos)
    (r : Except Stop Value) : Prop :=
  r ≠ .error .timeout ∧ ∃ n, strictValue w h n op pos v p v' p' = r

/-- The expressions are evaluated in order, each in the state that the one before left; `vs` are the values. What is done with
a value before the next expression is evaluated is `keep`. -/
inductive InOrder (w : World) (m : Nat) (keep : Value → RState → RState) :
    List Prog.Expr → RState → List Value → RState → Prop
  | nil (s) : InOrder w m keep [] s [] s
  | cons {e es s v pos obj s1 vs s'} : Yields w m e s v pos obj s1 → InOrder w m keep es (keep v s1) vs s' →
    InOrder w m keep (e :: es) s (v :: vs) s'

/-- The expressions are evaluated in order up to one whose evaluation is left with outcome `r`; the others are not evaluated. -/
inductive UpTo (w : World) (m : Nat) (keep : Value → RState → RState) :
    List Prog.Expr → RState → Except Stop Out → RState → Prop
  | here {e es s r s'} : Eval w m e s r s' → Leaving r → UpTo w m keep (e :: es) s r s'
  | later {e es s v pos obj s1 r s'} : Yields w m e s v pos obj s1 → UpTo w m keep es (keep v s1) r s' →
    UpTo w m keep (e :: es) s r s'

/-- Nothing is done with the value of an item of a literal until all are evaluated. -/
def hold : Value → RState → RState := fun _ s => s

/-- The value of an argument is put on the argument stack. -/
def push : Value → RState → RState := fun v s => { s with args := s.args ++ [v] }

/-- The argument stack cut to a length. -/
def cut (n : Nat) (s : RState) : RState := { s with args := s.args.take n }

/-- A call expression: the function, then the arguments in order, then the call itself, which gets the arguments that
were put on the stack, and `obj` as `self`. -/
inductive Calling (w : World) (m : Nat) (f : Prog.Expr) (args : List Prog.Expr) (pos : Pos) (s : RState) :
    Except Stop Out → RState → Prop
  | functionLeaves {r s'} : Eval w m f s r s' → Leaving r → Calling w m f args pos s (passed pos r) s'
  | notFunction {v p obj s'} : Yields w m f s v p obj s' → (∀ g, v ≠ .function g) →
    Calling w m f args pos s (.error (.panic ⟨.invalidCall v, p⟩)) s'
  | argumentReturns {g p obj s1 o s'} : Yields w m f s (.function g) p obj s1 → UpTo w m push args s1 (.ok o) s' →
    Calling w m f args pos s (passed pos (.ok o)) (cut s1.args.length s')
  | argumentStops {g p obj s1 e s'} : Yields w m f s (.function g) p obj s1 → UpTo w m push args s1 (.error e) s' →
    Calling w m f args pos s (.error e) s'
  | call {g p obj s1 vs s2 r s'} : Yields w m f s (.function g) p obj s1 → InOrder w m push args s1 vs s2 →
    Ends w (.call m obj g s1.args.length pos) s2 r s' → Calling w m f args pos s (passed pos r) s'

/-! ### Parts -/

/-- `Part w t s t' s'`: when the task `t` is performed from `s`, the task `t'` is performed from `s'` as a part of it, in the same
activation of the same function. The premises are the evaluations that take place before. -/
inductive Part (w : World) : Task → RState → Task → RState → Prop
  | unary {m tail op e pos s} : Part w (.expr m tail (.unary op e pos)) s (.expr m none e) s
  | left {m tail a op b pos s} : Part w (.expr m tail (.binary a op b pos)) s (.expr m none a) s
  | rightLogical {m tail a op b pos s x p obj s1} : Yields w m a s (.bool x) p obj s1 → (op = .and ∧ x = true ∨ op = .or ∧ x = false) →
    Part w (.expr m tail (.binary a op b pos)) s (.expr m none b) s1
  | rightStrict {m tail a op b pos s v p obj s1} : Yields w m a s v p obj s1 → op ≠ .and → op ≠ .or →
    Part w (.expr m tail (.binary a op b pos)) s (.expr m none b) s1
  | condition {m tail c t e pos s} : Part w (.expr m tail (.if_ c t e pos)) s (.expr m none c) s
  | thenBlock {m tail c t e pos s p obj s1} : Yields w m c s (.bool true) p obj s1 →
    Part w (.expr m tail (.if_ c t e pos)) s (.block m none t) s1
  | elseBlock {m tail c t e pos s p obj s1} : Yields w m c s (.bool false) p obj s1 →
    Part w (.expr m tail (.if_ c t e pos)) s (.block m none e) s1
  | object {m tail a b pos s} : Part w (.expr m tail (.access a b pos)) s (.expr m none a) s
  | field {m tail a b pos s v p obj s1} : Yields w m a s v p obj s1 → Part w (.expr m tail (.access a b pos)) s (.expr m none b) s1
  | function {m tail f args pos s} : Part w (.expr m tail (.call f args pos)) s (.expr m none f) s
  | argument {m tail f before e after pos s g p obj s1 vs s2} : Yields w m f s (.function g) p obj s1 →
    InOrder w m push before s1 vs s2 → Part w (.expr m tail (.call f (before ++ e :: after) pos)) s (.expr m none e) s2
  | item {m tail before e after pos s vs s1} : InOrder w m hold before s vs s1 →
    Part w (.expr m tail (.lit (.array (before ++ e :: after)) pos)) s (.expr m none e) s1
  | entry {m tail before k e after pos s vs s1} : InOrder w m hold (before.map Prod.snd) s vs s1 →
    Part w (.expr m tail (.lit (.dict (before ++ (k, e) :: after)) pos)) s (.expr m none e) s1
  | assigned {m tail l r s} : Part w (.stmt m tail (.assign l r)) s (.expr m none r) s
  | assignedObject {m tail a b pos r s v p obj s1} : Yields w m r s v p obj s1 →
    Part w (.stmt m tail (.assign (.access a b pos) r)) s (.expr m none a) s1
  | assignedField {m tail a b pos r s v p obj s1 v' p' obj' s2} : Yields w m r s v p obj s1 → Yields w m a s1 v' p' obj' s2 →
    Part w (.stmt m tail (.assign (.access a b pos) r)) s (.expr m none b) s2
  | returned {m tail e s} : Part w (.stmt m tail (.return_ e)) s (.expr m tail e) s
  | while_ {m tail c b s} : Part w (.stmt m tail (.while_ c b)) s (.loop m c b) s
  | whileCondition {m c b s} : Part w (.loop m c b) s (.expr m none c) s
  | whileBody {m c b s p obj s1} : Yields w m c s (.bool true) p obj s1 → Part w (.loop m c b) s (.block m none b) s1
  | whileAgain {m c b s p obj s1 v p' obj' s2} : Yields w m c s (.bool true) p obj s1 →
    Ends w (.block m none b) s1 (.ok ⟨.regular v, p', obj'⟩) s2 → Part w (.loop m c b) s (.loop m c b) s2
  | iterated {m tail slot e b s} : Part w (.stmt m tail (.for_ slot e b)) s (.expr m none e) s
  | for_ {m tail slot e b s f p obj s1} : Yields w m e s (.function f) p obj s1 →
    Part w (.stmt m tail (.for_ slot e b)) s (.iter m slot f p b) s1
  | forBody {m slot f pos b s v p obj s1 n x s2} : Ends w (.call m .nil f s.args.length pos) s (.ok ⟨.regular v, p, obj⟩) s1 →
    nextValue s1.heap n v pos = .ok (some x) → store slot x s1 = (.ok (), s2) → Part w (.iter m slot f pos b) s (.block m none b) s2
  | forAgain {m slot f pos b s v p obj s1 n x s2 v' p' obj' s3} :
    Ends w (.call m .nil f s.args.length pos) s (.ok ⟨.regular v, p, obj⟩) s1 →
    nextValue s1.heap n v pos = .ok (some x) → store slot x s1 = (.ok (), s2) →
    Ends w (.block m none b) s2 (.ok ⟨.regular v', p', obj'⟩) s3 → Part w (.iter m slot f pos b) s (.iter m slot f pos b) s3
  | statement {m tail e s} : Part w (.stmt m tail (.expr e)) s (.expr m tail e) s
  | last {m tail x s} : Part w (.block m tail [x]) s (.stmt m tail x) s
  | first {m tail x y rest s} : Part w (.block m tail (x :: y :: rest)) s (.stmt m none x) s
  | rest {m tail x y rest s v p obj s1} : Ends w (.stmt m none x) s (.ok ⟨.regular v, p, obj⟩) s1 →
    Part w (.block m tail (x :: y :: rest)) s (.block m tail (y :: rest)) s1

/-- A part at any depth. -/
inductive Within (w : World) : Task → RState → Task → RState → Prop
  | self (t s) : Within w t s t s
  | part {t s t1 s1 t2 s2} : Part w t s t1 s1 → Within w t1 s1 t2 s2 → Within w t s t2 s2

/-! ### Functions -/

/-- The call of the function object `a` with the arguments beyond `start` gets as far as its body, which is started in the
state `s0`: the arguments are right in number and there is room on the stack. -/
def Begins (w : World) (obj : Value) (a : Nat) (start : Nat) (pos : Pos) (s s0 : RState) : Prop :=
  let c := s.heap.closure a
  let args := s.args.drop start
  start ≤ s.args.length ∧ args.length = c.params ∧ ∃ s1, (do
      extend w c.frame.slots pos
      storeArgs 0 args
      placeAll c.context
      storeSelf obj c.frame.selfSlot : M Unit) (cut start s) = (.ok (), s1) ∧ s0 = { s1 with shrunk := false }

/-- The body of the function object `a`, as a task. -/
def bodyOf (h : Heap) (a : Nat) : Task :=
  .block (h.closure a).module (some (h.closure a).frame.slots) (h.closure a).body

/-- What `std.catch` makes of the outcome of the function. -/
inductive Caught (w : World) (start : Nat) (pos : Pos) : Except Stop Out → RState → Except Stop Out → RState → Prop
  | value {v p obj s} : Caught w start pos (.ok ⟨.regular v, p, obj⟩) s (done v pos) (cut start s)
  | panic {k s} : Caught w start pos (.error (.panic k)) s
      (done (.error (bs "caught panic: " ++ w.showPanic s.heap k) s.heap.contexts.length) pos)
      (cut start { s with heap := { s.heap with contexts := s.heap.contexts ++ [.string (bs "panic")] } })
  | exit {c s} : Caught w start pos (.error (.exit c)) s (.error (.exit c)) (cut start s)
  | crash {k s} : Caught w start pos (.error (.crash k)) s (.error (.crash k)) (cut start s)

/-! ### Integers -/

/-- The mathematical result of an operator; division truncates towards zero and the remainder has the sign of the dividend. -/
def exact (op : BinOp) (x y : Int) : Option Int :=
  match op with
  | .plus => some (x + y)
  | .minus => some (x - y)
  | .times => some (x * y)
  | .div => if y = 0 then none else some (x.tdiv y)
  | .mod => if y = 0 then none else some (x.tmod y)
  | _ => none

/-- The integers of 64 bits. -/
def Is64 (x : Int) : Prop := -(2 ^ 63) ≤ x ∧ x < 2 ^ 63

end Hush.Spec

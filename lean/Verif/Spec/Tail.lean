import Verif.Spec.Evaluation

/-!
Calls that are the last thing a function does.
-/

namespace Hush.Spec
open Hush

/-- A call: the module of the calling code, `self`, the function, where its arguments start on the argument stack, the position. -/
structure Invocation where
  module : Nat
  self : Value
  fn : Fn
  start : Nat
  pos : Pos

/-- The call as a task. -/
def Invocation.task (c : Invocation) : Task := .call c.module c.self c.fn c.start c.pos

/-- The statements are executed one after the other, and none of them returns, breaks or panics. -/
inductive Statements (w : World) (m : Nat) : List Prog.Stmt → RState → RState → Prop
  | nil (s) : Statements w m [] s s
  | cons {x xs s v p obj s1 s'} : Ends w (.stmt m none x) s (.ok ⟨.regular v, p, obj⟩) s1 → Statements w m xs s1 s' →
    Statements w m (x :: xs) s s'

/-- The state without the topmost `k` variables, which were given up (this is remembered in `shrunk`). -/
def released (k : Nat) (s : RState) : RState := { s with stack := s.stack.drop k, shrunk := true }

/-- `TailCall w c s c' s'`: the last statement of the function called by `c` is a call expression, returned or not; when `c` is
performed from `s`, the statements before it are executed, its function `c'.fn` and its arguments are evaluated. `s'` is the
state reached then, without the variables of the caller. -/
inductive TailCall (w : World) : Invocation → RState → Invocation → RState → Prop
  | mk {m obj a start pos s s0 before last f args p s1 g p' obj' s2 vs s3} : Begins w obj a start pos s s0 →
    (s.heap.closure a).body = before ++ [last] → (last = .return_ (.call f args p) ∨ last = .expr (.call f args p)) →
    Statements w (s.heap.closure a).module before s0 s1 →
    Yields w (s.heap.closure a).module f s1 (.function g) p' obj' s2 → InOrder w (s.heap.closure a).module push args s2 vs s3 →
    TailCall w ⟨m, obj, .hush a, start, pos⟩ s ⟨(s.heap.closure a).module, obj', g, s2.args.length, p⟩
      (released (s.heap.closure a).frame.slots s3)

/-- Any number of such calls, one calling the next. -/
inductive TailCalls (w : World) : Nat → Invocation → RState → Invocation → RState → Prop
  | none (c s) : TailCalls w 0 c s c s
  | next {n c s c1 s1 c' s'} : TailCall w c s c1 s1 → TailCalls w n c1 s1 c' s' → TailCalls w (n + 1) c s c' s'

end Hush.Spec

import Verif.Spec.Evaluation
import Verif.Spec.Exec

/-!
The operating system seen by a whole script: the world of the interpreter executes command blocks as described by the model of
their execution.
-/

namespace Hush.Spec
open Hush
open Hush.Exec (Os Ev runBlock replyOf)

/-- The calls to the operating system after an event, if `t` are those before. An asynchronous block is executed by another thread, whose calls
are not recorded here. -/
def afterEvent (os : Os) (t : List Ev) : Event → List Ev
  | .command .asynchronous _ => t
  | .command kind b => (runBlock os noPos b kind t).2
  | _ => t

/-- The calls after some more events. -/
def afterEvents (os : List Event → Os) (past : List Event) (t : List Ev) : List Event → List Ev
  | [] => t
  | e :: es => afterEvents os (past ++ [e]) (afterEvent (os past) t e) es

/-- All calls to the operating system made by the blocks of a script, in order. What the operating system does may depend on all that
happened before. -/
def history (os : List Event → Os) (evs : List Event) : List Ev := afterEvents os [] [] evs

/-- The world executes blocks on the operating system: its answer is the value, panic or exit of the execution, from the calls made so far. (Nothing is
said of blocks that block forever. The position is only that of errors of pipes.) -/
def Shell (os : List Event → Os) (w : World) : Prop :=
  ∀ evs kind b, kind ≠ .asynchronous → ∃ pos, ∀ r,
    replyOf (os evs) (runBlock (os evs) pos b kind (history os evs)) = some r → w.command evs kind b = r

/-- The execution of the block would block forever. -/
def Blocks (os : Os) (b : ExBlock) (kind : Ast.BlockKind) (t : List Ev) : Prop := (runBlock os noPos b kind t).1 = .error .hang

end Hush.Spec

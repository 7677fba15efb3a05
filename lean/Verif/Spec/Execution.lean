import Verif.Model.Interp

/-!
Accepted sources, and the tasks that are performed in an execution.
-/

namespace Hush.Spec
open Hush

/-- The source passes the syntax analysis and the semantic analysis without errors; the result is the program that is run. -/
def Accepts (src : Bytes) (p : Program) : Prop :=
  ∃ a, syntaxAnalysis src = some a ∧ a.isOk = true ∧ analyze a.ast = .ok p

/-- The number of modules that were loaded (the reading of their files was attempted). -/
def loadCount (evs : List Event) : Nat := evs.countP (fun e => match e with | .load _ => true | _ => false)

/-- All modules that were loaded between the two states have been completed: as many modules as were loaded got a value. -/
def AllCompleted (s s' : RState) : Prop :=
  s.modules.length + loadCount (s'.trace.drop s.trace.length) ≤ s'.modules.length

open Classical in
/-- The interpreter `r`, except that the task `t` crashes when it is started in the state `s`. -/
noncomputable def probed (r : Task → M Out) (t : Task) (s : RState) : Task → M Out := fun t' s' =>
  if t' = t ∧ s' = s then (.error (.crash .slot), s') else r t' s'

/-- In the course of performing `t` from `s` (with budget `n + 1`) the task `t'` is started in the state `s'`: if it crashed then,
`t` would crash. (A Rust panic is never intercepted by the interpreter, so that it cannot go unnoticed.) -/
def Starts (w : World) (n : Nat) (t : Task) (s : RState) (t' : Task) (s' : RState) : Prop :=
  (step w n (probed (run w n) t' s') t s).1 = .error (.crash .slot)

/-- `Reaches w n t s n' t' s'`: when `t` is performed from `s` with budget `n`, at some depth the task `t'` is started
in the state `s'`; its budget is `n'`. -/
inductive Reaches (w : World) : Nat → Task → RState → Nat → Task → RState → Prop
  | self (n : Nat) (t : Task) (s : RState) : Reaches w n t s n t s
  | sub {n : Nat} {t : Task} {s : RState} {t' : Task} {s' : RState} {k : Nat} {t'' : Task} {s'' : RState} :
    Starts w n t s t' s' → Reaches w n t' s' k t'' s'' → Reaches w (n + 1) t s k t'' s''

/-- The task `t` is performed from the state `s`, with budget `k`, in the execution of a source. -/
def Performed (w : World) (src : Bytes) (k : Nat) (t : Task) (s : RState) : Prop :=
  ∃ p argv file n, Accepts src p ∧ Reaches w n (.program 0 p) (RState.init argv file) k t s

end Hush.Spec

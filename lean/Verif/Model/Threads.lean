import Verif.Model.Exec

/-!
The threads of asynchronous blocks: src/runtime/command/mod.rs:121-142.
-/

namespace Hush
namespace Threads
open Exec (Os Ev execBlock)

/-- The calls made to the operating system by a thread that executes the blocks, in their order: the thread of an asynchronous block executes
one, src/runtime/command/mod.rs:126-131; the thread of the shell those of the script that are not asynchronous, src/runtime/command/mod.rs:33-121.
(Answers of the operating system are those that the thread sees, they may be influenced by other threads. Simplified: the pipes of
capture blocks and `std.cd` are left out.) -/
inductive Makes : List ExBlock → List Ev → Prop where
  | start : Makes [] []
  | block {bs : List ExBlock} {t t' : List Ev} {os : Os} {out err : Exec.Chan} {b : ExBlock} {r : Except Exec.XStop (List (List Exec.ErrorStatus))} :
    Makes bs t → execBlock os out err b t = (r, t') → Makes (bs ++ [b]) t'

/-- The calls of thread number `i` among those of a process. (The threads of src/runtime/command/mod.rs:121-142.) -/
def callsOf (i : Nat) : List (Nat × Ev) → List Ev
  | [] => []
  | (j, e) :: m => if j = i then e :: callsOf i m else callsOf i m

/-- Calls of the threads of one process, in the order in which they happen: those of each thread are in its own order, and otherwise the order is up
to the operating system (`std::thread::spawn`). Threads may not have come to their end yet.
(The threads of src/runtime/command/mod.rs:121-142.) -/
def Runs (threads : List (List Ev)) (m : List (Nat × Ev)) : Prop :=
  (∀ p ∈ m, p.1 < threads.length) ∧ ∀ i (h : List Ev), threads[i]? = some h → callsOf i m <+: h

end Threads
end Hush

import Verif.Spec.Exec

/-!
What has happened when the execution of commands does not come to its end: some call failed, an argument was wrong, the shell was replaced
by another program, or it blocks. Stated by calls to the operating system.
-/

namespace Hush
namespace Spec
namespace Exec
open Hush.Exec (Chan Ended Launch Act Ev Os ErrorStatus XStop)

/-- The positions of the parts of a command. -/
def positions : ExCommand → List Pos
  | .builtin _ _ _ pos => [pos]
  | .external head tail => head.pos :: tail.map (·.pos)

/-- The last of the calls failed with the message, and only that. -/
def LastFailed (os : Os) (t evs : List Ev) (msg : Bytes) : Prop :=
  ∃ init a, evs = init ++ [⟨a, false⟩] ∧ (∀ e ∈ init, e.ok = true) ∧ os.fails (t ++ init) a = some msg

/-- A command stopped by `e` before its end: none of its processes was waited for, not all of them were started, the directory is
as before, and if this is an error of a
call then the call is the last one, it is the only one that failed, and the error is that of a part of the command. -/
def StoppedIn (os : Os) (c : ExCommand) (t evs : List Ev) (e : XStop) : Prop :=
  waits evs = [] ∧ moves evs = [] ∧ (starts t.length evs = [] ∨ (starts t.length evs).length < (processes c).length) ∧
    ∀ msg pos, e = .io msg pos → pos ∈ positions c ∧ LastFailed os t evs msg

/-- The commands of a block were executed one after the other until one of them stopped. -/
inductive Interrupted (os : Os) (out err : Chan) : List ExCommand → List Ev → List Ev → XStop → Prop where
  | here : StoppedIn os c t evs e → Interrupted os out err (c :: cs) t evs e
  | later : Executed os out err c t evs es → (∀ e ∈ evs, e.ok = true) → ¬ Ends (processes c) es →
      Interrupted os out err cs (t ++ evs) evs' e → Interrupted os out err (c :: cs) t (evs ++ evs') e

/-- The processes started and not waited for: those that nobody will ever wait for, once the block has ended. -/
def orphans (n : Nat) (evs : List Ev) : List Nat := (starts n evs).filter (fun id => id ∉ (waits evs).map Prod.fst)

/-- Each process waited for was started, and none is waited for twice. -/
def WaitsOwn (n : Nat) (evs : List Ev) : Prop := ((waits evs).map Prod.fst).Nodup ∧ ∀ id ∈ (waits evs).map Prod.fst, id ∈ starts n evs

end Exec
end Spec
end Hush

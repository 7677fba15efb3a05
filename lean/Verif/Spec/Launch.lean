import Verif.Spec.Exec
import Verif.Spec.Expansion

/-!
What a command is started with, and in which directory.
-/

namespace Hush
namespace Spec
namespace Exec
open Hush.Exec (Chan Launch Act Ev Os)

/-- The call starts a program: as a new process, or in place of the shell. -/
def StartsProgram : Act → Prop
  | .spawn _ => True
  | .exec _ => True
  | _ => False

/-- With the channels of the shell and no environment variables of its own. -/
def plain (program : Bytes) (name : Option Bytes) (args : List Bytes) : Launch :=
  ⟨program, name, args, [], .stdin, .stdout, .stderr⟩

/-- After the calls `t`, the call `a` starts a program as written in the command: a part of a pipeline is started with its program,
assignments, arguments and redirections; `spawn0` and `exec0` have the program, its name, and the arguments; `exec` the program and the arguments. -/
inductive AsWritten (os : Os) : ExCommand → List Ev → Act → Prop where
  | part : c ∈ head :: tail → Starts os c T tb t.length l (t ++ [did (.spawn l)]) → AsWritten os (.external head tail) t (.spawn l)
  | spawn0 : AllWords os tb args (program :: name :: rest) t →
      AsWritten os (.builtin .spawn0 args abort pos) t (.spawn (plain program (some name) rest))
  | exec : AllWords os tb args (program :: rest) t → AsWritten os (.builtin .exec args abort pos) t (.exec (plain program none rest))
  | exec0 : AllWords os tb args (program :: name :: rest) t →
      AsWritten os (.builtin .exec0 args abort pos) t (.exec (plain program (some name) rest))

/-- The directories named by the `cd` commands among some commands, in order. -/
inductive Dirs (os : Os) : List ExCommand → List Bytes → Prop where
  | nil : Dirs os [] []
  | cd : AllWords os ta args [dir] tb → Dirs os cs ds → Dirs os (.builtin .cd args abort pos :: cs) (dir :: ds)
  | other : (∀ args abort pos, c ≠ .builtin .cd args abort pos) → Dirs os cs ds → Dirs os (c :: cs) ds

/-- An argument that stands for some words only, without wildcards: one word for each choice of alternatives of its pieces, and there is at least one. -/
def Texts (env : ArgEnv) (arg : Prog.Argument) (ws : List Bytes) : Prop :=
  ∃ alts : List (List Bytes), arg.parts ≠ [] ∧ (∀ p ∈ alts, p ≠ []) ∧
    List.Forall₂ (fun part p => Alternatives env part (p.map .text)) arg.parts alts ∧ ws = (combos alts).map List.flatten

end Exec
end Spec
end Hush

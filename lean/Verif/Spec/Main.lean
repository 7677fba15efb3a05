import Verif.Model.Main
import Verif.Spec.Execution

/-!
Which script the command line selects.
-/

namespace Hush.Spec
open Hush.Main (Start)

/-- `Script os args src argv file`: given the positional arguments `args`, the script is `src`, which was read from `file`, and its own
arguments are `argv`. The script is in the file named by the first argument; it is read from standard input if there is no argument,
if the first one is `-`, or if the first one is not a file (it is then an argument of the script). -/
inductive Script (os : Start) : List Bytes → Except Bytes Bytes → List Bytes → Bytes → Prop
  | file {path : Bytes} {rest : List Bytes} : path ≠ bs "-" → os.isFile path = true →
    Script os (path :: rest) (os.readFile path) rest path
  | dash {rest : List Bytes} : Script os (bs "-" :: rest) os.stdin rest (bs "<stdin>")
  | none : Script os [] os.stdin [] (bs "<stdin>")
  | other {path : Bytes} {rest : List Bytes} : path ≠ bs "-" → os.isFile path = false →
    Script os (path :: rest) os.stdin (path :: rest) (bs "<stdin>")

end Hush.Spec

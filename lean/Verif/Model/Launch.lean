import Verif.Model.Exec

/-!
The environment of a started process.
-/

namespace Hush
namespace Exec

/-- The environment variables of a started process: `command.env(key, value)` for each assignment in order,
src/runtime/command/exec/mod.rs:292-301. `process::Command` starts from the variables of the shell, and `env` sets or replaces
one. (Simplified: the standard library hands over texts `key=value`; a key that itself contains `=`, possible for keys taken
from variables, is seen differently by the process.) -/
def childVars (shell : Bytes → Option Bytes) : List (Bytes × Bytes) → Bytes → Option Bytes
  | [] => shell
  | (k, v) :: vars => childVars (fun n => if n = k then some v else shell n) vars

end Exec
end Hush

import Verif.Model.World

/-!
The environment variables of the shell.
-/

namespace Hush

/-- The environment variables of the shell after an event: `std::env::set_var` of `std.export`, src/runtime/lib/env.rs:57, is the only
place of the code that changes them. -/
def setVariable (vars : Bytes → Option Bytes) : Event → Bytes → Option Bytes
  | .native name [.string k, .string v], x => if name = bs "std.export" ∧ x = k then some v else vars x
  | _, x => vars x

/-- The environment variables of the shell after some events, if they were `start` at first.
(The result of all calls of src/runtime/lib/env.rs:57.) -/
def environ (start : Bytes → Option Bytes) (evs : List Event) : Bytes → Option Bytes := evs.foldl setVariable start

/-- The world keeps environment variables: `std.export` sets one and gives nil, src/runtime/lib/env.rs:56-59 (`set_var`); `std.env` gives the
text of a variable, or nil, src/runtime/lib/env.rs:25-30 (`var_os`); the home directory is `HOME`, src/runtime/command/mod.rs:402.
(Simplified: nothing is said of the reply of `std.env` for names that contain `=`; `getenv` of the C library finds `C` for the name `A=B` if `A` is
`B=C`.) -/
structure KeepsVariables (start : Bytes → Option Bytes) (w : World) : Prop where
  set : ∀ evs st k v h, w.native evs (bs "std.export") st [.string k, .string v] h = .value .nil
  get : ∀ evs st k h, (61 : UInt8) ∉ k → w.native evs (bs "std.env") st [.string k] h =
    .value (match environ start evs k with
      | some v => .string v
      | none => .nil)
  home : ∀ evs, w.home evs = environ start evs (bs "HOME")

end Hush

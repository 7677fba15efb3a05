import Verif.Model.Handles
import Verif.Spec.Reaping

/-!
The handles held by the shell, from what happened.
-/

namespace Hush
namespace Spec
namespace Handles
open Hush.Exec (Act Ev)
open Hush.Handles (Fd HEv erase)

/-- The handles made by the call with the given number: both ends of a pipe, a duplicate, or an open file. -/
def made (n : Nat) : Ev → List Fd
  | ⟨.pipe, true⟩ => [⟨n, false⟩, ⟨n, true⟩]
  | ⟨.dup _, true⟩ => [⟨n, false⟩]
  | ⟨.clone _, true⟩ => [⟨n, false⟩]
  | ⟨.openRead _, true⟩ => [⟨n, false⟩]
  | ⟨.openWrite _ _, true⟩ => [⟨n, false⟩]
  | _ => []

/-- The handles held after some more events: `n` calls were made before, and `fs` are held. -/
def heldFrom (n : Nat) (fs : List Fd) : List HEv → List Fd
  | [] => fs
  | .os e :: hs => heldFrom (n + 1) (fs ++ made n e) hs
  | .close f :: hs => heldFrom n (fs.filter (· ≠ f)) hs
  | .toThread f :: hs => heldFrom n (fs.filter (· ≠ f)) hs
  | .receive _ :: hs => heldFrom n fs hs

/-- The handles held by the shell, in the thread executing the block. -/
def held (hs : List HEv) : List Fd := heldFrom 0 [] hs

/-- Only handles that are held are closed or given away. -/
def Sound (hs : List HEv) : Prop :=
  ∀ a b f, (hs = a ++ .close f :: b ∨ hs = a ++ .toThread f :: b) → f ∈ held a

/-- The same handles. -/
def Same (a b : List Fd) : Prop := ∀ f, f ∈ a ↔ f ∈ b

end Handles
end Spec
end Hush

import Verif.Model.Capture

/-!
Specification for C76: what is seen of a run of a capture block.
-/

namespace Hush.Spec
open Hush Capture

/-- What is written to one of the two pipes from the block, in the order in which it is written. -/
def BlockOutput (s : Stream) (labels : List Label) : Bytes := labels.filterMap fun
  | .wrote s' b => if s' = s then some b else none
  | _ => none

/-- What process `i` of a pipeline sends to the next one. -/
def SentBy (i : Nat) (labels : List Label) : Bytes := labels.filterMap fun
  | .sent j b => if j = i then some b else none
  | _ => none

/-- What process `i` of a pipeline receives from the one before. -/
def ReceivedBy (i : Nat) (labels : List Label) : Bytes := labels.filterMap fun
  | .received j b => if j = i then some b else none
  | _ => none

end Hush.Spec

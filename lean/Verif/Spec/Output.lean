import Verif.Model.Output

/-!
Specification for C75: output in the order of the script.
-/

namespace Hush.Spec
open Hush Output

/-- The text of a value when it is printed: strings and bytes as they are, others as by `std.to_string`. -/
inductive PrintedAs (w : World) (h : Heap) : Value → Bytes → Prop where
  | string (s : Bytes) : PrintedAs w h (.string s) s
  | byte (b : UInt8) : PrintedAs w h (.byte b) [b]
  | other (v : Value) (t : Bytes) (n : Nat) : v.type ≠ .string → v.type ≠ .byte → Show.value w h n v = some t → PrintedAs w h v t

/-- Texts with tabs between them. -/
def Tabbed : List Bytes → Bytes
  | [] => []
  | [t] => t
  | t :: ts => t ++ 9 :: Tabbed ts

/-- What an action adds to the output; `true` marks what the script prints. -/
def Adds : Act → List (Bool × UInt8)
  | .write ps => ps.flatten.map (true, ·)
  | .flush => []
  | .command out => out.map (false, ·)
  | .replaced out => out.map (false, ·)

/-- The output of the actions one after the other. -/
def Sequential (acts : List Act) : List (Bool × UInt8) := acts.flatMap Adds

/-- What the script prints. -/
def Printed : List Act → Bytes
  | [] => []
  | .write ps :: acts => ps.flatten ++ Printed acts
  | _ :: acts => Printed acts

/-- The script is at the beginning of a line: what it printed, or what it printed after asking for input, is nothing or ends with a line end. -/
def AtLineStart (acts : List Act) : Prop :=
  ∃ p q, acts = p ++ q ∧ (p = [] ∨ p.getLast? = some .flush) ∧ (Printed q = [] ∨ (Printed q).getLast? = some 10)

/-- Whether commands write to the output in this action. -/
def ByCommands : Act → Bool
  | .command _ | .replaced _ => true
  | _ => false

end Hush.Spec

import Verif.Model.Program

/-!
Well-formed programs, stated on the program alone: every variable occurrence, down to the arguments of commands, is a slot
of the frame of its function; jumps are only where they can be obeyed.
-/

namespace Hush
namespace Spec
open Prog

/-- A point of a program: the size of the frame of the function around it, whether it is in a function at all, whether it is
in a loop of that function. -/
structure Site where
  slots : Nat
  inFn : Bool
  inLoop : Bool

/-- Slots mentioned by an argument unit. -/
def unitSlots : Prog.ArgUnit → List Nat
  | .dollar s _ => [s]
  | .literal _ => []

/-- Slots mentioned by a part of an argument. -/
def partSlots : Prog.ArgPart → List Nat
  | .unit u => unitSlots u
  | .collection items => items.flatMap unitSlots
  | _ => []

/-- Slots mentioned by an argument. -/
def argSlots (a : Prog.Argument) : List Nat := a.parts.flatMap partSlots

/-- Slots mentioned by a redirection. -/
def redirSlots : Prog.Redirection → List Nat
  | .output _ (.overwrite a) => argSlots a
  | .output _ (.append a) => argSlots a
  | .input _ a => argSlots a
  | .output _ (.fd _) => []

/-- Slots mentioned by an external command. -/
def basicSlots (c : Prog.BasicCommand) : List Nat :=
  argSlots c.program ++ c.env.flatMap (fun e => unitSlots e.1 ++ argSlots e.2) ++ c.arguments.flatMap argSlots ++
    c.redirections.flatMap redirSlots

/-- Slots mentioned by a pipeline or builtin. -/
def commandSlots : Prog.Command → List Nat
  | .builtin _ args _ _ => args.flatMap argSlots
  | .external head tail => (head :: tail).flatMap basicSlots

/-- Slots mentioned by a command block. -/
def blockSlots (b : Prog.CommandBlock) : List Nat := (b.head :: b.tail).flatMap commandSlots

/-- The frame of a function with `params` parameters whose literal is in a frame of `outer` slots: the parameters fit;
captured variables come from slots of the enclosing frame and go to slots of the frame that are neither parameters nor used
twice; `self` has a slot of its own. -/
structure FrameOk (outer params : Nat) (f : FrameInfo) : Prop where
  fits : params ≤ f.slots
  source : ∀ c ∈ f.captures, c.from_ < outer
  target : ∀ c ∈ f.captures, params ≤ c.to ∧ c.to < f.slots
  once : (f.captures.map (·.to)).Nodup
  self_ : ∀ s, f.selfSlot = some s → params ≤ s ∧ s < f.slots ∧ ∀ c ∈ f.captures, c.to ≠ s

mutual
/-- Expressions. -/
def ExprOk (c : Site) : Expr → Prop
  | .ident s _ => s < c.slots
  | .lit l _ => LitOk c l
  | .unary op e _ => (op = .try_ → c.inFn = true) ∧ ExprOk c e
  | .binary l _ r _ => ExprOk c l ∧ ExprOk c r
  | .if_ e t f _ => ExprOk c e ∧ BlockOk c t ∧ BlockOk c f
  | .access o f _ => ExprOk c o ∧ ExprOk c f
  | .call f es _ => ExprOk c f ∧ ExprsOk c es
  | .command b _ => ∀ s ∈ blockSlots b, s < c.slots
/-- Lists of expressions. -/
def ExprsOk (c : Site) : List Expr → Prop
  | [] => True
  | e :: es => ExprOk c e ∧ ExprsOk c es
/-- Literals. -/
def LitOk (c : Site) : Lit → Prop
  | .array es => ExprsOk c es
  | .dict fs => FieldsOk c fs
  | .function n f b => FrameOk c.slots n f ∧ BlockOk ⟨f.slots, true, false⟩ b
  | _ => True
/-- Items of dict literals. -/
def FieldsOk (c : Site) : List (Sym × Expr) → Prop
  | [] => True
  | (_, e) :: fs => ExprOk c e ∧ FieldsOk c fs
/-- Left sides of assignments. -/
def LvalueOk (c : Site) : Lvalue → Prop
  | .ident s _ => s < c.slots
  | .access o f _ => ExprOk c o ∧ ExprOk c f
/-- Statements. -/
def StmtOk (c : Site) : Stmt → Prop
  | .assign l r => LvalueOk c l ∧ ExprOk c r
  | .return_ e => c.inFn = true ∧ ExprOk c e
  | .break_ => c.inLoop = true
  | .while_ e b => ExprOk c e ∧ BlockOk { c with inLoop := true } b
  | .for_ s e b => s < c.slots ∧ ExprOk c e ∧ BlockOk { c with inLoop := true } b
  | .expr e => ExprOk c e
/-- Blocks. -/
def BlockOk (c : Site) : List Stmt → Prop
  | [] => True
  | s :: ss => StmtOk c s ∧ BlockOk c ss
end

/-- Programs: there is a slot for `std`. -/
def ProgramOk (p : Program) : Prop := 0 < p.rootSlots ∧ BlockOk ⟨p.rootSlots, false, false⟩ p.statements

end Spec
end Hush

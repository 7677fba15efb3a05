import Verif.Model.Ast

/-!
The program produced by static analysis: src/semantic/program/{mod,command,mem/mod}.rs. Variables are
slot indexes.
-/

namespace Hush
namespace Prog

/-- `mem::Capture`, src/semantic/program/mem/mod.rs:22-29. `SlotIx` (u32, 6-18) is an unbounded natural. -/
structure Capture where
  from_ : Nat
  to : Nat
deriving DecidableEq, Repr

/-- `mem::FrameInfo`, src/semantic/program/mem/mod.rs:32-41. -/
structure FrameInfo where
  slots : Nat
  captures : List Capture
  selfSlot : Option Nat
deriving DecidableEq, Repr

/-- `program::ArgUnit`, src/semantic/program/command.rs:7-15. -/
inductive ArgUnit where
  | literal (s : Bytes)
  | dollar (slot : Nat) (pos : Pos)
deriving DecidableEq, Repr

/-- `program::ArgPart`, src/semantic/program/command.rs:18-32. -/
inductive ArgPart where
  | unit (u : ArgUnit)
  | home
  | range (a b : Int)
  | collection (items : List ArgUnit)
  | star
  | percent
  | charClass (s : Bytes)
deriving DecidableEq, Repr

/-- `program::Argument`, src/semantic/program/command.rs:35-40. -/
structure Argument where
  parts : List ArgPart
  pos : Pos
deriving DecidableEq, Repr

/-- `program::RedirectionTarget`, src/semantic/program/command.rs:43-52. -/
inductive RedirectionTarget where
  | fd (n : Nat)
  | overwrite (a : Argument)
  | append (a : Argument)
deriving DecidableEq, Repr

/-- `program::Redirection`, src/semantic/program/command.rs:55-69. -/
inductive Redirection where
  | output (source : Nat) (target : RedirectionTarget)
  | input (literal : Bool) (source : Argument)
deriving DecidableEq, Repr

/-- `Builtin`, src/semantic/program/command.rs:72-80. -/
inductive Builtin where
  | alias | cd | exec | exec0 | spawn0
deriving DecidableEq, Repr

/-- `TryFrom<&[u8]> for Builtin`, src/semantic/program/command.rs:90-103: the names are the byte strings
`alias`, `cd`, `exec`, `exec0`, `spawn0`. -/
def Builtin.ofBytes (s : Bytes) : Option Builtin :=
  if s = [97, 108, 105, 97, 115] then some .alias
  else if s = [99, 100] then some .cd
  else if s = [101, 120, 101, 99] then some .exec
  else if s = [101, 120, 101, 99, 48] then some .exec0
  else if s = [115, 112, 97, 119, 110, 48] then some .spawn0
  else none

/-- `TryFrom<&ast::Argument> for Builtin`, src/semantic/program/command.rs:106-115: the argument must be
exactly one literal part. -/
def Builtin.ofArgument (a : Ast.Argument) : Option Builtin :=
  match a.parts with
  | [.unit (.literal lit)] => Builtin.ofBytes lit
  | _ => none

/-- `program::BasicCommand`, src/semantic/program/command.rs:118-128. -/
structure BasicCommand where
  program : Argument
  env : List (ArgUnit × Argument)
  arguments : List Argument
  redirections : List Redirection
  abortOnError : Bool
  pos : Pos
deriving DecidableEq, Repr

/-- `program::Command`, src/semantic/program/command.rs:131-144. -/
inductive Command where
  | builtin (program : Builtin) (arguments : List Argument) (abortOnError : Bool) (pos : Pos)
  | external (head : BasicCommand) (tail : List BasicCommand)
deriving DecidableEq, Repr

/-- `program::CommandBlock`, src/semantic/program/command.rs:147-153. The kinds (156-173) are those of
the syntax tree. -/
structure CommandBlock where
  kind : Ast.BlockKind
  head : Command
  tail : List Command
deriving DecidableEq, Repr

mutual
/-- `program::Expr`, src/semantic/program/mod.rs:135-181. The operators (59-131) are those of the syntax
tree. A block (24-25) is the list of its statements. -/
inductive Expr where
  | ident (slot : Nat) (pos : Pos)
  | lit (l : Lit) (pos : Pos)
  | unary (op : UnOp) (e : Expr) (pos : Pos)
  | binary (l : Expr) (op : BinOp) (r : Expr) (pos : Pos)
  | if_ (cond : Expr) (then_ : List Stmt) (else_ : List Stmt) (pos : Pos)
  | access (obj : Expr) (field : Expr) (pos : Pos)
  | call (f : Expr) (args : List Expr) (pos : Pos)
  | command (b : CommandBlock) (pos : Pos)
/-- `program::Literal`, src/semantic/program/mod.rs:37-57. -/
inductive Lit where
  | nil
  | bool (b : Bool)
  | int (i : Int)
  | float (text : Bytes)
  | byte (b : UInt8)
  | string (s : Bytes)
  | array (es : List Expr)
  | dict (items : List (Sym × Expr))
  | function (params : Nat) (frame : FrameInfo) (body : List Stmt)
  | ident (s : Sym)
/-- `program::Lvalue`, src/semantic/program/mod.rs:185-199. -/
inductive Lvalue where
  | ident (slot : Nat) (pos : Pos)
  | access (obj : Expr) (field : Expr) (pos : Pos)
/-- `program::Statement`, src/semantic/program/mod.rs:203-225. -/
inductive Stmt where
  | assign (l : Lvalue) (r : Expr)
  | return_ (e : Expr)
  | break_
  | while_ (cond : Expr) (body : List Stmt)
  | for_ (slot : Nat) (e : Expr) (body : List Stmt)
  | expr (e : Expr)
end

/-- Technical: Lean wants some element of the type; not part of src/. -/
instance : Inhabited Expr := ⟨.ident 0 ⟨0, 0⟩⟩
/-- Technical: Lean wants some element of the type; not part of src/. -/
instance : Inhabited Stmt := ⟨.break_⟩

/-- `Block`, src/semantic/program/mod.rs:24-25. -/
abbrev Block := List Stmt

end Prog

/-- `Program`, src/semantic/program/mod.rs:229-237 (the source path is dropped). -/
structure Program where
  statements : Prog.Block
  rootSlots : Nat

end Hush

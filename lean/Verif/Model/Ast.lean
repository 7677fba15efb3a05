import Verif.Model.Token

/-!
The abstract syntax tree: src/syntax/ast/mod.rs and src/syntax/ast/command.rs.
-/

namespace Hush

/-- `UnaryOp`, src/syntax/ast/mod.rs:150-154. -/
inductive UnOp where
  | minus | not | try_
deriving DecidableEq, Repr

/-- `From<lexer::Operator> for UnaryOp`, src/syntax/ast/mod.rs:165-174; `none` is the Rust panic "invalid operator". -/
def Operator.toUnary : Operator → Option UnOp
  | .minus => some .minus
  | .not => some .not
  | .try_ => some .try_
  | _ => none

/-- `BinaryOp`, src/syntax/ast/mod.rs:181-199. -/
inductive BinOp where
  | plus | minus | times | div | mod
  | equals | notEquals | greater | greaterEquals | lower | lowerEquals
  | and | or
  | concat
deriving DecidableEq, Repr

/-- `From<lexer::Operator> for BinaryOp`, src/syntax/ast/mod.rs:203-223; `none` is the Rust panic "invalid operator". -/
def Operator.toBinary : Operator → Option BinOp
  | .plus => some .plus
  | .minus => some .minus
  | .times => some .times
  | .div => some .div
  | .mod => some .mod
  | .equals => some .equals
  | .notEquals => some .notEquals
  | .greater => some .greater
  | .greaterEquals => some .greaterEquals
  | .lower => some .lower
  | .lowerEquals => some .lowerEquals
  | .and => some .and
  | .or => some .or
  | .concat => some .concat
  | _ => none

namespace Ast

/-- `ast::ArgPart`, src/syntax/ast/command.rs:60-63. Simplified: `ast::ArgUnit` and `ast::ArgExpansion`
(src/syntax/ast/command.rs:7-56) are copies of the lexer types, which are reused. -/
inductive ArgPart where
  | unit (u : ArgUnit)
  | expansion (e : ArgExpansion)
deriving DecidableEq, Repr

/-- `SourcePos::ill_formed`, src/syntax/ast/mod.rs:55-57. -/
def illPos : Pos := ⟨0, 0⟩

/-- `ast::Argument`, src/syntax/ast/command.rs:68-71. -/
structure Argument where
  parts : List ArgPart
  pos : Pos
deriving DecidableEq, Repr

/-- `RedirectionTarget`, src/syntax/ast/command.rs:91-98. -/
inductive RedirectionTarget where
  | fd (n : Nat)
  | overwrite (a : Argument)
  | append (a : Argument)
deriving DecidableEq, Repr

/-- `ast::Redirection`, src/syntax/ast/command.rs:103-117. -/
inductive Redirection where
  | illFormed
  | output (source : Nat) (target : RedirectionTarget)
  | input (literal : Bool) (source : Argument)
deriving DecidableEq, Repr

/-- `ast::BasicCommand`, src/syntax/ast/command.rs:133-141. -/
structure BasicCommand where
  program : Argument
  env : List (ArgUnit × Argument)
  arguments : List Argument
  redirections : List Redirection
  abortOnError : Bool
  pos : Pos
deriving DecidableEq, Repr

/-- `Argument::ill_formed`, src/syntax/ast/command.rs:74-80. -/
def Argument.illFormed : Argument := ⟨[], illPos⟩

/-- `BasicCommand::ill_formed`, src/syntax/ast/command.rs:144-154. -/
def BasicCommand.illFormed : BasicCommand := ⟨.illFormed, [], [], [], false, illPos⟩

/-- `ast::Command`, src/syntax/ast/command.rs:164-167. -/
structure Command where
  head : BasicCommand
  tail : List BasicCommand
deriving DecidableEq, Repr

/-- `Command::ill_formed`, src/syntax/ast/command.rs:170-176. -/
def Command.illFormed : Command := ⟨.illFormed, []⟩

/-- `CommandBlockKind`, src/syntax/ast/command.rs:208-212. -/
inductive BlockKind where
  | synchronous | asynchronous | capture
deriving DecidableEq, Repr

/-- `CommandBlockKind::from_token`, src/syntax/ast/command.rs:216-223. -/
def BlockKind.fromToken : TokenKind → Option BlockKind
  | .command => some .synchronous
  | .asyncCommand => some .asynchronous
  | .captureCommand => some .capture
  | _ => none

/-- `ast::CommandBlock`, src/syntax/ast/command.rs:186-190. -/
structure CommandBlock where
  kind : BlockKind
  head : Command
  tail : List Command
deriving DecidableEq, Repr

/-- `CommandBlock::ill_formed`, src/syntax/ast/command.rs:193-200. -/
def CommandBlock.illFormed : CommandBlock := ⟨.synchronous, .illFormed, []⟩

mutual
/-- `ast::Expr`, src/syntax/ast/mod.rs:228-272. A block (`ast::Block`, src/syntax/ast/mod.rs:73-76) is the list of
its statements: `Block::IllFormed` is never constructed (no parser result of type `Block` is synchronised). -/
inductive Expr where
  | illFormed
  | self_ (pos : Pos)
  | ident (s : Sym) (pos : Pos)
  | lit (l : Lit) (pos : Pos)
  | unary (op : UnOp) (e : Expr) (pos : Pos)
  | binary (l : Expr) (op : BinOp) (r : Expr) (pos : Pos)
  | if_ (cond : Expr) (then_ : List Stmt) (else_ : List Stmt) (pos : Pos)
  | access (obj : Expr) (field : Expr) (pos : Pos)
  | call (f : Expr) (args : List Expr) (pos : Pos)
  | command (b : CommandBlock) (pos : Pos)
/-- `ast::Literal`, src/syntax/ast/mod.rs:111-131. Float literals are kept as source text. -/
inductive Lit where
  | nil
  | bool (b : Bool)
  | int (i : Int)
  | float (text : Bytes)
  | byte (b : UInt8)
  | string (s : Bytes)
  | array (es : List Expr)
  | dict (items : List ((Sym × Pos) × Expr))
  | function (params : List (Sym × Pos)) (body : List Stmt)
  | ident (s : Sym)
/-- `ast::Statement`, src/syntax/ast/mod.rs:289-324. -/
inductive Stmt where
  | illFormed
  | let_ (x : Sym) (init : Expr) (pos : Pos)
  | assign (l r : Expr) (pos : Pos)
  | return_ (e : Expr) (pos : Pos)
  | break_ (pos : Pos)
  | while_ (cond : Expr) (body : List Stmt) (pos : Pos)
  | for_ (x : Sym) (e : Expr) (body : List Stmt) (pos : Pos)
  | expr (e : Expr)
end

/-- Technical: Lean wants some element of the type; not part of src/. -/
instance : Inhabited Expr := ⟨.illFormed⟩
/-- Technical: Lean wants some element of the type; not part of src/. -/
instance : Inhabited Stmt := ⟨.illFormed⟩

/-- `Block`, src/syntax/ast/mod.rs:78-83. -/
abbrev Block := List Stmt

/-- `From<lexer::Literal> for Literal`, src/syntax/ast/mod.rs:141-153. -/
def Lit.ofTok : TokLit → Lit
  | .nil => .nil
  | .true_ => .bool true
  | .false_ => .bool false
  | .int i => .int i
  | .float t => .float t
  | .byte b => .byte b
  | .string s => .string s

end Ast
end Hush

import Verif.Model.Scope
import Verif.Spec.Static

/-!
Renaming of the variables of a program (C85), on the syntax tree: declarations, parameters, loop variables and uses of variables, also in the arguments of commands.
The keys of dicts, the names of fields and literals are not variables.
-/

namespace Hush
namespace Spec
open Ast

/-- A renaming of variables: different names stay different, names become names, and `std` is kept. -/
structure Renaming (r : Sym → Sym) : Prop where
  inj : ∀ {x y}, UserName x → UserName y → r x = r y → x = y
  user : ∀ {x}, UserName x → UserName (r x)
  std : r (bs "std") = bs "std"

/-- The new name. The names of a script are not empty and do not contain `@`: for them this is the name that the renaming gives. (The empty name, which stands for a missing
identifier, is kept; in a name with `@`, which no script contains, the part before it is renamed.) -/
def renamed (r : Sym → Sym) (x : Sym) : Sym :=
  (if x.takeWhile (· ≠ 64) = [] then [] else r (x.takeWhile (· ≠ 64))) ++ x.dropWhile (· ≠ 64)

variable (r : Sym → Sym)

def renameUnit : ArgUnit → ArgUnit
  | .literal s => .literal s
  | .dollar x pos => .dollar (renamed r x) pos

def renamePart : Ast.ArgPart → Ast.ArgPart
  | .unit u => .unit (renameUnit r u)
  | .expansion (.collection items) => .expansion (.collection (items.map (renameUnit r)))
  | .expansion e => .expansion e

def renameArg (a : Ast.Argument) : Ast.Argument := { a with parts := a.parts.map (renamePart r) }

def renameRedirection : Ast.Redirection → Ast.Redirection
  | .output source (.overwrite a) => .output source (.overwrite (renameArg r a))
  | .output source (.append a) => .output source (.append (renameArg r a))
  | .input literal a => .input literal (renameArg r a)
  | x => x

def renameBasic (c : Ast.BasicCommand) : Ast.BasicCommand :=
  { c with
    program := renameArg r c.program
    env := c.env.map fun e => (renameUnit r e.1, renameArg r e.2)
    arguments := c.arguments.map (renameArg r)
    redirections := c.redirections.map (renameRedirection r) }

def renameCommand (c : Ast.Command) : Ast.Command := ⟨renameBasic r c.head, c.tail.map (renameBasic r)⟩

def renameCommands (b : Ast.CommandBlock) : Ast.CommandBlock := ⟨b.kind, renameCommand r b.head, b.tail.map (renameCommand r)⟩

mutual

def renameExpr : Ast.Expr → Ast.Expr
  | .illFormed => .illFormed
  | .self_ pos => .self_ pos
  | .ident x pos => .ident (renamed r x) pos
  | .lit l pos => .lit (renameLit l) pos
  | .unary op e pos => .unary op (renameExpr e) pos
  | .binary a op b pos => .binary (renameExpr a) op (renameExpr b) pos
  | .if_ c t e pos => .if_ (renameExpr c) (renameBlock t) (renameBlock e) pos
  | .access o f pos => .access (renameExpr o) (renameExpr f) pos
  | .call f args pos => .call (renameExpr f) (renameExprs args) pos
  | .command b pos => .command (renameCommands r b) pos

def renameExprs : List Ast.Expr → List Ast.Expr
  | [] => []
  | e :: es => renameExpr e :: renameExprs es

def renameLit : Ast.Lit → Ast.Lit
  | .array es => .array (renameExprs es)
  | .dict items => .dict (renameItems items)
  | .function params body => .function (params.map fun p => (renamed r p.1, p.2)) (renameBlock body)
  | .nil => .nil
  | .bool b => .bool b
  | .int i => .int i
  | .float t => .float t
  | .byte b => .byte b
  | .string s => .string s
  | .ident x => .ident x

def renameItems : List ((Sym × Pos) × Ast.Expr) → List ((Sym × Pos) × Ast.Expr)
  | [] => []
  | (key, e) :: items => (key, renameExpr e) :: renameItems items

def renameStmt : Ast.Stmt → Ast.Stmt
  | .illFormed => .illFormed
  | .let_ x e pos => .let_ (renamed r x) (renameExpr e) pos
  | .assign a b pos => .assign (renameExpr a) (renameExpr b) pos
  | .return_ e pos => .return_ (renameExpr e) pos
  | .break_ pos => .break_ pos
  | .while_ c b pos => .while_ (renameExpr c) (renameBlock b) pos
  | .for_ x e b pos => .for_ (renamed r x) (renameExpr e) (renameBlock b) pos
  | .expr e => .expr (renameExpr e)

def renameBlock : List Ast.Stmt → List Ast.Stmt
  | [] => []
  | s :: ss => renameStmt s :: renameBlock ss

end

/-- The errors about variables name them. -/
def renameError (e : SemError) : SemError :=
  { e with kind := match e.kind with
    | .undeclaredVariable x => .undeclaredVariable (renamed r x)
    | .duplicateVariable x => .duplicateVariable (renamed r x)
    | k => k }

end Spec
end Hush

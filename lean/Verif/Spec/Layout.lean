import Verif.Model.Parser
import Verif.Model.Analyzer

/-!
Positions (C87): tokens, syntax trees and programs with other positions.
-/

namespace Hush
namespace Spec

/-- A change of positions. The position that marks missing arguments is kept, and no other one becomes it. -/
structure Moving (f : Pos → Pos) : Prop where
  ill : f Ast.illPos = Ast.illPos
  only : ∀ {p}, f p = Ast.illPos → p = Ast.illPos

/-- Forget positions. -/
def flat (p : Pos) : Pos := if p = Ast.illPos then Ast.illPos else ⟨1, 0⟩

variable (f : Pos → Pos)

/-! ### Tokens -/

def moveUnit : ArgUnit → ArgUnit
  | .literal s => .literal s
  | .dollar x p => .dollar x (f p)

def moveExpansion : ArgExpansion → ArgExpansion
  | .home => .home
  | .range a b => .range a b
  | .collection us => .collection (us.map (moveUnit f))
  | .star => .star
  | .percent => .percent
  | .charClass s => .charClass s

def movePart : ArgPart → ArgPart
  | .unquoted u => .unquoted (moveUnit f u)
  | .singleQuoted s => .singleQuoted s
  | .doubleQuoted us => .doubleQuoted (us.map (moveUnit f))
  | .expansion e => .expansion (moveExpansion f e)
  | .envAssign => .envAssign

def moveKind : TokenKind → TokenKind
  | .argument ps => .argument (ps.map (movePart f))
  | k => k

def moveTok (t : Token) : Token := ⟨moveKind f t.kind, f t.pos⟩

def moveParseError : ParseError → ParseError
  | .unexpectedEof => .unexpectedEof
  | .unexpected t e => .unexpected (moveTok f t) e
  | .emptyCommandBlock p => .emptyCommandBlock (f p)

/-! ### Syntax trees -/

def moveAstPart : Ast.ArgPart → Ast.ArgPart
  | .unit u => .unit (moveUnit f u)
  | .expansion e => .expansion (moveExpansion f e)

def moveArg (a : Ast.Argument) : Ast.Argument := ⟨a.parts.map (moveAstPart f), f a.pos⟩

def moveRedirection : Ast.Redirection → Ast.Redirection
  | .illFormed => .illFormed
  | .output source (.fd n) => .output source (.fd n)
  | .output source (.overwrite a) => .output source (.overwrite (moveArg f a))
  | .output source (.append a) => .output source (.append (moveArg f a))
  | .input literal a => .input literal (moveArg f a)

def moveEnv (e : ArgUnit × Ast.Argument) : ArgUnit × Ast.Argument := (moveUnit f e.1, moveArg f e.2)

def moveBasic (c : Ast.BasicCommand) : Ast.BasicCommand :=
  ⟨moveArg f c.program, c.env.map (moveEnv f), c.arguments.map (moveArg f), c.redirections.map (moveRedirection f), c.abortOnError, f c.pos⟩

def moveCommand (c : Ast.Command) : Ast.Command := ⟨moveBasic f c.head, c.tail.map (moveBasic f)⟩

def moveCommands (b : Ast.CommandBlock) : Ast.CommandBlock := ⟨b.kind, moveCommand f b.head, b.tail.map (moveCommand f)⟩

def moveIdent (x : Sym × Pos) : Sym × Pos := (x.1, f x.2)

mutual

def moveExpr : Ast.Expr → Ast.Expr
  | .illFormed => .illFormed
  | .self_ p => .self_ (f p)
  | .ident x p => .ident x (f p)
  | .lit l p => .lit (moveLit l) (f p)
  | .unary op e p => .unary op (moveExpr e) (f p)
  | .binary a op b p => .binary (moveExpr a) op (moveExpr b) (f p)
  | .if_ c t e p => .if_ (moveExpr c) (moveBlock t) (moveBlock e) (f p)
  | .access o i p => .access (moveExpr o) (moveExpr i) (f p)
  | .call g args p => .call (moveExpr g) (moveExprs args) (f p)
  | .command b p => .command (moveCommands f b) (f p)

def moveExprs : List Ast.Expr → List Ast.Expr
  | [] => []
  | e :: es => moveExpr e :: moveExprs es

def moveLit : Ast.Lit → Ast.Lit
  | .array es => .array (moveExprs es)
  | .dict items => .dict (moveItems items)
  | .function params body => .function (params.map (moveIdent f)) (moveBlock body)
  | .nil => .nil
  | .bool b => .bool b
  | .int i => .int i
  | .float t => .float t
  | .byte b => .byte b
  | .string s => .string s
  | .ident x => .ident x

def moveItems : List ((Sym × Pos) × Ast.Expr) → List ((Sym × Pos) × Ast.Expr)
  | [] => []
  | (key, e) :: items => (moveIdent f key, moveExpr e) :: moveItems items

def moveStmt : Ast.Stmt → Ast.Stmt
  | .illFormed => .illFormed
  | .let_ x e p => .let_ x (moveExpr e) (f p)
  | .assign a b p => .assign (moveExpr a) (moveExpr b) (f p)
  | .return_ e p => .return_ (moveExpr e) (f p)
  | .break_ p => .break_ (f p)
  | .while_ c b p => .while_ (moveExpr c) (moveBlock b) (f p)
  | .for_ x e b p => .for_ x (moveExpr e) (moveBlock b) (f p)
  | .expr e => .expr (moveExpr e)

def moveBlock : List Ast.Stmt → List Ast.Stmt
  | [] => []
  | s :: ss => moveStmt s :: moveBlock ss

end

/-! ### Programs -/

def placeUnit : Prog.ArgUnit → Prog.ArgUnit
  | .literal s => .literal s
  | .dollar n p => .dollar n (f p)

def placePart : Prog.ArgPart → Prog.ArgPart
  | .unit u => .unit (placeUnit f u)
  | .home => .home
  | .range a b => .range a b
  | .collection us => .collection (us.map (placeUnit f))
  | .star => .star
  | .percent => .percent
  | .charClass s => .charClass s

def placeArg (a : Prog.Argument) : Prog.Argument := ⟨a.parts.map (placePart f), f a.pos⟩

def placeRedirection : Prog.Redirection → Prog.Redirection
  | .output source (.fd n) => .output source (.fd n)
  | .output source (.overwrite a) => .output source (.overwrite (placeArg f a))
  | .output source (.append a) => .output source (.append (placeArg f a))
  | .input literal a => .input literal (placeArg f a)

def placeEnv (e : Prog.ArgUnit × Prog.Argument) : Prog.ArgUnit × Prog.Argument := (placeUnit f e.1, placeArg f e.2)

def placeBasic (c : Prog.BasicCommand) : Prog.BasicCommand :=
  ⟨placeArg f c.program, c.env.map (placeEnv f), c.arguments.map (placeArg f), c.redirections.map (placeRedirection f), c.abortOnError, f c.pos⟩

def placeCommand : Prog.Command → Prog.Command
  | .builtin b args abort p => .builtin b (args.map (placeArg f)) abort (f p)
  | .external h t => .external (placeBasic f h) (t.map (placeBasic f))

def placeCommands (b : Prog.CommandBlock) : Prog.CommandBlock := ⟨b.kind, placeCommand f b.head, b.tail.map (placeCommand f)⟩

mutual

def placeExpr : Prog.Expr → Prog.Expr
  | .ident n p => .ident n (f p)
  | .lit l p => .lit (placeLit l) (f p)
  | .unary op e p => .unary op (placeExpr e) (f p)
  | .binary a op b p => .binary (placeExpr a) op (placeExpr b) (f p)
  | .if_ c t e p => .if_ (placeExpr c) (placeBlock t) (placeBlock e) (f p)
  | .access o i p => .access (placeExpr o) (placeExpr i) (f p)
  | .call g args p => .call (placeExpr g) (placeExprs args) (f p)
  | .command b p => .command (placeCommands f b) (f p)

def placeExprs : List Prog.Expr → List Prog.Expr
  | [] => []
  | e :: es => placeExpr e :: placeExprs es

def placeLit : Prog.Lit → Prog.Lit
  | .array es => .array (placeExprs es)
  | .dict items => .dict (placeItems items)
  | .function params frame body => .function params frame (placeBlock body)
  | .nil => .nil
  | .bool b => .bool b
  | .int i => .int i
  | .float t => .float t
  | .byte b => .byte b
  | .string s => .string s
  | .ident x => .ident x

def placeItems : List (Sym × Prog.Expr) → List (Sym × Prog.Expr)
  | [] => []
  | (key, e) :: items => (key, placeExpr e) :: placeItems items

def placeLvalue : Prog.Lvalue → Prog.Lvalue
  | .ident n p => .ident n (f p)
  | .access o i p => .access (placeExpr o) (placeExpr i) (f p)

def placeStmt : Prog.Stmt → Prog.Stmt
  | .assign l e => .assign (placeLvalue l) (placeExpr e)
  | .return_ e => .return_ (placeExpr e)
  | .break_ => .break_
  | .while_ c b => .while_ (placeExpr c) (placeBlock b)
  | .for_ n e b => .for_ n (placeExpr e) (placeBlock b)
  | .expr e => .expr (placeExpr e)

def placeBlock : List Prog.Stmt → List Prog.Stmt
  | [] => []
  | s :: ss => placeStmt s :: placeBlock ss

end

def moveSemError (e : SemError) : SemError := ⟨e.kind, f e.pos⟩

def moveResult : AnalysisResult → AnalysisResult
  | .ok p => .ok ⟨placeBlock f p.statements, p.rootSlots⟩
  | .errors es => .errors (es.map (moveSemError f))
  | .crash => .crash

end Spec
end Hush

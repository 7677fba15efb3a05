import Mathlib.Data.List.Forall2
import Verif.Spec.Static

/-!
Programs that differ only in the choice of names (C86): declarations are in the same places, and every use of a variable means the same declaration. The names of two
variables can be the same in one program and different in the other.
-/

namespace Hush
namespace Spec
open Ast

/-- The declarations that are visible in two programs: for every enclosing function (innermost first), for every open scope (innermost first), the names of each variable in the
two programs (latest first). -/
abbrev Bound := List (List (List (Sym × Sym)))

/-- The names mean the same declaration: the latest one that has either name has both. -/
inductive SameVar : List (Sym × Sym) → Sym → Sym → Prop
  | here (x x' l) : SameVar ((x, x') :: l) x x'
  | there {x x' y y' l} : x ≠ y → x' ≠ y' → SameVar l x x' → SameVar ((y, y') :: l) x x'

namespace Bound

/-- Uses of a variable. -/
def Uses (g : Bound) (x x' : Sym) : Prop := UserName x ∧ UserName x' ∧ SameVar g.flatten.flatten x x'

/-- The names are not yet declared in the innermost scope. -/
def Fresh (g : Bound) (x x' : Sym) : Prop :=
  UserName x ∧ UserName x' ∧ ∀ s f fs, g = (s :: f) :: fs → ∀ p ∈ s, x ≠ p.1 ∧ x' ≠ p.2

/-- After a declaration in the innermost scope. -/
def declare (x x' : Sym) : Bound → Bound
  | (s :: f) :: fs => (((x, x') :: s) :: f) :: fs
  | g => g

/-- Inside a nested block. -/
def block : Bound → Bound
  | f :: fs => ([] :: f) :: fs
  | [] => []

/-- Inside a function, before its parameters are declared. -/
def function (g : Bound) : Bound := [[]] :: g

/-- At the beginning of a program. -/
def root : Bound := [[[(bs "std", bs "std")]]]

end Bound

inductive AlphaUnit (g : Bound) : ArgUnit → ArgUnit → Prop
  | literal (s) : AlphaUnit g (.literal s) (.literal s)
  | dollar {x x'} (p) : g.Uses x x' → AlphaUnit g (.dollar x p) (.dollar x' p)

inductive AlphaPart (g : Bound) : Ast.ArgPart → Ast.ArgPart → Prop
  | unit {u u'} : AlphaUnit g u u' → AlphaPart g (.unit u) (.unit u')
  | collection {us us'} : List.Forall₂ (AlphaUnit g) us us' → AlphaPart g (.expansion (.collection us)) (.expansion (.collection us'))
  | home : AlphaPart g (.expansion .home) (.expansion .home)
  | range (a b) : AlphaPart g (.expansion (.range a b)) (.expansion (.range a b))
  | star : AlphaPart g (.expansion .star) (.expansion .star)
  | percent : AlphaPart g (.expansion .percent) (.expansion .percent)
  | charClass (s) : AlphaPart g (.expansion (.charClass s)) (.expansion (.charClass s))

structure AlphaArg (g : Bound) (a a' : Ast.Argument) : Prop where
  pos : a.pos = a'.pos
  parts : List.Forall₂ (AlphaPart g) a.parts a'.parts

inductive AlphaRedirection (g : Bound) : Ast.Redirection → Ast.Redirection → Prop
  | illFormed : AlphaRedirection g .illFormed .illFormed
  | fd (n m) : AlphaRedirection g (.output n (.fd m)) (.output n (.fd m))
  | overwrite {a a'} (n) : AlphaArg g a a' → AlphaRedirection g (.output n (.overwrite a)) (.output n (.overwrite a'))
  | append {a a'} (n) : AlphaArg g a a' → AlphaRedirection g (.output n (.append a)) (.output n (.append a'))
  | input {a a'} (b) : AlphaArg g a a' → AlphaRedirection g (.input b a) (.input b a')

structure AlphaBasic (g : Bound) (c c' : Ast.BasicCommand) : Prop where
  program : AlphaArg g c.program c'.program
  env : List.Forall₂ (fun e e' => AlphaUnit g e.1 e'.1 ∧ AlphaArg g e.2 e'.2) c.env c'.env
  arguments : List.Forall₂ (AlphaArg g) c.arguments c'.arguments
  redirections : List.Forall₂ (AlphaRedirection g) c.redirections c'.redirections
  abortOnError : c.abortOnError = c'.abortOnError
  pos : c.pos = c'.pos

structure AlphaCommand (g : Bound) (c c' : Ast.Command) : Prop where
  head : AlphaBasic g c.head c'.head
  tail : List.Forall₂ (AlphaBasic g) c.tail c'.tail

structure AlphaCommands (g : Bound) (b b' : Ast.CommandBlock) : Prop where
  kind : b.kind = b'.kind
  head : AlphaCommand g b.head b'.head
  tail : List.Forall₂ (AlphaCommand g) b.tail b'.tail

/-- The parameters of functions, with the declarations before and after them. -/
inductive AlphaParams : Bound → List (Sym × Pos) → List (Sym × Pos) → Bound → Prop
  | nil (g) : AlphaParams g [] [] g
  | cons {g g' : Bound} {x x' p ps ps'} : g.Fresh x x' → AlphaParams (g.declare x x') ps ps' g' → AlphaParams g ((x, p) :: ps) ((x', p) :: ps') g'

mutual

inductive AlphaExpr : Bound → Ast.Expr → Ast.Expr → Prop
  | illFormed (g) : AlphaExpr g .illFormed .illFormed
  | self_ (g p) : AlphaExpr g (.self_ p) (.self_ p)
  | ident {g : Bound} {x x'} (p) : g.Uses x x' → AlphaExpr g (.ident x p) (.ident x' p)
  | lit {g l l'} (p) : AlphaLit g l l' → AlphaExpr g (.lit l p) (.lit l' p)
  | unary {g e e'} (op p) : AlphaExpr g e e' → AlphaExpr g (.unary op e p) (.unary op e' p)
  | binary {g a a' b b'} (op p) : AlphaExpr g a a' → AlphaExpr g b b' → AlphaExpr g (.binary a op b p) (.binary a' op b' p)
  | if_ {g c c' t t' e e'} (p) : AlphaExpr g c c' → AlphaBlock g.block t t' → AlphaBlock g.block e e' → AlphaExpr g (.if_ c t e p) (.if_ c' t' e' p)
  | access {g a a' b b'} (p) : AlphaExpr g a a' → AlphaExpr g b b' → AlphaExpr g (.access a b p) (.access a' b' p)
  | call {g a a' b b'} (p) : AlphaExpr g a a' → AlphaExprs g b b' → AlphaExpr g (.call a b p) (.call a' b' p)
  | command {g b b'} (p) : AlphaCommands g b b' → AlphaExpr g (.command b p) (.command b' p)

inductive AlphaExprs : Bound → List Ast.Expr → List Ast.Expr → Prop
  | nil (g) : AlphaExprs g [] []
  | cons {g e e' es es'} : AlphaExpr g e e' → AlphaExprs g es es' → AlphaExprs g (e :: es) (e' :: es')

/-- Keys of dicts and names of fields are not variables. -/
inductive AlphaLit : Bound → Ast.Lit → Ast.Lit → Prop
  | nil (g) : AlphaLit g .nil .nil
  | bool (g b) : AlphaLit g (.bool b) (.bool b)
  | int (g i) : AlphaLit g (.int i) (.int i)
  | float (g t) : AlphaLit g (.float t) (.float t)
  | byte (g b) : AlphaLit g (.byte b) (.byte b)
  | string (g s) : AlphaLit g (.string s) (.string s)
  | ident (g x) : AlphaLit g (.ident x) (.ident x)
  | array {g es es'} : AlphaExprs g es es' → AlphaLit g (.array es) (.array es')
  | dict {g is is'} : AlphaItems g is is' → AlphaLit g (.dict is) (.dict is')
  | function {g g' ps ps' b b'} : AlphaParams g.function ps ps' g' → AlphaBlock g' b b' → AlphaLit g (.function ps b) (.function ps' b')

inductive AlphaItems : Bound → List ((Sym × Pos) × Ast.Expr) → List ((Sym × Pos) × Ast.Expr) → Prop
  | nil (g) : AlphaItems g [] []
  | cons {g e e' is is'} (key) : AlphaExpr g e e' → AlphaItems g is is' → AlphaItems g ((key, e) :: is) ((key, e') :: is')

/-- Statements, with the declarations after them. The initial value of a variable can use the variable. -/
inductive AlphaStmt : Bound → Ast.Stmt → Ast.Stmt → Bound → Prop
  | illFormed (g) : AlphaStmt g .illFormed .illFormed g
  | let_ {g : Bound} {x x' e e'} (p) : g.Fresh x x' → AlphaExpr (g.declare x x') e e' → AlphaStmt g (.let_ x e p) (.let_ x' e' p) (g.declare x x')
  | assign {g a a' b b'} (p) : AlphaExpr g a a' → AlphaExpr g b b' → AlphaStmt g (.assign a b p) (.assign a' b' p) g
  | return_ {g e e'} (p) : AlphaExpr g e e' → AlphaStmt g (.return_ e p) (.return_ e' p) g
  | break_ (g p) : AlphaStmt g (.break_ p) (.break_ p) g
  | while_ {g c c' b b'} (p) : AlphaExpr g c c' → AlphaBlock g.block b b' → AlphaStmt g (.while_ c b p) (.while_ c' b' p) g
  | for_ {g : Bound} {x x' e e' b b'} (p) : AlphaExpr g e e' → UserName x → UserName x' → AlphaBlock (g.block.declare x x') b b' →
      AlphaStmt g (.for_ x e b p) (.for_ x' e' b' p) g
  | expr {g e e'} : AlphaExpr g e e' → AlphaStmt g (.expr e) (.expr e') g

inductive AlphaBlock : Bound → List Ast.Stmt → List Ast.Stmt → Prop
  | nil (g) : AlphaBlock g [] []
  | cons {g g' s s' ss ss'} : AlphaStmt g s s' g' → AlphaBlock g' ss ss' → AlphaBlock g (s :: ss) (s' :: ss')

end

end Spec
end Hush

import Verif.Model.Program
import Mathlib.Data.List.Forall2

/-!
What it means that a program with slots is a correct translation of a syntax tree, stated independently of the analyser:
every occurrence of a variable has the slot of the innermost enclosing declaration of its name, in the frame of its
function; a variable of an enclosing function is reached through a capture of its slot there; different declarations
of a function have different slots.
-/

namespace Hush
namespace Spec

/-- The variables of a function at some point of its body: the slots of the names declared so far in each of its
open scopes (innermost scope first), and the description of its frame. -/
structure FrameEnv where
  scopes : List (List (Sym × Nat))
  info : Prog.FrameInfo

/-- The slot of the innermost declaration of a name in the function itself. -/
def FrameEnv.lookup (f : FrameEnv) (x : Sym) : Option Nat := f.scopes.findSome? (fun s => s.lookup x)

/-- `Refers fs x s`: for functions `fs` (innermost first), the name `x` in the innermost one means its slot `s`: that
of its own innermost declaration, or, if it has none, a slot captured from what the name means in the
enclosing function. -/
inductive Refers : List FrameEnv → Sym → Nat → Prop
  | own {f fs x s} : f.lookup x = some s → Refers (f :: fs) x s
  | captured {f fs x p s} : f.lookup x = none → Refers fs x p → ⟨p, s⟩ ∈ f.info.captures → Refers (f :: fs) x s

/-- A point of a program: the functions around it, whether it is in a function and in a loop of that function. -/
structure Env where
  frames : List FrameEnv
  inFn : Bool
  inLoop : Bool

/-- In a nested scope. -/
def Env.block (c : Env) : Env :=
  match c.frames with
  | [] => c
  | f :: fs => { c with frames := { f with scopes := [] :: f.scopes } :: fs }

/-- After a declaration in the innermost scope. -/
def Env.declare (c : Env) (x : Sym) (slot : Nat) : Env :=
  match c.frames with
  | [] => c
  | f :: fs =>
    match f.scopes with
    | [] => c
    | s :: ss => { c with frames := { f with scopes := ((x, slot) :: s) :: ss } :: fs }

/-- In the body of a loop. -/
def Env.loop (c : Env) : Env := { c.block with inLoop := true }

/-- The scope of parameters: their slots are 0, 1, 2, ... -/
def paramScope (ps : List (Sym × Pos)) : List (Sym × Nat) := (ps.map (·.1)).zipIdx.reverse

/-- In the body of a function. -/
def Env.function (c : Env) (ps : List (Sym × Pos)) (info : Prog.FrameInfo) : Env :=
  ⟨⟨[paramScope ps], info⟩ :: c.frames, true, false⟩

/-! ### Commands -/

/-- Argument units. -/
inductive UnitTo (fs : List FrameEnv) : ArgUnit → Prog.ArgUnit → Prop
  | literal (s) : UnitTo fs (.literal s) (.literal s)
  | dollar {x s} (pos) : Refers fs x s → UnitTo fs (.dollar x pos) (.dollar s pos)

/-- Argument parts. -/
inductive PartTo (fs : List FrameEnv) : Ast.ArgPart → Prog.ArgPart → Prop
  | unit {u u'} : UnitTo fs u u' → PartTo fs (.unit u) (.unit u')
  | home : PartTo fs (.expansion .home) .home
  | range (a b) : PartTo fs (.expansion (.range a b)) (.range a b)
  | collection {us us'} : List.Forall₂ (UnitTo fs) us us' → PartTo fs (.expansion (.collection us)) (.collection us')
  | star : PartTo fs (.expansion .star) .star
  | percent : PartTo fs (.expansion .percent) .percent
  | charClass (s) : PartTo fs (.expansion (.charClass s)) (.charClass s)

/-- Arguments. -/
def ArgTo (fs : List FrameEnv) (a : Ast.Argument) (b : Prog.Argument) : Prop :=
  List.Forall₂ (PartTo fs) a.parts b.parts ∧ b.pos = a.pos

/-- Redirections. -/
inductive RedirTo (fs : List FrameEnv) : Ast.Redirection → Prog.Redirection → Prop
  | fd (n m) : RedirTo fs (.output n (.fd m)) (.output n (.fd m))
  | overwrite {a b} (n) : ArgTo fs a b → RedirTo fs (.output n (.overwrite a)) (.output n (.overwrite b))
  | append {a b} (n) : ArgTo fs a b → RedirTo fs (.output n (.append a)) (.output n (.append b))
  | input {a b} (l) : ArgTo fs a b → RedirTo fs (.input l a) (.input l b)

/-- One external command. -/
def BasicTo (fs : List FrameEnv) (a : Ast.BasicCommand) (b : Prog.BasicCommand) : Prop :=
  ArgTo fs a.program b.program ∧
  List.Forall₂ (fun x y => UnitTo fs x.1 y.1 ∧ ArgTo fs x.2 y.2) a.env b.env ∧
  List.Forall₂ (ArgTo fs) a.arguments b.arguments ∧
  List.Forall₂ (RedirTo fs) a.redirections b.redirections ∧
  b.abortOnError = a.abortOnError ∧ b.pos = a.pos

/-- The names of the builtin commands. -/
def builtinName : Prog.Builtin → Bytes
  | .alias => "alias".toUTF8.toList
  | .cd => "cd".toUTF8.toList
  | .exec => "exec".toUTF8.toList
  | .exec0 => "exec0".toUTF8.toList
  | .spawn0 => "spawn0".toUTF8.toList

/-- Pipelines and builtin commands. -/
inductive CommandTo (fs : List FrameEnv) : Ast.Command → Prog.Command → Prop
  | builtin {a b args} : a.parts = [.unit (.literal (builtinName b))] → {as : List Ast.Argument} →
      List.Forall₂ (ArgTo fs) as args → (env abort pos : _) →
      CommandTo fs ⟨⟨a, env, as, [], abort, pos⟩, []⟩ (.builtin b args abort pos)
  | external {a b as bs} : BasicTo fs a b → List.Forall₂ (BasicTo fs) as bs → CommandTo fs ⟨a, as⟩ (.external b bs)

/-- Command blocks. -/
def CommandBlockTo (fs : List FrameEnv) (a : Ast.CommandBlock) (b : Prog.CommandBlock) : Prop :=
  b.kind = a.kind ∧ CommandTo fs a.head b.head ∧ List.Forall₂ (CommandTo fs) a.tail b.tail

/-! ### Expressions and statements -/

/-- A piece of a syntax tree with its translation. -/
inductive Code where
  | expr (a : Ast.Expr) (p : Prog.Expr)
  | exprs (a : List Ast.Expr) (p : List Prog.Expr)
  | lit (a : Ast.Lit) (p : Prog.Lit)
  | fields (a : List ((Sym × Pos) × Ast.Expr)) (p : List (Sym × Prog.Expr))
  | lvalue (a : Ast.Expr) (p : Prog.Lvalue)
  | stmt (a : Ast.Stmt) (p : Prog.Stmt)
  | block (a : List Ast.Stmt) (p : List Prog.Stmt)

/-- `Translates c code D`: at point `c` the code is translated correctly, and `D` are the slots of the declarations
that it contains, in order (not counting those of functions in it, which have frames of their own). -/
inductive Translates : Env → Code → List Nat → Prop
  | self_ {c f fs s} (pos) : c.inFn = true → c.frames = f :: fs → f.info.selfSlot = some s →
      Translates c (.expr (.self_ pos) (.ident s pos)) []
  | ident {c x s} (pos) : Refers c.frames x s → Translates c (.expr (.ident x pos) (.ident s pos)) []
  | lit {c a p D} (pos) : Translates c (.lit a p) D → Translates c (.expr (.lit a pos) (.lit p pos)) D
  | unary {c e e' D} (op pos) : (op = .try_ → c.inFn = true) → Translates c (.expr e e') D →
      Translates c (.expr (.unary op e pos) (.unary op e' pos)) D
  | binary {c l l' r r' D₁ D₂} (op pos) : Translates c (.expr l l') D₁ → Translates c (.expr r r') D₂ →
      Translates c (.expr (.binary l op r pos) (.binary l' op r' pos)) (D₁ ++ D₂)
  | if_ {c e e' t t' f f' D₁ D₂ D₃} (pos) : Translates c (.expr e e') D₁ → Translates c.block (.block t t') D₂ →
      Translates c.block (.block f f') D₃ →
      Translates c (.expr (.if_ e t f pos) (.if_ e' t' f' pos)) (D₁ ++ (D₂ ++ D₃))
  | access {c o o' f f' D₁ D₂} (pos) : Translates c (.expr o o') D₁ → Translates c (.expr f f') D₂ →
      Translates c (.expr (.access o f pos) (.access o' f' pos)) (D₁ ++ D₂)
  | call {c f f' es es' D₁ D₂} (pos) : Translates c (.expr f f') D₁ → Translates c (.exprs es es') D₂ →
      Translates c (.expr (.call f es pos) (.call f' es' pos)) (D₁ ++ D₂)
  | command {c b b'} (pos) : CommandBlockTo c.frames b b' → Translates c (.expr (.command b pos) (.command b' pos)) []
  | noExprs (c) : Translates c (.exprs [] []) []
  | exprs {c e e' es es' D₁ D₂} : Translates c (.expr e e') D₁ → Translates c (.exprs es es') D₂ →
      Translates c (.exprs (e :: es) (e' :: es')) (D₁ ++ D₂)
  | nil (c) : Translates c (.lit .nil .nil) []
  | bool (c b) : Translates c (.lit (.bool b) (.bool b)) []
  | int (c i) : Translates c (.lit (.int i) (.int i)) []
  | float (c t) : Translates c (.lit (.float t) (.float t)) []
  | byte (c b) : Translates c (.lit (.byte b) (.byte b)) []
  | string (c s) : Translates c (.lit (.string s) (.string s)) []
  | key (c s) : Translates c (.lit (.ident s) (.ident s)) []
  | array {c es es' D} : Translates c (.exprs es es') D → Translates c (.lit (.array es) (.array es')) D
  | dict {c fs fs' D} : Translates c (.fields fs fs') D → Translates c (.lit (.dict fs) (.dict fs')) D
  | function {c ps b b' info D} : Translates (c.function ps info) (.block b b') D →
      (List.range ps.length ++ D ++ info.captures.map (·.to) ++ info.selfSlot.toList).Nodup →
      (∀ s ∈ List.range ps.length ++ D ++ info.captures.map (·.to) ++ info.selfSlot.toList, s < info.slots) →
      (∀ k ∈ info.captures, ∃ x, Refers c.frames x k.from_) →
      Translates c (.lit (.function ps b) (.function ps.length info b')) []
  | noFields (c) : Translates c (.fields [] []) []
  | fields {c e e' fs fs' D₁ D₂} (k pos) : Translates c (.expr e e') D₁ → Translates c (.fields fs fs') D₂ →
      Translates c (.fields (((k, pos), e) :: fs) ((k, e') :: fs')) (D₁ ++ D₂)
  | lvar {c x s} (pos) : Refers c.frames x s → Translates c (.lvalue (.ident x pos) (.ident s pos)) []
  | laccess {c o o' f f' D₁ D₂} (pos) : Translates c (.expr o o') D₁ → Translates c (.expr f f') D₂ →
      Translates c (.lvalue (.access o f pos) (.access o' f' pos)) (D₁ ++ D₂)
  | assign {c l l' r r' D₁ D₂} (pos) : Translates c (.lvalue l l') D₁ → Translates c (.expr r r') D₂ →
      Translates c (.stmt (.assign l r pos) (.assign l' r')) (D₁ ++ D₂)
  | return_ {c e e' D} (pos) : c.inFn = true → Translates c (.expr e e') D →
      Translates c (.stmt (.return_ e pos) (.return_ e')) D
  | break_ {c} (pos) : c.inLoop = true → Translates c (.stmt (.break_ pos) .break_) []
  | while_ {c e e' b b' D₁ D₂} (pos) : Translates c (.expr e e') D₁ → Translates c.loop (.block b b') D₂ →
      Translates c (.stmt (.while_ e b pos) (.while_ e' b')) (D₁ ++ D₂)
  | for_ {c e e' b b' s D₁ D₂} (x pos) : Translates c (.expr e e') D₁ →
      Translates (c.loop.declare x s) (.block b b') D₂ →
      Translates c (.stmt (.for_ x e b pos) (.for_ s e' b')) (D₁ ++ s :: D₂)
  | expr {c e e' D} : Translates c (.expr e e') D → Translates c (.stmt (.expr e) (.expr e')) D
  | noStmts (c) : Translates c (.block [] []) []
  | let_ {c e e' ss ss' s D₁ D₂} (x pos) : Translates (c.declare x s) (.expr e e') D₁ →
      Translates (c.declare x s) (.block ss ss') D₂ →
      Translates c (.block (.let_ x e pos :: ss) (.assign (.ident s pos) e' :: ss')) (s :: (D₁ ++ D₂))
  | stmts {c s s' ss ss' D₁ D₂} : Translates c (.stmt s s') D₁ → Translates c (.block ss ss') D₂ →
      Translates c (.block (s :: ss) (s' :: ss')) (D₁ ++ D₂)

/-- The point at the start of a module with the given frame: `std` is in slot 0. -/
def rootEnv (info : Prog.FrameInfo) : Env := ⟨[⟨[[("std".toUTF8.toList, 0)]], info⟩], false, false⟩

/-- A module is translated correctly. (A module has no enclosing function to capture from, and its slot of `self` is of no
consequence, because `self` occurs only in functions.) -/
def TranslatesProgram (b : Ast.Block) (p : Program) : Prop :=
  ∃ info D, info.slots = p.rootSlots ∧ info.captures = [] ∧
    Translates (rootEnv info) (.block b p.statements) D ∧ (0 :: D).Nodup ∧ ∀ s ∈ 0 :: D, s < p.rootSlots

end Spec
end Hush

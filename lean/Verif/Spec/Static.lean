import Verif.Model.Ast

/-!
The static rules of the language, stated on the syntax tree and independently of the analyser: which nodes
occur in a program, in which context, and what must hold of a node in its context.
-/

namespace Hush
namespace Spec
open Ast

/-- What a node of the syntax tree knows about its surroundings: the names declared so far in each enclosing scope
(innermost scope first), and whether it is inside a function, and inside a loop of that function. -/
structure Ctx where
  scopes : List (List Sym)
  inFn : Bool
  inLoop : Bool

namespace Ctx

/-- The context of a whole program: one scope, declaring `std`. -/
def root : Ctx := ⟨[[[115, 116, 100]]], false, false⟩

/-- Some enclosing scope declares the name. -/
def Declares (c : Ctx) (x : Sym) : Prop := ∃ s ∈ c.scopes, x ∈ s

/-- The innermost scope declares the name. -/
def DeclaresHere (c : Ctx) (x : Sym) : Prop := ∃ s, c.scopes.head? = some s ∧ x ∈ s

/-- After a declaration in the innermost scope. -/
def declare (c : Ctx) (x : Sym) : Ctx :=
  match c.scopes with
  | [] => c
  | s :: rest => { c with scopes := (x :: s) :: rest }

/-- Inside a nested block. -/
def block (c : Ctx) : Ctx := { c with scopes := [] :: c.scopes }

/-- Inside the body of a loop. -/
def loop (c : Ctx) : Ctx := { c.block with inLoop := true }

/-- Inside a function with the given parameters (loops outside the function do not count). -/
def function (c : Ctx) (params : List Sym) : Ctx := ⟨params.reverse :: c.scopes, true, false⟩

end Ctx

/-- The nodes of a syntax tree. -/
inductive Node where
  | expr (e : Expr)
  | stmt (s : Stmt)
  | block (b : List Stmt)

/-- The context of the statements following `s` in its block. -/
def Ctx.after (c : Ctx) : Stmt → Ctx
  | .let_ x _ _ => c.declare x
  | _ => c

/-- `Child c n c' n'`: when node `n` is in context `c`, its immediate sub-node `n'` is in context `c'`. -/
inductive Child : Ctx → Node → Ctx → Node → Prop
  | item (c e es p) : e ∈ es → Child c (.expr (.lit (.array es) p)) c (.expr e)
  | value (c k e items p) : (k, e) ∈ items → Child c (.expr (.lit (.dict items) p)) c (.expr e)
  | body (c ps b p) : Child c (.expr (.lit (.function ps b) p)) (c.function (ps.map (·.1))) (.block b)
  | operand (c op e p) : Child c (.expr (.unary op e p)) c (.expr e)
  | left (c l op r p) : Child c (.expr (.binary l op r p)) c (.expr l)
  | right (c l op r p) : Child c (.expr (.binary l op r p)) c (.expr r)
  | ifCond (c e t f p) : Child c (.expr (.if_ e t f p)) c (.expr e)
  | ifThen (c e t f p) : Child c (.expr (.if_ e t f p)) c.block (.block t)
  | ifElse (c e t f p) : Child c (.expr (.if_ e t f p)) c.block (.block f)
  | object (c o f p) : Child c (.expr (.access o f p)) c (.expr o)
  | field (c o f p) : Child c (.expr (.access o f p)) c (.expr f)
  | callee (c f args p) : Child c (.expr (.call f args p)) c (.expr f)
  | arg (c f a args p) : a ∈ args → Child c (.expr (.call f args p)) c (.expr a)
  | letInit (c x e p) : Child c (.stmt (.let_ x e p)) (c.declare x) (.expr e)
  | assignLeft (c l r p) : Child c (.stmt (.assign l r p)) c (.expr l)
  | assignRight (c l r p) : Child c (.stmt (.assign l r p)) c (.expr r)
  | returned (c e p) : Child c (.stmt (.return_ e p)) c (.expr e)
  | whileCond (c e b p) : Child c (.stmt (.while_ e b p)) c (.expr e)
  | whileBody (c e b p) : Child c (.stmt (.while_ e b p)) c.loop (.block b)
  | forExpr (c x e b p) : Child c (.stmt (.for_ x e b p)) c (.expr e)
  | forBody (c x e b p) : Child c (.stmt (.for_ x e b p)) (c.loop.declare x) (.block b)
  | stmtExpr (c e) : Child c (.stmt (.expr e)) c (.expr e)
  | first (c s ss) : Child c (.block (s :: ss)) c (.stmt s)
  | rest (c s ss) : Child c (.block (s :: ss)) (c.after s) (.block ss)

/-- `Occurs c n c' n'`: `n'` occurs somewhere in `n`, at context `c'`. -/
inductive Occurs : Ctx → Node → Ctx → Node → Prop
  | here (c n) : Occurs c n c n
  | step {c n c₁ n₁ c₂ n₂} : Child c n c₁ n₁ → Occurs c₁ n₁ c₂ n₂ → Occurs c n c₂ n₂

/-- A rule holds everywhere in a node. -/
def Everywhere (rule : Ctx → Node → Prop) (c : Ctx) (n : Node) : Prop :=
  ∀ c' n', Occurs c n c' n' → rule c' n'

/-- A rule holds everywhere in a program. -/
def Throughout (rule : Ctx → Node → Prop) (b : Block) : Prop :=
  Everywhere rule .root (.block b)

/-- Control flow is placed properly: `break` in a loop of the same function; `return`, `self` and `?` in a
function. -/
def PlacementRule (c : Ctx) : Node → Prop
  | .stmt (.break_ _) => c.inLoop = true
  | .stmt (.return_ _ _) => c.inFn = true
  | .expr (.self_ _) => c.inFn = true
  | .expr (.unary .try_ _ _) => c.inFn = true
  | _ => True

/-- Variables mentioned by an argument unit. -/
def unitVars : ArgUnit → List Sym
  | .dollar x _ => [x]
  | .literal _ => []

/-- Variables mentioned by an argument. -/
def argVars (a : Argument) : List Sym :=
  a.parts.flatMap fun
    | .unit u => unitVars u
    | .expansion (.collection items) => items.flatMap unitVars
    | .expansion _ => []

/-- Variables mentioned by a redirection. -/
def redirVars : Redirection → List Sym
  | .output _ (.overwrite a) => argVars a
  | .output _ (.append a) => argVars a
  | .input _ a => argVars a
  | _ => []

/-- Variables mentioned by the environment assignments of a command. -/
def envVars (c : BasicCommand) : List Sym :=
  c.env.flatMap (fun e => unitVars e.1 ++ argVars e.2)

/-- Variables mentioned by a command. -/
def basicVars (c : BasicCommand) : List Sym :=
  argVars c.program ++ envVars c ++ c.arguments.flatMap argVars ++ c.redirections.flatMap redirVars

/-- Variables mentioned by a command block. -/
def blockVars (b : CommandBlock) : List Sym :=
  (b.head :: b.tail).flatMap (fun c => (c.head :: c.tail).flatMap basicVars)

/-- Scoping: a used variable is declared in an enclosing scope; a scope does not declare a name twice. -/
def ScopeRule (c : Ctx) : Node → Prop
  | .expr (.ident x _) => c.Declares x
  | .expr (.command b _) => ∀ x ∈ blockVars b, c.Declares x
  | .expr (.lit (.function ps _) _) => (ps.map (·.1)).Nodup
  | .stmt (.let_ x _ _) => ¬ c.DeclaresHere x
  | _ => True

/-- The keys of a dict literal are distinct. -/
def KeysRule (_ : Ctx) : Node → Prop
  | .expr (.lit (.dict items) _) => (items.map (·.1.1)).Nodup
  | _ => True

/-- Only variables and elements/fields can be assigned to. -/
def LvalueRule (_ : Ctx) : Node → Prop
  | .stmt (.assign (.ident _ _) _ _) => True
  | .stmt (.assign (.access _ _ _) _ _) => True
  | .stmt (.assign _ _ _) => False
  | _ => True

/-- The program of the command is the name of a builtin. -/
def IsBuiltin (c : BasicCommand) : Prop :=
  ∃ name, c.program.parts = [.unit (.literal name)] ∧
    name ∈ ["alias".toUTF8.toList, "cd".toUTF8.toList, "exec".toUTF8.toList, "exec0".toUTF8.toList,
      "spawn0".toUTF8.toList]

/-- Builtins are used only in synchronous blocks, alone (not in a pipeline) and without redirections. -/
def BuiltinRule (_ : Ctx) : Node → Prop
  | .expr (.command b _) =>
    ∀ c ∈ b.head :: b.tail,
      (IsBuiltin c.head → b.kind = .synchronous ∧ c.tail = [] ∧ c.head.redirections = []) ∧
      (∀ t ∈ c.tail, ¬ IsBuiltin t)
  | _ => True

/-- Builtins have no environment assignments. -/
def NoBuiltinEnvRule (_ : Ctx) : Node → Prop
  | .expr (.command b _) => ∀ c ∈ b.head :: b.tail, IsBuiltin c.head → c.head.env = []
  | _ => True

/-- A name that can be written in a program: not empty and without the character `@`. -/
def UserName (x : Sym) : Prop := x ≠ [] ∧ (64 : UInt8) ∉ x

/-- An argument as produced from source text. -/
def ArgWritten (a : Argument) : Prop := a.pos ≠ illPos ∧ ∀ x ∈ argVars a, UserName x

/-- A redirection as produced from source text. -/
def RedirWritten : Redirection → Prop
  | .illFormed => False
  | .output _ (.fd _) => True
  | .output _ (.overwrite a) => ArgWritten a
  | .output _ (.append a) => ArgWritten a
  | .input _ a => ArgWritten a

/-- A command as produced from source text. -/
def BasicWritten (c : BasicCommand) : Prop :=
  ArgWritten c.program ∧ (∀ e ∈ c.env, (∀ x ∈ unitVars e.1, UserName x) ∧ ArgWritten e.2) ∧
  (∀ a ∈ c.arguments, ArgWritten a) ∧ (∀ r ∈ c.redirections, RedirWritten r)

/-- The node comes from well-formed source text: it is not an error placeholder and its names are names. -/
def WrittenRule (_ : Ctx) : Node → Prop
  | .expr .illFormed => False
  | .stmt .illFormed => False
  | .expr (.ident x _) => UserName x
  | .expr (.lit (.ident x) _) => UserName x
  | .expr (.lit (.dict items) _) => ∀ i ∈ items, UserName i.1.1
  | .expr (.lit (.function ps _) _) => ∀ p ∈ ps, UserName p.1
  | .stmt (.let_ x _ _) => UserName x
  | .stmt (.for_ x _ _ _) => UserName x
  | .expr (.command b _) => ∀ c ∈ b.head :: b.tail, ∀ bc ∈ c.head :: c.tail, BasicWritten bc
  | _ => True

/-- The kinds of static errors. -/
inductive StaticError where
  | undeclared (x : Sym) | duplicate (x : Sym) | key (x : Sym)
  | return_ | self_ | try_ | break_ | assignment | builtin

/-- No dict literal contains another dict literal in its values. -/
def FlatDictRule (c : Ctx) : Node → Prop
  | .expr (.lit (.dict items) _) =>
    ∀ i ∈ items, ∀ c' n', Occurs c (.expr i.2) c' n' → ∀ items' p, n' ≠ .expr (.lit (.dict items') p)
  | _ => True

/-- The rule of the language violated by node `n` in context `c` that an error of each kind stands for. (For a duplicate
key: the keys of the literal are not distinct or the literal contains another dict literal.) -/
def Violates (c : Ctx) (n : Node) (pos : Pos) : StaticError → Prop
  | .undeclared x =>
    ¬ c.Declares x ∧ (n = .expr (.ident x pos) ∨ ∃ b p, n = .expr (.command b p) ∧ x ∈ blockVars b)
  | .duplicate x =>
    (∃ e, n = .stmt (.let_ x e pos) ∧ c.DeclaresHere x) ∨
    (∃ ps b p, n = .expr (.lit (.function ps b) p) ∧ (x, pos) ∈ ps ∧ ¬ (ps.map (·.1)).Nodup)
  | .key _ => ∃ items p, n = .expr (.lit (.dict items) p) ∧ ¬ (KeysRule c n ∧ FlatDictRule c n)
  | .return_ => ∃ e, n = .stmt (.return_ e pos) ∧ c.inFn = false
  | .self_ => n = .expr (.self_ pos) ∧ c.inFn = false
  | .try_ => ∃ e, n = .expr (.unary .try_ e pos) ∧ c.inFn = false
  | .break_ => n = .stmt (.break_ pos) ∧ c.inLoop = false
  | .assignment => ∃ l r, n = .stmt (.assign l r pos) ∧ ¬ LvalueRule c n
  | .builtin => ∃ b p, n = .expr (.command b p) ∧ ¬ BuiltinRule c n

end Spec
end Hush

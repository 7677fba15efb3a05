import Verif.Model.Scope

/-!
Static analysis: src/semantic/mod.rs.

Every analysis function of the source returns an `Option` and updates the shared scope stack, error list and
set of dict keys. Most of them analyse all parts first and combine the results afterwards (`Option::zip`,
`analyze_items`), so that all errors are reported; the combinators below are those patterns.
-/

namespace Hush
open Ast (BlockKind)

/-- The shared mutable state of `Analyzer`, src/semantic/mod.rs:40-55. Frames innermost first. `crashed`
records that one of the `expect`s on an empty stack (src/semantic/scope.rs:80, 87, 188, 279) was hit. The interner is
not needed (symbols are byte strings). -/
structure AState where
  frames : List Frame
  dictKeys : List Sym
  errors : List SemError
  crashed : Bool
deriving DecidableEq, Repr

/-- The flags `in_function` and `in_loop` of `Analyzer`, src/semantic/mod.rs:49-52. -/
structure Flags where
  inFunction : Bool
  inLoop : Bool
deriving DecidableEq, Repr

/-- An analysis step. (Helper of the analyser, src/semantic/mod.rs:63-877.) -/
abbrev A (α : Type) := AState → Option α × AState

namespace A

/-- Success with a value, no effect. (Helper of the analyser, src/semantic/mod.rs:63-877.) -/
def ok (a : α) : A α := fun st => (some a, st)

/-- `None` without report (ill-formed syntax). (Helper of the analyser, src/semantic/mod.rs:63-877.) -/
def fail : A α := fun st => (none, st)

/-- `Analyzer::report` (src/semantic/mod.rs:875-877) followed by `None`. -/
def report (kind : SemErrorKind) (pos : Pos) : A α :=
  fun st => (none, { st with errors := st.errors ++ [⟨kind, pos⟩] })

/-- Analyse two parts in order, then `zip`. (Helper of the analyser, src/semantic/mod.rs:63-877.) -/
def zip (a : A α) (b : A β) : A (α × β) := fun st =>
  let ra := a st
  let rb := b ra.2
  match ra.1, rb.1 with
  | some x, some y => (some (x, y), rb.2)
  | _, _ => (none, rb.2)

/-- `?`: stop at a missing result. (Helper of the analyser, src/semantic/mod.rs:63-877.) -/
def andThen (a : A α) (f : α → A β) : A β := fun st =>
  let ra := a st
  match ra.1 with
  | some x => f x ra.2
  | none => (none, ra.2)

/-- `Option::map` on the result. (Helper of the analyser, src/semantic/mod.rs:63-877.) -/
def map (f : α → β) (a : A α) : A β := fun st =>
  let ra := a st
  (ra.1.map f, ra.2)

end A

/-- `Analyzer::analyze_items`, src/semantic/mod.rs:765-788: all items are analysed, the result is
missing if any is. -/
def analyzeItems (f : α → A β) : List α → A (List β)
  | [] => A.ok []
  | x :: xs => A.map (fun p => p.1 :: p.2) (A.zip (f x) (analyzeItems f xs))

namespace AState

/-- `Stack::enter_block`, src/semantic/scope.rs:199-201 and `Frame::enter_block`, 70-72. -/
def enterBlock (st : AState) : AState :=
  match st.frames with
  | [] => { st with crashed := true }
  | f :: fs => { st with frames := { f with scopes := [] :: f.scopes } :: fs }

/-- `Stack::exit_block`, src/semantic/scope.rs:205-207 and `Frame::exit_block`, 77-81. -/
def exitBlock (st : AState) : AState :=
  match st.frames with
  | [] => { st with crashed := true }
  | f :: fs =>
    match f.scopes with
    | [] => { st with crashed := true }
    | _ :: scopes => { st with frames := { f with scopes := scopes } :: fs }

/-- `Stack::enter_frame`, src/semantic/scope.rs:174-180. -/
def enterFrame (st : AState) : AState :=
  { st with frames := Frame.new :: st.frames }

/-- `Stack::exit_frame`, src/semantic/scope.rs:185-195, with `From<Frame> for FrameInfo` (154-162). The
`debug_assert!` that only the root scope is left is an explicit crash. -/
def exitFrame (st : AState) : Prog.FrameInfo × AState :=
  match st.frames with
  | [] => (⟨0, [], none⟩, { st with crashed := true })
  | f :: fs =>
    (⟨f.slots, f.captures, f.selfSlot⟩,
      { st with frames := fs, crashed := st.crashed || f.scopes.length != 1 })

end AState

/-- `Stack::declare`, src/semantic/scope.rs:212-214, `Frame::declare`, 86-94, `Scope::declare`, 21-30;
with the error reported (src/semantic/mod.rs:114-119). -/
def declare (x : Sym) (pos : Pos) : A Nat := fun st =>
  match st.frames with
  | [] => (none, { st with crashed := true })
  | f :: fs =>
    match f.scopes with
    | [] => (none, { st with crashed := true })
    | s :: scopes =>
      match Scope.find s x with
      | some _ => A.report (.duplicateVariable x) pos st
      | none =>
        (some f.slots,
          { st with frames := { f with slots := f.slots + 1, scopes := ((x, f.slots) :: s) :: scopes } :: fs })

/-- `Stack::resolve` with the error reported, src/semantic/mod.rs:248-254. -/
def resolve (x : Sym) (pos : Pos) : A Nat := fun st =>
  match resolveFrames x st.frames with
  | none => A.report (.undeclaredVariable x) pos st
  | some (slot, frames) => (some slot, { st with frames := frames })

/-- `Stack::resolve_or_insert_self`, src/semantic/scope.rs:272-274 and 133-143. -/
def resolveSelf : A Nat := fun st =>
  match st.frames with
  | [] => (none, { st with crashed := true })
  | f :: fs =>
    match f.selfSlot with
    | some slot => (some slot, st)
    | none =>
      (some f.slots, { st with frames := { f with slots := f.slots + 1, selfSlot := some f.slots } :: fs })

/-- `Analyzer::enter_block` (src/semantic/mod.rs:820-832) around an analysis; the scope is left when the inner
analyzer is dropped (881-887). -/
def inBlock (a : A α) : A α := fun st =>
  let r := a st.enterBlock
  (r.1, r.2.exitBlock)

/-- `Symbol::is_ill_formed`, src/syntax/ast/mod.rs:66-68: the default symbol, here the empty name. -/
def symIll (x : Sym) : Bool := x.isEmpty

/-- Identifier resolution guarded by the ill-formedness check, src/semantic/mod.rs:244-254. -/
def resolveIdent (x : Sym) (pos : Pos) : A Nat :=
  if symIll x then A.fail else resolve x pos

/-- `dict_keys.insert`, src/semantic/mod.rs:463-471. -/
def insertKey (x : Sym) (pos : Pos) : A Sym := fun st =>
  if symIll x then (none, st)
  else if x ∈ st.dictKeys then A.report (.duplicateKey x) pos st
  else (some x, { st with dictKeys := x :: st.dictKeys })

/-- Declaration of the parameters, src/semantic/mod.rs:490-509: all are tried, the result is missing if
any failed. -/
def declareParams : List (Sym × Pos) → A Unit
  | [] => A.ok ()
  | (x, pos) :: ps =>
    A.map (fun _ => ()) (A.zip (if symIll x then A.fail else declare x pos) (declareParams ps))

/-- `Analyzer::analyze_arg_unit`, src/semantic/mod.rs:712-730. -/
def analyzeArgUnit : ArgUnit → A Prog.ArgUnit
  | .literal lit => A.ok (.literal lit)
  | .dollar x pos => A.map (fun slot => .dollar slot pos) (resolveIdent x pos)

/-- `Analyzer::analyze_arg_expansion`, src/semantic/mod.rs:691-707. -/
def analyzeArgExpansion : ArgExpansion → A Prog.ArgPart
  | .home => A.ok .home
  | .range a b => A.ok (.range a b)
  | .collection items => A.map .collection (analyzeItems analyzeArgUnit items)
  | .star => A.ok .star
  | .percent => A.ok .percent
  | .charClass s => A.ok (.charClass s)

/-- `Analyzer::analyze_arg_part`, src/semantic/mod.rs:679-686. -/
def analyzeArgPart : Ast.ArgPart → A Prog.ArgPart
  | .unit u => A.map .unit (analyzeArgUnit u)
  | .expansion e => analyzeArgExpansion e

/-- `Argument::is_ill_formed`, src/syntax/ast/command.rs:83-85. -/
def argIll (a : Ast.Argument) : Bool := decide (a.pos = Ast.illPos)

/-- `Analyzer::analyze_argument`, src/semantic/mod.rs:658-674. -/
def analyzeArgument (a : Ast.Argument) : A Prog.Argument :=
  if argIll a then A.fail
  else A.map (fun parts => ⟨parts, a.pos⟩) (analyzeItems analyzeArgPart a.parts)

/-- `Analyzer::analyze_redirection`, src/semantic/mod.rs:735-761. -/
def analyzeRedirection : Ast.Redirection → A Prog.Redirection
  | .illFormed => A.fail
  | .output source (.fd n) => A.ok (.output source (.fd n))
  | .output source (.overwrite a) => A.map (fun a => .output source (.overwrite a)) (analyzeArgument a)
  | .output source (.append a) => A.map (fun a => .output source (.append a)) (analyzeArgument a)
  | .input literal a => A.map (fun a => .input literal a) (analyzeArgument a)

/-- `Analyzer::analyze_env`, src/semantic/mod.rs:642-654, one item: the value is not analysed when the key fails. -/
def analyzeEnvItem (e : ArgUnit × Ast.Argument) : A (Prog.ArgUnit × Prog.Argument) :=
  A.andThen (analyzeArgUnit e.1) (fun key => A.map (fun value => (key, value)) (analyzeArgument e.2))

/-- `Analyzer::analyze_basic_command`, src/semantic/mod.rs:608-640. -/
def analyzeBasicCommand (c : Ast.BasicCommand) : A Prog.BasicCommand :=
  match Prog.Builtin.ofArgument c.program with
  | some _ => A.report .asyncBuiltin c.pos
  | none =>
    A.map (fun r => ⟨r.1, r.2.1, r.2.2.1, r.2.2.2, c.abortOnError, c.pos⟩)
      (A.zip (analyzeArgument c.program)
        (A.zip (analyzeItems analyzeEnvItem c.env)
          (A.zip (analyzeItems analyzeArgument c.arguments)
            (analyzeItems analyzeRedirection c.redirections))))

/-- `Analyzer::analyze_command`, src/semantic/mod.rs:563-603. -/
def analyzeCommand (inAsync : Bool) (c : Ast.Command) : A Prog.Command :=
  match Prog.Builtin.ofArgument c.head.program with
  | some b =>
    if inAsync || !c.tail.isEmpty || !c.head.redirections.isEmpty then
      A.report .asyncBuiltin c.head.pos
    else
      A.map (fun args => .builtin b args c.head.abortOnError c.head.pos)
        (analyzeItems analyzeArgument c.head.arguments)
  | none =>
    A.map (fun r => .external r.1 r.2)
      (A.zip (analyzeBasicCommand c.head) (analyzeItems analyzeBasicCommand c.tail))

/-- `Analyzer::analyze_command_block`, src/semantic/mod.rs:540-558; `is_sync`, src/syntax/ast/command.rs:229-231. -/
def analyzeCommandBlock (b : Ast.CommandBlock) : A Prog.CommandBlock :=
  let inAsync := b.kind != .synchronous
  A.map (fun r => ⟨b.kind, r.1, r.2⟩)
    (A.zip (analyzeCommand inAsync b.head) (analyzeItems (analyzeCommand inAsync) b.tail))

mutual

/-- `Analyzer::analyze_expr`, src/semantic/mod.rs:229-371. -/
def analyzeExpr (fl : Flags) : Ast.Expr → A Prog.Expr
  | .illFormed => A.fail
  | .self_ pos =>
    if fl.inFunction then A.map (fun slot => .ident slot pos) resolveSelf
    else A.report .selfOutsideFunction pos
  | .ident x pos => A.map (fun slot => .ident slot pos) (resolveIdent x pos)
  | .lit l pos => A.map (fun l => .lit l pos) (analyzeLit fl l)
  | .unary op e pos =>
    A.andThen (analyzeExpr fl e) (fun e =>
      if op = .try_ ∧ fl.inFunction = false then A.report .tryOutsideFunction pos
      else A.ok (.unary op e pos))
  | .binary l op r pos =>
    A.map (fun p => .binary p.1 op p.2 pos) (A.zip (analyzeExpr fl l) (analyzeExpr fl r))
  | .if_ c t e pos =>
    A.map (fun p => .if_ p.1 p.2.1 p.2.2 pos)
      (A.zip (analyzeExpr fl c) (A.zip (inBlock (analyzeBlock fl t)) (inBlock (analyzeBlock fl e))))
  | .access o f pos =>
    A.map (fun p => .access p.1 p.2 pos) (A.zip (analyzeExpr fl o) (analyzeExpr fl f))
  | .call f args pos =>
    A.map (fun p => .call p.1 p.2 pos) (A.zip (analyzeExpr fl f) (analyzeExprs fl args))
  | .command b pos => A.map (fun b => .command b pos) (analyzeCommandBlock b)

/-- `analyze_items(Self::analyze_expr, ..)`, src/semantic/mod.rs:345-348, 449-452. -/
def analyzeExprs (fl : Flags) : List Ast.Expr → A (List Prog.Expr)
  | [] => A.ok []
  | e :: es => A.map (fun p => p.1 :: p.2) (A.zip (analyzeExpr fl e) (analyzeExprs fl es))

/-- `Analyzer::analyze_literal`, src/semantic/mod.rs:427-535. Entering a function sets `in_function` and clears
`in_loop` (852-864). -/
def analyzeLit (fl : Flags) : Ast.Lit → A Prog.Lit
  | .nil => A.ok .nil
  | .bool b => A.ok (.bool b)
  | .int i => A.ok (.int i)
  | .float t => A.ok (.float t)
  | .byte b => A.ok (.byte b)
  | .string s => A.ok (.string s)
  | .array es => A.map .array (analyzeExprs fl es)
  | .dict items => fun st => A.map .dict (analyzeItemsDict fl items) { st with dictKeys := [] }
  | .function params body => fun st =>
    let rp := declareParams params st.enterFrame
    let rb := analyzeBlock ⟨true, false⟩ body rp.2
    let rf := rb.2.exitFrame
    match rp.1, rb.1 with
    | some _, some body => (some (.function params.length rf.1 body), rf.2)
    | _, _ => (none, rf.2)
  | .ident x => if symIll x then A.fail else A.ok (.ident x)

/-- The items of a dict literal, src/semantic/mod.rs:461-480. -/
def analyzeItemsDict (fl : Flags) : List ((Sym × Pos) × Ast.Expr) → A (List (Sym × Prog.Expr))
  | [] => A.ok []
  | ((x, pos), e) :: items =>
    A.map (fun p => p.1 :: p.2)
      (A.zip (A.zip (insertKey x pos) (analyzeExpr fl e)) (analyzeItemsDict fl items))

/-- `Analyzer::analyze_lvalue`, src/semantic/mod.rs:377-422, followed by the report of an invalid assignment at
`pos` when the result is `Err(false)` (132-139): the expression is not an l-value (or is ill-formed). -/
def analyzeLvalue (fl : Flags) (pos : Pos) : Ast.Expr → A Prog.Lvalue
  | .ident x ipos =>
    if symIll x then A.report .invalidAssignment pos
    else A.map (fun slot => .ident slot ipos) (resolve x ipos)
  | .access o f apos =>
    A.map (fun p => .access p.1 p.2 apos) (A.zip (analyzeExpr fl o) (analyzeExpr fl f))
  | _ => A.report .invalidAssignment pos

/-- `Analyzer::analyze_statement`, src/semantic/mod.rs:110-224. -/
def analyzeStmt (fl : Flags) : Ast.Stmt → A Prog.Stmt
  | .illFormed => A.fail
  | .let_ x init pos =>
    A.map (fun p => .assign (.ident p.1 pos) p.2) (A.zip (declare x pos) (analyzeExpr fl init))
  | .assign l r pos =>
    A.map (fun p => .assign p.1 p.2)
      (A.zip (analyzeLvalue fl pos l) (analyzeExpr fl r))
  | .return_ e pos =>
    A.map (fun p => .return_ p.2)
      (A.zip (if fl.inFunction then A.ok () else A.report .returnOutsideFunction pos) (analyzeExpr fl e))
  | .break_ pos => if fl.inLoop then A.ok .break_ else A.report .breakOutsideLoop pos
  | .while_ c b _ =>
    A.map (fun p => .while_ p.1 p.2)
      (A.zip (analyzeExpr fl c) (inBlock (analyzeBlock { fl with inLoop := true } b)))
  | .for_ x e b pos =>
    A.map (fun p => .for_ p.2.1 p.1 p.2.2)
      (A.zip (analyzeExpr fl e)
        (inBlock (A.zip (if symIll x then A.fail else declare x pos)
          (analyzeBlock { fl with inLoop := true } b))))
  | .expr e => A.map .expr (analyzeExpr fl e)

/-- `Analyzer::analyze_block`, src/semantic/mod.rs:92-105. -/
def analyzeBlock (fl : Flags) : List Ast.Stmt → A (List Prog.Stmt)
  | [] => A.ok []
  | s :: ss => A.map (fun p => p.1 :: p.2) (A.zip (analyzeStmt fl s) (analyzeBlock fl ss))

end

/-- The name `std`, src/semantic/mod.rs:800. -/
def stdName : Sym := [115, 116, 100]

/-- `Analyzer::new`, src/semantic/mod.rs:794-816: the root frame with `std` in slot 0. -/
def AState.initial : AState :=
  { frames := [{ Frame.new with slots := 1, scopes := [[(stdName, 0)]] }], dictKeys := [], errors := [],
    crashed := false }

/-- Outcome of `Analyzer::analyze`, src/semantic/mod.rs:63. -/
inductive AnalysisResult where
  | ok (p : Program)
  | errors (es : List SemError)
  | crash

/-- `Analyzer::analyze`, src/semantic/mod.rs:63-87. -/
def analyze (ast : Ast.Block) : AnalysisResult :=
  let r := analyzeBlock ⟨false, false⟩ ast AState.initial
  let f := r.2.exitFrame
  if f.2.crashed then .crash
  else
    match r.1 with
    | some statements => if f.2.errors.isEmpty then .ok ⟨statements, f.1.slots⟩ else .errors f.2.errors
    | none => .errors f.2.errors

end Hush

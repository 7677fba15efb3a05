import Verif.Model.Ast
import Verif.Model.Lexer

/-!
The parser: src/syntax/parser/mod.rs, src/syntax/parser/command.rs, src/syntax/parser/sync.rs.

The parser state is the list of tokens still to be read, the current token first. In the code these are
`token : Option<Token>` and `cursor`; `step` is only ever called when `token` is `Some`, so the two places that lose the
current token (`parse` and `parse_condblock`) stop reading for good, which is modelled by emptying the list.

Recursive calls of the grammar functions are passed as parameters (`pe` for expressions, `pb` for blocks) and tied at the
end by recursion on a budget (`parseExpr`, `parseBlock`); loops get a budget of their own. Running out of a budget is
`timeout`; a Rust panic is `crash`. Both are proved impossible.
-/

namespace Hush
open Ast (Expr Lit Stmt Block)

/-- `Expected`, src/syntax/parser/error/mod.rs:8-11. -/
inductive Expected where
  | token (k : TokenKind)
  | msg (s : String)
deriving DecidableEq, Repr

/-- `parser::Error`, src/syntax/parser/error/mod.rs:16-26 (`InvalidEnvAssign` is never reported and left out). -/
inductive ParseError where
  | unexpectedEof
  | unexpected (t : Token) (expected : Expected)
  | emptyCommandBlock (pos : Pos)
deriving DecidableEq, Repr

/-- `Strategy`, src/syntax/parser/sync.rs:6-33. The mutable flags are the progress of `skipPast` below. -/
inductive Strategy where
  | keep
  | skipOne
  | token (k : TokenKind)
  | keyword (k : Keyword)
  | blockTerminator
  | commandTerminator
deriving DecidableEq, Repr

/-- `Parser`, src/syntax/parser/mod.rs:44-53. `errors` is what was sent to the error reporter, latest first. -/
structure PState where
  toks : List Token
  errors : List ParseError
deriving DecidableEq, Repr

/-- The outcome of a parsing function: `sync::Result` with the parser state (src/syntax/parser/sync.rs:128). -/
inductive Res (α : Type) where
  | ok (a : α) (st : PState)
  | err (e : ParseError) (s : Strategy) (st : PState)
  | crash
  | timeout

/-- The `?` operator. (Helper of src/syntax/parser/mod.rs.) -/
def Res.bind {α β : Type} (r : Res α) (f : α → PState → Res β) : Res β :=
  match r with
  | .ok a st => f a st
  | .err e s st => .err e s st
  | .crash => .crash
  | .timeout => .timeout

/-- Skip tokens up to and including the first one that `p` accepts. (Helper for `synchronize`, src/syntax/parser/mod.rs:175-186.) -/
def skipPast (p : TokenKind → Bool) : List Token → List Token
  | [] => []
  | t :: ts => if p t.kind then ts else skipPast p ts

/-- The loop of `Parser::synchronize`, src/syntax/parser/mod.rs:178-184, with `Strategy::synchronized`,
src/syntax/parser/sync.rs:84-118. -/
def Strategy.skip : Strategy → List Token → List Token
  | .keep, ts => ts
  | .skipOne, ts => ts.tail
  | .token k, ts => skipPast (fun t => t == k) ts
  | .keyword k, ts => skipPast (fun t => t == .keyword k) ts
  | .blockTerminator, ts => skipPast TokenKind.isBlockTerminator ts
  | .commandTerminator, ts => skipPast TokenKind.isBasicCommandTerminator ts

/-- `Parser::synchronize`, src/syntax/parser/mod.rs:175-185. -/
def PState.synchronize (st : PState) (e : ParseError) (s : Strategy) : PState :=
  ⟨s.skip st.toks, e :: st.errors⟩

/-- `ResultExt::synchronize`, src/syntax/parser/sync.rs:164-174; `ill` is the type's `ill_formed()` value. -/
def Res.sync {α : Type} (ill : α) (r : Res α) : Res α :=
  match r with
  | .err e s st => .ok ill (st.synchronize e s)
  | r => r

/-- `ResultExt::force_sync_skip`, src/syntax/parser/sync.rs:177-186. -/
def Res.forceSkip {α : Type} (r : Res α) : Res α :=
  match r with
  | .err e .keep st => .err e .skipOne st
  | r => r

/-- `WithSync::with_sync`, src/syntax/parser/sync.rs:138-149. -/
def Res.withSync {α : Type} (s : Strategy) (r : Res α) : Res α :=
  match r with
  | .err e _ st => .err e s st
  | r => r

/-- `Parser::expect`, src/syntax/parser/mod.rs:106-111 (with `eat`, 81-102), followed by `with_sync`. -/
def expect (k : TokenKind) (s : Strategy) (st : PState) : Res Unit :=
  match st.toks with
  | t :: ts => if t.kind = k then .ok () { st with toks := ts } else .err (.unexpected t (.token k)) s st
  | [] => .err .unexpectedEof s st

/-- `Parser::parse_identifier`, src/syntax/parser/mod.rs:708-717. -/
def parseIdentifier (st : PState) : Res (Sym × Pos) :=
  match st.toks with
  | ⟨.identifier x, p⟩ :: ts => .ok (x, p) { st with toks := ts }
  | t :: _ => .err (.unexpected t (.msg "identifier")) .keep st
  | [] => .err .unexpectedEof .keep st

/-- The ill-formed identifier, src/syntax/ast/mod.rs:36-70 (`Symbol::default` is the empty symbol). -/
def illIdent : Sym × Pos := ([], Ast.illPos)

/-- `Parser::sep_by`, src/syntax/parser/mod.rs:116-144; used by `comma_sep` (148-155) and `semicolon_sep` (159-166). -/
def sepBy {α : Type} (p : PState → Res α) (ill : α) (sep fin : TokenKind) : Nat → PState → Res (List α)
  | 0, _ => .timeout
  | n + 1, st =>
    if st.toks.head?.any (fun t => t.kind == fin) then .ok [] st
    else
      ((p st).sync ill).bind fun a st =>
        match st.toks with
        | t :: ts =>
          if t.kind = sep then (sepBy p ill sep fin n { st with toks := ts }).bind fun as st => .ok (a :: as) st
          else .ok [a] st
        | [] => .ok [a] st

/-! ### Commands -/

/-- `push_literal`, src/syntax/parser/command.rs:311-318. -/
def pushLit (lit : Bytes) (rest : List Ast.ArgPart) : List Ast.ArgPart :=
  if lit.isEmpty then rest else .unit (.literal lit) :: rest

/-- The inner loop over the units of a double-quoted part, src/syntax/parser/command.rs:339-345; what follows is a function of the
pending literal. -/
def buildUnits (next : Bytes → List Ast.ArgPart) : List ArgUnit → Bytes → List Ast.ArgPart
  | [], lit => next lit
  | .literal s :: us, lit => buildUnits next us (lit ++ s)
  | .dollar x pos :: us, lit => pushLit lit (.unit (.dollar x pos) :: buildUnits next us [])

/-- `build_arg`, src/syntax/parser/command.rs:296-370: the loop over the parts, with the pending `literal`. -/
def buildParts : List ArgPart → Bytes → List Ast.ArgPart
  | [], lit => if lit.isEmpty then [] else [.unit (.literal lit)]
  | .singleQuoted s :: ps, lit => buildParts ps (lit ++ s)
  | .doubleQuoted us :: ps, lit => buildUnits (fun lit => buildParts ps lit) us lit
  | .unquoted (.literal s) :: ps, lit => buildParts ps (lit ++ s)
  | .unquoted (.dollar x pos) :: ps, lit => pushLit lit (.unit (.dollar x pos) :: buildParts ps [])
  | .expansion e :: ps, lit => pushLit lit (.expansion e :: buildParts ps [])
  | .envAssign :: ps, lit => buildParts ps (lit ++ [cEq])

/-- `build_arg`, src/syntax/parser/command.rs:296-370. -/
def buildArg (ps : List ArgPart) (pos : Pos) : Ast.Argument := ⟨buildParts ps [], pos⟩

/-- `parse_argument`, src/syntax/parser/command.rs:138-150 (followed by `with_sync`). -/
def parseArgument (s : Strategy) (st : PState) : Res Ast.Argument :=
  match st.toks with
  | ⟨.argument ps, p⟩ :: ts => .ok (buildArg ps p) { st with toks := ts }
  | t :: _ => .err (.unexpected t (.msg "argument")) s st
  | [] => .err .unexpectedEof s st

/-- `from_fn(parse_env_assign).collect()`, src/syntax/parser/command.rs:87 and 153-175. -/
def parseEnv : List Token → List (ArgUnit × Ast.Argument) × List Token
  | ⟨.argument (.unquoted k :: .envAssign :: ps), p⟩ :: ts =>
    ((k, buildArg ps p) :: (parseEnv ts).1, (parseEnv ts).2)
  | ts => ([], ts)

/-- The test for a redirection in `parse_basic_command`, src/syntax/parser/command.rs:96-106: a single unquoted number
followed by a redirection operator. -/
def isRedirection (ps : List ArgPart) (next : Option Token) : Bool :=
  (match ps with
   | [p] => p.isUnquotedNumber
   | _ => false) &&
  (match next with
   | some ⟨.cmdOperator op, _⟩ => op.isRedirection
   | _ => false)

/-- The arguments loop of `parse_basic_command`, src/syntax/parser/command.rs:94-117. -/
def parseArgs : List Token → List Ast.Argument × List Token
  | [] => ([], [])
  | ⟨.argument ps, p⟩ :: ts =>
    if isRedirection ps ts.head? then ([], ⟨.argument ps, p⟩ :: ts)
    else (buildArg ps p :: (parseArgs ts).1, (parseArgs ts).2)
  | t :: ts => ([], t :: ts)

/-- Rust's `u8::from_str` (after `str::from_utf8`), as used in src/syntax/parser/command.rs:280-281: an optional plus
sign, at least one digit, at most 255. -/
def parseU8 (s : Bytes) : Option Nat :=
  let ds := match s with
    | b :: t => if b = cPlus then t else s
    | [] => s
  if ds.isEmpty || !ds.all isDigit then none
  else
    let v := ds.foldl (fun n b => 10 * n + (b.toNat - 48)) 0
    if v ≤ 255 then some v else none

/-- `parse_file_descriptor`, src/syntax/parser/command.rs:275-294. -/
def parseFd (st : PState) : Option (Nat × PState) :=
  match st.toks with
  | ⟨.argument [.unquoted (.literal s)], _⟩ :: ts =>
    match parseU8 s with
    | some n => some (n, { st with toks := ts })
    | none => none
  | _ => none

/-- `parse_output_redirection`, src/syntax/parser/command.rs:239-272. -/
def parseOutput (source : Nat) (st : PState) : Res Ast.Redirection :=
  match st.toks with
  | ⟨.cmdOperator (.output append), _⟩ :: ts =>
    let st' : PState := { st with toks := ts }
    if append then
      (parseArgument .keep st').bind fun a st => .ok (.output source (.append a)) st
    else
      match parseFd st' with
      | some (fd, st) => .ok (.output source (.fd fd)) st
      | none => (parseArgument .keep st').bind fun a st => .ok (.output source (.overwrite a)) st
  | t :: _ => .err (.unexpected t (.msg "output redirection")) .skipOne st
  | [] => .err .unexpectedEof .keep st

/-- `parse_redirection`, src/syntax/parser/command.rs:207-236. -/
def parseRedirection (st : PState) : Res Ast.Redirection :=
  match st.toks with
  | ⟨.cmdOperator (.input literal), _⟩ :: ts =>
    (parseArgument .keep { st with toks := ts }).bind fun a st => .ok (.input literal a) st
  | _ :: _ =>
    match parseFd st with
    | some (fd, st) => parseOutput fd st
    | none => parseOutput 1 st
  | [] => .err .unexpectedEof .keep st

/-- `parse_operators`, src/syntax/parser/command.rs:178-203, followed by `with_sync` (120-121). -/
def parseOperators : Nat → PState → Res (List Ast.Redirection × Bool)
  | 0, _ => .timeout
  | n + 1, st =>
    match st.toks with
    | [] => .err .unexpectedEof .commandTerminator st
    | t :: ts =>
      if t.kind.isBasicCommandTerminator then .ok ([], true) st
      else if t.kind = .cmdOperator .try_ then .ok ([], false) { st with toks := ts }
      else
        ((parseRedirection st).sync .illFormed).bind fun r st =>
          (parseOperators n st).bind fun (rs, abort) st => .ok (r :: rs, abort) st

/-- `parse_basic_command`, src/syntax/parser/command.rs:86-134. -/
def parseBasic (st : PState) : Res Ast.BasicCommand :=
  let (env, ts) := parseEnv st.toks
  (parseArgument .commandTerminator { st with toks := ts }).bind fun program st =>
    let (args, ts) := parseArgs st.toks
    (parseOperators (ts.length + 1) { st with toks := ts }).bind fun (redirs, abort) st =>
      .ok ⟨program, env, args, redirs, abort, program.pos⟩ st

/-- The pipe loop of `parse_command`, src/syntax/parser/command.rs:69-76. -/
def parsePipes : Nat → PState → Res (List Ast.BasicCommand)
  | 0, _ => .timeout
  | n + 1, st =>
    match st.toks with
    | ⟨.pipe, _⟩ :: ts =>
      ((parseBasic { st with toks := ts }).sync .illFormed).bind fun c st =>
        (parsePipes n st).bind fun cs st => .ok (c :: cs) st
    | _ => .ok [] st

/-- `parse_command`, src/syntax/parser/command.rs:62-82. -/
def parseCommand (st : PState) : Res Ast.Command :=
  ((parseBasic st).sync .illFormed).bind fun head st =>
    (parsePipes (st.toks.length + 1) st).bind fun tail st => .ok ⟨head, tail⟩ st

/-- `parse_command_block`, src/syntax/parser/command.rs:22-58. -/
def parseCommandBlock (st : PState) : Res Ast.CommandBlock :=
  match st.toks with
  | [] => .err .unexpectedEof .skipOne st
  | t :: ts =>
    match Ast.BlockKind.fromToken t.kind with
    | none => .err (.unexpected t (.msg "command block")) .skipOne st
    | some kind =>
      let st' : PState := { st with toks := ts }
      match ts with
      | ⟨.closeCommand, pos⟩ :: _ => .err (.emptyCommandBlock pos) .skipOne st'
      | _ =>
        (parseCommand st').bind fun head st =>
          (match st.toks with
           | ⟨.semicolon, _⟩ :: ts =>
             sepBy parseCommand .illFormed .semicolon .closeCommand (ts.length + 1) { st with toks := ts }
           | _ => .ok [] st).bind fun tail st =>
          (expect .closeCommand (.token .closeCommand) st).bind fun _ st => .ok ⟨kind, head, tail⟩ st

/-! ### Expressions -/

/-- The operator classes in `parse_expression`, src/syntax/parser/mod.rs:413-419, tightest first. -/
def levelCheck : Nat → Operator → Bool
  | 0 => Operator.isFactor
  | 1 => Operator.isTerm
  | 2 => fun op => op == .concat
  | 3 => Operator.isComparison
  | 4 => Operator.isEquality
  | 5 => fun op => op == .and
  | 6 => fun op => op == .or
  | _ => fun _ => false

/-- The loop of `parse_binop`, src/syntax/parser/mod.rs:437-457. -/
def binLoop (p : PState → Res Expr) (check : Operator → Bool) : Nat → Expr → PState → Res Expr
  | 0, _, _ => .timeout
  | n + 1, e, st =>
    match st.toks with
    | ⟨.operator op, pos⟩ :: ts =>
      if check op then
        (p { st with toks := ts }).bind fun r st =>
          match op.toBinary with
          | some op => binLoop p check n (.binary e op r pos) st
          | none => .crash
      else .ok e st
    | _ => .ok e st

/-- `parse_binop`, src/syntax/parser/mod.rs:426-460. -/
def parseBinop (p : PState → Res Expr) (check : Operator → Bool) (st : PState) : Res Expr :=
  (p st).bind fun e st => binLoop p check (st.toks.length + 1) e st

/-- The nesting of `parse_binop` in `parse_expression`, src/syntax/parser/mod.rs:406-422; level 0 is `parse_prefix`
and level 7 the whole expression. -/
def parseLevel (pre : PState → Res Expr) : Nat → PState → Res Expr
  | 0 => pre
  | k + 1 => parseBinop (parseLevel pre k) (levelCheck k)

/-- The loop of `parse_postfix`, src/syntax/parser/mod.rs:490-563. -/
def postfixLoop (pe : PState → Res Expr) : Nat → Expr → PState → Res Expr
  | 0, _, _ => .timeout
  | n + 1, e, st =>
    match st.toks with
    | ⟨.openParens, pos⟩ :: ts =>
      (sepBy pe .illFormed .comma .closeParens (ts.length + 1) { st with toks := ts }).bind fun args st =>
        (expect .closeParens (.token .closeParens) st).bind fun _ st =>
          postfixLoop pe n (.call e args pos) st
    | ⟨.openBracket, pos⟩ :: ts =>
      ((pe { st with toks := ts }).sync .illFormed).bind fun field st =>
        (expect .closeBracket (.token .closeBracket) st).bind fun _ st =>
          postfixLoop pe n (.access e field pos) st
    | ⟨.operator .dot, pos⟩ :: ts =>
      (parseIdentifier { st with toks := ts }).bind fun (x, p) st =>
        postfixLoop pe n (.access e (.lit (.ident x) p) pos) st
    | ⟨.operator .try_, pos⟩ :: ts => postfixLoop pe n (.unary .try_ e pos) { st with toks := ts }
    | _ => .ok e st

/-- `parse_function`, src/syntax/parser/mod.rs:723-754. -/
def parseFunction (pb : PState → Res Block) (st : PState) : Res (List (Sym × Pos) × Block) :=
  let opened := st.toks.head?.any (fun t => t.kind == .openParens)
  ((expect .openParens .keep st).sync ()).bind fun _ st =>
    (sepBy parseIdentifier illIdent .comma .closeParens (st.toks.length + 1) st).bind fun params st =>
      ((expect .closeParens (if opened then .token .closeParens else .keep) st).sync ()).bind fun _ st =>
        (pb st).bind fun body st =>
          (expect (.keyword .end_) (.keyword .end_) st).bind fun _ st => .ok (params, body) st

/-- `parse_condblock`, src/syntax/parser/mod.rs:759-798. -/
def parseCond (pe : PState → Res Expr) (pb : PState → Res Block) :
    Nat → PState → Res (Expr × Block × Block)
  | 0, _ => .timeout
  | n + 1, st =>
    ((pe st).sync .illFormed).bind fun cond st =>
      ((expect (.keyword .then_) .keep st).sync ()).bind fun _ st =>
        (pb st).bind fun then_ st =>
          match st.toks with
          | ⟨.keyword .end_, _⟩ :: _ => .ok (cond, then_, []) st
          | ⟨.keyword .elseif, pos⟩ :: ts =>
            (parseCond pe pb n { st with toks := ts }).bind fun (c, t, e) st =>
              .ok (cond, then_, [.expr (.if_ c t e pos)]) st
          | ⟨.keyword .else_, _⟩ :: ts =>
            (pb { st with toks := ts }).bind fun e st => .ok (cond, then_, e) st
          | t :: _ => .err (.unexpected t (.msg "end, else or elseif")) .blockTerminator { st with toks := [] }
          | [] => .err .unexpectedEof .keep st

/-- A dict item in `parse_primary`, src/syntax/parser/mod.rs:616-628. -/
def parseItem (pe : PState → Res Expr) (st : PState) : Res ((Sym × Pos) × Expr) :=
  (((parseIdentifier st).withSync .skipOne).sync illIdent).bind fun key st =>
    ((expect .colon .keep st).sync ()).bind fun _ st =>
      (pe st).bind fun value st => .ok (key, value) st

/-- `parse_primary`, src/syntax/parser/mod.rs:571-704. -/
def parsePrimary (pe : PState → Res Expr) (pb : PState → Res Block) (st : PState) : Res Expr :=
  match st.toks with
  | [] => .err .unexpectedEof .keep st
  | ⟨k, pos⟩ :: ts =>
    let st' : PState := { st with toks := ts }
    match k with
    | .identifier x => .ok (.ident x pos) st'
    | .keyword .self_ => .ok (.self_ pos) st'
    | .literal l => .ok (.lit (Lit.ofTok l) pos) st'
    | .openBracket =>
      (sepBy pe .illFormed .comma .closeBracket (ts.length + 1) st').bind fun items st =>
        (expect .closeBracket (.token .closeBracket) st).bind fun _ st => .ok (.lit (.array items) pos) st
    | .openDict =>
      (sepBy (parseItem pe) (illIdent, .illFormed) .comma .closeBracket (ts.length + 1) st').bind fun items st =>
        (expect .closeBracket (.token .closeBracket) st).bind fun _ st => .ok (.lit (.dict items) pos) st
    | .keyword .function =>
      (parseFunction pb st').bind fun (params, body) st => .ok (.lit (.function params body) pos) st
    | .command | .asyncCommand | .captureCommand =>
      ((parseCommandBlock st).sync .illFormed).bind fun b st => .ok (.command b pos) st
    | .keyword .if_ =>
      (parseCond pe pb (ts.length + 1) st').bind fun (c, t, e) st =>
        (expect (.keyword .end_) (.keyword .end_) st).bind fun _ st => .ok (.if_ c t e pos) st
    | .openParens =>
      ((pe st').sync .illFormed).bind fun e st =>
        (expect .closeParens (.token .closeParens) st).bind fun _ st => .ok e st
    | _ => .err (.unexpected ⟨k, pos⟩ (.msg "expression")) .keep st

/-- `parse_postfix`, src/syntax/parser/mod.rs:487-567. -/
def parsePostfix (pe : PState → Res Expr) (pb : PState → Res Block) (st : PState) : Res Expr :=
  (parsePrimary pe pb st).bind fun e st => postfixLoop pe (st.toks.length + 1) e st

/-- `parse_prefix`, src/syntax/parser/mod.rs:464-483. -/
def parsePrefix (pe : PState → Res Expr) (pb : PState → Res Block) : Nat → PState → Res Expr
  | 0, _ => .timeout
  | n + 1, st =>
    match st.toks with
    | ⟨.operator op, pos⟩ :: ts =>
      if op.isPrefix then
        (parsePrefix pe pb n { st with toks := ts }).bind fun e st =>
          match op.toUnary with
          | some op => .ok (.unary op e pos) st
          | none => .crash
      else parsePostfix pe pb st
    | _ => parsePostfix pe pb st

/-- `parse_expression`, src/syntax/parser/mod.rs:406-422. -/
def exprWith (pe : PState → Res Expr) (pb : PState → Res Block) (st : PState) : Res Expr :=
  parseLevel (parsePrefix pe pb (st.toks.length + 1)) 7 st

/-! ### Statements -/

/-- `parse_statement`, src/syntax/parser/mod.rs:257-402. -/
def stmtWith (pe : PState → Res Expr) (pb : PState → Res Block) (st : PState) : Res Stmt :=
  match st.toks with
  | [] => .err .unexpectedEof .keep st
  | ⟨.keyword .let_, _⟩ :: ts =>
    ((parseIdentifier { st with toks := ts }).sync illIdent).bind fun (x, pos) st =>
      match st.toks with
      | ⟨.operator .assign, _⟩ :: ts =>
        (pe { st with toks := ts }).bind fun init st => .ok (.let_ x init pos) st
      | _ => .ok (.let_ x (.lit .nil pos) pos) st
  | ⟨.keyword .function, pos⟩ :: ⟨.identifier x, idPos⟩ :: ts =>
    (parseFunction pb { st with toks := ts }).bind fun (params, body) st =>
      .ok (.let_ x (.lit (.function params body) pos) idPos) st
  | ⟨.keyword .return_, pos⟩ :: ts =>
    if ts.head?.any (fun t => t.kind.isBlockTerminator) then .ok (.return_ (.lit .nil pos) pos) { st with toks := ts }
    else (pe { st with toks := ts }).bind fun e st => .ok (.return_ e pos) st
  | ⟨.keyword .break_, pos⟩ :: ts => .ok (.break_ pos) { st with toks := ts }
  | ⟨.keyword .while_, pos⟩ :: ts =>
    ((pe { st with toks := ts }).sync .illFormed).bind fun cond st =>
      ((expect (.keyword .do_) .keep st).sync ()).bind fun _ st =>
        (pb st).bind fun body st =>
          (expect (.keyword .end_) (.keyword .end_) st).bind fun _ st => .ok (.while_ cond body pos) st
  | ⟨.keyword .for_, _⟩ :: ts =>
    ((parseIdentifier { st with toks := ts }).sync illIdent).bind fun (x, pos) st =>
      ((expect (.keyword .in_) .skipOne st).sync ()).bind fun _ st =>
        ((pe st).sync .illFormed).bind fun e st =>
          ((expect (.keyword .do_) .keep st).sync ()).bind fun _ st =>
            (pb st).bind fun body st =>
              (expect (.keyword .end_) (.keyword .end_) st).bind fun _ st => .ok (.for_ x e body pos) st
  | _ :: _ =>
    (pe st).bind fun e st =>
      match st.toks with
      | ⟨.operator .assign, pos⟩ :: ts =>
        (pe { st with toks := ts }).bind fun r st => .ok (.assign e r pos) st
      | _ => .ok (.expr e) st

/-- Is the statement a `return`? (src/syntax/parser/mod.rs:240) -/
def isReturn : Stmt → Bool
  | .return_ .. => true
  | _ => false

/-- `parse_block`, src/syntax/parser/mod.rs:223-253. -/
def blockLoop (ps : PState → Res Stmt) : Nat → PState → Res Block
  | 0, _ => .timeout
  | n + 1, st =>
    match st.toks with
    | [] => .ok [] st
    | t :: _ =>
      if t.kind.isBlockTerminator then .ok [] st
      else
        ((ps st).forceSkip.sync .illFormed).bind fun s st =>
          if isReturn s then .ok [s] st
          else (blockLoop ps n st).bind fun b st => .ok (s :: b) st

/-- `parse_block`, src/syntax/parser/mod.rs:223-253. -/
def blockWith (pe : PState → Res Expr) (pb : PState → Res Block) (st : PState) : Res Block :=
  blockLoop (stmtWith pe pb) (st.toks.length + 1) st

/-- The recursion through `parse_expression` and `parse_block`, on a budget: `(parse_expression, parse_block)`.
(src/syntax/parser/mod.rs:223-254 and 406-423.) -/
def parseBoth : Nat → (PState → Res Expr) × (PState → Res Block)
  | 0 => (fun _ => .timeout, fun _ => .timeout)
  | n + 1 => (exprWith (parseBoth n).1 (parseBoth n).2, blockWith (parseBoth n).1 (parseBoth n).2)

/-- `Parser::parse_expression`, src/syntax/parser/mod.rs:406-422. -/
def parseExpr (n : Nat) : PState → Res Expr := (parseBoth n).1

/-- `Parser::parse_block`, src/syntax/parser/mod.rs:223-253. -/
def parseBlock (n : Nat) : PState → Res Block := (parseBoth n).2

/-- `Parser::parse`, src/syntax/parser/mod.rs:195-216. Every iteration overwrites `block`. -/
def parseLoop (pb : PState → Res Block) : Nat → PState → Res Block
  | 0, _ => .timeout
  | n + 1, st =>
    (pb st).bind fun block st =>
      match st.toks with
      | [] => .ok block st
      | t :: _ =>
        if t.kind.isBlockTerminator then
          parseLoop pb n ⟨[], .unexpected t (.msg "statement") :: st.errors⟩
        else parseLoop pb n st

/-- A budget that always suffices (proved in `Verif/Lemmas/ParseTerm.lean`). (Helper of src/syntax/parser/mod.rs.) -/
def parseBudget (ts : List Token) : Nat := 2 * ts.length + 2

/-- `Parser::new(tokens).parse()`, src/syntax/parser/mod.rs:62-66 and 195-216, with the errors reported. -/
def parse (ts : List Token) : Res Block :=
  parseLoop (parseBlock (parseBudget ts)) (ts.length + 2) ⟨ts, []⟩

end Hush

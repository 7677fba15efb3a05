import Verif.Model.Ast

/-!
Specification of the grammar, independent of the parser: which token sequences write down which syntax tree.

`Derives (.level k e) ts` says that `ts` is a way to write expression `e` where only operators binding at least as
tightly as level `k` may appear outside parentheses (level 0: prefix operators only; level 7: everything).
-/

namespace Hush.Spec
open Hush Hush.Ast

/-- Binding level of the binary operators, tightest first: multiplicative, additive, concatenation, relational, equality,
`and`, `or`. -/
def binLevel : BinOp → Nat
  | .times | .div | .mod => 1
  | .plus | .minus => 2
  | .concat => 3
  | .greater | .greaterEquals | .lower | .lowerEquals => 4
  | .equals | .notEquals => 5
  | .and => 6
  | .or => 7

/-- How a binary operator is written. -/
def binToken : BinOp → Operator
  | .plus => .plus | .minus => .minus | .times => .times | .div => .div | .mod => .mod
  | .equals => .equals | .notEquals => .notEquals
  | .greater => .greater | .greaterEquals => .greaterEquals | .lower => .lower | .lowerEquals => .lowerEquals
  | .and => .and | .or => .or | .concat => .concat

/-- The value of a literal token. -/
def litValue : TokLit → Lit
  | .nil => .nil
  | .true_ => .bool true
  | .false_ => .bool false
  | .int i => .int i
  | .float t => .float t
  | .byte b => .byte b
  | .string s => .string s

/-- If the token can continue an expression, the loosest level it continues: 0 for the postfix operators (call,
subscript, member, try), the operator's level for binary operators. -/
def contLevel : TokenKind → Option Nat
  | .openParens | .openBracket | .operator .dot | .operator .try_ => some 0
  | .operator .times | .operator .div | .operator .mod => some 1
  | .operator .plus | .operator .minus => some 2
  | .operator .concat => some 3
  | .operator .greater | .operator .greaterEquals | .operator .lower | .operator .lowerEquals => some 4
  | .operator .equals | .operator .notEquals => some 5
  | .operator .and => some 6
  | .operator .or => some 7
  | _ => none

/-- An expression of level `k` ends before this token. -/
def stops (k : Nat) (next : Option TokenKind) : Bool :=
  match next with
  | none => true
  | some t => match contLevel t with
    | none => true
    | some l => decide (k < l)

/-- The keywords that close a block. -/
def closesBlock : TokenKind → Bool
  | .keyword .end_ | .keyword .else_ | .keyword .elseif => true
  | _ => false

/-- What may follow a statement. Statements are not separated by newlines or semicolons, so a statement that ends in an
expression must not be followed by a token that continues the expression. -/
inductive Follow where
  /-- anything -/
  | any
  /-- `let x`: not followed by `=` -/
  | notAssign
  /-- ends in an expression -/
  | expr
  /-- an expression statement: additionally not followed by `=` -/
  | exprNotAssign
  /-- `return` without a value: must be the end of a nested block -/
  | closer
deriving DecidableEq

/-- May the token (or the end of the source) follow? -/
def Follow.ok : Follow → Option TokenKind → Bool
  | .any, _ => true
  | .notAssign, t => t != some (.operator .assign)
  | .expr, t => stops 7 t
  | .exprNotAssign, t => stops 7 t && t != some (.operator .assign)
  | .closer, t => t.any closesBlock

/-! ### Commands -/

/-- One piece of an argument; adjacent literals are still separate. -/
def partPieces : Hush.ArgPart → List Ast.ArgPart
  | .unquoted u => [.unit u]
  | .singleQuoted s => [.unit (.literal s)]
  | .doubleQuoted us => us.map .unit
  | .expansion e => [.expansion e]
  | .envAssign => [.unit (.literal [61])]

/-- Put a piece in front: literals are joined, and empty ones dropped. -/
def addPiece : Ast.ArgPart → List Ast.ArgPart → List Ast.ArgPart
  | .unit (.literal []), ps => ps
  | .unit (.literal s), .unit (.literal s') :: ps => .unit (.literal (s ++ s')) :: ps
  | p, ps => p :: ps

/-- The parts of an argument: pieces with adjacent literals joined. -/
def argParts (ps : List Hush.ArgPart) : List Ast.ArgPart := (ps.flatMap partPieces).foldr addPiece []

/-- Concatenation of any number of phrases. -/
inductive Many {α : Type} (P : α → List Token → Prop) : List α → List Token → Prop
  | nil : Many P [] []
  | cons {a as ts ts'} : P a ts → Many P as ts' → Many P (a :: as) (ts ++ ts')

/-- Phrases separated by `sep`, optionally also after the last one. -/
inductive SepBy {α : Type} (P : α → List Token → Prop) (sep : TokenKind) : List α → List Token → Prop
  | nil : SepBy P sep [] []
  | last {a ts} : P a ts → SepBy P sep [a] ts
  | cons {a as ts ts' p} : P a ts → SepBy P sep as ts' → SepBy P sep (a :: as) (ts ++ ⟨sep, p⟩ :: ts')

/-- `KEY=value` in front of a command. -/
inductive EnvTok : ArgUnit × Argument → List Token → Prop
  | mk {k ps p} : EnvTok (k, ⟨argParts ps, p⟩) [⟨.argument (.unquoted k :: .envAssign :: ps), p⟩]

/-- An argument token. -/
inductive ArgTok : Argument → List Token → Prop
  | mk {ps p} : ArgTok ⟨argParts ps, p⟩ [⟨.argument ps, p⟩]

/-- Does the argument token have the form `KEY=…`? -/
def isEnvForm : TokenKind → Bool
  | .argument (.unquoted _ :: .envAssign :: _) => true
  | _ => false

/-- A token that is a single unquoted number. -/
def isNumberTok : TokenKind → Bool
  | .argument [.unquoted (.literal s)] => s.all isDigit
  | _ => false

def isRedirOp : TokenKind → Bool
  | .cmdOperator (.output _) | .cmdOperator (.input _) => true
  | _ => false

/-- The value of a run of decimal digits. -/
def digitsValue (ds : Bytes) : Nat := ds.foldl (fun n b => 10 * n + (b.toNat - 48)) 0

/-- The text is a file descriptor number: decimal digits (optionally after a plus sign), at most 255. -/
inductive FdText : Bytes → Nat → Prop
  | digits {ds} : ds ≠ [] → ds.all isDigit = true → digitsValue ds ≤ 255 → FdText ds (digitsValue ds)
  | plus {ds} : ds ≠ [] → ds.all isDigit = true → digitsValue ds ≤ 255 → FdText (43 :: ds) (digitsValue ds)

/-- The target of `>`: a descriptor number, or else a file. -/
inductive Target : RedirectionTarget → Token → Prop
  | fd {s n p} : FdText s n → Target (.fd n) ⟨.argument [.unquoted (.literal s)], p⟩
  | file {ps p} : (∀ s n, ps = [.unquoted (.literal s)] → ¬ FdText s n) →
      Target (.overwrite ⟨argParts ps, p⟩) ⟨.argument ps, p⟩

/-- One redirection. -/
inductive Redir : Redirection → List Token → Prop
  | input {lit p ps p'} :
      Redir (.input lit ⟨argParts ps, p'⟩) [⟨.cmdOperator (.input lit), p⟩, ⟨.argument ps, p'⟩]
  | append {p ps p'} :
      Redir (.output 1 (.append ⟨argParts ps, p'⟩)) [⟨.cmdOperator (.output true), p⟩, ⟨.argument ps, p'⟩]
  | output {p t tok} : Target t tok → Redir (.output 1 t) [⟨.cmdOperator (.output false), p⟩, tok]
  | appendFd {s n p p' ps p''} : FdText s n →
      Redir (.output n (.append ⟨argParts ps, p''⟩))
        [⟨.argument [.unquoted (.literal s)], p⟩, ⟨.cmdOperator (.output true), p'⟩, ⟨.argument ps, p''⟩]
  | outputFd {s n p p' t tok} : FdText s n → Target t tok →
      Redir (.output n t) [⟨.argument [.unquoted (.literal s)], p⟩, ⟨.cmdOperator (.output false), p'⟩, tok]

/-- A simple command: environment, program, arguments, redirections, `?`. A number directly before a redirection operator
belongs to the redirection, not to the arguments. -/
inductive Basic : BasicCommand → List Token → Prop
  | mk {env tsE program tP args tsA redirs tsR abort tsT} :
      Many EnvTok env tsE → ArgTok program [tP] → isEnvForm tP.kind = false →
      Many ArgTok args tsA → Many Redir redirs tsR →
      (tsA ≠ [] → tsR.head?.any (fun t => isRedirOp t.kind) = true →
        tsA.getLast?.all (fun t => !isNumberTok t.kind) = true) →
      (tsR.head?.all (fun t => isRedirOp t.kind || isNumberTok t.kind) = true) →
      (abort = true ∧ tsT = [] ∨ abort = false ∧ ∃ p, tsT = [⟨.cmdOperator .try_, p⟩]) →
      Basic ⟨program, env, args, redirs, abort, program.pos⟩ (tsE ++ (tP :: (tsA ++ (tsR ++ tsT))))

/-- `| command`. -/
inductive Piped : BasicCommand → List Token → Prop
  | mk {c ts p} : Basic c ts → Piped c (⟨.pipe, p⟩ :: ts)

/-- A pipeline. -/
inductive Pipeline : Command → List Token → Prop
  | mk {head tsH tail tsT} : Basic head tsH → Many Piped tail tsT → Pipeline ⟨head, tail⟩ (tsH ++ tsT)

/-- How a command block is opened. -/
def openTok : BlockKind → TokenKind
  | .synchronous => .command
  | .asynchronous => .asyncCommand
  | .capture => .captureCommand

/-- A command block. -/
inductive CmdBlock : CommandBlock → List Token → Prop
  | one {kind p head ts p'} : Pipeline head ts →
      CmdBlock ⟨kind, head, []⟩ (⟨openTok kind, p⟩ :: (ts ++ [⟨.closeCommand, p'⟩]))
  | many {kind p head tsH ps tail tsT p'} : Pipeline head tsH → SepBy Pipeline .semicolon tail tsT →
      CmdBlock ⟨kind, head, tail⟩ (⟨openTok kind, p⟩ :: (tsH ++ ⟨.semicolon, ps⟩ :: (tsT ++ [⟨.closeCommand, p'⟩])))

/-! ### Expressions and statements -/

/-- A parameter. -/
inductive Param : Sym × Pos → List Token → Prop
  | mk {x p} : Param (x, p) [⟨.identifier x, p⟩]

/-- The syntactic categories. -/
inductive Phrase where
  | level (k : Nat) (e : Expr)
  | postfix (e : Expr)
  | primary (e : Expr)
  | exprs (es : List Expr)
  | items (is : List ((Sym × Pos) × Expr))
  | func (params : List (Sym × Pos)) (body : Block)
  | cond (c : Expr) (t e : Block)
  | stmt (s : Stmt) (f : Follow)
  | block (b : Block) (f : Follow)

/-- Is the statement a `return`? Nothing may follow it in its block. -/
def isRet : Stmt → Bool
  | .return_ .. => true
  | _ => false

/-- The token sequence writes down the phrase. -/
inductive Derives : Phrase → List Token → Prop
  -- Binary operators: left associative.
  | binary {k l ts op p r ts'} : Derives (.level (k + 1) l) ts → binLevel op = k + 1 → Derives (.level k r) ts' →
      Derives (.level (k + 1) (.binary l op r p)) (ts ++ ⟨.operator (binToken op), p⟩ :: ts')
  | up {k e ts} : Derives (.level k e) ts → Derives (.level (k + 1) e) ts
  -- Prefix operators.
  | minus {e ts p} : Derives (.level 0 e) ts → Derives (.level 0 (.unary .minus e p)) (⟨.operator .minus, p⟩ :: ts)
  | not {e ts p} : Derives (.level 0 e) ts → Derives (.level 0 (.unary .not e p)) (⟨.operator .not, p⟩ :: ts)
  | noPrefix {e ts} : Derives (.postfix e) ts → Derives (.level 0 e) ts
  -- Postfix operators.
  | call {f ts args ts' p p'} : Derives (.postfix f) ts → Derives (.exprs args) ts' →
      Derives (.postfix (.call f args p)) (ts ++ ⟨.openParens, p⟩ :: (ts' ++ [⟨.closeParens, p'⟩]))
  | index {o ts i ts' p p'} : Derives (.postfix o) ts → Derives (.level 7 i) ts' →
      Derives (.postfix (.access o i p)) (ts ++ ⟨.openBracket, p⟩ :: (ts' ++ [⟨.closeBracket, p'⟩]))
  | dot {o ts x p p'} : Derives (.postfix o) ts →
      Derives (.postfix (.access o (.lit (.ident x) p') p)) (ts ++ [⟨.operator .dot, p⟩, ⟨.identifier x, p'⟩])
  | try_ {e ts p} : Derives (.postfix e) ts → Derives (.postfix (.unary .try_ e p)) (ts ++ [⟨.operator .try_, p⟩])
  | noPostfix {e ts} : Derives (.primary e) ts → Derives (.postfix e) ts
  -- Primary expressions.
  | ident {x p} : Derives (.primary (.ident x p)) [⟨.identifier x, p⟩]
  | self_ {p} : Derives (.primary (.self_ p)) [⟨.keyword .self_, p⟩]
  | lit {l p} : Derives (.primary (.lit (litValue l) p)) [⟨.literal l, p⟩]
  | array {es ts p p'} : Derives (.exprs es) ts →
      Derives (.primary (.lit (.array es) p)) (⟨.openBracket, p⟩ :: (ts ++ [⟨.closeBracket, p'⟩]))
  | dict {is ts p p'} : Derives (.items is) ts →
      Derives (.primary (.lit (.dict is) p)) (⟨.openDict, p⟩ :: (ts ++ [⟨.closeBracket, p'⟩]))
  | function {ps b ts p} : Derives (.func ps b) ts →
      Derives (.primary (.lit (.function ps b) p)) (⟨.keyword .function, p⟩ :: ts)
  | if_ {c t e ts p p'} : Derives (.cond c t e) ts →
      Derives (.primary (.if_ c t e p)) (⟨.keyword .if_, p⟩ :: (ts ++ [⟨.keyword .end_, p'⟩]))
  | paren {e ts p p'} : Derives (.level 7 e) ts →
      Derives (.primary e) (⟨.openParens, p⟩ :: (ts ++ [⟨.closeParens, p'⟩]))
  | command {b k p ts} : CmdBlock b (⟨k, p⟩ :: ts) → Derives (.primary (.command b p)) (⟨k, p⟩ :: ts)
  -- Comma-separated lists; a trailing comma is allowed.
  | exprsNil : Derives (.exprs []) []
  | exprsLast {e ts} : Derives (.level 7 e) ts → Derives (.exprs [e]) ts
  | exprsCons {e ts es ts' p} : Derives (.level 7 e) ts → Derives (.exprs es) ts' →
      Derives (.exprs (e :: es)) (ts ++ ⟨.comma, p⟩ :: ts')
  | itemsNil : Derives (.items []) []
  | itemsLast {x px pc e ts} : Derives (.level 7 e) ts →
      Derives (.items [((x, px), e)]) (⟨.identifier x, px⟩ :: ⟨.colon, pc⟩ :: ts)
  | itemsCons {x px pc e ts is ts' p} : Derives (.level 7 e) ts → Derives (.items is) ts' →
      Derives (.items (((x, px), e) :: is)) (⟨.identifier x, px⟩ :: ⟨.colon, pc⟩ :: (ts ++ ⟨.comma, p⟩ :: ts'))
  -- Function parameters and body, and conditionals.
  | func {ps tsP b f tsB p p' p''} : SepBy Param .comma ps tsP → Derives (.block b f) tsB →
      Derives (.func ps b)
        (⟨.openParens, p⟩ :: (tsP ++ ⟨.closeParens, p'⟩ :: (tsB ++ [⟨.keyword .end_, p''⟩])))
  | condThen {c tsC t f tsT p} : Derives (.level 7 c) tsC → Derives (.block t f) tsT →
      Derives (.cond c t []) (tsC ++ ⟨.keyword .then_, p⟩ :: tsT)
  | condElse {c tsC t f tsT e g tsE p p'} : Derives (.level 7 c) tsC → Derives (.block t f) tsT →
      Derives (.block e g) tsE →
      Derives (.cond c t e) (tsC ++ ⟨.keyword .then_, p⟩ :: (tsT ++ ⟨.keyword .else_, p'⟩ :: tsE))
  | condElseif {c tsC t f tsT c' t' e' ts p p'} : Derives (.level 7 c) tsC → Derives (.block t f) tsT →
      Derives (.cond c' t' e') ts →
      Derives (.cond c t [.expr (.if_ c' t' e' p')])
        (tsC ++ ⟨.keyword .then_, p⟩ :: (tsT ++ ⟨.keyword .elseif, p'⟩ :: ts))
  -- Statements.
  | let_ {x p p'} : Derives (.stmt (.let_ x (.lit .nil p) p) .notAssign) [⟨.keyword .let_, p'⟩, ⟨.identifier x, p⟩]
  | letInit {x p p' p'' e ts} : Derives (.level 7 e) ts →
      Derives (.stmt (.let_ x e p) .expr) (⟨.keyword .let_, p'⟩ :: ⟨.identifier x, p⟩ :: ⟨.operator .assign, p''⟩ :: ts)
  | letFun {x p p' ps b ts} : Derives (.func ps b) ts →
      Derives (.stmt (.let_ x (.lit (.function ps b) p) p') .any)
        (⟨.keyword .function, p⟩ :: ⟨.identifier x, p'⟩ :: ts)
  | returnNil {p} : Derives (.stmt (.return_ (.lit .nil p) p) .closer) [⟨.keyword .return_, p⟩]
  | return_ {e ts p} : Derives (.level 7 e) ts → Derives (.stmt (.return_ e p) .expr) (⟨.keyword .return_, p⟩ :: ts)
  | break_ {p} : Derives (.stmt (.break_ p) .any) [⟨.keyword .break_, p⟩]
  | while_ {c tsC b f tsB p p' p''} : Derives (.level 7 c) tsC → Derives (.block b f) tsB →
      Derives (.stmt (.while_ c b p) .any)
        (⟨.keyword .while_, p⟩ :: (tsC ++ ⟨.keyword .do_, p'⟩ :: (tsB ++ [⟨.keyword .end_, p''⟩])))
  | for_ {x px p e tsE b f tsB p' p'' p'''} : Derives (.level 7 e) tsE → Derives (.block b f) tsB →
      Derives (.stmt (.for_ x e b px) .any)
        (⟨.keyword .for_, p⟩ :: ⟨.identifier x, px⟩ :: ⟨.keyword .in_, p'⟩ ::
          (tsE ++ ⟨.keyword .do_, p''⟩ :: (tsB ++ [⟨.keyword .end_, p'''⟩])))
  | assign {l tsL r tsR p} : Derives (.level 7 l) tsL → Derives (.level 7 r) tsR →
      Derives (.stmt (.assign l r p) .expr) (tsL ++ ⟨.operator .assign, p⟩ :: tsR)
  | exprStmt {e ts} : Derives (.level 7 e) ts → Derives (.stmt (.expr e) .exprNotAssign) ts
  -- Blocks.
  | blockNil : Derives (.block [] .any) []
  | blockLast {s f ts} : Derives (.stmt s f) ts → Derives (.block [s] f) ts
  | blockCons {s f ts b g ts'} : Derives (.stmt s f) ts → isRet s = false → Derives (.block b g) ts' → ts' ≠ [] →
      f.ok (ts'.head?.map (·.kind)) = true → Derives (.block (s :: b) g) (ts ++ ts')

/-- A whole source: a block at the end of which the source may end. -/
def IsProgram (b : Block) (ts : List Token) : Prop := ∃ f, Derives (.block b f) ts ∧ f.ok none = true

end Hush.Spec

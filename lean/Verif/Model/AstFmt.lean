import Verif.Model.Ast
import Verif.Model.Show

/-!
The text of syntax trees, as printed by `--ast`: src/syntax/ast/fmt.rs, with the words and operators of src/syntax/lexer/token/fmt.rs. Simplified:
without colours (src/term/color.rs:9-27: there are none unless both output streams are terminals).
-/

namespace Hush.AstFmt
open Hush.Ast

/-- `ILL_FORMED`, src/syntax/ast/fmt.rs:32. -/
def illFormed : Bytes := bs "***ill-formed***"

/-- `Context::indent`, src/syntax/ast/fmt.rs:46-49 and src/fmt.rs:88-90; a level is a `u8`, and the addition wraps (in builds with overflow checks it is a Rust panic). -/
def indent : Option Nat → Option Nat
  | some n => some ((n + 1) % 256)
  | none => none

/-- `Display for Indentation`, src/fmt.rs:94-102. -/
def tabs (n : Nat) : Bytes := List.replicate n 9

/-- `step`, src/syntax/ast/fmt.rs:661-668. -/
def step : Option Nat → Bytes
  | some n => 10 :: tabs n
  | none => [32]

/-- `Display for Symbol`, src/symbol/fmt.rs:11-29; names are always resolved, and the symbol that stands for an error does not occur in trees without errors. -/
def symbol (w : World) (s : Sym) : Bytes := Show.escapeDebug w (utf8Lossy s)

/-- `sep_by`, src/fmt.rs:106-127, for the texts of the items. -/
def sepBy (sep : Bytes) : List Bytes → Bytes
  | [] => []
  | t :: ts => t ++ ts.flatMap (sep ++ ·)

/-- `Display for UnaryOp`, src/syntax/ast/fmt.rs:189-197. -/
def unOp : UnOp → Bytes
  | .minus => bs "-" | .not => bs "not" | .try_ => bs "?"

/-- `Display for BinaryOp`, src/syntax/ast/fmt.rs:200-219. -/
def binOp : BinOp → Bytes
  | .plus => bs "+" | .minus => bs "-" | .times => bs "*" | .div => bs "/" | .mod => bs "%"
  | .equals => bs "==" | .notEquals => bs "!=" | .greater => bs ">" | .greaterEquals => bs ">="
  | .lower => bs "<" | .lowerEquals => bs "<=" | .and => bs "and" | .or => bs "or" | .concat => bs "++"

/-! ### Commands -/

/-- `Display for ArgUnit`, src/syntax/ast/fmt.rs:416-430. -/
def argUnit (w : World) : ArgUnit → Bytes
  | .literal s => Show.escapeDebug w (utf8Lossy s)
  | .dollar s _ => bs "${" ++ symbol w s ++ bs "}"

/-- `Display for ArgPart` and `ArgExpansion`, src/syntax/ast/fmt.rs:433-487. -/
def argPart (w : World) : Ast.ArgPart → Bytes
  | .unit u => argUnit w u
  | .expansion .home => bs "~/"
  | .expansion (.range a b) => bs "{" ++ intText a ++ bs ".." ++ intText b ++ bs "}"
  | .expansion (.collection items) => bs "{" ++ sepBy (bs ",") (items.map (argUnit w)) ++ bs "}"
  | .expansion .star => bs "*"
  | .expansion .percent => bs "%"
  | .expansion (.charClass s) => bs "[" ++ Show.escapeDebug w (utf8Lossy s) ++ bs "]"

/-- `Display for Argument`, src/syntax/ast/fmt.rs:490-506. -/
def argument (w : World) (a : Argument) : Bytes :=
  if a.pos = illPos then illFormed else bs "\"" ++ a.parts.flatMap (argPart w) ++ bs "\""

/-- `Display for RedirectionTarget`, src/syntax/ast/fmt.rs:509-527. -/
def target (w : World) : RedirectionTarget → Bytes
  | .fd n => bs ">" ++ natDigits n
  | .overwrite a => bs ">" ++ argument w a
  | .append a => bs ">>" ++ argument w a

/-- `Display for Redirection`, src/syntax/ast/fmt.rs:530-553. -/
def redirection (w : World) : Redirection → Bytes
  | .illFormed => illFormed
  | .output n t => natDigits n ++ target w t
  | .input false a => bs "<" ++ argument w a
  | .input true a => bs "<<" ++ argument w a

/-- `Display for BasicCommand`, src/syntax/ast/fmt.rs:556-586. -/
def basic (w : World) (c : BasicCommand) : Bytes :=
  c.env.flatMap (fun e => argUnit w e.1 ++ bs "=" ++ argument w e.2 ++ bs " ") ++ argument w c.program ++
    c.arguments.flatMap (fun a => bs " " ++ argument w a) ++ c.redirections.flatMap (fun r => bs " " ++ redirection w r) ++
    (if c.abortOnError then [] else bs " ?")

/-- `Display for Command`, src/syntax/ast/fmt.rs:589-604. -/
def command (w : World) (c : Command) : Bytes := basic w c.head ++ c.tail.flatMap (fun b => bs " | " ++ basic w b)

/-- `Display for CommandBlockKind`, src/syntax/ast/fmt.rs:607-615. -/
def blockKind : BlockKind → Bytes
  | .synchronous => bs "{" | .asynchronous => bs "&{" | .capture => bs "${"

/-- `Display for CommandBlock`, src/syntax/ast/fmt.rs:618-640. -/
def commandBlock (w : World) (c : Option Nat) (b : CommandBlock) : Bytes :=
  blockKind b.kind ++ step (indent c) ++ command w b.head ++ b.tail.flatMap (fun x => bs ";" ++ step (indent c) ++ command w x) ++
    step c ++ bs "}"

/-! ### Expressions and statements -/

/-- The separator of statements, src/syntax/ast/fmt.rs:85. -/
def between : Option Nat → Bytes
  | some _ => bs "\n"
  | none => bs ";"

/-- What is in front of a statement, src/syntax/ast/fmt.rs:78-82. -/
def before : Option Nat → Bytes
  | some n => tabs n
  | none => bs " "

/-- The local `step` of conditionals and loops, src/syntax/ast/fmt.rs:262, 363, 385. -/
def line : Option Nat → Bytes
  | some _ => bs "\n"
  | none => bs " "

/-- A line end, if not inline. (Helper of src/syntax/ast/fmt.rs.) -/
def newline : Option Nat → Bytes
  | some _ => bs "\n"
  | none => []

/-- The indentation, if not inline. (Helper of src/syntax/ast/fmt.rs.) -/
def margin : Option Nat → Bytes
  | some n => tabs n
  | none => []

mutual
/-- `Display for Expr`, src/syntax/ast/fmt.rs:222-330. -/
def expr (w : World) (c : Option Nat) : Expr → Bytes
  | .illFormed => illFormed
  | .self_ _ => bs "self"
  | .ident x _ => symbol w x
  | .lit l _ => lit w c l
  | .unary .try_ e _ => bs "(" ++ expr w none e ++ bs " ?" ++ bs ")"
  | .unary op e _ => bs "(" ++ unOp op ++ bs " " ++ expr w none e ++ bs ")"
  | .binary l op r _ => bs "(" ++ expr w none l ++ bs " " ++ binOp op ++ bs " " ++ expr w none r ++ bs ")"
  | .if_ a t e _ =>
    bs "if" ++ bs " " ++ expr w none a ++ bs " " ++ bs "then" ++ newline c ++
      (if t.isEmpty then [] else block w (indent c) t ++ line c) ++ margin c ++
      (if e.isEmpty then [] else bs "else" ++ newline c ++ block w (indent c) e ++ line c ++ margin c) ++ bs "end"
  | .access o (.lit (.ident x) _) _ => expr w none o ++ bs "." ++ symbol w x
  | .access o f _ => expr w none o ++ bs "[" ++ expr w none f ++ bs "]"
  | .call f args _ => expr w none f ++ bs "(" ++ sepBy (bs ", ") (exprs w none args) ++ bs ")"
  | .command b _ => commandBlock w c b
/-- `Display for Literal`, src/syntax/ast/fmt.rs:92-186; the text of a float is that of the number which the source text denotes. -/
def lit (w : World) (c : Option Nat) : Lit → Bytes
  | .nil => bs "nil"
  | .bool b => boolText b
  | .int i => intText i
  | .float t => w.floatDisplay (w.parseFloat t)
  | .byte b => bs "'" ++ Show.escapeChar w true (utf8Encode b.toNat) ++ bs "'"
  | .string s => Show.string w s
  | .array es =>
    bs "[" ++ sepBy (bs ",") ((exprs w (indent c) es).map (step (indent c) ++ ·)) ++ (if es.isEmpty then [] else step c) ++ bs "]"
  | .dict is =>
    bs "@[" ++ sepBy (bs ",") ((items w (indent c) is).map (step (indent c) ++ ·)) ++ (if is.isEmpty then [] else step c) ++ bs "]"
  | .function ps b =>
    bs "function" ++ bs "(" ++ sepBy (bs ", ") (ps.map (fun p => symbol w p.1)) ++ bs ")" ++ newline c ++ block w (indent c) b ++ step c ++
      bs "end"
  | .ident x => symbol w x
/-- The texts of expressions. (Helper of src/syntax/ast/fmt.rs.) -/
def exprs (w : World) (c : Option Nat) : List Expr → List Bytes
  | [] => []
  | e :: es => expr w c e :: exprs w c es
/-- The texts of the entries of a dict, src/syntax/ast/fmt.rs:143-148. -/
def items (w : World) (c : Option Nat) : List ((Sym × Pos) × Expr) → List Bytes
  | [] => []
  | ((k, _), e) :: is => (symbol w k ++ bs ": " ++ expr w c e) :: items w c is
/-- `Display for Statement`, src/syntax/ast/fmt.rs:333-413. -/
def stmt (w : World) (c : Option Nat) : Stmt → Bytes
  | .illFormed => illFormed
  | .let_ x e _ => bs "let" ++ bs " " ++ symbol w x ++ bs " = " ++ expr w c e
  | .assign l r _ => expr w none l ++ bs " = " ++ expr w c r
  | .return_ e _ => bs "return" ++ bs " " ++ expr w c e
  | .break_ _ => bs "break"
  | .while_ a b _ =>
    bs "while" ++ bs " " ++ expr w none a ++ bs " " ++ bs "do" ++ line c ++ (if b.isEmpty then [] else block w (indent c) b ++ line c) ++ margin c ++
      bs "end"
  | .for_ x e b _ =>
    bs "for" ++ bs " " ++ symbol w x ++ bs " " ++ bs "in" ++ bs " " ++ expr w none e ++ bs " " ++ bs "do" ++ line c ++
      (if b.isEmpty then [] else block w (indent c) b ++ line c) ++ margin c ++ bs "end"
  | .expr e => expr w c e
/-- `Display for Block`, src/syntax/ast/fmt.rs:67-89; ill-formed blocks are lists here. -/
def block (w : World) (c : Option Nat) : List Stmt → Bytes
  | [] => []
  | [s] => before c ++ stmt w c s
  | s :: ss => before c ++ stmt w c s ++ between c ++ block w c ss
end

/-- The text of a syntax tree, src/syntax/ast/fmt.rs:643-658 without the line above it (`AST for` and the path). -/
def text (w : World) (b : Block) : Bytes := block w (some 0) b

end Hush.AstFmt

import Verif.Model.AstFmt
import Verif.Model.Main

/-!
The reports of errors that are found before a script is executed: src/syntax/error/fmt.rs, src/semantic/error/fmt.rs, with the texts of the errors
(src/syntax/lexer/error/fmt.rs, src/syntax/parser/error/fmt.rs) and of tokens (src/syntax/lexer/token/fmt.rs). Simplified: without colours
(src/term/color.rs:9-27: there are none unless both output streams are terminals).
-/

namespace Hush.Report
open Hush

/-! ### Tokens -/

/-- `Display for Symbol`, src/symbol/fmt.rs:11-30; the default symbol stands for an identifier that is missing. -/
def symbol (w : World) (x : Sym) : Bytes := if symIll x then AstFmt.illFormed else AstFmt.symbol w x

/-- `Display for Keyword`, src/syntax/lexer/token/fmt.rs:21-45. -/
def keyword : Keyword → Bytes
  | .let_ => bs "let" | .if_ => bs "if" | .then_ => bs "then" | .else_ => bs "else" | .elseif => bs "elseif" | .end_ => bs "end"
  | .for_ => bs "for" | .in_ => bs "in" | .do_ => bs "do" | .while_ => bs "while" | .function => bs "function"
  | .return_ => bs "return" | .break_ => bs "break" | .self_ => bs "self"

/-- `Display for Literal`, src/syntax/lexer/token/fmt.rs:48-64; the text of a float is that of the number which the source text denotes. -/
def literal (w : World) : TokLit → Bytes
  | .nil => bs "nil"
  | .true_ => bs "true"
  | .false_ => bs "false"
  | .int i => intText i
  | .float t => w.floatDisplay (w.parseFloat t)
  | .byte b => bs "'" ++ Show.escapeChar w true (utf8Encode b.toNat) ++ bs "'"
  | .string s => Show.string w s

/-- `Display for Operator`, src/syntax/lexer/token/fmt.rs:67-90. -/
def operator : Operator → Bytes
  | .plus => bs "+" | .minus => bs "-" | .times => bs "*" | .div => bs "/" | .mod => bs "%"
  | .equals => bs "==" | .notEquals => bs "!=" | .greater => bs ">" | .greaterEquals => bs ">="
  | .lower => bs "<" | .lowerEquals => bs "<=" | .not => bs "not" | .and => bs "and" | .or => bs "or"
  | .concat => bs "++" | .dot => bs "." | .assign => bs "=" | .try_ => bs "?"

/-- `Display for ArgUnit`, src/syntax/lexer/token/fmt.rs:93-106; the braces are doubled, since these are not format strings. -/
def argUnit (w : World) : ArgUnit → Bytes
  | .literal s => Show.escapeDebug w (utf8Lossy s)
  | .dollar x _ => bs "${{" ++ symbol w x ++ bs "}}"

/-- `Display for ArgExpansion`, src/syntax/lexer/token/fmt.rs:109-151. -/
def argExpansion (w : World) : ArgExpansion → Bytes
  | .home => bs "~/"
  | .range a b => bs "{" ++ intText a ++ bs ".." ++ intText b ++ bs "}"
  | .collection items => bs "{" ++ AstFmt.sepBy (bs ",") (items.map (argUnit w)) ++ bs "}"
  | .star => bs "*"
  | .percent => bs "%"
  | .charClass s => bs "[" ++ Show.escapeDebug w (utf8Lossy s) ++ bs "]"

/-- `Display for ArgPart`, src/syntax/lexer/token/fmt.rs:154-174. -/
def argPart (w : World) : ArgPart → Bytes
  | .unquoted u => argUnit w u
  | .singleQuoted s => bs "'" ++ Show.escapeDebug w (utf8Lossy s) ++ bs "'"
  | .doubleQuoted us => bs "\"" ++ us.flatMap (argUnit w) ++ bs "\""
  | .expansion e => argExpansion w e
  | .envAssign => bs "="

/-- `Display for CommandOperator`, src/syntax/lexer/token/fmt.rs:177-192. -/
def cmdOperator : CmdOp → Bytes
  | .output true => bs ">>" | .output false => bs ">" | .input true => bs "<<" | .input false => bs "<" | .try_ => bs "?"

/-- `Display for TokenKind`, src/syntax/lexer/token/fmt.rs:195-226. -/
def token (w : World) : TokenKind → Bytes
  | .identifier s => symbol w s
  | .keyword k => keyword k
  | .operator o => operator o
  | .literal l => literal w l
  | .colon => bs ":" | .comma => bs "," | .openParens => bs "(" | .closeParens => bs ")"
  | .openBracket => bs "[" | .openDict => bs "@[" | .closeBracket => bs "]"
  | .command => bs "{" | .captureCommand => bs "${" | .asyncCommand => bs "&{" | .closeCommand => bs "}"
  | .argument ps => ps.flatMap (argPart w)
  | .cmdOperator o => cmdOperator o
  | .semicolon => bs ";" | .pipe => bs "|"

/-! ### Errors -/

/-- `syntax::Error`, src/syntax/error/mod.rs:11-16. -/
inductive SyntaxError where
  | lexer (e : LexError)
  | parser (e : ParseError)
deriving DecidableEq

/-- `Display for SourcePos`, src/syntax/source.rs:59-71; `path` is the path of the source (which the positions of the model do not contain), except for the
position of a missing identifier, whose path is the default symbol. -/
def position (w : World) (path : Bytes) (p : Pos) : Bytes :=
  (if p = Ast.illPos then AstFmt.illFormed else AstFmt.symbol w path) ++ bs " (line " ++ natDigits p.line ++ bs ", column " ++ natDigits p.column ++ bs ")"

/-- `Display for ErrorKind`, src/syntax/lexer/error/fmt.rs:8-37. -/
def lexKind (w : World) : LexErrorKind → Bytes
  | .unexpectedEof => bs "unexpected end of file"
  | .unexpected c => bs "unexpected '" ++ Show.escapeChar w true (utf8Encode c.toNat) ++ bs "'"
  | .emptyByteLiteral => bs "empty char literal"
  | .invalidEscapeSequence s => bs "invalid escape sequence '" ++ utf8Lossy s ++ bs "'"
  | .invalidNumber s => bs "invalid number '" ++ utf8Lossy s ++ bs "'"
  | .invalidIdentifier s => bs "invalid identifier '" ++ utf8Lossy s ++ bs "'"

/-- `Display for lexer::Error`, src/syntax/lexer/error/fmt.rs:40-46. -/
def lexError (w : World) (path : Bytes) (e : LexError) : Bytes := position w path e.pos ++ bs " - " ++ lexKind w e.error ++ bs "."

/-- `Display for Expected`, src/syntax/parser/error/fmt.rs:10-24. -/
def expected (w : World) : Expected → Bytes
  | .token k => bs "'" ++ token w k ++ bs "'"
  | .msg s => bs s

/-- `Display for parser::Error`, src/syntax/parser/error/fmt.rs:27-48. -/
def parseError (w : World) (path : Bytes) : ParseError → Bytes
  | .unexpectedEof => bs "unexpected end of file"
  | .unexpected t x => position w path t.pos ++ bs " - unexpected '" ++ token w t.kind ++ bs "', expected " ++ expected w x
  | .emptyCommandBlock p => position w path p ++ bs " - empty command block"

/-- `Display for syntax::Error`, src/syntax/error/fmt.rs:9-18. -/
def syntaxError (w : World) (path : Bytes) : SyntaxError → Bytes
  | .lexer e => lexError w path e
  | .parser e => parseError w path e

/-- `Display for ErrorKind`, src/semantic/error/fmt.rs:20-56. -/
def semKind (w : World) : SemErrorKind → Bytes
  | .undeclaredVariable x => bs "undeclared variable '" ++ symbol w x ++ bs "'"
  | .duplicateVariable x => bs "duplicate variable '" ++ symbol w x ++ bs "'"
  | .duplicateKey x => bs "duplicate key '" ++ symbol w x ++ bs "'"
  | .returnOutsideFunction => bs "return statement outside function"
  | .selfOutsideFunction => bs "self keyword outside function"
  | .tryOutsideFunction => bs "try operator outside function"
  | .breakOutsideLoop => bs "break statement outside loop"
  | .invalidAssignment => bs "invalid assignment"
  | .asyncBuiltin => bs "use of built-in command in async context"

/-- `Display for semantic::Error`, src/semantic/error/fmt.rs:59-66, without `Error: `. -/
def semError (w : World) (path : Bytes) (e : SemError) : Bytes := position w path e.pos ++ bs " - " ++ semKind w e.kind

/-! ### Reports -/

/-- The loop of `Display for Errors`, src/syntax/error/fmt.rs:30-58 and src/semantic/error/fmt.rs:80-104, from index `ix` on, for the texts of the errors. -/
def listing (what : Bytes) (max ix : Nat) : List Bytes → Bytes
  | [] => []
  | t :: ts =>
    if max ≤ ix then natDigits max ++ bs " more supressed " ++ what ++ bs " errors\n"
    else bs "Error: " ++ t ++ bs "\n" ++ listing what max (ix + 1) ts

/-- What is printed for syntax errors, src/main.rs:99-107 and src/runtime/lib/import.rs:96-104. -/
def syntaxReport (w : World) (path : Bytes) (es : List SyntaxError) : Bytes := listing (bs "syntax") 20 0 (es.map (syntaxError w path))

/-- What is printed for semantic errors, src/main.rs:139-150 and src/runtime/lib/import.rs:111-121. -/
def semanticReport (w : World) (path : Bytes) (es : List SemError) : Bytes := listing (bs "semantic") 20 0 (es.map (semError w path))

/-- What `run` prints to the standard error stream before the script is executed, src/main.rs:96-150; `es` are the errors of the syntax analysis, as they were
found (src/syntax/mod.rs:33-63). -/
def staticReport (w : World) (path : Bytes) (es : List SyntaxError) (ast : Ast.Block) : Bytes :=
  (if es.isEmpty then [] else syntaxReport w path es) ++
    match analyze ast with
    | .errors sem => semanticReport w path sem
    | _ => []

end Hush.Report

import Verif.Model.Token

/-!
Specification side of the lexer properties: how each token is written down. Nothing here refers to the
lexer.
-/

namespace Hush.Spec

/-- The value of a run of decimal digits (positional notation). -/
def decimalValue : Bytes → Nat
  | [] => 0
  | d :: ds => (d.toNat - 48) * 10 ^ ds.length + decimalValue ds

/-- A byte inside a double-quoted string literal: quote, backslash, newline, tab and NUL are escaped. -/
def strByte (c : UInt8) : Bytes :=
  if c = cDQuote then [cBackslash, cDQuote]
  else if c = cBackslash then [cBackslash, cBackslash]
  else if c = cNL then [cBackslash, cN]
  else if c = cTab then [cBackslash, cT]
  else if c = cNUL then [cBackslash, cZero]
  else [c]

/-- A string literal. -/
def stringText (s : Bytes) : Bytes := [cDQuote] ++ s.flatMap strByte ++ [cDQuote]

/-- A byte literal: like strings, with the single quote escaped. -/
def byteText (c : UInt8) : Bytes :=
  [cSQuote] ++ (if c = cSQuote then [cBackslash, cSQuote] else if c = cDQuote then [c] else strByte c) ++ [cSQuote]

/-- A byte inside a single-quoted command argument. -/
def sqByte (c : UInt8) : Bytes :=
  if c = cSQuote then [cBackslash, cSQuote] else if c = cDQuote then [c] else strByte c

/-- A byte inside a double-quoted command argument: the dollar is escaped as well. -/
def dqByte (c : UInt8) : Bytes :=
  if c = cDollar then [cBackslash, cDollar] else strByte c

/-- Characters that have a meaning in unquoted argument text and are written with a backslash. -/
def unqSpecial (c : UInt8) : Bool :=
  c == cHash || c == cSQuote || c == cDQuote || c == cGt || c == cLt || c == cQuestion || c == cSemi
    || c == cDollar || c == cEq || c == cBackslash || isWs c

/-- Characters that cannot be written in unquoted argument text: the closing brace and the expansion
starters, which have no escape sequence. -/
def unqForbidden (c : UInt8) : Bool :=
  c == cCloseBrace || c == cOpenBrace || c == cOpenBracket || c == cTilde || c == cStar || c == cPercent

/-- A byte of unquoted argument text. -/
def unqByte (c : UInt8) : Bytes := if unqSpecial c then [cBackslash, c] else [c]

/-- Variable names: a letter or underscore, then letters, digits and underscores. -/
def IsName (s : Bytes) : Prop := ∃ x xs, s = x :: xs ∧ isWordStart x = true ∧ xs.all isWord = true

/-- Reserved words of the language. -/
def reserved : List Bytes :=
  [bs "let", bs "if", bs "then", bs "else", bs "elseif", bs "end", bs "for", bs "in", bs "do", bs "while",
   bs "function", bs "return", bs "break", bs "self", bs "nil", bs "true", bs "false", bs "not", bs "and", bs "or"]

/-- A legal identifier. -/
def IsIdent (s : Bytes) : Prop := IsName s ∧ s ∉ reserved

/-- A unit of a double-quoted argument. -/
def unitText : ArgUnit → Bytes
  | .literal s => s.flatMap dqByte
  | .dollar s _ => [cDollar, cOpenBrace] ++ s ++ [cCloseBrace]

/-- Units that a double-quoted argument can consist of: non-empty literals, no two in a row. -/
def UnitsOk : List ArgUnit → Prop
  | [] => True
  | .literal s :: us => s ≠ [] ∧ UnitsOk us ∧ (∀ s' r, us ≠ .literal s' :: r)
  | .dollar s _ :: us => IsIdent s ∧ UnitsOk us

/-- A part of a command argument. -/
def partText : ArgPart → Bytes
  | .unquoted (.literal s) => s.flatMap unqByte
  | .unquoted (.dollar s _) => [cDollar, cOpenBrace] ++ s ++ [cCloseBrace]
  | .singleQuoted s => [cSQuote] ++ s.flatMap sqByte ++ [cSQuote]
  | .doubleQuoted us => [cDQuote] ++ us.flatMap unitText ++ [cDQuote]
  | .expansion .home => [cTilde, cSlash]
  | .expansion .star => [cStar]
  | .expansion .percent => [cPercent]
  | .expansion _ => []
  | .envAssign => [cEq]

/-- A command argument. -/
def argText (ps : List ArgPart) : Bytes := ps.flatMap partText

/-- Parts that can follow one another: unquoted literals are non-empty, writable, and not adjacent. -/
def PartsOk : List ArgPart → Prop
  | [] => True
  | .unquoted (.literal s) :: ps =>
      s ≠ [] ∧ s.all (fun c => !unqForbidden c) = true ∧ PartsOk ps ∧ (∀ s' r, ps ≠ .unquoted (.literal s') :: r)
  | .unquoted (.dollar s _) :: ps => IsIdent s ∧ PartsOk ps
  | .singleQuoted _ :: ps => PartsOk ps
  | .doubleQuoted us :: ps => UnitsOk us ∧ PartsOk ps
  | .expansion .star :: ps => PartsOk ps
  | .expansion .percent :: ps => PartsOk ps
  | .expansion _ :: _ => False
  | .envAssign :: ps => PartsOk ps

/-- A whole argument: at least one part; a home expansion only at the start; an unquoted literal at the start
does not begin with a pipe. -/
def ArgOk : List ArgPart → Prop
  | [] => False
  | .expansion .home :: ps => PartsOk ps
  | .unquoted (.literal (c :: s)) :: ps => c ≠ cPipe ∧ PartsOk (.unquoted (.literal (c :: s)) :: ps)
  | ps => PartsOk ps

/-- Operators. -/
def operatorText : Operator → Bytes
  | .plus => bs "+" | .minus => bs "-" | .times => bs "*" | .div => bs "/" | .mod => bs "%"
  | .equals => bs "==" | .notEquals => bs "!=" | .greater => bs ">" | .greaterEquals => bs ">="
  | .lower => bs "<" | .lowerEquals => bs "<=" | .not => bs "not" | .and => bs "and" | .or => bs "or"
  | .concat => bs "++" | .dot => bs "." | .assign => bs "=" | .try_ => bs "?"

/-- Keywords. -/
def keywordText : Keyword → Bytes
  | .let_ => bs "let" | .if_ => bs "if" | .then_ => bs "then" | .else_ => bs "else" | .elseif => bs "elseif"
  | .end_ => bs "end" | .for_ => bs "for" | .in_ => bs "in" | .do_ => bs "do" | .while_ => bs "while"
  | .function => bs "function" | .return_ => bs "return" | .break_ => bs "break" | .self_ => bs "self"

/-- Decimal text of a natural number. -/
def natText (n : Nat) : Bytes :=
  if n < 10 then [UInt8.ofNat (48 + n)] else natText (n / 10) ++ [UInt8.ofNat (48 + n % 10)]

/-- Written form of a token. -/
def tokenText : TokenKind → Bytes
  | .identifier s => s
  | .keyword k => keywordText k
  | .operator o => operatorText o
  | .literal .nil => bs "nil"
  | .literal .true_ => bs "true"
  | .literal .false_ => bs "false"
  | .literal (.int i) => natText i.toNat
  | .literal (.float t) => t
  | .literal (.byte b) => byteText b
  | .literal (.string s) => stringText s
  | .colon => bs ":" | .comma => bs ","
  | .openParens => bs "(" | .closeParens => bs ")"
  | .openBracket => bs "[" | .openDict => bs "@[" | .closeBracket => bs "]"
  | .command => bs "{" | .asyncCommand => bs "&{" | .captureCommand => bs "${" | .closeCommand => bs "}"
  | .argument ps => argText ps
  | .cmdOperator (.output false) => bs ">" | .cmdOperator (.output true) => bs ">>"
  | .cmdOperator (.input false) => bs "<" | .cmdOperator (.input true) => bs "<<"
  | .cmdOperator .try_ => bs "?"
  | .semicolon => bs ";" | .pipe => bs "|"

/-- Text of a float literal: digits, then a fraction or an exponent or both. -/
inductive FloatText : Bytes → Prop
  | frac (a b) : a ≠ [] → b ≠ [] → a.all isDigit = true → b.all isDigit = true → FloatText (a ++ cDot :: b)
  | exp (a b) : a ≠ [] → b ≠ [] → a.all isDigit = true → b.all isDigit = true → FloatText (a ++ cE :: b)
  | fracExp (a b e) : a ≠ [] → b ≠ [] → e ≠ [] → a.all isDigit = true → b.all isDigit = true →
      e.all isDigit = true → FloatText (a ++ cDot :: (b ++ cE :: e))

/-- Where the text is: ordinary code or a command block. -/
inductive Mode where
  | code
  | command
deriving DecidableEq

/-- Tokens legal in ordinary code, and the mode after them; tokens legal in a command block, and the mode
after them. -/
inductive TokOk : Mode → TokenKind → Mode → Prop
  | ident {s} : IsIdent s → TokOk .code (.identifier s) .code
  | keyword {k} : TokOk .code (.keyword k) .code
  | operator {o} : TokOk .code (.operator o) .code
  | nil : TokOk .code (.literal .nil) .code
  | true_ : TokOk .code (.literal .true_) .code
  | false_ : TokOk .code (.literal .false_) .code
  | int {n : Nat} : n < 2 ^ 63 → TokOk .code (.literal (.int n)) .code
  | float {t} : FloatText t → TokOk .code (.literal (.float t)) .code
  | byte {b} : TokOk .code (.literal (.byte b)) .code
  | string {s} : TokOk .code (.literal (.string s)) .code
  | colon : TokOk .code .colon .code
  | comma : TokOk .code .comma .code
  | openParens : TokOk .code .openParens .code
  | closeParens : TokOk .code .closeParens .code
  | openBracket : TokOk .code .openBracket .code
  | openDict : TokOk .code .openDict .code
  | closeBracket : TokOk .code .closeBracket .code
  | command : TokOk .code .command .command
  | asyncCommand : TokOk .code .asyncCommand .command
  | captureCommand : TokOk .code .captureCommand .command
  | closeCommand : TokOk .command .closeCommand .code
  | argument {ps} : ArgOk ps → TokOk .command (.argument ps) .command
  | cmdOperator {o} : TokOk .command (.cmdOperator o) .command
  | semicolon : TokOk .command .semicolon .command
  | pipe : TokOk .command .pipe .command

/-- A legal sequence of tokens, from one mode to another. -/
inductive ToksOk : Mode → List TokenKind → Mode → Prop
  | nil {m} : ToksOk m [] m
  | cons {m m' m'' k ks} : TokOk m k m' → ToksOk m' ks m'' → ToksOk m (k :: ks) m''

/-- Filler between tokens: whitespace, and comments running to the end of their line. -/
inductive Filler : Bytes → Prop
  | nil : Filler []
  | space {c w} : isWs c = true → Filler w → Filler (c :: w)
  | comment {body w} : cNL ∉ body → Filler w → Filler (cHash :: (body ++ cNL :: w))

/-- Bytes that end a command argument. -/
def endsArg (y : UInt8) : Bool :=
  isWs y || y == cHash || y == cSemi || y == cGt || y == cLt || y == cQuestion || y == cCloseBrace

/-- A token ends where the next byte (if any) cannot belong to it: names end before a byte that is not a letter,
digit or underscore; numbers before a byte that does not continue a number; `>` `<` `=` `+` before a byte
that does not make a longer operator; arguments before whitespace, a comment, a separator, a redirection or the
end of the block (an argument never ends at the end of the file). -/
def ends (k : TokenKind) (y : Option UInt8) : Bool :=
  match k with
  | .argument _ => y.any endsArg
  | .identifier _ | .keyword _ | .literal .nil | .literal .true_ | .literal .false_
  | .operator .not | .operator .and | .operator .or => y.all (fun y => !isWord y)
  | .literal (.int _) => y.all (fun y => !isDigit y && y != cDot && y != cE && y != cUE)
  | .literal (.float _) => y.all (fun y => !isDigit y && y != cE && y != cUE)
  | .operator .greater | .operator .lower | .operator .assign => y.all (fun y => y != cEq)
  | .operator .plus => y.all (fun y => y != cPlus)
  | .cmdOperator (.output false) => y.all (fun y => y != cGt)
  | .cmdOperator (.input false) => y.all (fun y => y != cLt)
  | _ => true

/-- `Written ks rest t`: the text `t` writes down the tokens `ks` and then continues with `rest`. Before each token
and at the end there may be any filler, or none where the tokens cannot run together. -/
inductive Written : List TokenKind → Bytes → Bytes → Prop
  | nil {w rest} : Filler w → Written [] rest (w ++ rest)
  | cons {k ks w rest t} : Filler w → ends k t.head? = true → Written ks rest t →
      Written (k :: ks) rest (w ++ (tokenText k ++ t))

end Hush.Spec

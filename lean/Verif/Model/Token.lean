import Verif.Model.Bytes

/-!
Tokens: src/syntax/lexer/token/mod.rs and src/syntax/lexer/error/mod.rs.
-/

namespace Hush

/-- `SourcePos`, src/syntax/source.rs:51-56. Simplified: the path component is dropped (it is the
same for a whole source) and `u32` counters are unbounded. -/
structure Pos where
  line : Nat
  column : Nat
deriving DecidableEq, Repr, Inhabited

/-- An interned symbol (src/symbol/mod.rs:6-8). Simplified: a symbol is the byte string it denotes; the
interner is trusted to be injective. -/
abbrev Sym := Bytes

/-- `Keyword`, src/syntax/lexer/token/mod.rs:9-24. -/
inductive Keyword where
  | let_ | if_ | then_ | else_ | elseif | end_ | for_ | in_ | do_ | while_ | function | return_
  | break_ | self_
deriving DecidableEq, Repr

/-- `Literal`, src/syntax/lexer/token/mod.rs:29-38. Simplified: a float literal is kept as its source
text (its numeric value is chosen by Rust's `f64` parser, which is not modelled). -/
inductive TokLit where
  | nil | true_ | false_
  | int (i : Int)
  | float (text : Bytes)
  | byte (b : UInt8)
  | string (s : Bytes)
deriving DecidableEq, Repr

/-- `Operator`, src/syntax/lexer/token/mod.rs:43-67. -/
inductive Operator where
  | plus | minus | times | div | mod
  | equals | notEquals | greater | greaterEquals | lower | lowerEquals
  | not | and | or
  | concat | dot | assign | try_
deriving DecidableEq, Repr

/-- `Operator::is_equality`, src/syntax/lexer/token/mod.rs:72-74. -/
def Operator.isEquality : Operator → Bool
  | .equals | .notEquals => true
  | _ => false

/-- `Operator::is_comparison`, src/syntax/lexer/token/mod.rs:78-83. -/
def Operator.isComparison : Operator → Bool
  | .lower | .lowerEquals | .greater | .greaterEquals => true
  | _ => false

/-- `Operator::is_term`, src/syntax/lexer/token/mod.rs:87-89. -/
def Operator.isTerm : Operator → Bool
  | .plus | .minus => true
  | _ => false

/-- `Operator::is_factor`, src/syntax/lexer/token/mod.rs:93-95. -/
def Operator.isFactor : Operator → Bool
  | .times | .div | .mod => true
  | _ => false

/-- `Operator::is_prefix`, src/syntax/lexer/token/mod.rs:99-101. -/
def Operator.isPrefix : Operator → Bool
  | .not | .minus => true
  | _ => false

/-- `ArgUnit`, src/syntax/lexer/token/mod.rs:107-113. -/
inductive ArgUnit where
  | literal (s : Bytes)
  | dollar (symbol : Sym) (pos : Pos)
deriving DecidableEq, Repr

/-- `ArgUnit::is_number`, src/syntax/lexer/token/mod.rs:118-123. -/
def ArgUnit.isNumber : ArgUnit → Bool
  | .literal lit => lit.all isDigit
  | _ => false

/-- `ArgExpansion`, src/syntax/lexer/token/mod.rs:128-136. -/
inductive ArgExpansion where
  | home
  | range (a b : Int)
  | collection (items : List ArgUnit)
  | star
  | percent
  | charClass (s : Bytes)
deriving DecidableEq, Repr

/-- `ArgPart`, src/syntax/lexer/token/mod.rs:140-146. -/
inductive ArgPart where
  | unquoted (u : ArgUnit)
  | singleQuoted (s : Bytes)
  | doubleQuoted (us : List ArgUnit)
  | expansion (e : ArgExpansion)
  | envAssign
deriving DecidableEq, Repr

/-- `ArgPart::is_unquoted_number`, src/syntax/lexer/token/mod.rs:151-156. -/
def ArgPart.isUnquotedNumber : ArgPart → Bool
  | .unquoted u => u.isNumber
  | _ => false

/-- `CommandOperator`, src/syntax/lexer/token/mod.rs:162-166. -/
inductive CmdOp where
  | output (append : Bool)
  | input (literal : Bool)
  | try_
deriving DecidableEq, Repr

/-- `CommandOperator::is_redirection`, src/syntax/lexer/token/mod.rs:171-176. -/
def CmdOp.isRedirection : CmdOp → Bool
  | .output _ | .input _ => true
  | .try_ => false

/-- `TokenKind`, src/syntax/lexer/token/mod.rs:182-211. -/
inductive TokenKind where
  | identifier (s : Sym)
  | keyword (k : Keyword)
  | operator (o : Operator)
  | literal (l : TokLit)
  | colon | comma
  | openParens | closeParens
  | openBracket | openDict | closeBracket
  | command | asyncCommand | captureCommand | closeCommand
  | argument (parts : List ArgPart)
  | cmdOperator (o : CmdOp)
  | semicolon | pipe
deriving DecidableEq, Repr

/-- `TokenKind::is_block_terminator`, src/syntax/lexer/token/mod.rs:217-222. -/
def TokenKind.isBlockTerminator : TokenKind → Bool
  | .keyword .end_ | .keyword .else_ | .keyword .elseif => true
  | _ => false

/-- `TokenKind::is_command_block_starter`, src/syntax/lexer/token/mod.rs:226-231. -/
def TokenKind.isCommandBlockStarter : TokenKind → Bool
  | .command | .asyncCommand | .captureCommand => true
  | _ => false

/-- `TokenKind::is_basic_command_terminator`, src/syntax/lexer/token/mod.rs:236-241. -/
def TokenKind.isBasicCommandTerminator : TokenKind → Bool
  | .semicolon | .pipe | .closeCommand => true
  | _ => false

/-- `Token`, src/syntax/lexer/token/mod.rs:247-250. -/
structure Token where
  kind : TokenKind
  pos : Pos
deriving DecidableEq, Repr

/-- `ErrorKind`, src/syntax/lexer/error/mod.rs:8-21. -/
inductive LexErrorKind where
  | unexpectedEof
  | unexpected (c : UInt8)
  | emptyByteLiteral
  | invalidEscapeSequence (s : Bytes)
  | invalidNumber (s : Bytes)
  | invalidIdentifier (s : Bytes)
deriving DecidableEq, Repr

/-- `lexer::Error`, src/syntax/lexer/error/mod.rs:26-29. -/
structure LexError where
  error : LexErrorKind
  pos : Pos
deriving DecidableEq, Repr

end Hush

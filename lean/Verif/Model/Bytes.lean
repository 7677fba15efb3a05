/-!
Byte strings and character classes used by every part of the model.
-/

namespace Hush

/-- A Rust `[u8]` / `Box<[u8]>` / `Vec<u8>`. (Such as src/runtime/value/string.rs, src/syntax/lexer/cursor.rs:6-10.) -/
abbrev Bytes := List UInt8

/-- Bytes of an ASCII literal (used to write keywords and examples). (Not part of src/.) -/
def bs (s : String) : Bytes := s.toList.map (fun c => UInt8.ofNat c.toNat)

/-- The byte with this code, as a byte literal in the lexer, src/syntax/lexer/automata/*.rs. -/
abbrev cNUL : UInt8 := 0
/-- The byte with this code, as a byte literal in the lexer, src/syntax/lexer/automata/*.rs. -/
abbrev cTab : UInt8 := 9
/-- The byte with this code, as a byte literal in the lexer, src/syntax/lexer/automata/*.rs. -/
abbrev cNL : UInt8 := 10
/-- The byte with this code, as a byte literal in the lexer, src/syntax/lexer/automata/*.rs. -/
abbrev cFF : UInt8 := 12
/-- The byte with this code, as a byte literal in the lexer, src/syntax/lexer/automata/*.rs. -/
abbrev cCR : UInt8 := 13
/-- The byte with this code, as a byte literal in the lexer, src/syntax/lexer/automata/*.rs. -/
abbrev cSpace : UInt8 := 32
/-- The byte with this code, as a byte literal in the lexer, src/syntax/lexer/automata/*.rs. -/
abbrev cBang : UInt8 := 33
/-- The byte with this code, as a byte literal in the lexer, src/syntax/lexer/automata/*.rs. -/
abbrev cDQuote : UInt8 := 34
/-- The byte with this code, as a byte literal in the lexer, src/syntax/lexer/automata/*.rs. -/
abbrev cHash : UInt8 := 35
/-- The byte with this code, as a byte literal in the lexer, src/syntax/lexer/automata/*.rs. -/
abbrev cDollar : UInt8 := 36
/-- The byte with this code, as a byte literal in the lexer, src/syntax/lexer/automata/*.rs. -/
abbrev cPercent : UInt8 := 37
/-- The byte with this code, as a byte literal in the lexer, src/syntax/lexer/automata/*.rs. -/
abbrev cAmp : UInt8 := 38
/-- The byte with this code, as a byte literal in the lexer, src/syntax/lexer/automata/*.rs. -/
abbrev cSQuote : UInt8 := 39
/-- The byte with this code, as a byte literal in the lexer, src/syntax/lexer/automata/*.rs. -/
abbrev cOpenParens : UInt8 := 40
/-- The byte with this code, as a byte literal in the lexer, src/syntax/lexer/automata/*.rs. -/
abbrev cCloseParens : UInt8 := 41
/-- The byte with this code, as a byte literal in the lexer, src/syntax/lexer/automata/*.rs. -/
abbrev cStar : UInt8 := 42
/-- The byte with this code, as a byte literal in the lexer, src/syntax/lexer/automata/*.rs. -/
abbrev cPlus : UInt8 := 43
/-- The byte with this code, as a byte literal in the lexer, src/syntax/lexer/automata/*.rs. -/
abbrev cComma : UInt8 := 44
/-- The byte with this code, as a byte literal in the lexer, src/syntax/lexer/automata/*.rs. -/
abbrev cMinus : UInt8 := 45
/-- The byte with this code, as a byte literal in the lexer, src/syntax/lexer/automata/*.rs. -/
abbrev cDot : UInt8 := 46
/-- The byte with this code, as a byte literal in the lexer, src/syntax/lexer/automata/*.rs. -/
abbrev cSlash : UInt8 := 47
/-- The byte with this code, as a byte literal in the lexer, src/syntax/lexer/automata/*.rs. -/
abbrev cZero : UInt8 := 48
/-- The byte with this code, as a byte literal in the lexer, src/syntax/lexer/automata/*.rs. -/
abbrev cColon : UInt8 := 58
/-- The byte with this code, as a byte literal in the lexer, src/syntax/lexer/automata/*.rs. -/
abbrev cSemi : UInt8 := 59
/-- The byte with this code, as a byte literal in the lexer, src/syntax/lexer/automata/*.rs. -/
abbrev cLt : UInt8 := 60
/-- The byte with this code, as a byte literal in the lexer, src/syntax/lexer/automata/*.rs. -/
abbrev cEq : UInt8 := 61
/-- The byte with this code, as a byte literal in the lexer, src/syntax/lexer/automata/*.rs. -/
abbrev cGt : UInt8 := 62
/-- The byte with this code, as a byte literal in the lexer, src/syntax/lexer/automata/*.rs. -/
abbrev cQuestion : UInt8 := 63
/-- The byte with this code, as a byte literal in the lexer, src/syntax/lexer/automata/*.rs. -/
abbrev cAt : UInt8 := 64
/-- The byte with this code, as a byte literal in the lexer, src/syntax/lexer/automata/*.rs. -/
abbrev cUE : UInt8 := 69
/-- The byte with this code, as a byte literal in the lexer, src/syntax/lexer/automata/*.rs. -/
abbrev cOpenBracket : UInt8 := 91
/-- The byte with this code, as a byte literal in the lexer, src/syntax/lexer/automata/*.rs. -/
abbrev cBackslash : UInt8 := 92
/-- The byte with this code, as a byte literal in the lexer, src/syntax/lexer/automata/*.rs. -/
abbrev cCloseBracket : UInt8 := 93
/-- The byte with this code, as a byte literal in the lexer, src/syntax/lexer/automata/*.rs. -/
abbrev cUnderscore : UInt8 := 95
/-- The byte with this code, as a byte literal in the lexer, src/syntax/lexer/automata/*.rs. -/
abbrev cE : UInt8 := 101
/-- The byte with this code, as a byte literal in the lexer, src/syntax/lexer/automata/*.rs. -/
abbrev cN : UInt8 := 110
/-- The byte with this code, as a byte literal in the lexer, src/syntax/lexer/automata/*.rs. -/
abbrev cT : UInt8 := 116
/-- The byte with this code, as a byte literal in the lexer, src/syntax/lexer/automata/*.rs. -/
abbrev cOpenBrace : UInt8 := 123
/-- The byte with this code, as a byte literal in the lexer, src/syntax/lexer/automata/*.rs. -/
abbrev cPipe : UInt8 := 124
/-- The byte with this code, as a byte literal in the lexer, src/syntax/lexer/automata/*.rs. -/
abbrev cCloseBrace : UInt8 := 125
/-- The byte with this code, as a byte literal in the lexer, src/syntax/lexer/automata/*.rs. -/
abbrev cTilde : UInt8 := 126

/-- Rust `u8::is_ascii_whitespace`: space, tab, newline, form feed, carriage return.
(Used at src/syntax/lexer/automata/root.rs:29, command.rs:25 and argument.rs:583, 609.) -/
def isWs (c : UInt8) : Bool :=
  c == cSpace || c == cTab || c == cNL || c == cFF || c == cCR

/-- Rust `u8::is_ascii_digit`. (Used at src/syntax/lexer/automata/root.rs:41, number.rs:58 and src/syntax/lexer/token/mod.rs:121.) -/
def isDigit (c : UInt8) : Bool := decide (48 ≤ c ∧ c ≤ 57)

/-- Rust `u8::is_ascii_alphabetic`. (Used at src/syntax/lexer/automata/word.rs:100-108.) -/
def isAlpha (c : UInt8) : Bool := decide ((65 ≤ c ∧ c ≤ 90) ∨ (97 ≤ c ∧ c ≤ 122))

/-- `IsWord::is_word_start`, src/syntax/lexer/automata/word.rs:101-103. -/
def isWordStart (c : UInt8) : Bool := isAlpha c || c == cUnderscore

/-- `IsWord::is_word`, src/syntax/lexer/automata/word.rs:105-107. -/
def isWord (c : UInt8) : Bool := isAlpha c || isDigit c || c == cUnderscore

end Hush

import Verif.Model.Token

/-!
The lexer: src/syntax/lexer/cursor.rs and src/syntax/lexer/automata/*.rs.

A Rust panic (`todo!`, `unreachable!`) is the result `none` of `State.visit`.
-/

namespace Hush

/-- `Cursor`, src/syntax/lexer/cursor.rs:5-10. Simplified: instead of the whole input and an offset we
keep the input from the offset on (`rest`), and the offset for measuring distances. -/
structure Cursor where
  rest : Bytes
  offset : Nat
  pos : Pos
deriving DecidableEq, Repr

namespace Cursor

/-- `Cursor::from(&Source)`, src/syntax/lexer/cursor.rs:72-80. -/
def start (input : Bytes) : Cursor := ⟨input, 0, ⟨1, 0⟩⟩

/-- `Cursor::is_eof`, src/syntax/lexer/cursor.rs:24-26. -/
def isEof (c : Cursor) : Bool := c.rest.isEmpty

/-- `Cursor::peek`, src/syntax/lexer/cursor.rs:29-31. -/
def peek (c : Cursor) : Option UInt8 := c.rest.head?

/-- The position after reading byte `x`, src/syntax/lexer/cursor.rs:44-49. -/
def advancePos (p : Pos) (x : UInt8) : Pos :=
  if x == cNL then ⟨p.line + 1, 0⟩ else ⟨p.line, p.column + 1⟩

/-- `Cursor::step`, src/syntax/lexer/cursor.rs:39-52. -/
def step (c : Cursor) : Cursor :=
  match c.rest with
  | [] => c
  | x :: xs => ⟨xs, c.offset + 1, advancePos c.pos x⟩

/-- `&cursor.slice()[start.offset .. cursor.offset]` where `start` is an earlier position of the same
cursor (`Cursor::slice`, src/syntax/lexer/cursor.rs:34-36). -/
def slice (start c : Cursor) : Bytes := start.rest.take (c.offset - start.offset)

/-- `&cursor.slice()[start.offset ..= cursor.offset]`. (As in src/syntax/lexer/automata/word.rs:30-46.) -/
def sliceIncl (start c : Cursor) : Bytes := start.rest.take (c.offset + 1 - start.offset)

end Cursor

/-- `Output`, src/syntax/lexer/automata/mod.rs:42. -/
abbrev Output := Except LexError Token

/-- `argument::Argument`, src/syntax/lexer/automata/argument.rs:505-512. -/
structure ArgSt where
  parts : List ArgPart
  allowHome : Bool
  pos : Pos
deriving DecidableEq, Repr

/-- `argument::Word` without its context, src/syntax/lexer/automata/argument.rs:38-47. The escape start is a
cursor (Rust: offset and position). -/
structure WordSt where
  value : Bytes
  escaping : Option Cursor
  allowExpansionStart : Bool
deriving DecidableEq, Repr

/-- `argument::Dollar` without its context, src/syntax/lexer/automata/argument.rs:197-208. -/
structure DollarSt where
  start : Option Cursor
  braces : Option Bool
  error : Bool
  pos : Pos
deriving DecidableEq, Repr

/-- `Expansion` without its context, src/syntax/lexer/automata/expansion.rs:30-38. -/
structure ExpSt where
  start : Cursor
  allowHome : Bool
  tildeConsumed : Bool
deriving DecidableEq, Repr

/-- `State`, src/syntax/lexer/automata/mod.rs:140-164. -/
inductive State where
  | root
  | comment
  | number (start : Cursor) (decimal exponent : Option Bool)
  | byteLit (value : Option UInt8) (escaping : Option Cursor) (pos : Pos)
  | stringLit (value : Bytes) (escaping : Option Cursor) (pos : Pos)
  | word (start : Cursor)
  | symbol (first : UInt8) (pos : Pos)
  | command
  | commandComment
  | argument (a : ArgSt)
  | expansion (e : ExpSt) (a : ArgSt)
  | expansionWord (e : ExpSt) (w : WordSt) (a : ArgSt)
  | singleQuoted (value : Bytes) (a : ArgSt)
  | doubleQuoted (parts : List ArgUnit) (a : ArgSt)
  | unquotedWord (w : WordSt) (a : ArgSt)
  | singleQuotedWord (w : WordSt) (value : Bytes) (a : ArgSt)
  | doubleQuotedWord (w : WordSt) (parts : List ArgUnit) (a : ArgSt)
  | dollar (d : DollarSt) (a : ArgSt)
  | quotedDollar (d : DollarSt) (parts : List ArgUnit) (a : ArgSt)
  | commandSymbol (first : UInt8) (pos : Pos)
deriving DecidableEq, Repr

/-- `Step`, src/syntax/lexer/automata/mod.rs:46-53. -/
inductive Step where
  | resume
  | forward
  | rollback (c : Cursor)
deriving DecidableEq, Repr

/-- `Step::apply`, src/syntax/lexer/automata/mod.rs:57-63. -/
def Step.apply : Step → Cursor → Cursor
  | .resume, c => c
  | .forward, c => c.step
  | .rollback k, _ => k

/-- `Transition`, src/syntax/lexer/automata/mod.rs:69-76. -/
structure Transition where
  state : State
  step : Step
  output : Option Output

namespace Transition
/-- src/syntax/lexer/automata/mod.rs:82-84 -/
def fwd (s : State) : Transition := ⟨s, .forward, none⟩
/-- `Transition::produce`, src/syntax/lexer/automata/mod.rs:87-93 -/
def produce (s : State) (k : TokenKind) (p : Pos) : Transition := ⟨s, .forward, some (.ok ⟨k, p⟩)⟩
/-- `Transition::error`, src/syntax/lexer/automata/mod.rs:96-102 -/
def error (s : State) (k : LexErrorKind) (p : Pos) : Transition := ⟨s, .forward, some (.error ⟨k, p⟩)⟩
/-- `Transition::resume`, src/syntax/lexer/automata/mod.rs:105-107 -/
def resume (s : State) : Transition := ⟨s, .resume, none⟩
/-- `Transition::resume_produce`, src/syntax/lexer/automata/mod.rs:110-116 -/
def resumeProduce (s : State) (k : TokenKind) (p : Pos) : Transition := ⟨s, .resume, some (.ok ⟨k, p⟩)⟩
/-- `Transition::resume_error`, src/syntax/lexer/automata/mod.rs:119-125 -/
def resumeError (s : State) (k : LexErrorKind) (p : Pos) : Transition := ⟨s, .resume, some (.error ⟨k, p⟩)⟩
/-- `Transition::rollback`, src/syntax/lexer/automata/mod.rs:128-134 -/
def rollback (c : Cursor) (s : State) : Transition := ⟨s, .rollback c, none⟩
end Transition

/-- `SymbolChar` / `CommandSymbolChar`, src/syntax/lexer/automata/symbol.rs:129-136, 179-186. -/
inductive SymbolChar where
  | none
  | single (k : TokenKind)
  | double (first : UInt8)
deriving DecidableEq, Repr

/-- `SymbolChar::from_first`, src/syntax/lexer/automata/symbol.rs:140-174. -/
def SymbolChar.fromFirst (c : UInt8) : SymbolChar :=
  if c == cMinus then .single (.operator .minus)
  else if c == cStar then .single (.operator .times)
  else if c == cSlash then .single (.operator .div)
  else if c == cPercent then .single (.operator .mod)
  else if c == cDot then .single (.operator .dot)
  else if c == cQuestion then .single (.operator .try_)
  else if c == cColon then .single .colon
  else if c == cComma then .single .comma
  else if c == cOpenParens then .single .openParens
  else if c == cCloseParens then .single .closeParens
  else if c == cOpenBracket then .single .openBracket
  else if c == cCloseBracket then .single .closeBracket
  else if c == cOpenBrace then .single .command
  else if c == cGt || c == cLt || c == cPlus || c == cEq || c == cBang || c == cAt
      || c == cDollar || c == cAmp then .double c
  else .none

/-- `CommandSymbolChar::from_first`, src/syntax/lexer/automata/symbol.rs:190-208. -/
def SymbolChar.commandFromFirst (c : UInt8) : SymbolChar :=
  if c == cQuestion then .single (.cmdOperator .try_)
  else if c == cPipe then .single .pipe
  else if c == cSemi then .single .semicolon
  else if c == cGt || c == cLt then .double c
  else .none

/-- `word::to_token`, src/syntax/lexer/automata/word.rs:56-90. -/
def toToken (w : Bytes) : TokenKind :=
  if w = bs "let" then .keyword .let_
  else if w = bs "if" then .keyword .if_
  else if w = bs "then" then .keyword .then_
  else if w = bs "else" then .keyword .else_
  else if w = bs "elseif" then .keyword .elseif
  else if w = bs "end" then .keyword .end_
  else if w = bs "for" then .keyword .for_
  else if w = bs "in" then .keyword .in_
  else if w = bs "do" then .keyword .do_
  else if w = bs "while" then .keyword .while_
  else if w = bs "function" then .keyword .function
  else if w = bs "return" then .keyword .return_
  else if w = bs "break" then .keyword .break_
  else if w = bs "self" then .keyword .self_
  else if w = bs "nil" then .literal .nil
  else if w = bs "true" then .literal .true_
  else if w = bs "false" then .literal .false_
  else if w = bs "not" then .operator .not
  else if w = bs "and" then .operator .and
  else if w = bs "or" then .operator .or
  else .identifier w

/-- `Root::visit`, src/syntax/lexer/automata/root.rs:26-65. -/
def visitRoot (cur : Cursor) : Transition :=
  match cur.peek with
  | none => .fwd .root
  | some c =>
    if isWs c then .fwd .root
    else if c == cHash then .fwd .comment
    else if c == cDQuote then .fwd (.stringLit [] none cur.pos)
    else if c == cSQuote then .fwd (.byteLit none none cur.pos)
    else if isDigit c then .fwd (.number cur none none)
    else if isWordStart c then .resume (.word cur)
    else match SymbolChar.fromFirst c with
      | .none => .error .root (.unexpected c) cur.pos
      | .single .command => .produce .command .command cur.pos
      | .single k => .produce .root k cur.pos
      | .double f => .fwd (.symbol f cur.pos)

/-- `Comment::visit`, src/syntax/lexer/automata/comment.rs:15-23. -/
def visitComment (self back : State) (cur : Cursor) : Transition :=
  if cur.peek = some cNL then .resume back else .fwd self

/-- Value of a decimal digit string (`str::parse` of a run of digits, before the range check).
(For src/syntax/lexer/automata/number.rs:90-111.) -/
def digitsVal (l : Bytes) : Nat := l.foldl (fun n d => n * 10 + (d.toNat - 48)) 0

/-- The largest `i64`. (For src/syntax/lexer/automata/number.rs:90-111.) -/
def i64Max : Int := 9223372036854775807
/-- The smallest `i64`. (For src/syntax/lexer/automata/number.rs:90-111.) -/
def i64Min : Int := -9223372036854775808

/-- `NumberLiteral::parse`, src/syntax/lexer/automata/number.rs:90-110. Integers are rejected when they
do not fit `i64`; floats (digits with a fraction or exponent) always parse in Rust. -/
def parseNumber (start : Cursor) (isFloat : Bool) (cur : Cursor) : Except LexErrorKind TokLit :=
  let text := start.slice cur
  if isFloat then .ok (.float text)
  else if (digitsVal text : Int) ≤ i64Max then .ok (.int (digitsVal text))
  else .error (.invalidNumber text)

/-- `NumberLiteral::visit`, src/syntax/lexer/automata/number.rs:36-86. The guards are in the order of the
Rust match arms. -/
def visitNumber (start : Cursor) (decimal exponent : Option Bool) (cur : Cursor) : Transition :=
  let p := cur.peek
  if decimal = none ∧ exponent = none ∧ p = some cDot then
    .fwd (.number start (some false) exponent)
  else if exponent = none ∧ (p = some cE ∨ p = some cUE) then
    .fwd (.number start decimal (some false))
  else if p.any isDigit then
    .fwd (.number start
      (if decimal = some false then some true else decimal)
      (if exponent = some false then some true else exponent))
  else if decimal = some false ∨ exponent = some false then
    match p with
    | some v => .error .root (.unexpected v) start.pos
    | none => .error .root .unexpectedEof start.pos
  else
    match parseNumber start (decimal.isSome || exponent.isSome) cur with
    | .ok l => .resumeProduce .root (.literal l) start.pos
    | .error e => .error .root e start.pos

/-- `validate_escape`, src/syntax/lexer/automata/string.rs:160-170. -/
def validateEscape (c : UInt8) : Option UInt8 :=
  if c == cDQuote then some cDQuote
  else if c == cSQuote then some cSQuote
  else if c == cN then some cNL
  else if c == cT then some cTab
  else if c == cZero then some cNUL
  else if c == cBackslash then some cBackslash
  else none

/-- `ByteLiteral::visit`, src/syntax/lexer/automata/string.rs:22-76. -/
def visitByteLit (value : Option UInt8) (escaping : Option Cursor) (pos : Pos) (cur : Cursor) :
    Transition :=
  match cur.peek with
  | none => .error .root .unexpectedEof cur.pos
  | some c =>
    match value with
    | some v =>
      if c == cSQuote then .produce .root (.literal (.byte v)) pos
      else .error (.byteLit value escaping pos) (.unexpected c) cur.pos
    | none =>
      match escaping with
      | some e =>
        match validateEscape c with
        | some v => .fwd (.byteLit (some v) none pos)
        | none => .error (.byteLit (some cNUL) none pos) (.invalidEscapeSequence (e.sliceIncl cur)) e.pos
      | none =>
        if c == cBackslash then .fwd (.byteLit none (some cur) pos)
        else if c == cSQuote then .error .root .emptyByteLiteral pos
        else .fwd (.byteLit (some c) none pos)

/-- `StringLiteral::visit`, src/syntax/lexer/automata/string.rs:109-149. -/
def visitStringLit (value : Bytes) (escaping : Option Cursor) (pos : Pos) (cur : Cursor) :
    Transition :=
  match cur.peek with
  | none => .error .root .unexpectedEof cur.pos
  | some c =>
    match escaping with
    | some e =>
      match validateEscape c with
      | some v => .fwd (.stringLit (value ++ [v]) none pos)
      | none => .error (.stringLit value none pos) (.invalidEscapeSequence (e.sliceIncl cur)) e.pos
    | none =>
      if c == cBackslash then .fwd (.stringLit value (some cur) pos)
      else if c == cDQuote then .produce .root (.literal (.string value)) pos
      else .fwd (.stringLit (value ++ [c]) none pos)

/-- `word::Word::visit`, src/syntax/lexer/automata/word.rs:30-45. -/
def visitWord (start : Cursor) (cur : Cursor) : Transition :=
  if cur.peek.any isWord then .fwd (.word start)
  else .resumeProduce .root (toToken (start.slice cur)) start.pos

/-- `Symbol::visit`, src/syntax/lexer/automata/symbol.rs:30-66. `none` is the `unreachable!` arm. -/
def visitSymbol (first : UInt8) (pos : Pos) (cur : Cursor) : Option Transition :=
  let p := cur.peek
  let op (o : Operator) := TokenKind.operator o
  if first == cGt then
    some (if p = some cEq then .produce .root (op .greaterEquals) pos else .resumeProduce .root (op .greater) pos)
  else if first == cLt then
    some (if p = some cEq then .produce .root (op .lowerEquals) pos else .resumeProduce .root (op .lower) pos)
  else if first == cPlus then
    some (if p = some cPlus then .produce .root (op .concat) pos else .resumeProduce .root (op .plus) pos)
  else if first == cEq then
    some (if p = some cEq then .produce .root (op .equals) pos else .resumeProduce .root (op .assign) pos)
  else if first == cBang then
    some (if p = some cEq then .produce .root (op .notEquals) pos else .resumeError .root (.unexpected first) pos)
  else if first == cAt then
    some (if p = some cOpenBracket then .produce .root .openDict pos else .resumeError .root (.unexpected first) pos)
  else if first == cDollar then
    some (if p = some cOpenBrace then .produce .command .captureCommand pos else .resumeError .root (.unexpected first) pos)
  else if first == cAmp then
    some (if p = some cOpenBrace then .produce .command .asyncCommand pos else .resumeError .root (.unexpected first) pos)
  else none

/-- `CommandSymbol::visit`, src/syntax/lexer/automata/symbol.rs:91-117. `none` is the `unreachable!` arm. -/
def visitCommandSymbol (first : UInt8) (pos : Pos) (cur : Cursor) : Option Transition :=
  let p := cur.peek
  if first == cGt then
    some (if p = some cGt then .produce .command (.cmdOperator (.output true)) pos
          else .resumeProduce .command (.cmdOperator (.output false)) pos)
  else if first == cLt then
    some (if p = some cLt then .produce .command (.cmdOperator (.input true)) pos
          else .resumeProduce .command (.cmdOperator (.input false)) pos)
  else none

/-- `Argument::at`, src/syntax/lexer/automata/argument.rs:516-522. -/
def ArgSt.at (cur : Cursor) : ArgSt := ⟨[], true, cur.pos⟩

/-- `Command::visit`, src/syntax/lexer/automata/command.rs:22-55. -/
def visitCommand (cur : Cursor) : Transition :=
  match cur.peek with
  | none => .error .root .unexpectedEof cur.pos
  | some c =>
    if isWs c then .fwd .command
    else if c == cHash then .fwd .commandComment
    else if c == cCloseBrace then .produce .root .closeCommand cur.pos
    else match SymbolChar.commandFromFirst c with
      | .none => .resume (.argument (ArgSt.at cur))
      | .single k => .produce .command k cur.pos
      | .double f => .fwd (.commandSymbol f cur.pos)

/-- `expansion::is_start`, src/syntax/lexer/automata/expansion.rs:116-118. -/
def isExpansionStart (c : UInt8) : Bool :=
  c == cOpenBrace || c == cOpenBracket || c == cTilde || c == cStar || c == cPercent

/-- `<Argument as WordContext>::is_word`, src/syntax/lexer/automata/argument.rs:575-586. -/
def argIsWord (c : UInt8) : Bool :=
  !(c == cHash || c == cSQuote || c == cDQuote || c == cGt || c == cLt || c == cQuestion
    || c == cSemi || c == cDollar || c == cEq || c == cCloseBrace || isWs c)

/-- `<Argument as WordContext>::validate_escape`, src/syntax/lexer/automata/argument.rs:601-620. -/
def argValidateEscape (c : UInt8) : Option UInt8 :=
  if c == cHash || c == cSQuote || c == cDQuote || c == cGt || c == cLt || c == cQuestion
    || c == cSemi || c == cDollar || c == cEq || isWs c then some c
  else if c == cN then some cNL
  else if c == cT then some cTab
  else if c == cZero then some cNUL
  else if c == cBackslash then some cBackslash
  else none

/-- `<SingleQuoted as WordContext>::is_word`, src/syntax/lexer/automata/argument.rs:377-381. -/
def sqIsWord (c : UInt8) : Bool := !(c == cSQuote)

/-- `<SingleQuoted as WordContext>::validate_escape`, src/syntax/lexer/automata/argument.rs:387-401. -/
def sqValidateEscape (c : UInt8) : Option UInt8 :=
  if c == cSQuote then some c
  else if c == cN then some cNL
  else if c == cT then some cTab
  else if c == cZero then some cNUL
  else if c == cBackslash then some cBackslash
  else none

/-- `<DoubleQuoted as WordContext>::is_word`, src/syntax/lexer/automata/argument.rs:466-469. -/
def dqIsWord (c : UInt8) : Bool := !(c == cDQuote || c == cDollar)

/-- `<DoubleQuoted as WordContext>::validate_escape`, src/syntax/lexer/automata/argument.rs:475-490. -/
def dqValidateEscape (c : UInt8) : Option UInt8 :=
  if c == cDQuote then some c
  else if c == cDollar then some c
  else if c == cN then some cNL
  else if c == cT then some cTab
  else if c == cZero then some cNUL
  else if c == cBackslash then some cBackslash
  else none

/-- `Word::from(context)`, src/syntax/lexer/automata/argument.rs:101-110. -/
def WordSt.fresh : WordSt := ⟨[], none, true⟩

/-- `Argument::visit`, src/syntax/lexer/automata/argument.rs:525-562. -/
def visitArgument (a : ArgSt) (cur : Cursor) : Transition :=
  let allowHome := a.allowHome
  let a := { a with allowHome := false }
  match cur.peek with
  | none => .resumeProduce .command (.argument a.parts) a.pos
  | some c =>
    if c == cDollar then .fwd (.dollar ⟨none, none, false, cur.pos⟩ a)
    else if c == cSQuote then .fwd (.singleQuoted [] a)
    else if c == cDQuote then .fwd (.doubleQuoted [] a)
    else if c == cEq then .fwd (.argument { a with parts := a.parts ++ [.envAssign] })
    else if isExpansionStart c then .resume (.expansion ⟨cur, allowHome, false⟩ a)
    else if argIsWord c then .resume (.unquotedWord .fresh a)
    else .resumeProduce .command (.argument a.parts) a.pos

/-- `<Argument as ExpansionContext>::produce`, src/syntax/lexer/automata/argument.rs:625-631. -/
def argExpProduce (a : ArgSt) (e : ArgExpansion) : Transition :=
  .fwd (.argument { a with parts := a.parts ++ [.expansion e] })

/-- `<Argument as ExpansionContext>::rollback`, src/syntax/lexer/automata/argument.rs:633-636. -/
def argExpRollback (a : ArgSt) (k : Cursor) : Transition := .rollback k (.unquotedWord .fresh a)

/-- `<Word<Argument> as ExpansionContext>::produce`, src/syntax/lexer/automata/argument.rs:645-657. -/
def wordExpProduce (w : WordSt) (a : ArgSt) (e : ArgExpansion) : Transition :=
  .fwd (.argument { a with parts := a.parts ++ [.unquoted (.literal w.value), .expansion e] })

/-- `<Word<Argument> as ExpansionContext>::rollback`, src/syntax/lexer/automata/argument.rs:659-663. -/
def wordExpRollback (w : WordSt) (a : ArgSt) (k : Cursor) : Transition :=
  .rollback k (.unquotedWord { w with allowExpansionStart := false } a)

/-- `Expansion::visit`, src/syntax/lexer/automata/expansion.rs:56-98, generic in the context: `mk` rebuilds the
state, `prod` and `roll` are the context's `produce` and `rollback`. `none` is `todo!()` (lines 87, 91). -/
def visitExpansion (e : ExpSt) (mk : ExpSt → State) (prod : ArgExpansion → Transition)
    (roll : Cursor → Transition) (cur : Cursor) : Option Transition :=
  let allowHome := e.allowHome
  let e := { e with allowHome := false }
  match cur.peek with
  | none => some (roll e.start)
  | some c =>
    if c == cTilde && allowHome then some (.fwd (mk { e with tildeConsumed := true }))
    else if c == cSlash && e.tildeConsumed then some (prod .home)
    else if e.tildeConsumed then some (roll e.start)
    else if c == cStar then some (prod .star)
    else if c == cPercent then some (prod .percent)
    else if c == cOpenBracket then none
    else if c == cOpenBrace then none
    else some (roll e.start)

/-- `argument::Word::visit`, src/syntax/lexer/automata/argument.rs:55-97, generic in the context: `mk` rebuilds the
state, `isW`, `esc`, `expStart`, `done` are the context's `is_word`, `validate_escape`, `expansion_start`
and `resume_produce`. -/
def visitArgWord (w : WordSt) (mk : WordSt → State) (isW : UInt8 → Bool)
    (esc : UInt8 → Option UInt8) (expStart : WordSt → UInt8 → Option Transition)
    (done : Bytes → Transition) (cur : Cursor) : Transition :=
  match cur.peek with
  | none => done w.value
  | some c =>
    match w.escaping with
    | some e =>
      match esc c with
      | some v => .fwd (mk { w with value := w.value ++ [v], escaping := none })
      | none => .error (mk w) (.invalidEscapeSequence (e.sliceIncl cur)) e.pos
    | none =>
      if c == cBackslash then .fwd (mk { w with escaping := some cur })
      else if isW c && w.allowExpansionStart then
        match expStart w c with
        | some t => t
        | none => .fwd (mk { w with value := w.value ++ [c] })
      else if isW c then
        .fwd (mk { w with value := w.value ++ [c], allowExpansionStart := true })
      else done w.value

/-- `SingleQuoted::visit`, src/syntax/lexer/automata/argument.rs:339-357. -/
def visitSingleQuoted (value : Bytes) (a : ArgSt) (cur : Cursor) : Transition :=
  match cur.peek with
  | none => .error (.argument a) .unexpectedEof cur.pos
  | some c =>
    if c == cSQuote then .fwd (.argument { a with parts := a.parts ++ [.singleQuoted value] })
    else .resume (.singleQuotedWord .fresh value a)

/-- `DoubleQuoted::visit`, src/syntax/lexer/automata/argument.rs:423-445. -/
def visitDoubleQuoted (parts : List ArgUnit) (a : ArgSt) (cur : Cursor) : Transition :=
  match cur.peek with
  | none => .error (.argument a) .unexpectedEof cur.pos
  | some c =>
    if c == cDQuote then .fwd (.argument { a with parts := a.parts ++ [.doubleQuoted parts] })
    else if c == cDollar then .fwd (.quotedDollar ⟨none, none, false, cur.pos⟩ parts a)
    else .resume (.doubleQuotedWord .fresh parts a)

/-- The identifier read so far, src/syntax/lexer/automata/argument.rs:230-232. -/
def DollarSt.ident (d : DollarSt) (cur : Cursor) : Bytes :=
  match d.start with
  | some s => s.slice cur
  | none => []

/-- The `produce!` macro of `Dollar::visit`, src/syntax/lexer/automata/argument.rs:228-259. `add` pushes the dollar
unit to the context, `ctx` is the context unchanged. -/
def dollarProduce (d : DollarSt) (add : Sym → State) (ctx : State) (consume : Bool) (cur : Cursor) :
    Transition :=
  let ident := d.ident cur
  if ident.isEmpty || d.error then .error ctx (.invalidIdentifier ident) d.pos
  else match toToken ident with
    | .identifier s => if consume then .fwd (add s) else .resume (add s)
    | _ => if consume then .error ctx (.invalidIdentifier ident) d.pos
           else .resumeError ctx (.invalidIdentifier ident) d.pos

/-- `Dollar::visit`, src/syntax/lexer/automata/argument.rs:227-310. -/
def visitDollar (d : DollarSt) (mk : DollarSt → State) (add : Sym → State) (ctx : State)
    (cur : Cursor) : Transition :=
  match cur.peek with
  | some c =>
    if d.start = none ∧ d.braces = none ∧ c = cOpenBrace then .fwd (mk { d with braces := some true })
    else if d.braces = some true ∧ c = cCloseBrace then dollarProduce d add ctx true cur
    else if d.start = none then
      .fwd (mk { d with
        start := some cur
        error := d.error || !isWordStart c
        braces := if d.braces = none then some false else d.braces })
    else if d.braces = some false then
      if !isWord c then dollarProduce d add ctx false cur else .fwd (mk d)
    else .fwd (mk { d with error := d.error || !isWord c })
  | none =>
    if d.braces = some true then .error ctx .unexpectedEof cur.pos
    else dollarProduce d add ctx true cur

/-- `State::visit`, src/syntax/lexer/automata/mod.rs:175-199. `none` means the Rust code panics. -/
def State.visit : State → Cursor → Option Transition
  | .root, cur => some (visitRoot cur)
  | .comment, cur => some (visitComment .comment .root cur)
  | .number s d e, cur => some (visitNumber s d e cur)
  | .byteLit v e p, cur => some (visitByteLit v e p cur)
  | .stringLit v e p, cur => some (visitStringLit v e p cur)
  | .word s, cur => some (visitWord s cur)
  | .symbol f p, cur => visitSymbol f p cur
  | .command, cur => some (visitCommand cur)
  | .commandComment, cur => some (visitComment .commandComment .command cur)
  | .argument a, cur => some (visitArgument a cur)
  | .expansion e a, cur =>
      visitExpansion e (fun e => .expansion e a) (argExpProduce a) (argExpRollback a) cur
  | .expansionWord e w a, cur =>
      visitExpansion e (fun e => .expansionWord e w a) (wordExpProduce w a) (wordExpRollback w a) cur
  | .singleQuoted v a, cur => some (visitSingleQuoted v a cur)
  | .doubleQuoted ps a, cur => some (visitDoubleQuoted ps a cur)
  | .unquotedWord w a, cur =>
      -- `expansion_start`, argument.rs:588-599; `resume_produce`, argument.rs:567-573
      some (visitArgWord w (fun w => .unquotedWord w a) argIsWord argValidateEscape
        (fun w c => if isExpansionStart c then some (.resume (.expansionWord ⟨cur, false, false⟩ w a)) else none)
        (fun v => .resume (.argument { a with parts := a.parts ++ [.unquoted (.literal v)] })) cur)
  | .singleQuotedWord w v a, cur =>
      -- argument.rs:371-402
      some (visitArgWord w (fun w => .singleQuotedWord w v a) sqIsWord sqValidateEscape
        (fun _ _ => none) (fun v => .resume (.singleQuoted v a)) cur)
  | .doubleQuotedWord w ps a, cur =>
      -- argument.rs:459-491
      some (visitArgWord w (fun w => .doubleQuotedWord w ps a) dqIsWord dqValidateEscape
        (fun _ _ => none) (fun v => .resume (.doubleQuoted (ps ++ [.literal v]) a)) cur)
  | .dollar d a, cur =>
      -- `DollarContext for Argument`, argument.rs:149-169
      some (visitDollar d (fun d => .dollar d a)
        (fun s => .argument { a with parts := a.parts ++ [.unquoted (.dollar s d.pos)] }) (.argument a) cur)
  | .quotedDollar d ps a, cur =>
      -- `DollarContext for DoubleQuoted`, argument.rs:172-192
      some (visitDollar d (fun d => .quotedDollar d ps a)
        (fun s => .doubleQuoted (ps ++ [.dollar s d.pos]) a) (.doubleQuoted ps a) cur)
  | .commandSymbol f p, cur => visitCommandSymbol f p cur

/-- `Automata`, src/syntax/lexer/automata/mod.rs:205-209 (the interner is not needed, see `Sym`). -/
structure LexSt where
  state : State
  cursor : Cursor
deriving DecidableEq, Repr

/-- `Automata::new`, src/syntax/lexer/automata/mod.rs:213-215. -/
def LexSt.init (input : Bytes) : LexSt := ⟨.root, Cursor.start input⟩

/-- Outcome of one iteration of the loop in `Automata::next`. (src/syntax/lexer/automata/mod.rs:222-244.) -/
inductive LexStep where
  /-- keep looping -/
  | continue (s : LexSt)
  /-- `return Some(output)` -/
  | emit (o : Output) (s : LexSt)
  /-- `return None` -/
  | stop
  /-- Rust panic -/
  | crash

/-- One iteration of the loop in `Automata::next`, src/syntax/lexer/automata/mod.rs:223-243. -/
def LexSt.step (s : LexSt) : LexStep :=
  match s.state.visit s.cursor with
  | none => .crash
  | some t =>
    let next : LexSt := ⟨t.state, t.step.apply s.cursor⟩
    match t.output with
    | some o => .emit o next
    | none => if s.cursor.isEof then .stop else .continue next

/-- Result of running the lexer to the end with a step budget. (The items of `Lexer`, src/syntax/lexer/mod.rs:38-44.) -/
inductive LexResult where
  | done (outs : List Output)
  | crash (outs : List Output)
  | timeout
deriving Repr

/-- Prepend an output. (Helper for src/syntax/lexer/mod.rs:38-44.) -/
def LexResult.cons (o : Output) : LexResult → LexResult
  | .done l => .done (o :: l)
  | .crash l => .crash (o :: l)
  | .timeout => .timeout

/-- All outputs up to the first `None`: `Lexer` used as an iterator (src/syntax/lexer/mod.rs:38-44,
src/syntax/mod.rs:42-48), with a budget of `n` loop iterations. -/
def LexSt.run : Nat → LexSt → LexResult
  | 0, _ => .timeout
  | n + 1, s =>
    match s.step with
    | .continue s' => run n s'
    | .emit o s' => (run n s').cons o
    | .stop => .done []
    | .crash => .crash []

/-- A budget that is always sufficient (theorem `lexer_terminates`): at most 20 iterations per remaining byte.
(Helper for src/syntax/lexer/mod.rs:38-44.) -/
def lexBudget (input : Bytes) : Nat := 20 * input.length + 20

/-- Lexing a source to the end. (src/syntax/lexer/mod.rs:38-44.) -/
def lex (input : Bytes) : LexResult := (LexSt.init input).run (lexBudget input)

end Hush

import Verif.Lemmas.AstParse
import Verif.Props.Eval

/-!
Property C67: the text of syntax trees (`hush --ast`).
-/

namespace Hush.Props
open Hush Hush.Spec Hush.Ast

/-- C67, partially: the text of a syntax tree is a source without lexical and syntactic errors, and its syntax tree is the same apart from positions.
`PrintsBlock` describes the trees for which this holds. Missing from C67: trees with command blocks, with several statements in a function that is part of an
operation or a call, with certain literals, and with an operation at the beginning of a statement; see the theorems below. -/
theorem ast_reads_back_partial (w : World) (b : Block) (h : PrintsBlock w false b) :
    ∃ a, syntaxAnalysis (AstFmt.text w b) = some a ∧ a.isOk = true ∧ SameStmts w b a.ast := ast_read h

/-- C67: such a text is stable: the tree that is read back has the same text. -/
theorem ast_text_stable (w : World) (b : Block) (h : PrintsBlock w false b) :
    ∃ a, syntaxAnalysis (AstFmt.text w b) = some a ∧ a.isOk = true ∧ AstFmt.text w a.ast = AstFmt.text w b := by
  obtain ⟨a, h1, h2, h3⟩ := ast_read h
  exact ⟨a, h1, h2, text_block b a.ast (some 0) h3⟩

/-- C67: the text does not depend on the positions, and of the trees above only those that are the same apart from positions have the same text. -/
theorem ast_text_determines (w : World) (b b' : Block) (h : PrintsBlock w false b) (h' : PrintsBlock w false b') :
    AstFmt.text w b = AstFmt.text w b' ↔ ∃ a, SameStmts w b a ∧ SameStmts w b' a := by
  constructor
  · intro e
    obtain ⟨a, h1, -, h3⟩ := ast_read h
    obtain ⟨a', h1', -, h3'⟩ := ast_read h'
    rw [e, h1'] at h1
    cases h1
    exact ⟨_, h3, h3'⟩
  · rintro ⟨a, h1, h2⟩
    exact (text_block b a (some 0) h1).symm.trans (text_block b' a (some 0) h2)

/-! ### Where C67 fails -/

/-- A world in which no file exists. -/
abbrev bare : World := fileWorld fun _ => none

/-- The source is free of syntax errors, but the text of its tree is not. -/
def brokenText (src : Bytes) : Bool :=
  match syntaxAnalysis src with
  | some a => a.isOk && match syntaxAnalysis (AstFmt.text bare a.ast) with
    | some a' => !a'.isOk
    | none => false
  | none => false

theorem broken_text {src : Bytes} (h : brokenText src = true) :
    ∃ a a', syntaxAnalysis src = some a ∧ a.isOk = true ∧ syntaxAnalysis (AstFmt.text bare a.ast) = some a' ∧ a'.isOk = false := by
  unfold brokenText at h
  split at h
  · rename_i a ha
    rw [Bool.and_eq_true] at h
    obtain ⟨h1, h2⟩ := h
    split at h2
    · rename_i a' ha'
      exact ⟨a, a', ha, h1, ha', by simpa using h2⟩
    · cases h2
  · cases h

/-- The source and the text of its tree are free of syntax errors, and the function tells their trees apart. -/
def changedText {α : Type} [DecidableEq α] (f : Block → α) (src : Bytes) : Bool :=
  match syntaxAnalysis src with
  | some a => a.isOk && match syntaxAnalysis (AstFmt.text bare a.ast) with
    | some a' => a'.isOk && f a.ast != f a'.ast
    | none => false
  | none => false

theorem changed_text {α : Type} [DecidableEq α] {f : Block → α} {src : Bytes} (h : changedText f src = true) :
    ∃ a a', syntaxAnalysis src = some a ∧ a.isOk = true ∧ syntaxAnalysis (AstFmt.text bare a.ast) = some a' ∧ a'.isOk = true ∧ f a.ast ≠ f a'.ast := by
  unfold changedText at h
  split at h
  · rename_i a ha
    rw [Bool.and_eq_true] at h
    obtain ⟨h1, h2⟩ := h
    split at h2
    · rename_i a' ha'
      rw [Bool.and_eq_true] at h2
      exact ⟨a, a', ha, h1, ha', h2.1, by simpa using h2.2⟩
    · cases h2
  · cases h

/-- C67 fails for a statement that begins with an operation: it is written in parentheses, which are read as a call of the expression before it.
The text of `let x = a` and `foo()?` has one statement. -/
theorem ast_call_violated :
    ∃ a a', syntaxAnalysis (bs "let x = a\nfoo()?") = some a ∧ a.isOk = true ∧ syntaxAnalysis (AstFmt.text bare a.ast) = some a' ∧ a'.isOk = true ∧
      a.ast.length ≠ a'.ast.length := changed_text (by decide +kernel)

/-- C67 fails for functions with several statements as arguments: they are separated by semicolons, which are no syntax of the language. -/
theorem ast_semicolon_violated :
    ∃ a a', syntaxAnalysis (bs "foo(function() a b end)") = some a ∧ a.isOk = true ∧ syntaxAnalysis (AstFmt.text bare a.ast) = some a' ∧
      a'.isOk = false := broken_text (by decide +kernel)

/-- C67 fails for conditions without statements as arguments: there is no blank between `then` and `end`. -/
theorem ast_thenend_violated :
    ∃ a a', syntaxAnalysis (bs "foo(if c then end)") = some a ∧ a.isOk = true ∧ syntaxAnalysis (AstFmt.text bare a.ast) = some a' ∧
      a'.isOk = false := broken_text (by decide +kernel)

/-- C67 fails for fields of integers: the parentheses around the integer are gone, so that the dot is part of a number. -/
theorem ast_field_violated :
    ∃ a a', syntaxAnalysis (bs "(1).foo") = some a ∧ a.isOk = true ∧ syntaxAnalysis (AstFmt.text bare a.ast) = some a' ∧
      a'.isOk = false := broken_text (by decide +kernel)

/-- C67 fails for strings with a carriage return, and for bytes outside ASCII. -/
theorem ast_escape_violated :
    (∃ a a', syntaxAnalysis [34, 13, 34] = some a ∧ a.isOk = true ∧ syntaxAnalysis (AstFmt.text bare a.ast) = some a' ∧ a'.isOk = false) ∧
    ∃ a a', syntaxAnalysis [39, 233, 39] = some a ∧ a.isOk = true ∧ syntaxAnalysis (AstFmt.text bare a.ast) = some a' ∧ a'.isOk = false :=
  ⟨broken_text (by decide +kernel), broken_text (by decide +kernel)⟩

/-- The parts of the first argument of a command block that is the first statement. -/
def firstArgument : Block → Option (List Ast.ArgPart)
  | .expr (.command b _) :: _ => b.head.head.arguments.head?.map (·.parts)
  | _ => none

/-- C67 fails for command blocks: arguments are written in quotation marks, so that `*` is no pattern any more. -/
theorem ast_command_violated :
    ∃ a a', syntaxAnalysis (bs "{ ls * }") = some a ∧ a.isOk = true ∧ syntaxAnalysis (AstFmt.text bare a.ast) = some a' ∧ a'.isOk = true ∧
      firstArgument a.ast ≠ firstArgument a'.ast := changed_text (by decide +kernel)

/-- C67 fails for floats without a fractional part, if they are written without a point (as they are by Rust): they are read back as integers. -/
theorem ast_float_violated (w : World) (p : Pos) (hw : w.floatDisplay (w.parseFloat (bs "1.0")) = bs "1") :
    ∃ a, syntaxAnalysis (AstFmt.text w [.expr (.lit (.float (bs "1.0")) p)]) = some a ∧ a.isOk = true ∧ ∃ q, a.ast = [.expr (.lit (.int 1) q)] := by
  have e : AstFmt.text w [.expr (.lit (.float (bs "1.0")) p)] = bs "1" := hw
  rw [e]
  exact ⟨_, rfl, rfl, _, rfl⟩

/-! ### A tree -/

/-- A tree of `let f = function(x, y) if (not x) then return "a\n" else x.y[0] = @[k: 'c'] end end`, `f(2, nil)` and `while true do break end`. -/
def printedTree : Block :=
  [.let_ (bs "f") (.lit (.function [(bs "x", noPos), (bs "y", noPos)]
      [.expr (.if_ (.unary .not (.ident (bs "x") noPos) noPos) [.return_ (.lit (.string (bs "a\n")) noPos) noPos]
        [.assign (.access (.access (.ident (bs "x") noPos) (.lit (.ident (bs "y")) noPos) noPos) (.lit (.int 0) noPos) noPos)
          (.lit (.dict [((bs "k", noPos), .lit (.byte 99) noPos)]) noPos) noPos] noPos)]) noPos) noPos,
    .expr (.call (.ident (bs "f") noPos) [.lit (.int 2) noPos, .lit .nil noPos] noPos),
    .while_ (.lit (.bool true) noPos) [.break_ noPos] noPos]

-- It can be read back.
set_option maxRecDepth 20000 in
example (w : World) : PrintsBlock w false printedTree ∧
    AstFmt.text w printedTree =
      bs "let f = function(x, y)\n\tif (not x) then\n\t\treturn \"a\\n\"\n\telse\n\t\tx.y[0] = @[\n\t\t\tk: 'c'\n\t\t]\n\tend\nend\nf(2, nil)\nwhile true do\n\tbreak\nend" := by
  have name : ∀ c : UInt8, isWordStart c = true → [c] ∉ reserved → IsIdent [c] := fun c h h' => ⟨⟨c, [], rfl, h, rfl⟩, h'⟩
  have hf : IsIdent (bs "f") := name _ (by decide) (by decide)
  have hx : IsIdent (bs "x") := name _ (by decide) (by decide)
  have hy : IsIdent (bs "y") := name _ (by decide) (by decide)
  have hk : IsIdent (bs "k") := name _ (by decide) (by decide)
  have hs : ∃ cs, bs "a\n" = utf8 cs ∧ QuotableText w cs := ⟨['a', '\n'], by decide, by simp [QuotableText, Quotable]⟩
  constructor
  · simp [printedTree, PrintsBlock, PrintsStmt, PrintsExpr, PrintsExprs, PrintsLit, PrintsItems, QuotableByte, hf, hx, hy, hk, hs, isInteger, firstPart,
      startsBracket, leftmost, endsInExpr]
  · have h0 : intText 0 = bs "0" := by decide +kernel
    have h2 : intText 2 = bs "2" := by decide +kernel
    simp only [printedTree, AstFmt.text, AstFmt.block, AstFmt.stmt, AstFmt.expr, AstFmt.lit, AstFmt.exprs, AstFmt.items, h0, h2]
    rfl

end Hush.Props

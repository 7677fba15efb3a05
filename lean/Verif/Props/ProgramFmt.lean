import Verif.Lemmas.ProgramSame
import Verif.Lemmas.InterpReach
import Verif.Props.AstFmt

/-!
Property C84: the text of analysed programs (`hush --program`).
-/

namespace Hush.Props
open Hush Hush.Spec Hush.Prog

/-- C84, partially: legible programs have the same text exactly if they are the same apart from positions (and the order of captures). `LegibleBlock` says
which programs are legible. Missing from C84: programs with command blocks, and with certain literals; see the theorems below. -/
theorem program_text_determines_partial (w : World) (p p' : Program) (h : LegibleBlock w p.statements) (h' : LegibleBlock w p'.statements) :
    ProgramFmt.text w p = ProgramFmt.text w p' ↔ plainProgram w p = plainProgram w p' := by
  constructor
  · intro e
    have := ProgramRead.read_program h
    rw [e, ProgramRead.read_program h'] at this
    exact (Option.some.inj this).symm
  · intro e
    rw [← ProgramRead.plain_text h, e, ProgramRead.plain_text h']

/-- C84: there is one function that gets the program, apart from positions, back from its text. -/
theorem program_text_reads_back (w : World) : ∃ read : Bytes → Option Program,
    ∀ p : Program, LegibleBlock w p.statements → read (ProgramFmt.text w p) = some (plainProgram w p) :=
  ⟨ProgramRead.rProgram, fun _ h => ProgramRead.read_program h⟩

/-- C84: printing an accepted program does not panic: all captures are in their frames. -/
theorem program_text_never_aborts (src : Bytes) (p : Program) (h : Accepts src p) : ProgramFmt.aborts p = false :=
  ProgramRead.fits_program (accepts_ok h)

/-! ### Where C84 fails -/

/-- The sources are accepted, their programs have the given texts, and the function gives the given values. -/
def printedAs {α : Type} [DecidableEq α] (f : Program → α) (src out : Bytes) (x : α) : Bool :=
  match syntaxAnalysis src with
  | some a => a.isOk && match analyze a.ast with
    | .ok p => ProgramFmt.text bare p == out && f p == x
    | _ => false
  | none => false

theorem printed_as {α : Type} [DecidableEq α] {f : Program → α} {src out : Bytes} {x : α} (h : printedAs f src out x = true) :
    ∃ p, Accepts src p ∧ ProgramFmt.text bare p = out ∧ f p = x := by
  unfold printedAs at h
  split at h
  · rename_i a ha
    rw [Bool.and_eq_true] at h
    obtain ⟨h1, h2⟩ := h
    split at h2
    · rename_i p hp
      rw [Bool.and_eq_true, beq_iff_eq, beq_iff_eq] at h2
      exact ⟨p, ⟨a, ha, h1, hp⟩, h2.1, h2.2⟩
    · cases h2
  · cases h

/-- The parts of the first argument, if the first statement is a block with an external command. -/
def printedArgument (p : Program) : Option (List Prog.ArgPart) :=
  match p.statements with
  | .expr (.command ⟨_, .external head _, _⟩ _) :: _ => head.arguments.head?.map (·.parts)
  | _ => none

/-- Whether an error of the command ends the block, if the first statement is a block with a built-in command. -/
def printedAborts (p : Program) : Option Bool :=
  match p.statements with
  | .expr (.command ⟨_, .builtin _ _ abort _, _⟩ _) :: _ => some abort
  | _ => none

/-- C84 fails for command blocks: `{ ls * }`, with a pattern, and `{ ls "*" }`, with a name, have the same text. -/
theorem program_text_pattern_violated : ∃ p p', Accepts (bs "{ ls * }") p ∧ Accepts (bs "{ ls \"*\" }") p' ∧
    printedArgument p = some [.star] ∧ printedArgument p' = some [.unit (.literal (bs "*"))] ∧
    ProgramFmt.text bare p = ProgramFmt.text bare p' := by
  obtain ⟨p, h1, h2, h3⟩ := printed_as (f := printedArgument) (src := bs "{ ls * }") (out := bs "let #0: auto\n{\n\t\"ls\" \"*\"\n}")
    (x := some [.star]) (by decide +kernel)
  obtain ⟨p', h1', h2', h3'⟩ := printed_as (f := printedArgument) (src := bs "{ ls \"*\" }") (out := bs "let #0: auto\n{\n\t\"ls\" \"*\"\n}")
    (x := some [.unit (.literal (bs "*"))]) (by decide +kernel)
  exact ⟨p, p', h1, h1', h3, h3', h2.trans h2'.symm⟩

/-- C84 fails for built-in commands: the mark `?` is written where the source has none, and left out where the source has one. -/
theorem program_text_mark_violated :
    (∃ p, Accepts (bs "{ cd a }") p ∧ printedAborts p = some true ∧ ProgramFmt.text bare p = bs "let #0: auto\n{\n\tcd \"a\" ?\n}") ∧
    ∃ p, Accepts (bs "{ cd a ? }") p ∧ printedAborts p = some false ∧ ProgramFmt.text bare p = bs "let #0: auto\n{\n\tcd \"a\"\n}" := by
  obtain ⟨p, h1, h2, h3⟩ := printed_as (f := printedAborts) (src := bs "{ cd a }") (out := bs "let #0: auto\n{\n\tcd \"a\" ?\n}")
    (x := some true) (by decide +kernel)
  obtain ⟨p', h1', h2', h3'⟩ := printed_as (f := printedAborts) (src := bs "{ cd a ? }") (out := bs "let #0: auto\n{\n\tcd \"a\"\n}")
    (x := some false) (by decide +kernel)
  exact ⟨⟨p, h1, h3, h2⟩, p', h1', h3', h2'⟩

/-- C84 fails for floats without a fractional part, if they are written without a point (as they are by Rust): the text is that of an integer. -/
theorem program_text_float_violated (w : World) (q : Pos) (n : Nat) (hw : w.floatDisplay (w.parseFloat (bs "1.0")) = bs "1") :
    ProgramFmt.text w ⟨[.expr (.lit (.float (bs "1.0")) q)], n⟩ = ProgramFmt.text w ⟨[.expr (.lit (.int 1) q)], n⟩ := by
  have h1 : intText 1 = bs "1" := by decide +kernel
  have e : ProgramFmt.block w (some 0) [.expr (.lit (.float (bs "1.0")) q)] = ProgramFmt.block w (some 0) [.expr (.lit (.int 1) q)] := by
    simp only [ProgramFmt.block, ProgramFmt.stmt, ProgramFmt.expr, ProgramFmt.lit, hw, h1]
  unfold ProgramFmt.text
  rw [e]
  rfl

/-! ### A program -/

/-- The program of the source below, without positions. -/
def printedProgram : Program :=
  ⟨[.assign (.ident 1 noPos) (.lit (.function 2 ⟨4, [⟨1, 3⟩], none⟩
      [.assign (.ident 2 noPos) (.lit (.function 0 ⟨3, [⟨3, 0⟩, ⟨0, 1⟩], some 2⟩
          [.expr (.call (.ident 0 noPos) [.ident 1 noPos] noPos), .expr (.access (.ident 2 noPos) (.lit (.ident (bs "x")) noPos) noPos)]) noPos),
        .expr (.if_ (.ident 1 noPos) [.assign (.access (.ident 0 noPos) (.lit (.ident (bs "k")) noPos) noPos) (.lit (.string (bs "x\n")) noPos)] [] noPos),
        .return_ (.lit (.array [.ident 2 noPos, .lit (.int 1) noPos]) noPos)]) noPos),
    .for_ 2 (.ident 1 noPos) [.expr (.call (.access (.ident 0 noPos) (.lit (.ident (bs "p")) noPos) noPos)
      [.ident 2 noPos, .unary .minus (.lit (.int 1) noPos) noPos, .unary .not (.ident 2 noPos) noPos] noPos)]], 3⟩

-- The program is legible.
example (w : World) : LegibleBlock w printedProgram.statements := by
  have name : ∀ c : UInt8, isWordStart c = true → [c] ∉ reserved → IsIdent [c] := fun c h h' => ⟨⟨c, [], rfl, h, rfl⟩, h'⟩
  have hx : IsIdent (bs "x") := name _ (by decide) (by decide)
  have hk : IsIdent (bs "k") := name _ (by decide) (by decide)
  have hp : IsIdent (bs "p") := name _ (by decide) (by decide)
  have hs : ∃ cs, bs "x\n" = utf8 cs ∧ QuotableText w cs := ⟨['x', '\n'], by decide, by simp [QuotableText, Quotable]⟩
  simp [printedProgram, LegibleBlock, LegibleStmt, LegibleExpr, LegibleExprs, LegibleLit, LegibleLvalue, hx, hk, hp, hs]

-- It is accepted (with positions), and printed.
example : ∃ p, Accepts (bs "let f = function (a, b) let c = function() f(a) self.x end if b then a.k = \"x\\n\" end return [c, 1] end for i in f do std.p(i, -1, (not i)) end") p ∧
    ProgramFmt.text bare p = bs "let #0: auto\nlet #1: auto\nlet #2: auto\n#1 = function(2)\n\tlet #0: auto\n\tlet #1: auto\n\tlet #2: auto\n\tlet #3: capture #1\n\t#2 = function(0)\n\t\tlet #0: capture #3\n\t\tlet #1: capture #0\n\t\tlet #2: auto self\n\t\t#0(#1)\n\t\t#2.x\n\tend\n\tif #1 then\n\t\t#0[k] = \"x\\n\"\n\tend\n\treturn [\n\t\t#2,\n\t\t1\n\t]\nend\nfor #2 in #1 do\n\t#0.p(#2, (- 1), (not #2))\nend" ∧
    p.rootSlots = 3 := printed_as (f := (·.rootSlots)) (by decide +kernel)

-- Programs that differ in a slot have different texts.
example (w : World) : ProgramFmt.text w ⟨[.expr (.ident 0 noPos)], 2⟩ ≠ ProgramFmt.text w ⟨[.expr (.ident 1 noPos)], 2⟩ := fun e => by
  have := (program_text_determines_partial w ⟨[.expr (.ident 0 noPos)], 2⟩ ⟨[.expr (.ident 1 noPos)], 2⟩ ⟨trivial, trivial⟩ ⟨trivial, trivial⟩).1 e
  simp [plainProgram, plainBlock, plainStmt, plainExpr] at this

end Hush.Props

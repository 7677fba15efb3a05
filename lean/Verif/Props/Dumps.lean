import Verif.Lemmas.MoveText
import Verif.Props.Layout
import Verif.Props.Interp

/-!
C88: the dumps of a script do not depend on its layout.
-/

namespace Hush.Props
open Hush Spec

/-- What `--ast` prints below its heading. -/
def astDump (w : World) (src : Bytes) : Option Bytes := (syntaxAnalysis src).map fun a => AstFmt.text w a.ast

/-- What `--program` prints below its heading; nothing for a script with semantic errors. -/
def programDump (w : World) (src : Bytes) : Option Bytes := (syntaxAnalysis src).bind fun a =>
  match analyze a.ast with
  | .ok p => some (ProgramFmt.text w p)
  | _ => none

/-- C88, for trees: the text of a syntax tree does not depend on its positions. -/
theorem ast_text_places {f : Pos → Pos} (hf : Moving f) (w : World) (b : Ast.Block) : AstFmt.text w (moveBlock f b) = AstFmt.text w b :=
  dt_block hf w _ b

/-- C88, for programs: the text of a program does not depend on its positions. -/
theorem program_text_places (f : Pos → Pos) (w : World) (p : Program) : ProgramFmt.text w ⟨placeBlock f p.statements, p.rootSlots⟩ = ProgramFmt.text w p := by
  simp only [ProgramFmt.text, ProgramFmt.rootFrame, dp_block]

/-- C88: two texts with the same tokens and lexical errors, at any places, have the same dumps. -/
theorem layout_dumps (w : World) (t t' : Bytes) (h : (lex t).kinds = (lex t').kinds) : astDump w t = astDump w t' ∧ programDump w t = programDump w t' := by
  rcases layout_same_program t t' h with ⟨h1, h2⟩ | ⟨a, a', h1, h2, ⟨s1, -, -⟩, h4⟩
  · simp only [astDump, programDump, h1, h2, Option.map_none, Option.bind_none, and_self]
  · refine ⟨?_, ?_⟩
    · simp only [astDump, h1, h2, Option.map_some]
      rw [← ast_text_places flat_moving w a.ast, ← ast_text_places flat_moving w a'.ast, s1]
    · simp only [programDump, h1, h2, Option.bind_some]
      generalize analyze a.ast = r at h4
      generalize analyze a'.ast = r' at h4
      cases r with
      | ok p =>
        cases r' with
        | ok p' =>
          simp only [moveResult, AnalysisResult.ok.injEq] at h4
          show some (ProgramFmt.text w p) = some (ProgramFmt.text w p')
          rw [← program_text_places flat w p, ← program_text_places flat w p', h4]
        | _ => cases h4
      | errors es =>
        cases r' with
        | errors es' => rfl
        | _ => cases h4
      | crash =>
        cases r' with
        | crash => rfl
        | _ => cases h4

/-- C88, for whitespace and comments. -/
theorem written_dumps (w : World) (ks : List TokenKind) (rest t t' : Bytes) (hk : ToksOk .code ks .code) (h : Written ks rest t) (h' : Written ks rest t') :
    astDump w t = astDump w t' ∧ programDump w t = programDump w t' :=
  layout_dumps w t t' (layout_irrelevant ks rest t t' hk h h')

/-! ### Examples -/

example : (lex (bs "let x=[1] { echo $x }")).kinds = (lex (bs "let x =\n [1] # one\n{ echo\n$x }")).kinds := by decide +kernel
example : astDump nilWorld (bs "let x=[1] { echo $x }") = some (bs "let x = [\n\t1\n]\n{\n\t\"echo\" \"${x}\"\n}") := by decide +kernel
example : programDump nilWorld (bs "let x =\n [1] # one\n{ echo\n$x }") =
    some (bs "let #0: auto\nlet #1: auto\n#1 = [\n\t1\n]\n{\n\t\"echo\" \"${#1}\"\n}") := by decide +kernel

/-- A script with one token, in two layouts. -/
example : Written [.identifier (bs "std")] [] (bs "std") ∧ Written [.identifier (bs "std")] [] (bs " std# all\n") ∧ ToksOk .code [.identifier (bs "std")] .code := by
  refine ⟨.cons (w := []) (t := []) .nil (by decide) (.nil (w := []) .nil),
    .cons (w := bs " ") (t := bs "# all\n") (.space (by decide) .nil) (by decide) (.nil (w := bs "# all\n") (.comment (body := bs " all") (w := []) (by decide) .nil)), ?_⟩
  exact .cons (.ident ⟨⟨115, bs "td", by decide, by decide, by decide⟩, by decide⟩) .nil

end Hush.Props

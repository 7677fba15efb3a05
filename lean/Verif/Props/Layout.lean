import Verif.Lemmas.MoveAnalyze
import Verif.Lemmas.MoveParse
import Verif.Lemmas.LexPlaces
import Verif.Lemmas.ParseTerm
import Verif.Lemmas.ParseWritten
import Verif.Model.Main
import Verif.Props.Lexer

/-!
C87: where the tokens of a script are does not matter.
-/

namespace Hush.Props
open Hush Spec

/-- C87, for the parser: tokens at other places give the same syntax tree and the same errors, at those places. -/
theorem layout_parse {f : Pos → Pos} (hf : Moving f) (ts : List Token) : ∃ b es,
    parse ts = .ok b ⟨[], es⟩ ∧ parse (ts.map (moveTok f)) = .ok (moveBlock f b) ⟨[], es.map (moveParseError f)⟩ := by
  obtain ⟨b, es, h⟩ := parse_total ts
  have hm := mv_parse hf.ill ts
  refine ⟨b, es, h, ?_⟩
  rw [h] at hm
  generalize parse (ts.map (moveTok f)) = r at hm
  cases hm
  rfl

/-- C87, for static analysis: a syntax tree with other places gives the same program, or the same errors, with those places. -/
theorem layout_analysis {f : Pos → Pos} (hf : Moving f) (b : Ast.Block) : analyze (moveBlock f b) = moveResult f (analyze b) := mo_analyze hf b

theorem flat_moving : Moving flat := ⟨by simp [flat], fun {p} h => by
  unfold flat at h
  split at h
  · assumption
  · cases h⟩

/-! ### From the text -/

theorem flat_placed {src : Bytes} {p : Pos} (h : InText src p) : flat p = ⟨1, 0⟩ := by
  obtain ⟨k, -, rfl⟩ := h
  exact if_neg (lineCol_ne src k)

/-- All positions become the same. -/
def onePlace (_ : Pos) : Pos := ⟨1, 0⟩

theorem unit_flat {src : Bytes} {u : ArgUnit} (h : ∀ p ∈ unitMarks u, InText src p) : moveUnit flat u = moveUnit onePlace u.erase := by
  cases u with
  | literal s => rfl
  | dollar x p => simp only [moveUnit, ArgUnit.erase, flat_placed (h p (by simp [unitMarks])), onePlace]

theorem units_flat {src : Bytes} {us : List ArgUnit} (h : ∀ p ∈ us.flatMap unitMarks, InText src p) :
    us.map (moveUnit flat) = (us.map ArgUnit.erase).map (moveUnit onePlace) := by
  rw [List.map_map]
  exact List.map_congr_left fun u hu => unit_flat fun p hp => h p (List.mem_flatMap.2 ⟨u, hu, hp⟩)

theorem part_flat {src : Bytes} {q : ArgPart} (h : ∀ p ∈ partMarks q, InText src p) : movePart flat q = movePart onePlace q.erase := by
  cases q with
  | unquoted u => simp only [movePart, ArgPart.erase]; rw [unit_flat h]
  | doubleQuoted us => simp only [movePart, ArgPart.erase]; rw [units_flat h]
  | expansion e =>
    cases e with
    | collection us => simp only [movePart, moveExpansion, ArgPart.erase, ArgExpansion.erase]; rw [units_flat h]
    | _ => rfl
  | _ => rfl

theorem kind_flat {src : Bytes} {k : TokenKind} (h : ∀ p ∈ dollarMarks k, InText src p) : moveKind flat k = moveKind onePlace k.erase := by
  cases k with
  | argument ps =>
    simp only [moveKind, TokenKind.erase, List.map_map]
    exact congrArg _ (List.map_congr_left fun q hq => part_flat fun p hp => h p (List.mem_flatMap.2 ⟨q, hq, hp⟩))
  | _ => rfl

theorem tok_flat {src : Bytes} {t : Token} (h : ∀ p ∈ tokenMarks t, InText src p) : moveTok flat t = ⟨moveKind onePlace t.kind.erase, ⟨1, 0⟩⟩ := by
  simp only [moveTok, flat_placed (h t.pos (by simp [tokenMarks])), kind_flat fun p hp => h p (List.mem_cons_of_mem _ hp)]

theorem toks_flat {src src' : Bytes} : ∀ {os os' : List Output}, (∀ o ∈ os, OutputIn (InText src) o) → (∀ o ∈ os', OutputIn (InText src') o) →
    os.map Output.kind = os'.map Output.kind →
    (os.filterMap okToken).map (moveTok flat) = (os'.filterMap okToken).map (moveTok flat) ∧
    (os.filterMap errOutput).map (·.error) = (os'.filterMap errOutput).map (·.error)
  | [], [], _, _, _ => ⟨rfl, rfl⟩
  | [], _ :: _, _, _, h => by cases h
  | _ :: _, [], _, _, h => by cases h
  | o :: os, o' :: os', h, h', e => by
    simp only [List.map_cons, List.cons.injEq] at e
    obtain ⟨i1, i2⟩ := toks_flat (fun o ho => h o (List.mem_cons_of_mem _ ho)) (fun o ho => h' o (List.mem_cons_of_mem _ ho)) e.2
    have ho := h o List.mem_cons_self
    have ho' := h' o' List.mem_cons_self
    have e1 := e.1
    cases o with
    | ok t =>
      cases o' with
      | error e => simp only [Output.kind] at e1; cases e1
      | ok t' =>
        simp only [Output.kind, Except.ok.injEq] at e1
        refine ⟨?_, i2⟩
        show moveTok flat t :: _ = moveTok flat t' :: _
        rw [tok_flat ho, tok_flat ho', e1, i1]
    | error x =>
      cases o' with
      | ok t => simp only [Output.kind] at e1; cases e1
      | error x' =>
        simp only [Output.kind, Except.error.injEq] at e1
        refine ⟨i1, ?_⟩
        show x.error :: _ = x'.error :: _
        rw [e1, i2]

/-- The same syntax tree, lexical errors and syntax errors, apart from positions. -/
structure SameApart (a a' : SyntaxAnalysis) : Prop where
  ast : moveBlock flat a.ast = moveBlock flat a'.ast
  lexErrors : a.lexErrors.map (·.error) = a'.lexErrors.map (·.error)
  parseErrors : a.parseErrors.map (moveParseError flat) = a'.parseErrors.map (moveParseError flat)

/-- C87: two texts with the same tokens and lexical errors, at any places, have the same syntax tree, the same syntax errors, and the same program or the same semantic errors,
apart from positions (or the lexer aborts on both). -/
theorem layout_same_program (t t' : Bytes) (h : (lex t).kinds = (lex t').kinds) :
    (syntaxAnalysis t = none ∧ syntaxAnalysis t' = none) ∨
    ∃ a a', syntaxAnalysis t = some a ∧ syntaxAnalysis t' = some a' ∧ SameApart a a' ∧
      moveResult flat (analyze a.ast) = moveResult flat (analyze a'.ast) := by
  have i := lex_in t
  have i' := lex_in t'
  unfold syntaxAnalysis
  generalize lex t = r at h i
  generalize lex t' = r' at h i'
  cases r with
  | timeout =>
    cases r' with
    | timeout => exact .inl ⟨rfl, rfl⟩
    | _ => cases h
  | crash os =>
    cases r' with
    | crash os' => exact .inl ⟨rfl, rfl⟩
    | _ => cases h
  | done os =>
    cases r' with
    | done os' =>
      simp only [LexResult.kinds, Option.some.injEq, Prod.mk.injEq, true_and] at h
      simp only [LexResult.outputs] at i i'
      obtain ⟨e1, e2⟩ := toks_flat i i' h
      obtain ⟨b, es, p1, p2⟩ := layout_parse flat_moving (os.filterMap okToken)
      obtain ⟨b', es', p1', p2'⟩ := layout_parse flat_moving (os'.filterMap okToken)
      rw [e1, p2'] at p2
      injection p2 with hb hes
      injection hes with _ hes
      refine .inr ⟨⟨b, os.filterMap errOutput, es.reverse⟩, ⟨b', os'.filterMap errOutput, es'.reverse⟩, by simp only [p1], by simp only [p1'],
        ⟨hb.symm, e2, by simp only [List.map_reverse, hes]⟩, ?_⟩
      rw [← layout_analysis flat_moving, ← layout_analysis flat_moving, ← hb]
    | _ => cases h

/-- C87, for whitespace and comments: two layouts of the same tokens, with any whitespace and any comments between them, are the same script, apart from positions. -/
theorem layout_written (ks : List TokenKind) (rest t t' : Bytes) (hk : ToksOk .code ks .code) (h : Written ks rest t) (h' : Written ks rest t') :
    (syntaxAnalysis t = none ∧ syntaxAnalysis t' = none) ∨
    ∃ a a', syntaxAnalysis t = some a ∧ syntaxAnalysis t' = some a' ∧ SameApart a a' ∧
      moveResult flat (analyze a.ast) = moveResult flat (analyze a'.ast) :=
  layout_same_program t t' (layout_irrelevant ks rest t t' hk h h')

/-- C87, for one more comment or space: put after the token `k` of ordinary code (`ks` are the tokens before it, `post` is any text such that `k` ends where `post` begins), it
changes nothing, apart from positions. -/
theorem filler_same_program (ks : List TokenKind) (k : TokenKind) (v post t t' : Bytes) (hk : ToksOk .code (ks ++ [k]) .code) (hv : Filler v)
    (ht : Written ks (tokenText k ++ post) t) (ht' : Written ks (tokenText k ++ (v ++ post)) t') (he : ends k post.head? = true) (he' : ends k (v ++ post).head? = true) :
    (syntaxAnalysis t = none ∧ syntaxAnalysis t' = none) ∨
    ∃ a a', syntaxAnalysis t = some a ∧ syntaxAnalysis t' = some a' ∧ SameApart a a' ∧
      moveResult flat (analyze a.ast) = moveResult flat (analyze a'.ast) :=
  layout_same_program t t' (filler_insertion ks k v post t t' hk hv ht ht' he he').symm

/-- C87, for the check mode: whether a script is accepted does not depend on its layout (nor on its path or arguments). -/
theorem layout_check (w w' : World) (n n' : Nat) (argv argv' : List Bytes) (path path' t t' : Bytes) (h : (lex t).kinds = (lex t').kinds) :
    Main.runSource w n true argv path t = Main.runSource w' n' true argv' path' t' := by
  rcases layout_same_program t t' h with ⟨h1, h2⟩ | ⟨a, a', h1, h2, ⟨-, s2, s3⟩, h4⟩
  · unfold Main.runSource
    simp only [h1, h2]
  · have l : a.isOk = a'.isOk := by
      have g2 := congrArg List.isEmpty s2
      have g3 := congrArg List.isEmpty s3
      simp only [List.isEmpty_map] at g2 g3
      simp only [SyntaxAnalysis.isOk, g2, g3]
    unfold Main.runSource
    simp only [h1, h2, l]
    generalize analyze a.ast = r at h4
    generalize analyze a'.ast = r' at h4
    cases r <;> cases r' <;> first
      | rfl
      | cases h4

/-! ### Examples -/

/-- The same tokens, on two lines and with comments. -/
example : (lex (bs "let x=1 { echo $x }")).kinds = (lex (bs "# one\nlet x = 1 # two\n{  echo $x\n}")).kinds := by decide +kernel

/-- The first text is accepted, at the places of its own layout. -/
example : (syntaxAnalysis (bs "let x=1 { echo $x }")).map (fun a => (a.isOk, a.ast.length, analyze a.ast matches .ok _)) = some (true, 2, true) := by decide +kernel

/-- Moving everything down by a line. -/
example : Moving (fun p => if p = Ast.illPos then p else ⟨p.line + 1, p.column⟩) := ⟨by simp, fun {p} h => by
  split at h
  · assumption
  · cases h⟩

end Hush.Props

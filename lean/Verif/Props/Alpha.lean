import Verif.Lemmas.Alpha
import Verif.Model.Frontend
import Verif.Model.AstFmt
import Verif.Props.Rename

/-!
C86: the name of every variable can be chosen independently.
-/

namespace Hush.Props
open Hush Spec

/-- C86: two programs that differ only in the choice of the names of their variables (declarations are in the same places, and every use means the same declaration; the
names of two variables can be equal in one program and different in the other) have the same result of static analysis, and so the same executions. -/
theorem alpha_same_program (b b' : Ast.Block) (h : AlphaBlock Bound.root b b') : analyze b' = analyze b := by
  have hstd : UserName (bs "std") := ⟨by decide, by decide⟩
  obtain ⟨v, ⟨fs, k, e, c⟩, h1, h2, ⟨h3, h3'⟩, h4⟩ := al_block ⟨false, false⟩ b h ⟨[⟨1, [], none, [[.user (bs "std") (bs "std") 0]]⟩], [], [], false⟩
    ⟨by simp, ⟨⟨by simp, by simp [JEntry.Ok, hstd]⟩, trivial⟩⟩ rfl
  have h1 : analyzeBlock ⟨false, false⟩ b AState.initial = _ := h1
  have h2 : analyzeBlock ⟨false, false⟩ b' AState.initial = _ := h2
  unfold analyze
  simp only [h1, h2]
  cases fs with
  | nil => exact absurd rfl h3
  | cons j js =>
    obtain ⟨n, cs, sl, ss⟩ := j
    cases ss with
    | nil => exact absurd rfl h3'.1.1
    | cons s ss =>
      simp only [JState.ctx, List.map_cons, JFrame.names, outerOf, Bound.root, Option.some.injEq, Prod.mk.injEq, List.map_eq_nil_iff] at h4
      obtain ⟨rfl, rfl⟩ := h4
      rfl

/-- What a variable means does not depend on names: a name means at most one name of the other program, and different names do not mean the same one. -/
theorem alpha_names {l : List (Sym × Sym)} {x x' y y' : Sym} (h : SameVar l x x') (k : SameVar l y y') : x = y ↔ x' = y' := sameVar_inj h k

/-! ### An example -/

/-- The script `let a = 1 if a then let y = a { echo $y } end let f = function (z) return a + z end`, with the names `y` and `z`. -/
def alphaTree (y z : Sym) : Ast.Block :=
  [.let_ (bs "a") (.lit (.int 1) ⟨1, 8⟩) ⟨1, 0⟩,
   .expr (.if_ (.ident (bs "a") ⟨1, 13⟩)
     [.let_ y (.ident (bs "a") ⟨1, 28⟩) ⟨1, 20⟩,
      .expr (.command ⟨.synchronous, ⟨⟨⟨[.unit (.literal (bs "echo"))], ⟨1, 32⟩⟩, [], [⟨[.unit (.dollar y ⟨1, 37⟩)], ⟨1, 37⟩⟩], [], true, ⟨1, 32⟩⟩, []⟩, []⟩ ⟨1, 30⟩)] [] ⟨1, 10⟩),
   .let_ (bs "f") (.lit (.function [(z, ⟨1, 64⟩)] [.return_ (.binary (.ident (bs "a") ⟨1, 74⟩) .plus (.ident z ⟨1, 78⟩) ⟨1, 76⟩) ⟨1, 67⟩]) ⟨1, 54⟩) ⟨1, 46⟩]

/-- The inner variable `b` and the parameter `c` can both be called `f`: the one is declared in another block, the other before the variable `f` of the program can be used. -/
example : AlphaBlock Bound.root (alphaTree (bs "b") (bs "c")) (alphaTree (bs "f") (bs "f")) := by
  have u : ∀ x : Sym, x = bs "a" ∨ x = bs "b" ∨ x = bs "c" ∨ x = bs "f" → UserName x := by
    rintro x (rfl | rfl | rfl | rfl) <;> exact ⟨by decide, by decide⟩
  have fr : ∀ (g : Bound) (x x' : Sym), UserName x → UserName x' → (∀ p ∈ (g.headD []).headD [], x ≠ p.1 ∧ x' ≠ p.2) → g.Fresh x x' :=
    fun g x x' h h' k => ⟨h, h', fun s f fs e p hp => by subst e; exact k p hp⟩
  refine .cons (.let_ _ (fr _ _ _ (u _ (by simp)) (u _ (by simp)) (by decide)) (.lit _ (.int _ _))) (.cons (.expr (.if_ _ (.ident _ ⟨u _ (by simp), u _ (by simp), .here _ _ _⟩)
    (.cons (.let_ _ (fr _ _ _ (u _ (by simp)) (u _ (by simp)) (by decide)) (.ident _ ⟨u _ (by simp), u _ (by simp), .there (by decide) (by decide) (.here _ _ _)⟩))
      (.cons (.expr (.command _ ⟨rfl, ⟨⟨⟨rfl, .cons (.unit (.literal _)) .nil⟩, .nil,
        .cons ⟨rfl, .cons (.unit (.dollar _ ⟨u _ (by simp), u _ (by simp), .here _ _ _⟩)) .nil⟩ .nil, .nil, rfl, rfl⟩, .nil⟩, .nil⟩)) (.nil _))) (.nil _)))
    (.cons (.let_ _ (fr _ _ _ (u _ (by simp)) (u _ (by simp)) (by decide)) (.lit _ (.function
      (.cons (fr _ _ _ (u _ (by simp)) (u _ (by simp)) (by decide)) (.nil _))
      (.cons (.return_ _ (.binary _ _ (.ident _ ⟨u _ (by simp), u _ (by simp), .there (by decide) (by decide) (.there (by decide) (by decide) (.here _ _ _))⟩)
        (.ident _ ⟨u _ (by simp), u _ (by simp), .here _ _ _⟩))) (.nil _))))) (.nil _)))

/-- These are the trees of scripts, and the programs are accepted. -/
example : (syntaxAnalysis (bs "let a = 1 if a then let b = a { echo $b } end let f = function (c) return a + c end")).map (fun a => (AstFmt.text nilWorld a.ast, analyze a.ast matches .ok _)) =
    some (AstFmt.text nilWorld (alphaTree (bs "b") (bs "c")), true) := by decide +kernel

example : (syntaxAnalysis (bs "let a = 1 if a then let f = a { echo $f } end let f = function (f) return a + f end")).map (fun a => (AstFmt.text nilWorld a.ast, analyze a.ast matches .ok _)) =
    some (AstFmt.text nilWorld (alphaTree (bs "f") (bs "f")), true) := by decide +kernel

/-- The inner variable cannot be called `a`: its initial value would then mean the inner variable. -/
example : ¬ AlphaBlock Bound.root (alphaTree (bs "b") (bs "c")) (alphaTree (bs "a") (bs "c")) := by
  intro h
  cases h with
  | cons h1 h =>
    cases h1
    cases h with
    | cons h1 _ =>
      cases h1 with
      | expr h1 =>
        cases h1 with
        | if_ _ _ h1 _ =>
          cases h1 with
          | cons h1 _ =>
            cases h1 with
            | let_ _ _ h1 =>
              cases h1 with
              | ident _ h1 =>
                cases h1.2.2 with
                | there _ h2 _ => exact h2 rfl

end Hush.Props

import Verif.Lemmas.Rename
import Verif.Model.Frontend
import Verif.Model.AstFmt
import Verif.Props.Interp

/-!
C85: the names of variables do not matter.
-/

namespace Hush.Props
open Hush Spec

/-- C85: when the variables of a program are renamed (consistently, with different names for different names, and keeping `std`), static analysis gives the very same
program, and so the same executions; a rejected program is rejected with the same errors at the same places, which name the renamed variables. -/
theorem renaming_same_program (r : Sym → Sym) (h : Renaming r) (b : Ast.Block) :
    analyze (renameBlock r b) = match analyze b with
      | .ok p => .ok p
      | .errors es => .errors (es.map (renameError r))
      | .crash => .crash := by
  have hr := renames_renamed h
  have hi : AState.initial = rnState r AState.initial := by
    simp only [AState.initial, rnState, rnFrame, rnScope, Frame.new, List.map_cons, List.map_nil, hr.std]
  have hb := rn_block hr ⟨false, false⟩ b AState.initial
  rw [← hi] at hb
  unfold analyze
  simp only [hb, rn_exitFrame]
  rw [show (rnState r (AState.exitFrame (analyzeBlock ⟨false, false⟩ b AState.initial).2).2).crashed =
    (AState.exitFrame (analyzeBlock ⟨false, false⟩ b AState.initial).2).2.crashed from rfl,
    show (rnState r (AState.exitFrame (analyzeBlock ⟨false, false⟩ b AState.initial).2).2).errors =
    (AState.exitFrame (analyzeBlock ⟨false, false⟩ b AState.initial).2).2.errors.map (renameError r) from rfl]
  split
  · rfl
  · cases (analyzeBlock ⟨false, false⟩ b AState.initial).1 with
    | none => rfl
    | some ss =>
      simp only [List.isEmpty_map]
      split <;> rfl

/-- For the names that a script can contain, the new name is the one that the renaming gives. -/
theorem renaming_names (r : Sym → Sym) (x : Sym) (hx : UserName x) : renamed r x = r x := renamed_user hx

/-- Exchange two names. -/
def swapNames (x y : Sym) (z : Sym) : Sym := if z = x then y else if z = y then x else z

/-- Exchanging two names other than `std` is a renaming. So a variable can be given any name which is not used: every program with `x` can be written with `y` instead. -/
theorem renaming_swap {x y : Sym} (hx : UserName x) (hy : UserName y) (hsx : x ≠ bs "std") (hsy : y ≠ bs "std") : Renaming (swapNames x y) := by
  refine ⟨fun {a b} _ _ h => ?_, fun {a} ha => ?_, ?_⟩
  · unfold swapNames at h
    repeat' split at h
    all_goals simp_all
  · unfold swapNames
    split
    · exact hy
    split
    · exact hx
    · exact ha
  · unfold swapNames
    rw [if_neg (Ne.symm hsx), if_neg (Ne.symm hsy)]

/-- The tree of a script, as it is printed. -/
def treeText (f : Ast.Block → Ast.Block) (src : Bytes) : Option Bytes := (syntaxAnalysis src).map fun a => AstFmt.text nilWorld (f a.ast)

/-- `a` and `b` are exchanged in declarations, parameters, uses and arguments of commands, but not in keys and strings; the resulting tree is that of the script which is
written with the names exchanged. -/
example : treeText (renameBlock (swapNames (bs "a") (bs "b"))) (bs "let a = 1 let f = function (b) { echo $a } return @[ a: b, b: \"a\" ].a + a end") =
    treeText id (bs "let b = 1 let f = function (a) { echo $b } return @[ a: a, b: \"a\" ].a + b end") := by decide +kernel

example : Renaming (swapNames (bs "a") (bs "b")) := renaming_swap ⟨by decide, by decide⟩ ⟨by decide, by decide⟩ (by decide) (by decide)

/-- Without different names for different variables the claim does not hold: then a use can mean another variable. -/
example : ∃ src src' : Bytes, treeText (renameBlock fun x => if x = bs "b" then bs "a" else x) src = treeText id src' ∧
    (syntaxAnalysis src).map (fun a => (analyze a.ast) matches .ok _) = some true ∧
    (syntaxAnalysis src').map (fun a => (analyze a.ast) matches .ok _) = some false :=
  ⟨bs "let a = 1 let b = 2", bs "let a = 1 let a = 2", by decide +kernel⟩

end Hush.Props

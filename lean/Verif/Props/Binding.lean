import Verif.Lemmas.Wf
import Verif.Props.Semantic

/-!
Property C11: slots of variables in accepted programs.
-/

namespace Hush.Props
open Hush Hush.Spec
open Hush.Ast (Expr Lit Stmt Block)

/-- C11: in an accepted program every slot mentioned anywhere exists in the frame of the function (or module) around it, the
parameters of a function fit in its frame, and variables captured by a function are in existing slots of the enclosing
frame and get slots of their own. -/
theorem slots_in_frame (b : Block) (hw : Throughout WrittenRule b) (p : Program) (h : analyze b = .ok p) : ProgramOk p :=
  translatesProgram_ok (analyze_translates b hw p h)

/-- C11: an accepted program is a correct translation of its syntax tree: each occurrence of a variable has the slot of the
innermost enclosing declaration of its name (a capture of it, if declared in an enclosing function), parameters have the
slots 0, 1, ... in order, and all parameters, declarations, captures and `self` of a function have different slots. -/
theorem slots_of_declarations (b : Block) (hw : Throughout WrittenRule b) (p : Program) (h : analyze b = .ok p) :
    TranslatesProgram b p :=
  analyze_translates b hw p h

/-- C11 for source text. -/
theorem source_slots (src : Bytes) (a : SyntaxAnalysis) (h : syntaxAnalysis src = some a) (hok : a.isOk = true)
    (p : Program) (hp : analyze a.ast = .ok p) : ProgramOk p ∧ TranslatesProgram a.ast p :=
  ⟨slots_in_frame _ (source_is_written src a h hok) p hp, slots_of_declarations _ (source_is_written src a h hok) p hp⟩

/-- `let x = 1; let y = function (a) if a then let x = y(x) else x end end`. -/
def bindingProgram : Block :=
  [.let_ nx (.lit (.int 1) (q 0)) (q 1),
   .let_ ny (.lit (.function [([97], q 2)]
     [.expr (.if_ (.ident [97] (q 3)) [.let_ nx (.call (.ident ny (q 4)) [.ident nx (q 5)] (q 6)) (q 7)]
       [.expr (.ident nx (q 8))] (q 9))]) (q 10)) (q 11)]

-- `std` is in slot 0, `x` in 1, `y` in 2; in the function `a` is in 0, the new `x` in 1, the captured `y` and `x` in 2 and 3.
-- (The call `y(x)` in the initialiser of the new `x` refers to the new one.)
example : analyze bindingProgram = .ok ⟨[.assign (.ident 1 (q 1)) (.lit (.int 1) (q 0)),
   .assign (.ident 2 (q 11)) (.lit (.function 1 ⟨4, [⟨2, 2⟩, ⟨1, 3⟩], none⟩
     [.expr (.if_ (.ident 0 (q 3)) [.assign (.ident 1 (q 7)) (.call (.ident 2 (q 4)) [.ident 1 (q 5)] (q 6))]
       [.expr (.ident 3 (q 8))] (q 9))]) (q 10))], 3⟩ := by rfl

theorem bindingProgram_written : Throughout WrittenRule bindingProgram := by
  have hx : UserName nx := ⟨by decide, by decide⟩
  have hy : UserName ny := ⟨by decide, by decide⟩
  have ha : UserName [97] := ⟨by decide, by decide⟩
  have hi : ∀ c p, Everywhere WrittenRule c (.expr (.ident nx p)) := fun c p =>
    everywhere_intro hx (fun c n h => by cases h)
  refine everywhere_intro trivial (fun c n h => ?_); cases h
  · refine everywhere_intro hx (fun c n h => ?_); cases h
    refine everywhere_intro trivial (fun c n h => ?_); cases h
  refine everywhere_intro trivial (fun c n h => ?_); cases h
  · refine everywhere_intro hy (fun c n h => ?_); cases h
    refine everywhere_intro (by simpa [WrittenRule] using ha) (fun c n h => ?_); cases h
    refine everywhere_intro trivial (fun c n h => ?_); cases h
    · refine everywhere_intro trivial (fun c n h => ?_); cases h
      refine everywhere_intro trivial (fun c n h => ?_); cases h
      · exact everywhere_intro ha (fun c n h => by cases h)
      · refine everywhere_intro trivial (fun c n h => ?_); cases h
        · refine everywhere_intro hx (fun c n h => ?_); cases h
          refine everywhere_intro trivial (fun c n h => ?_)
          cases h with
          | callee => exact everywhere_intro hy (fun c n h => by cases h)
          | arg _ _ _ _ h => simp only [List.mem_singleton] at h; subst h; exact hi _ _
        · exact written_nil _
      · refine everywhere_intro trivial (fun c n h => ?_); cases h
        · refine everywhere_intro trivial (fun c n h => ?_); cases h
          exact hi _ _
        · exact written_nil _
    · exact written_nil _
  · exact written_nil _

end Hush.Props

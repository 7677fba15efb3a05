import Verif.Spec.Layout
import Verif.Lemmas.AnalyzeBasic

/-!
Static analysis commutes with a change of positions.
-/

namespace Hush
open Spec

variable {f : Pos → Pos}

def mvA (f : Pos → Pos) (st : AState) : AState := { st with errors := st.errors.map (moveSemError f) }

/-- `a'` does at the new places what `a` does at the old ones. -/
def MovePlaced (f : Pos → Pos) (m : α → α) (a a' : A α) : Prop := ∀ st, a' (mvA f st) = ((a st).1.map m, mvA f (a st).2)

theorem mo_ok {m : α → α} (x : α) {y} (h : y = m x) : MovePlaced f m (A.ok x) (A.ok y) := fun _ => by rw [h]; rfl
theorem mo_fail {m : α → α} : MovePlaced f m (A.fail : A α) A.fail := fun _ => rfl
theorem mo_report {m : α → α} (k : SemErrorKind) (p : Pos) : MovePlaced f m (A.report k p : A α) (A.report k (f p)) := fun st => by
  simp only [A.report, mvA, List.map_append, List.map_cons, List.map_nil]
  rfl

theorem mo_zip {m : α → α} {m' : β → β} {a a' : A α} {b b' : A β} (ha : MovePlaced f m a a') (hb : MovePlaced f m' b b') :
    MovePlaced f (fun p => (m p.1, m' p.2)) (A.zip a b) (A.zip a' b') := fun st => by
  simp only [A.zip, ha st, hb (a st).2]
  cases (a st).1 <;> cases (b (a st).2).1 <;> rfl

theorem mo_map {m : α → α} {m' : β → β} {g g' : α → β} {a a' : A α} (ha : MovePlaced f m a a') (hg : ∀ x, g' (m x) = m' (g x)) :
    MovePlaced f m' (A.map g a) (A.map g' a') := fun st => by
  simp only [A.map, ha st]
  cases (a st).1 with
  | none => rfl
  | some x => simp [hg]

theorem mo_andThen {m : α → α} {m' : β → β} {a a' : A α} {g g' : α → A β} (ha : MovePlaced f m a a') (hg : ∀ x, MovePlaced f m' (g x) (g' (m x))) :
    MovePlaced f m' (A.andThen a g) (A.andThen a' g') := fun st => by
  simp only [A.andThen, ha st]
  cases (a st).1 with
  | none => rfl
  | some x => exact hg x _

theorem mo_ite {m : α → α} {a a' b b' : A α} (c : Prop) [Decidable c] (ha : MovePlaced f m a a') (hb : MovePlaced f m b b') :
    MovePlaced f m (if c then a else b) (if c then a' else b') := by split <;> assumption

theorem mo_items {m : β → β} {g : α → A β} {mv : α → α} (h : ∀ x, MovePlaced f m (g x) (g (mv x))) :
    ∀ l, MovePlaced f (List.map m) (analyzeItems g l) (analyzeItems g (l.map mv))
  | [] => mo_ok _ rfl
  | x :: l => mo_map (mo_zip (h x) (mo_items h l)) fun _ => rfl

theorem mo_inBlock {m : α → α} {a a' : A α} (h : MovePlaced f m a a') : MovePlaced f m (inBlock a) (inBlock a') := fun st => by
  have h1 : (mvA f st).enterBlock = mvA f st.enterBlock := by
    obtain ⟨fs, k, e, c⟩ := st
    cases fs <;> rfl
  have h2 : ∀ st, (mvA f st).exitBlock = mvA f st.exitBlock := by
    intro st
    obtain ⟨fs, k, e, c⟩ := st
    cases fs with
    | nil => rfl
    | cons j fs =>
      obtain ⟨n, cs, s, ss⟩ := j
      cases ss <;> rfl
  have e := h st.enterBlock
  simp only [inBlock, h1, e, h2]

theorem mo_declare (x : Sym) (p : Pos) : MovePlaced f id (declare x p) (declare x (f p)) := fun st => by
  obtain ⟨fs, k, e, c⟩ := st
  cases fs with
  | nil => rfl
  | cons j fs =>
    obtain ⟨n, cs, sl, ss⟩ := j
    cases ss with
    | nil => rfl
    | cons s ss =>
      simp only [declare, mvA]
      cases Scope.find s x with
      | none => rfl
      | some m => exact mo_report (f := f) (.duplicateVariable x) p ⟨⟨n, cs, sl, s :: ss⟩ :: fs, k, e, c⟩

theorem mo_resolve (x : Sym) (p : Pos) : MovePlaced f id (resolve x p) (resolve x (f p)) := fun st => by
  unfold resolve
  rw [show (mvA f st).frames = st.frames from rfl]
  cases resolveFrames x st.frames with
  | none => exact mo_report (.undeclaredVariable x) p st
  | some q => rfl

theorem mo_resolveSelf : MovePlaced f id resolveSelf resolveSelf := fun st => by
  obtain ⟨fs, k, e, c⟩ := st
  cases fs with
  | nil => rfl
  | cons j fs =>
    obtain ⟨n, cs, s, ss⟩ := j
    cases s <;> rfl

theorem mo_resolveIdent (x : Sym) (p : Pos) : MovePlaced f id (resolveIdent x p) (resolveIdent x (f p)) := by
  unfold resolveIdent
  exact mo_ite _ mo_fail (mo_resolve x p)

theorem mo_insertKey (x : Sym) (p : Pos) : MovePlaced f id (insertKey x p) (insertKey x (f p)) := fun st => by
  unfold insertKey
  rw [show (mvA f st).dictKeys = st.dictKeys from rfl]
  split
  · rfl
  split
  · exact mo_report (.duplicateKey x) p st
  · rfl

theorem mo_params : ∀ ps : List (Sym × Pos), MovePlaced f id (declareParams ps) (declareParams (ps.map (moveIdent f)))
  | [] => mo_ok _ rfl
  | (x, p) :: ps => mo_map (mo_zip (mo_ite _ mo_fail (mo_declare x p)) (mo_params ps)) fun _ => rfl

theorem mo_unit : ∀ u, MovePlaced f (placeUnit f) (analyzeArgUnit u) (analyzeArgUnit (moveUnit f u))
  | .literal _ => mo_ok _ rfl
  | .dollar x p => mo_map (mo_resolveIdent x p) fun _ => rfl

theorem mo_part : ∀ p, MovePlaced f (placePart f) (analyzeArgPart p) (analyzeArgPart (moveAstPart f p))
  | .unit u => mo_map (mo_unit u) fun _ => rfl
  | .expansion (.collection items) => mo_map (mo_items mo_unit items) fun _ => rfl
  | .expansion .home | .expansion (.range _ _) | .expansion .star | .expansion .percent | .expansion (.charClass _) => mo_ok _ rfl

theorem mo_argument (hf : Moving f) (a : Ast.Argument) : MovePlaced f (placeArg f) (analyzeArgument a) (analyzeArgument (moveArg f a)) := by
  have : argIll (moveArg f a) = argIll a := by
    simp only [argIll, moveArg]
    exact decide_eq_decide.2 ⟨hf.only, fun h => by rw [h]; exact hf.ill⟩
  unfold analyzeArgument
  rw [this]
  exact mo_ite _ mo_fail (mo_map (mo_items mo_part a.parts) fun _ => rfl)

theorem mo_redirection (hf : Moving f) : ∀ x, MovePlaced f (placeRedirection f) (analyzeRedirection x) (analyzeRedirection (moveRedirection f x))
  | .illFormed => mo_fail
  | .output _ (.fd _) => mo_ok _ rfl
  | .output _ (.overwrite a) => mo_map (mo_argument hf a) fun _ => rfl
  | .output _ (.append a) => mo_map (mo_argument hf a) fun _ => rfl
  | .input _ a => mo_map (mo_argument hf a) fun _ => rfl

theorem mo_builtin (a : Ast.Argument) : Prog.Builtin.ofArgument (moveArg f a) = Prog.Builtin.ofArgument a := by
  obtain ⟨ps, p⟩ := a
  cases ps with
  | nil => rfl
  | cons q ps =>
    cases ps with
    | cons q' ps => rcases q with (_ | _) | (_ | _ | _ | _ | _ | _) <;> rfl
    | nil => rcases q with (_ | _) | (_ | _ | _ | _ | _ | _) <;> rfl

theorem mo_env (hf : Moving f) (e : ArgUnit × Ast.Argument) : MovePlaced f (placeEnv f) (analyzeEnvItem e) (analyzeEnvItem (moveEnv f e)) := by
  unfold analyzeEnvItem
  exact mo_andThen (mo_unit e.1) fun _ => mo_map (mo_argument hf e.2) fun _ => rfl

theorem mo_basic (hf : Moving f) (c : Ast.BasicCommand) : MovePlaced f (placeBasic f) (analyzeBasicCommand c) (analyzeBasicCommand (moveBasic f c)) := by
  unfold analyzeBasicCommand
  rw [show (moveBasic f c).program = moveArg f c.program from rfl, mo_builtin]
  split
  · exact mo_report .asyncBuiltin c.pos
  · exact mo_map (mo_zip (mo_argument hf _) (mo_zip (mo_items (mo_env hf) _)
      (mo_zip (mo_items (mo_argument hf) _) (mo_items (mo_redirection hf) _)))) fun _ => rfl

theorem mo_command (hf : Moving f) (b : Bool) (c : Ast.Command) : MovePlaced f (placeCommand f) (analyzeCommand b c) (analyzeCommand b (moveCommand f c)) := by
  unfold analyzeCommand
  rw [show (moveCommand f c).head.program = moveArg f c.head.program from rfl, mo_builtin]
  split
  · have e1 : (moveCommand f c).tail.isEmpty = c.tail.isEmpty := by simp [moveCommand]
    have e2 : (moveCommand f c).head.redirections.isEmpty = c.head.redirections.isEmpty := by simp [moveCommand, moveBasic]
    rw [e1, e2]
    exact mo_ite _ (mo_report .asyncBuiltin c.head.pos) (mo_map (mo_items (mo_argument hf) _) fun _ => rfl)
  · exact mo_map (mo_zip (mo_basic hf _) (mo_items (mo_basic hf) _)) fun _ => rfl

theorem mo_commands (hf : Moving f) (b : Ast.CommandBlock) : MovePlaced f (placeCommands f) (analyzeCommandBlock b) (analyzeCommandBlock (moveCommands f b)) :=
  mo_map (mo_zip (mo_command hf _ b.head) (mo_items (mo_command hf _) b.tail)) fun _ => rfl

mutual

theorem mo_expr (hf : Moving f) (fl) : ∀ e, MovePlaced f (placeExpr f) (analyzeExpr fl e) (analyzeExpr fl (moveExpr f e))
  | .illFormed => by rw [moveExpr, analyzeExpr]; exact mo_fail
  | .self_ pos => by
    rw [moveExpr, analyzeExpr, analyzeExpr]
    exact mo_ite _ (mo_map mo_resolveSelf fun _ => by rw [placeExpr]; rfl) (mo_report .selfOutsideFunction pos)
  | .ident x pos => by rw [moveExpr, analyzeExpr, analyzeExpr]; exact mo_map (mo_resolveIdent x pos) fun _ => by rw [placeExpr]; rfl
  | .lit l pos => by rw [moveExpr, analyzeExpr, analyzeExpr]; exact mo_map (mo_lit hf fl l) fun _ => by rw [placeExpr]
  | .unary op e pos => by
    rw [moveExpr, analyzeExpr, analyzeExpr]
    exact mo_andThen (mo_expr hf fl e) fun _ => mo_ite _ (mo_report .tryOutsideFunction pos) (mo_ok _ (by rw [placeExpr]))
  | .binary l op e pos => by rw [moveExpr, analyzeExpr, analyzeExpr]; exact mo_map (mo_zip (mo_expr hf fl l) (mo_expr hf fl e)) fun _ => by rw [placeExpr]
  | .if_ c t e pos => by
    rw [moveExpr, analyzeExpr, analyzeExpr]
    exact mo_map (mo_zip (mo_expr hf fl c) (mo_zip (mo_inBlock (mo_block hf fl t)) (mo_inBlock (mo_block hf fl e)))) fun _ => by rw [placeExpr]
  | .access o i pos => by rw [moveExpr, analyzeExpr, analyzeExpr]; exact mo_map (mo_zip (mo_expr hf fl o) (mo_expr hf fl i)) fun _ => by rw [placeExpr]
  | .call g args pos => by rw [moveExpr, analyzeExpr, analyzeExpr]; exact mo_map (mo_zip (mo_expr hf fl g) (mo_exprs hf fl args)) fun _ => by rw [placeExpr]
  | .command b pos => by rw [moveExpr, analyzeExpr, analyzeExpr]; exact mo_map (mo_commands hf b) fun _ => by rw [placeExpr]

theorem mo_exprs (hf : Moving f) (fl) : ∀ es, MovePlaced f (placeExprs f) (analyzeExprs fl es) (analyzeExprs fl (moveExprs f es))
  | [] => by rw [moveExprs, analyzeExprs]; exact mo_ok _ (by rw [placeExprs])
  | e :: es => by rw [moveExprs, analyzeExprs, analyzeExprs]; exact mo_map (mo_zip (mo_expr hf fl e) (mo_exprs hf fl es)) fun _ => by rw [placeExprs]

theorem mo_lit (hf : Moving f) (fl) : ∀ l, MovePlaced f (placeLit f) (analyzeLit fl l) (analyzeLit fl (moveLit f l))
  | .nil | .bool _ | .int _ | .float _ | .byte _ | .string _ => by rw [moveLit, analyzeLit]; exact mo_ok _ (by rw [placeLit])
  | .array es => by rw [moveLit, analyzeLit, analyzeLit]; exact mo_map (mo_exprs hf fl es) fun _ => by rw [placeLit]
  | .dict items => by
    intro st
    rw [moveLit, analyzeLit, analyzeLit]
    exact mo_map (g := Prog.Lit.dict) (m' := placeLit f) (mo_itemsDict hf fl items) (fun _ => by rw [placeLit]) { st with dictKeys := [] }
  | .function params body => by
    intro st
    rw [moveLit, analyzeLit, analyzeLit]
    dsimp only
    have he : ∀ st, (mvA f st).exitFrame = (st.exitFrame.1, mvA f st.exitFrame.2) := by
      intro st
      obtain ⟨fs, k, e, c⟩ := st
      cases fs <;> rfl
    rw [show (mvA f st).enterFrame = mvA f st.enterFrame from rfl, mo_params params, mo_block hf ⟨true, false⟩ body, he, List.length_map]
    dsimp only
    cases (declareParams params st.enterFrame).1 <;> cases (analyzeBlock ⟨true, false⟩ body (declareParams params st.enterFrame).2).1 <;>
      simp [placeLit]
  | .ident x => by
    rw [moveLit, analyzeLit]
    exact mo_ite _ mo_fail (mo_ok _ (by rw [placeLit]))

theorem mo_itemsDict (hf : Moving f) (fl) : ∀ items, MovePlaced f (placeItems f) (analyzeItemsDict fl items) (analyzeItemsDict fl (moveItems f items))
  | [] => by rw [moveItems, analyzeItemsDict]; exact mo_ok _ (by rw [placeItems])
  | ((x, pos), e) :: items => by
    rw [moveItems, moveIdent, analyzeItemsDict, analyzeItemsDict]
    exact mo_map (mo_zip (mo_zip (mo_insertKey x pos) (mo_expr hf fl e)) (mo_itemsDict hf fl items)) fun _ => by rw [placeItems]; rfl

theorem mo_lvalue (hf : Moving f) (fl pos) : ∀ e, MovePlaced f (placeLvalue f) (analyzeLvalue fl pos e) (analyzeLvalue fl (f pos) (moveExpr f e))
  | .ident x ipos => by
    rw [moveExpr, analyzeLvalue, analyzeLvalue]
    exact mo_ite _ (mo_report .invalidAssignment pos) (mo_map (mo_resolve x ipos) fun _ => by rw [placeLvalue]; rfl)
  | .access o i apos => by
    rw [moveExpr, analyzeLvalue, analyzeLvalue]; exact mo_map (mo_zip (mo_expr hf fl o) (mo_expr hf fl i)) fun _ => by rw [placeLvalue]
  | .illFormed => mo_report .invalidAssignment pos
  | .self_ _ => mo_report .invalidAssignment pos
  | .lit _ _ => mo_report .invalidAssignment pos
  | .unary _ _ _ => mo_report .invalidAssignment pos
  | .binary _ _ _ _ => mo_report .invalidAssignment pos
  | .if_ _ _ _ _ => mo_report .invalidAssignment pos
  | .call _ _ _ => mo_report .invalidAssignment pos
  | .command _ _ => mo_report .invalidAssignment pos

theorem mo_stmt (hf : Moving f) (fl) : ∀ s, MovePlaced f (placeStmt f) (analyzeStmt fl s) (analyzeStmt fl (moveStmt f s))
  | .illFormed => by rw [moveStmt, analyzeStmt]; exact mo_fail
  | .let_ x e pos => by
    rw [moveStmt, analyzeStmt, analyzeStmt]
    exact mo_map (mo_zip (mo_declare x pos) (mo_expr hf fl e)) fun _ => by rw [placeStmt, placeLvalue]; rfl
  | .assign a b pos => by rw [moveStmt, analyzeStmt, analyzeStmt]; exact mo_map (mo_zip (mo_lvalue hf fl pos a) (mo_expr hf fl b)) fun _ => by rw [placeStmt]
  | .return_ e pos => by
    rw [moveStmt, analyzeStmt, analyzeStmt]
    exact mo_map (mo_zip (mo_ite (m := id) _ (mo_ok _ rfl) (mo_report .returnOutsideFunction pos)) (mo_expr hf fl e)) fun _ => by rw [placeStmt]
  | .break_ pos => by rw [moveStmt, analyzeStmt, analyzeStmt]; exact mo_ite _ (mo_ok _ (by rw [placeStmt])) (mo_report .breakOutsideLoop pos)
  | .while_ c b pos => by
    rw [moveStmt, analyzeStmt, analyzeStmt]; exact mo_map (mo_zip (mo_expr hf fl c) (mo_inBlock (mo_block hf _ b))) fun _ => by rw [placeStmt]
  | .for_ x e b pos => by
    rw [moveStmt, analyzeStmt, analyzeStmt]
    exact mo_map (mo_zip (mo_expr hf fl e) (mo_inBlock (mo_zip (mo_ite _ mo_fail (mo_declare x pos)) (mo_block hf _ b)))) fun _ => by rw [placeStmt]; rfl
  | .expr e => by rw [moveStmt, analyzeStmt, analyzeStmt]; exact mo_map (mo_expr hf fl e) fun _ => by rw [placeStmt]

theorem mo_block (hf : Moving f) (fl) : ∀ b, MovePlaced f (placeBlock f) (analyzeBlock fl b) (analyzeBlock fl (moveBlock f b))
  | [] => by rw [moveBlock, analyzeBlock]; exact mo_ok _ (by rw [placeBlock])
  | s :: ss => by rw [moveBlock, analyzeBlock, analyzeBlock]; exact mo_map (mo_zip (mo_stmt hf fl s) (mo_block hf fl ss)) fun _ => by rw [placeBlock]

end

theorem mo_analyze (hf : Moving f) (b : Ast.Block) : analyze (moveBlock f b) = moveResult f (analyze b) := by
  have hb := mo_block hf ⟨false, false⟩ b AState.initial
  rw [show mvA f AState.initial = AState.initial from rfl] at hb
  have he : ∀ st, (mvA f st).exitFrame = (st.exitFrame.1, mvA f st.exitFrame.2) := by
    intro st
    obtain ⟨fs, k, e, c⟩ := st
    cases fs <;> rfl
  unfold analyze
  simp only [hb, he]
  rw [show (mvA f (AState.exitFrame (analyzeBlock ⟨false, false⟩ b AState.initial).2).2).crashed =
    (AState.exitFrame (analyzeBlock ⟨false, false⟩ b AState.initial).2).2.crashed from rfl,
    show (mvA f (AState.exitFrame (analyzeBlock ⟨false, false⟩ b AState.initial).2).2).errors =
    (AState.exitFrame (analyzeBlock ⟨false, false⟩ b AState.initial).2).2.errors.map (moveSemError f) from rfl]
  split
  · rfl
  · cases (analyzeBlock ⟨false, false⟩ b AState.initial).1 with
    | none => rfl
    | some ss =>
      simp only [List.isEmpty_map, Option.map_some]
      split <;> rfl

end Hush

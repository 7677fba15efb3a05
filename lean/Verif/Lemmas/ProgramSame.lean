import Verif.Lemmas.ProgramBack
import Verif.Spec.WellFormed

/-!
The text of an analysed program depends on the program apart from positions only, and printing a well-formed program does not panic.
-/

namespace Hush.ProgramRead
open Hush Hush.Spec Hush.Prog

/-! ### Printing does not panic -/

theorem frame_fits {o n : Nat} {f : FrameInfo} (h : FrameOk o n f) : ProgramFmt.frameAborts f = false := by
  rw [ProgramFmt.frameAborts, List.any_eq_false]
  intro c hc
  have := (h.target c hc).2
  simp only [decide_eq_true_eq]
  omega

mutual
theorem fits_expr : ∀ (e : Expr) (c : Site), ExprOk c e → ProgramFmt.abortsExpr e = false
  | .ident .., _, _ => rfl
  | .lit l _, c, h => fits_lit l c h
  | .unary _ e _, c, h => fits_expr e c h.2
  | .binary l _ r _, c, h => by rw [ProgramFmt.abortsExpr, fits_expr l c h.1, fits_expr r c h.2]; rfl
  | .if_ a t e _, c, h => by rw [ProgramFmt.abortsExpr, fits_expr a c h.1, fits_block t c h.2.1, fits_block e c h.2.2]; rfl
  | .access o f _, c, h => by rw [ProgramFmt.abortsExpr, fits_expr o c h.1, fits_expr f c h.2]; rfl
  | .call f as _, c, h => by rw [ProgramFmt.abortsExpr, fits_expr f c h.1, fits_exprs as c h.2]; rfl
  | .command .., _, _ => rfl
theorem fits_lit : ∀ (l : Lit) (c : Site), LitOk c l → ProgramFmt.abortsLit l = false
  | .array es, c, h => fits_exprs es c h
  | .dict is, c, h => fits_items is c h
  | .function n f b, c, h => by rw [ProgramFmt.abortsLit, frame_fits h.1, fits_block b _ h.2]; rfl
  | .nil, _, _ | .bool _, _, _ | .int _, _, _ | .float _, _, _ | .byte _, _, _ | .string _, _, _ | .ident _, _, _ => rfl
theorem fits_exprs : ∀ (es : List Expr) (c : Site), ExprsOk c es → ProgramFmt.abortsExprs es = false
  | [], _, _ => rfl
  | e :: es, c, h => by rw [ProgramFmt.abortsExprs, fits_expr e c h.1, fits_exprs es c h.2]; rfl
theorem fits_items : ∀ (es : List (Sym × Expr)) (c : Site), FieldsOk c es → ProgramFmt.abortsItems es = false
  | [], _, _ => rfl
  | (_, e) :: es, c, h => by rw [ProgramFmt.abortsItems, fits_expr e c h.1, fits_items es c h.2]; rfl
theorem fits_lvalue : ∀ (l : Lvalue) (c : Site), LvalueOk c l → ProgramFmt.abortsLvalue l = false
  | .ident .., _, _ => rfl
  | .access o f _, c, h => by rw [ProgramFmt.abortsLvalue, fits_expr o c h.1, fits_expr f c h.2]; rfl
theorem fits_stmt : ∀ (s : Stmt) (c : Site), StmtOk c s → ProgramFmt.abortsStmt s = false
  | .assign l r, c, h => by rw [ProgramFmt.abortsStmt, fits_lvalue l c h.1, fits_expr r c h.2]; rfl
  | .return_ e, c, h => fits_expr e c h.2
  | .break_, _, _ => rfl
  | .while_ a b, c, h => by rw [ProgramFmt.abortsStmt, fits_expr a c h.1, fits_block b _ h.2]; rfl
  | .for_ _ e b, c, h => by rw [ProgramFmt.abortsStmt, fits_expr e c h.2.1, fits_block b _ h.2.2]; rfl
  | .expr e, c, h => fits_expr e c h
theorem fits_block : ∀ (b : List Stmt) (c : Site), BlockOk c b → ProgramFmt.abortsBlock b = false
  | [], _, _ => rfl
  | s :: ss, c, h => by rw [ProgramFmt.abortsBlock, fits_stmt s c h.1, fits_block ss c h.2]; rfl
end

theorem fits_program {p : Program} (h : ProgramOk p) : ProgramFmt.aborts p = false := by
  rw [ProgramFmt.aborts, fits_block _ _ h.2]; rfl

/-! ### The text of a program without positions -/

theorem find_table (g : Nat → Option Capture) (hg : ∀ i c, g i = some c → c.to = i) (i : Nat) : ∀ l : List Nat, l.Nodup →
    (l.filterMap g).reverse.find? (fun c => c.to == i) = if i ∈ l then g i else none
  | [], _ => rfl
  | j :: l, h => by
    rw [List.nodup_cons] at h
    have ih := find_table g hg i l h.2
    cases e : g j with
    | none =>
      rw [List.filterMap_cons_none e, ih]
      by_cases hj : i = j
      · subst hj; rw [if_neg h.1, if_pos (by simp), e]
      · simp [hj]
    | some c =>
      have hc := hg j c e
      rw [List.filterMap_cons_some e, List.reverse_cons, List.find?_append, ih]
      by_cases hj : i = j
      · subst hj; rw [if_neg h.1, if_pos (by simp), e]; simp [hc]
      · have : ¬ j = i := fun q => hj q.symm
        by_cases hi : i ∈ l <;> simp [hj, hi, hc, this]

theorem captured_plain (f : FrameInfo) {i : Nat} (h : i < f.slots) : ProgramFmt.captured (plainFrame f) i = ProgramFmt.captured f i := by
  unfold ProgramFmt.captured plainFrame
  dsimp only
  rw [find_table (fun i => (f.captures.reverse.find? (fun c => c.to == i)).map (fun c => ⟨c.from_, i⟩)) _ i _ List.nodup_range,
    if_pos (List.mem_range.2 h), Option.map_map]
  · rfl
  · intro j c hc
    rw [Option.map_eq_some_iff] at hc
    obtain ⟨a, -, rfl⟩ := hc
    rfl

theorem frame_plain (f : FrameInfo) (c : Option Nat) : ProgramFmt.frame (plainFrame f) c = ProgramFmt.frame f c := by
  unfold ProgramFmt.frame
  refine congrArg _ (List.map_congr_left ?_)
  intro i hi
  have hi' : i < f.slots := List.mem_range.1 hi
  unfold ProgramFmt.slotLine
  rw [captured_plain f hi']
  have : ((plainFrame f).selfSlot = some i) ↔ (f.selfSlot = some i) := by
    unfold plainFrame
    cases f.selfSlot with
    | none => simp
    | some s =>
      simp only [Option.filter]
      by_cases hs : s < f.slots
      · simp [hs]
      · have : s ≠ i := by omega
        simp [hs, this]
  simp only [this]

theorem plainBlock_empty (w : World) (b : List Stmt) : (plainBlock w b).isEmpty = b.isEmpty := by cases b <;> rfl
theorem plainExprs_empty (w : World) (b : List Expr) : (plainExprs w b).isEmpty = b.isEmpty := by cases b <;> rfl
theorem plainItems_empty (w : World) (b : List (Sym × Expr)) : (plainItems w b).isEmpty = b.isEmpty := by cases b <;> rfl

theorem plain_field {w : World} {f : Expr} (h : ∀ x p, f ≠ .lit (.ident x) p) : ∀ x p, plainExpr w f ≠ .lit (.ident x) p := by
  intro x p e
  cases f with
  | lit l q =>
    cases l with
    | ident y => exact h y q rfl
    | _ => simp only [plainExpr, plainLit, Expr.lit.injEq, reduceCtorEq, false_and] at e
  | _ => simp only [plainExpr, reduceCtorEq] at e

mutual
theorem plain_expr (w : World) : ∀ (e : Expr) (c : Option Nat), LegibleExpr w e → ProgramFmt.expr w c (plainExpr w e) = ProgramFmt.expr w c e
  | .ident .., _, _ => rfl
  | .lit l _, c, h => plain_lit w l c h
  | .unary .try_ e _, c, h => by simp only [plainExpr, ProgramFmt.expr, plain_expr w e _ h]
  | .unary .minus e _, c, h => by simp only [plainExpr, ProgramFmt.expr, plain_expr w e _ h]
  | .unary .not e _, c, h => by simp only [plainExpr, ProgramFmt.expr, plain_expr w e _ h]
  | .binary l op r _, c, h => by simp only [plainExpr, ProgramFmt.expr, plain_expr w l _ h.1, plain_expr w r _ h.2]
  | .if_ a t e _, c, h => by
    simp only [plainExpr, ProgramFmt.expr, plain_expr w a _ h.1, plain_block w t _ h.2.1, plain_block w e _ h.2.2, plainBlock_empty]
  | .access o f p, c, h => by
    by_cases hf : ∃ x q, f = .lit (.ident x) q
    · obtain ⟨x, q, rfl⟩ := hf
      simp only [plainExpr, plainLit, ProgramFmt.expr, plain_expr w o _ h.1]
    · have hf' : ∀ x q, f ≠ .lit (.ident x) q := fun x q e => hf ⟨x, q, e⟩
      rw [not_field hf', plainExpr, not_field (plain_field hf'), plain_expr w o _ h.1, plain_expr w f _ h.2]
  | .call f as _, c, h => by simp only [plainExpr, ProgramFmt.expr, plain_expr w f _ h.1, plain_exprs w as _ h.2]
  | .command .., _, h => h.elim
theorem plain_lit (w : World) : ∀ (l : Lit) (c : Option Nat), LegibleLit w l → ProgramFmt.lit w c (plainLit w l) = ProgramFmt.lit w c l
  | .nil, _, _ | .bool _, _, _ | .int _, _, _ | .byte _, _, _ | .string _, _, _ | .ident _, _, _ => rfl
  | .float t, c, h => by simp only [plainLit, ProgramFmt.lit, h.2]
  | .array es, c, h => by simp only [plainLit, ProgramFmt.lit, plain_exprs w es _ h, plainExprs_empty]
  | .dict is, c, h => by simp only [plainLit, ProgramFmt.lit, plain_items w is _ h, plainItems_empty]
  | .function ps f b, c, h => by simp only [plainLit, ProgramFmt.lit, plain_block w b _ h, frame_plain]
theorem plain_exprs (w : World) : ∀ (es : List Expr) (c : Option Nat), LegibleExprs w es → ProgramFmt.exprs w c (plainExprs w es) = ProgramFmt.exprs w c es
  | [], _, _ => rfl
  | e :: es, c, h => by simp only [plainExprs, ProgramFmt.exprs, plain_expr w e _ h.1, plain_exprs w es _ h.2]
theorem plain_items (w : World) : ∀ (es : List (Sym × Expr)) (c : Option Nat), LegibleItems w es →
    ProgramFmt.items w c (plainItems w es) = ProgramFmt.items w c es
  | [], _, _ => rfl
  | (k, e) :: es, c, h => by simp only [plainItems, ProgramFmt.items, plain_expr w e _ h.2.1, plain_items w es _ h.2.2]
theorem plain_lvalue (w : World) : ∀ (l : Lvalue), LegibleLvalue w l → ProgramFmt.lvalue w (plainLvalue w l) = ProgramFmt.lvalue w l
  | .ident .., _ => rfl
  | .access o f _, h => by simp only [plainLvalue, ProgramFmt.lvalue, plain_expr w o _ h.1, plain_expr w f _ h.2]
theorem plain_stmt (w : World) : ∀ (s : Stmt) (c : Option Nat), LegibleStmt w s → ProgramFmt.stmt w c (plainStmt w s) = ProgramFmt.stmt w c s
  | .assign l r, c, h => by simp only [plainStmt, ProgramFmt.stmt, plain_lvalue w l h.1, plain_expr w r _ h.2]
  | .return_ e, c, h => by simp only [plainStmt, ProgramFmt.stmt, plain_expr w e _ h]
  | .break_, _, _ => rfl
  | .while_ a b, c, h => by simp only [plainStmt, ProgramFmt.stmt, plain_expr w a _ h.1, plain_block w b _ h.2, plainBlock_empty]
  | .for_ _ e b, c, h => by simp only [plainStmt, ProgramFmt.stmt, plain_expr w e _ h.1, plain_block w b _ h.2, plainBlock_empty]
  | .expr e, c, h => by simp only [plainStmt, ProgramFmt.stmt, plain_expr w e _ h]
theorem plain_block (w : World) : ∀ (b : List Stmt) (c : Option Nat), LegibleBlock w b → ProgramFmt.block w c (plainBlock w b) = ProgramFmt.block w c b
  | [], _, _ => rfl
  | [s], c, h => by simp only [plainBlock, ProgramFmt.block, plain_stmt w s _ h.1]
  | s :: s' :: ss, c, h => by
    have ih := plain_block w (s' :: ss) c h.2
    simp only [plainBlock] at ih
    simp only [plainBlock, ProgramFmt.block, plain_stmt w s _ h.1, ih]
end

/-- The text of a program without positions is that of the program. -/
theorem plain_text {w : World} {p : Program} (h : LegibleBlock w p.statements) : ProgramFmt.text w (plainProgram w p) = ProgramFmt.text w p := by
  unfold ProgramFmt.text plainProgram
  rw [plain_block w _ _ h]
  rfl

end Hush.ProgramRead

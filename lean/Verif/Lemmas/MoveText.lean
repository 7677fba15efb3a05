import Verif.Spec.Layout
import Verif.Model.AstFmt
import Verif.Model.ProgramFmt

/-!
The texts of syntax trees and of programs do not depend on positions.
-/

namespace Hush
open Spec

variable {f : Pos → Pos}

/-! ### Syntax trees -/

theorem dt_unit (w : World) (u : ArgUnit) : AstFmt.argUnit w (moveUnit f u) = AstFmt.argUnit w u := by cases u <;> rfl

theorem dt_part (w : World) (q : Ast.ArgPart) : AstFmt.argPart w (moveAstPart f q) = AstFmt.argPart w q := by
  cases q with
  | unit u => exact dt_unit w u
  | expansion e =>
    cases e with
    | collection us => simp only [moveAstPart, moveExpansion, AstFmt.argPart, List.map_map, Function.comp_def, dt_unit]
    | _ => rfl

theorem dt_argument (hf : Moving f) (w : World) (a : Ast.Argument) : AstFmt.argument w (moveArg f a) = AstFmt.argument w a := by
  have : f a.pos = Ast.illPos ↔ a.pos = Ast.illPos := ⟨hf.only, fun h => by rw [h, hf.ill]⟩
  simp only [AstFmt.argument, moveArg, this, List.flatMap_map, dt_part]

theorem dt_redirection (hf : Moving f) (w : World) (r : Ast.Redirection) : AstFmt.redirection w (moveRedirection f r) = AstFmt.redirection w r := by
  cases r with
  | illFormed => rfl
  | output n t => cases t <;> simp only [moveRedirection, AstFmt.redirection, AstFmt.target, dt_argument hf]
  | input l a => cases l <;> simp only [moveRedirection, AstFmt.redirection, dt_argument hf]

theorem dt_basic (hf : Moving f) (w : World) (c : Ast.BasicCommand) : AstFmt.basic w (moveBasic f c) = AstFmt.basic w c := by
  simp only [AstFmt.basic, moveBasic, moveEnv, List.flatMap_map, dt_argument hf, dt_redirection hf, dt_unit]
  rfl

theorem dt_command (hf : Moving f) (w : World) (c : Ast.Command) : AstFmt.command w (moveCommand f c) = AstFmt.command w c := by
  simp only [AstFmt.command, moveCommand, List.flatMap_map, dt_basic hf]

theorem dt_commands (hf : Moving f) (w : World) (c : Option Nat) (b : Ast.CommandBlock) : AstFmt.commandBlock w c (moveCommands f b) = AstFmt.commandBlock w c b := by
  simp only [AstFmt.commandBlock, moveCommands, List.flatMap_map, dt_command hf]

theorem dt_emptyBlock (b : List Ast.Stmt) : (moveBlock f b).isEmpty = b.isEmpty := by cases b <;> simp [moveBlock]
theorem dt_emptyExprs (b : List Ast.Expr) : (moveExprs f b).isEmpty = b.isEmpty := by cases b <;> simp [moveExprs]
theorem dt_emptyItems (b : List ((Sym × Pos) × Ast.Expr)) : (moveItems f b).isEmpty = b.isEmpty := by cases b <;> simp [moveItems]

mutual

theorem dt_expr (hf : Moving f) (w : World) (c : Option Nat) : ∀ e : Ast.Expr, AstFmt.expr w c (moveExpr f e) = AstFmt.expr w c e
  | .illFormed => by rw [moveExpr]
  | .self_ p => by simp only [moveExpr, AstFmt.expr]
  | .ident x p => by simp only [moveExpr, AstFmt.expr]
  | .lit l p => by simp only [moveExpr, AstFmt.expr, dt_lit hf w c l]
  | .unary op e p => by cases op <;> simp only [moveExpr, AstFmt.expr, dt_expr hf w none e]
  | .binary a op b p => by simp only [moveExpr, AstFmt.expr, dt_expr hf w none a, dt_expr hf w none b]
  | .if_ a t e p => by simp only [moveExpr, AstFmt.expr, dt_expr hf w none a, dt_block hf w _ t, dt_block hf w _ e, dt_emptyBlock]
  | .access o i p => by
    have h1 := dt_expr hf w none o
    have h2 := dt_expr hf w none i
    cases i with
    | lit l q => cases l <;> simp only [moveExpr, moveLit, AstFmt.expr] at h1 h2 ⊢ <;> simp only [h1, h2]
    | _ => simp only [moveExpr, AstFmt.expr] at h1 h2 ⊢ <;> simp only [h1, h2]
  | .call g args p => by simp only [moveExpr, AstFmt.expr, dt_expr hf w none g, dt_exprs hf w none args]
  | .command b p => by simp only [moveExpr, AstFmt.expr, dt_commands hf]

theorem dt_exprs (hf : Moving f) (w : World) (c : Option Nat) : ∀ es : List Ast.Expr, AstFmt.exprs w c (moveExprs f es) = AstFmt.exprs w c es
  | [] => by rw [moveExprs]
  | e :: es => by simp only [moveExprs, AstFmt.exprs, dt_expr hf w c e, dt_exprs hf w c es]

theorem dt_lit (hf : Moving f) (w : World) (c : Option Nat) : ∀ l : Ast.Lit, AstFmt.lit w c (moveLit f l) = AstFmt.lit w c l
  | .array es => by simp only [moveLit, AstFmt.lit, dt_exprs hf w _ es, dt_emptyExprs]
  | .dict is => by simp only [moveLit, AstFmt.lit, dt_items hf w _ is, dt_emptyItems]
  | .function ps b => by simp only [moveLit, AstFmt.lit, dt_block hf w _ b, List.map_map, Function.comp_def, moveIdent]
  | .nil => by rw [moveLit]
  | .bool b => by rw [moveLit]
  | .int i => by rw [moveLit]
  | .float t => by rw [moveLit]
  | .byte b => by rw [moveLit]
  | .string s => by rw [moveLit]
  | .ident x => by rw [moveLit]

theorem dt_items (hf : Moving f) (w : World) (c : Option Nat) : ∀ is : List ((Sym × Pos) × Ast.Expr), AstFmt.items w c (moveItems f is) = AstFmt.items w c is
  | [] => by rw [moveItems]
  | ((k, p), e) :: is => by simp only [moveItems, moveIdent, AstFmt.items, dt_expr hf w c e, dt_items hf w c is]

theorem dt_stmt (hf : Moving f) (w : World) (c : Option Nat) : ∀ s : Ast.Stmt, AstFmt.stmt w c (moveStmt f s) = AstFmt.stmt w c s
  | .illFormed => by rw [moveStmt]
  | .let_ x e p => by simp only [moveStmt, AstFmt.stmt, dt_expr hf w c e]
  | .assign a b p => by simp only [moveStmt, AstFmt.stmt, dt_expr hf w none a, dt_expr hf w c b]
  | .return_ e p => by simp only [moveStmt, AstFmt.stmt, dt_expr hf w c e]
  | .break_ p => by simp only [moveStmt, AstFmt.stmt]
  | .while_ a b p => by simp only [moveStmt, AstFmt.stmt, dt_expr hf w none a, dt_block hf w _ b, dt_emptyBlock]
  | .for_ x e b p => by simp only [moveStmt, AstFmt.stmt, dt_expr hf w none e, dt_block hf w _ b, dt_emptyBlock]
  | .expr e => by simp only [moveStmt, AstFmt.stmt, dt_expr hf w c e]

theorem dt_block (hf : Moving f) (w : World) (c : Option Nat) : ∀ b : List Ast.Stmt, AstFmt.block w c (moveBlock f b) = AstFmt.block w c b
  | [] => by rw [moveBlock]
  | [s] => by simp only [moveBlock, AstFmt.block, dt_stmt hf w c s]
  | s :: s' :: ss => by
    have h := dt_block hf w c (s' :: ss)
    simp only [moveBlock] at h ⊢
    simp only [AstFmt.block, dt_stmt hf w c s, h]

end

/-! ### Programs -/

theorem dp_unit (w : World) (u : Prog.ArgUnit) : ProgramFmt.argUnit w (placeUnit f u) = ProgramFmt.argUnit w u := by cases u <;> rfl

theorem dp_part (w : World) (q : Prog.ArgPart) : ProgramFmt.argPart w (placePart f q) = ProgramFmt.argPart w q := by
  cases q with
  | unit u => exact dp_unit w u
  | collection us => simp only [placePart, ProgramFmt.argPart, List.map_map, Function.comp_def, dp_unit]
  | _ => rfl

theorem dp_argument (w : World) (a : Prog.Argument) : ProgramFmt.argument w (placeArg f a) = ProgramFmt.argument w a := by
  simp only [ProgramFmt.argument, placeArg, List.flatMap_map, dp_part]

theorem dp_redirection (w : World) (r : Prog.Redirection) : ProgramFmt.redirection w (placeRedirection f r) = ProgramFmt.redirection w r := by
  cases r with
  | output n t => cases t <;> simp only [placeRedirection, ProgramFmt.redirection, ProgramFmt.target, dp_argument]
  | input l a => cases l <;> simp only [placeRedirection, ProgramFmt.redirection, dp_argument]

theorem dp_basic (w : World) (c : Prog.BasicCommand) : ProgramFmt.basic w (placeBasic f c) = ProgramFmt.basic w c := by
  simp only [ProgramFmt.basic, placeBasic, placeEnv, List.flatMap_map, dp_argument, dp_redirection, dp_unit]
  rfl

theorem dp_command (w : World) (c : Prog.Command) : ProgramFmt.command w (placeCommand f c) = ProgramFmt.command w c := by
  cases c <;> simp only [ProgramFmt.command, placeCommand, List.flatMap_map, dp_basic, dp_argument]

theorem dp_commands (w : World) (c : Option Nat) (b : Prog.CommandBlock) : ProgramFmt.commandBlock w c (placeCommands f b) = ProgramFmt.commandBlock w c b := by
  simp only [ProgramFmt.commandBlock, placeCommands, List.flatMap_map, dp_command]

theorem dp_emptyBlock (b : List Prog.Stmt) : (placeBlock f b).isEmpty = b.isEmpty := by cases b <;> simp [placeBlock]
theorem dp_emptyExprs (b : List Prog.Expr) : (placeExprs f b).isEmpty = b.isEmpty := by cases b <;> simp [placeExprs]
theorem dp_emptyItems (b : List (Sym × Prog.Expr)) : (placeItems f b).isEmpty = b.isEmpty := by cases b <;> simp [placeItems]

mutual

theorem dp_expr (w : World) (c : Option Nat) : ∀ e : Prog.Expr, ProgramFmt.expr w c (placeExpr f e) = ProgramFmt.expr w c e
  | .ident n p => by simp only [placeExpr, ProgramFmt.expr]
  | .lit l p => by simp only [placeExpr, ProgramFmt.expr, dp_lit w c l]
  | .unary op e p => by cases op <;> simp only [placeExpr, ProgramFmt.expr, dp_expr w none e]
  | .binary a op b p => by simp only [placeExpr, ProgramFmt.expr, dp_expr w none a, dp_expr w none b]
  | .if_ a t e p => by simp only [placeExpr, ProgramFmt.expr, dp_expr w none a, dp_block w _ t, dp_block w _ e, dp_emptyBlock]
  | .access o i p => by
    have h1 := dp_expr w none o
    have h2 := dp_expr w none i
    cases i with
    | lit l q => cases l <;> simp only [placeExpr, placeLit, ProgramFmt.expr] at h1 h2 ⊢ <;> simp only [h1, h2]
    | _ => simp only [placeExpr, ProgramFmt.expr] at h1 h2 ⊢ <;> simp only [h1, h2]
  | .call g args p => by simp only [placeExpr, ProgramFmt.expr, dp_expr w none g, dp_exprs w none args]
  | .command b p => by simp only [placeExpr, ProgramFmt.expr, dp_commands]

theorem dp_exprs (w : World) (c : Option Nat) : ∀ es : List Prog.Expr, ProgramFmt.exprs w c (placeExprs f es) = ProgramFmt.exprs w c es
  | [] => by rw [placeExprs]
  | e :: es => by simp only [placeExprs, ProgramFmt.exprs, dp_expr w c e, dp_exprs w c es]

theorem dp_lit (w : World) (c : Option Nat) : ∀ l : Prog.Lit, ProgramFmt.lit w c (placeLit f l) = ProgramFmt.lit w c l
  | .array es => by simp only [placeLit, ProgramFmt.lit, dp_exprs w _ es, dp_emptyExprs]
  | .dict is => by simp only [placeLit, ProgramFmt.lit, dp_items w _ is, dp_emptyItems]
  | .function ps g b => by simp only [placeLit, ProgramFmt.lit, dp_block w _ b]
  | .nil => by rw [placeLit]
  | .bool b => by rw [placeLit]
  | .int i => by rw [placeLit]
  | .float t => by rw [placeLit]
  | .byte b => by rw [placeLit]
  | .string s => by rw [placeLit]
  | .ident x => by rw [placeLit]

theorem dp_items (w : World) (c : Option Nat) : ∀ is : List (Sym × Prog.Expr), ProgramFmt.items w c (placeItems f is) = ProgramFmt.items w c is
  | [] => by rw [placeItems]
  | (k, e) :: is => by simp only [placeItems, ProgramFmt.items, dp_expr w c e, dp_items w c is]

theorem dp_lvalue (w : World) : ∀ l : Prog.Lvalue, ProgramFmt.lvalue w (placeLvalue f l) = ProgramFmt.lvalue w l
  | .ident n p => by simp only [placeLvalue, ProgramFmt.lvalue]
  | .access o i p => by simp only [placeLvalue, ProgramFmt.lvalue, dp_expr w none o, dp_expr w none i]

theorem dp_stmt (w : World) (c : Option Nat) : ∀ s : Prog.Stmt, ProgramFmt.stmt w c (placeStmt f s) = ProgramFmt.stmt w c s
  | .assign a b => by simp only [placeStmt, ProgramFmt.stmt, dp_lvalue w a, dp_expr w c b]
  | .return_ e => by simp only [placeStmt, ProgramFmt.stmt, dp_expr w c e]
  | .break_ => by simp only [placeStmt]
  | .while_ a b => by simp only [placeStmt, ProgramFmt.stmt, dp_expr w none a, dp_block w _ b, dp_emptyBlock]
  | .for_ x e b => by simp only [placeStmt, ProgramFmt.stmt, dp_expr w none e, dp_block w _ b, dp_emptyBlock]
  | .expr e => by simp only [placeStmt, ProgramFmt.stmt, dp_expr w c e]

theorem dp_block (w : World) (c : Option Nat) : ∀ b : List Prog.Stmt, ProgramFmt.block w c (placeBlock f b) = ProgramFmt.block w c b
  | [] => by rw [placeBlock]
  | [s] => by simp only [placeBlock, ProgramFmt.block, dp_stmt w c s]
  | s :: s' :: ss => by
    have h := dp_block w c (s' :: ss)
    simp only [placeBlock] at h ⊢
    simp only [ProgramFmt.block, dp_stmt w c s, h]

end

end Hush

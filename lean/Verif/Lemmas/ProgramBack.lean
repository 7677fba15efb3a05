import Verif.Lemmas.ProgramText

/-!
The text of an analysed program is read back: the induction.
-/

namespace Hush.ProgramRead
open Hush Hush.Spec Hush.Prog

theorem node_blank {X : Bytes} : rNode (32 :: X) = rNode X := rNode_seps (s := [32]) rfl

/-- The nodes of a block. -/
def nodes (w : World) (b : List Stmt) : List Node := (plainBlock w b).map stmtNode

theorem not_field {f : Expr} (h : ∀ x p, f ≠ .lit (.ident x) p) (w : World) (c : Option Nat) (o : Expr) (p : Pos) :
    ProgramFmt.expr w c (.access o f p) = ProgramFmt.expr w none o ++ bs "[" ++ ProgramFmt.expr w none f ++ bs "]" := by
  cases f with
  | lit l q =>
    cases l with
    | ident x => exact absurd rfl (h x q)
    | _ => rfl
  | _ => rfl

theorem block_start (w : World) (s : Stmt) (ss : List Stmt) (r : Bytes) : ∃ y, ProgramFmt.block w none (s :: ss) ++ r = 32 :: y := by
  cases ss <;> exact ⟨_, rfl⟩

theorem node_if_end {A X r : Bytes} {a : Expr} {ns : List Node} (h1 : rNode A = some (.e a, 32 :: (bs "then" ++ X)))
    (h2 : rBlock X = some ((ns, false), r)) : rNode (bs "if" ++ 32 :: A) = rSuffix (.e (.if_ a (stmtsOf ns) [] noPos)) r := by
  rw [rNode_if, node_blank, h1]
  simp only [Option.bind_eq_bind, Option.bind_some]
  rw [show (skip (32 :: (bs "then" ++ X))).drop 4 = X from rfl, h2]
  rfl

theorem node_if_else {A X Y r : Bytes} {a : Expr} {ns ms : List Node} {q : Bool} (h1 : rNode A = some (.e a, 32 :: (bs "then" ++ X)))
    (h2 : rBlock X = some ((ns, true), Y)) (h3 : rBlock Y = some ((ms, q), r)) :
    rNode (bs "if" ++ 32 :: A) = rSuffix (.e (.if_ a (stmtsOf ns) (stmtsOf ms) noPos)) r := by
  rw [rNode_if, node_blank, h1]
  simp only [Option.bind_eq_bind, Option.bind_some]
  rw [show (skip (32 :: (bs "then" ++ X))).drop 4 = X from rfl, h2]
  simp only [Option.bind_some, if_true, h3]
  rfl

theorem node_function {ps : Nat} {X r : Bytes} {ns : List Node} {q : Bool} (h : rBlock X = some ((ns, q), r)) :
    rNode (bs "function" ++ 40 :: (natDigits ps ++ 41 :: X)) = rSuffix (.e (.lit (.function ps (frameOf ns) (stmtsOf ns)) noPos)) r := by
  have hn := number_digits ps (r := 41 :: X) rfl
  rw [rNode_function, hn.1, hn.2]
  simp only [List.drop_succ_cons, List.drop_zero, h]
  rfl

theorem node_return {A r : Bytes} {a : Expr} (h : rNode A = some (.e a, r)) : rNode (bs "return" ++ 32 :: A) = some (.s (.return_ a), r) := by
  rw [rNode_return, node_blank, h]
  exact rSuffix_other (by intro _ e; cases e)

theorem node_while {A X r : Bytes} {a : Expr} {ns : List Node} {q : Bool} (h1 : rNode A = some (.e a, 32 :: (bs "do" ++ X)))
    (h2 : rBlock X = some ((ns, q), r)) : rNode (bs "while" ++ 32 :: A) = some (.s (.while_ a (stmtsOf ns)), r) := by
  rw [rNode_while, node_blank, h1]
  simp only [Option.bind_eq_bind, Option.bind_some]
  rw [show (skip (32 :: (bs "do" ++ X))).drop 2 = X from rfl, h2]
  exact rSuffix_other (by intro _ e; cases e)

theorem node_for {n : Nat} {A X r : Bytes} {a : Expr} {ns : List Node} {q : Bool} (h1 : rNode A = some (.e a, 32 :: (bs "do" ++ X)))
    (h2 : rBlock X = some ((ns, q), r)) :
    rNode (bs "for" ++ 32 :: 35 :: (natDigits n ++ 32 :: (bs "in" ++ 32 :: A))) = some (.s (.for_ n a (stmtsOf ns)), r) := by
  have hn := number_digits n (r := 32 :: (bs "in" ++ 32 :: A)) rfl
  rw [rNode_for, hn.1, hn.2, show (skip (32 :: (bs "in" ++ 32 :: A))).drop 2 = 32 :: A from rfl, node_blank, h1]
  simp only [Option.bind_eq_bind, Option.bind_some]
  rw [show (skip (32 :: (bs "do" ++ X))).drop 2 = X from rfl, h2]
  exact rSuffix_other (by intro _ e; cases e)

theorem node_array {X r : Bytes} {es : List Expr} (h : rList 93 X = some (es, r)) : rNode (91 :: X) = rSuffix (.e (.lit (.array es) noPos)) r := by
  rw [rNode, skip_start (by decide), rAtom.eq_def]
  dsimp only
  rw [if_neg (by decide), if_neg (by decide), if_neg (by decide), if_pos rfl, h]
  rfl

theorem node_dict {X r : Bytes} {is : List (Sym × Expr)} (h : rItems X = some (is, r)) :
    rNode (64 :: 91 :: X) = rSuffix (.e (.lit (.dict is) noPos)) r := by
  rw [rNode, skip_start (by decide), rAtom.eq_def]
  dsimp only
  rw [if_neg (by decide), if_neg (by decide), if_neg (by decide), if_neg (by decide), if_pos rfl]
  simp only [List.drop_succ_cons, List.drop_zero, h]
  rfl

theorem flat_done {ts : List Bytes} {sep pre R : Bytes} (h1 : sep.all isSep = true) (h0 : sep ≠ []) (hR : Done R) :
    Done (ts.flatMap (fun t => sep ++ (pre ++ t)) ++ R) := by
  cases ts with
  | nil => exact hR
  | cons t ts =>
    obtain ⟨x, xs, rfl⟩ := List.exists_cons_of_ne_nil h0
    have key : ∀ x : UInt8, isSep x = true → (!isWord x && x != 40 && x != 91 && x != 46) = true := forall_byte (by decide +kernel)
    rw [List.all_cons, Bool.and_eq_true] at h1
    exact key x h1.1

theorem close_done {close : UInt8} (h : close = 41 ∨ close = 93) (r : Bytes) : Done (close :: r) := by
  rcases h with rfl | rfl <;> rfl

/-- A block up to `end`. -/
theorem block_end {w : World} {c : Option Nat} {b : List Stmt} {r : Bytes} (hr : r.head?.all (fun y => !isWord y) = true)
    (h : ∀ R, Quiet R → rBlock (ProgramFmt.block w (AstFmt.indent c) b ++ R) = more (nodes w b) R) :
    rBlock ((if b.isEmpty = true then [] else ProgramFmt.block w (AstFmt.indent c) b ++ AstFmt.line c) ++ (AstFmt.margin c ++ (bs "end" ++ r))) =
      some ((nodes w b, false), r) := by
  have hp := read_part (w := w) (c := c) (b := b) (ns := nodes w b) (by rintro rfl; rfl) h (110 :: 100 :: r)
  refine hp.trans ?_
  unfold more
  rw [show (101 :: 110 :: 100 :: r) = bs "end" ++ r from rfl, rBlock_end hr]
  simp

theorem block_end' {w : World} {c : Option Nat} {b : List Stmt} {r : Bytes} (hb : b ≠ []) (hr : r.head?.all (fun y => !isWord y) = true)
    (h : ∀ R, Quiet R → rBlock (ProgramFmt.block w (AstFmt.indent c) b ++ R) = more (nodes w b) R) :
    rBlock (ProgramFmt.block w (AstFmt.indent c) b ++ (AstFmt.line c ++ (AstFmt.margin c ++ (bs "end" ++ r)))) = some ((nodes w b, false), r) := by
  have := block_end hr h
  rwa [if_neg (by simpa using hb), List.append_assoc] at this

/-- A block up to `else`. -/
theorem block_else {w : World} {c : Option Nat} {b : List Stmt} {r : Bytes} (hr : r.head?.all (fun y => !isWord y) = true)
    (h : ∀ R, Quiet R → rBlock (ProgramFmt.block w (AstFmt.indent c) b ++ R) = more (nodes w b) R) :
    rBlock ((if b.isEmpty = true then [] else ProgramFmt.block w (AstFmt.indent c) b ++ AstFmt.line c) ++ (AstFmt.margin c ++ (bs "else" ++ r))) =
      some ((nodes w b, true), r) := by
  have hp := read_part (w := w) (c := c) (b := b) (ns := nodes w b) (by rintro rfl; rfl) h (108 :: 115 :: 101 :: r)
  refine hp.trans ?_
  unfold more
  rw [show (101 :: 108 :: 115 :: 101 :: r) = bs "else" ++ r from rfl, rBlock_else hr]
  simp

/-- What follows `else` is not part of the word. -/
theorem else_next (w : World) (c : Option Nat) (s : Stmt) (ss : List Stmt) (r : Bytes) :
    (AstFmt.newline c ++ (ProgramFmt.block w (AstFmt.indent c) (s :: ss) ++ r)).head?.all (fun y => !isWord y) = true := by
  cases c with
  | none =>
    obtain ⟨y, hy⟩ := block_start w s ss r
    show ((ProgramFmt.block w none (s :: ss) ++ r).head?).all (fun y => !isWord y) = true
    rw [hy]; rfl
  | some n => rfl

mutual
theorem read_expr (w : World) : ∀ (e : Expr) (c : Option Nat) (r : Bytes), LegibleExpr w e → After r →
    rNode (ProgramFmt.expr w c e ++ r) = rSuffix (.e (plainExpr w e)) r
  | .ident n _, c, r, _, hr => rNode_slot n hr
  | .lit l _, c, r, h, hr => read_lit w l c r h hr
  | .unary .try_ e _, c, r, h, hr => by
    have h1 := (read_expr w e none (32 :: 63 :: 41 :: r) h (Done.after rfl)).trans (rSuffix_done rfl)
    simp only [ProgramFmt.expr, plainExpr, List.append_assoc]
    exact rNode_tried h1
  | .unary .minus e _, c, r, h, hr => by
    have h1 := (read_expr w e none (41 :: r) h (Done.after rfl)).trans (rSuffix_done rfl)
    rw [← node_blank] at h1
    simp only [ProgramFmt.expr, plainExpr, List.append_assoc]
    exact rNode_paren (rNode_minus h1 rfl)
  | .unary .not e _, c, r, h, hr => by
    have h1 := (read_expr w e none (41 :: r) h (Done.after rfl)).trans (rSuffix_done rfl)
    rw [← node_blank] at h1
    simp only [ProgramFmt.expr, plainExpr, List.append_assoc]
    refine rNode_paren (X := bs "not" ++ 32 :: (ProgramFmt.expr w none e ++ 41 :: r)) ?_
    rw [rNode_not, h1]
    exact rSuffix_done rfl
  | .binary l op e _, c, r, h, hr => by
    have h2 := (read_expr w e none (41 :: r) h.2 (Done.after rfl)).trans (rSuffix_done rfl)
    rw [← node_blank] at h2
    have h1 := (read_expr w l none (32 :: (AstFmt.binOp op ++ 32 :: (ProgramFmt.expr w none e ++ 41 :: r))) h.1 (Done.after rfl)).trans (rSuffix_done rfl)
    simp only [ProgramFmt.expr, plainExpr, List.append_assoc]
    exact rNode_binary h1 h2
  | .if_ a t e _, c, r, h, hr => by
    simp only [ProgramFmt.expr, plainExpr, List.append_assoc]
    cases e with
    | nil =>
      have h2 := block_end (w := w) (c := c) hr.1 (fun R hR => read_block w t _ R h.2.1 hR)
      rw [← rBlock_seps (newline_sep c)] at h2
      have h1 := (read_expr w a none (32 :: (bs "then" ++ (AstFmt.newline c ++ ((if t.isEmpty = true then [] else ProgramFmt.block w (AstFmt.indent c) t ++ AstFmt.line c) ++
        (AstFmt.margin c ++ (bs "end" ++ r)))))) h.1 (Done.after rfl)).trans (rSuffix_done rfl)
      have := node_if_end h1 h2
      rw [nodes, stmtsOf_nodes] at this
      exact this
    | cons s ss =>
      have h3 := block_end' (w := w) (c := c) (b := s :: ss) (by intro e; cases e) hr.1 (fun R hR => read_block w (s :: ss) _ R h.2.2 hR)
      rw [← rBlock_seps (newline_sep c)] at h3
      have h2 := block_else (w := w) (c := c) (else_next w c s ss (AstFmt.line c ++ (AstFmt.margin c ++ (bs "end" ++ r)))) (fun R hR => read_block w t _ R h.2.1 hR)
      rw [← rBlock_seps (newline_sep c)] at h2
      have h1 := (read_expr w a none (32 :: (bs "then" ++ (AstFmt.newline c ++ ((if t.isEmpty = true then [] else ProgramFmt.block w (AstFmt.indent c) t ++ AstFmt.line c) ++
        (AstFmt.margin c ++ (bs "else" ++ (AstFmt.newline c ++ (ProgramFmt.block w (AstFmt.indent c) (s :: ss) ++ (AstFmt.line c ++ (AstFmt.margin c ++ (bs "end" ++ r)))))))))))
        h.1 (Done.after rfl)).trans (rSuffix_done rfl)
      have := node_if_else h1 h2 h3
      rw [nodes, stmtsOf_nodes, nodes, stmtsOf_nodes] at this
      rw [if_neg (show ¬ (s :: ss).isEmpty = true by simp)]
      simp only [List.append_assoc]
      exact this
  | .access o f p, c, r, h, hr => by
    by_cases hf : ∃ x q, f = .lit (.ident x) q
    · obtain ⟨x, q, rfl⟩ := hf
      simp only [ProgramFmt.expr, plainExpr, plainLit, List.append_assoc]
      refine (read_expr w o none (46 :: (AstFmt.symbol w x ++ r)) h.1 (after_field h.2)).trans ?_
      exact rSuffix_field h.2 hr.1
    · rw [not_field (fun x q e => hf ⟨x, q, e⟩)]
      have h2 := (read_expr w f none (93 :: r) h.2 (Done.after rfl)).trans (rSuffix_done rfl)
      simp only [plainExpr, List.append_assoc]
      refine (read_expr w o none (91 :: (ProgramFmt.expr w none f ++ 93 :: r)) h.1 ⟨rfl, fun _ _ e => by cases e⟩).trans ?_
      exact rSuffix_index h2
  | .call f as _, c, r, h, hr => by
    simp only [ProgramFmt.expr, plainExpr, List.append_assoc]
    refine (read_expr w f none (40 :: (AstFmt.sepBy (bs ", ") (ProgramFmt.exprs w none as) ++ 41 :: r)) h.1 ⟨rfl, fun _ _ e => by cases e⟩).trans ?_
    refine rSuffix_call ?_
    cases as with
    | nil => exact rList_end 41 rfl (s := []) rfl
    | cons a as =>
      have h2 := read_list w as none 41 (.inl rfl) (bs ", ") [] [] (by decide) rfl rfl rfl r h.2.2
      have h1 := (read_expr w a none ((ProgramFmt.exprs w none as).flatMap (fun t => bs ", " ++ ([] ++ t)) ++ ([] ++ 41 :: r)) h.2.1 (Done.after ?_)).trans (rSuffix_done ?_)
      · have := rList_cons (.inl rfl) h1 h2
        simpa only [ProgramFmt.exprs, AstFmt.sepBy, List.append_assoc, List.nil_append, plainExprs] using this
      all_goals
        cases as with
        | nil => rfl
        | cons a as => rfl
  | .command .., _, _, h, _ => h.elim
theorem read_lit (w : World) : ∀ (l : Lit) (c : Option Nat) (r : Bytes), LegibleLit w l → After r →
    rNode (ProgramFmt.lit w c l ++ r) = rSuffix (.e (.lit (plainLit w l) noPos)) r
  | .nil, c, r, _, hr => rNode_nil hr.1
  | .bool true, c, r, _, hr => rNode_true hr.1
  | .bool false, c, r, _, hr => rNode_false hr.1
  | .int i, c, r, h, hr => rNode_int h hr
  | .float t, c, r, h, hr => rNode_float h.1 hr
  | .byte b, c, r, h, hr => by
    simp only [ProgramFmt.lit, plainLit, List.append_assoc]
    exact rNode_byte h r
  | .string s, c, r, h, hr => by
    obtain ⟨cs, rfl, h⟩ := h
    exact rNode_string h r
  | .array es, c, r, h, hr => by
    simp only [ProgramFmt.lit, plainLit, List.append_assoc]
    have key : rList 93 (AstFmt.sepBy (bs ",") ((ProgramFmt.exprs w (AstFmt.indent c) es).map (AstFmt.step (AstFmt.indent c) ++ ·)) ++
        ((if es.isEmpty = true then [] else AstFmt.step c) ++ (bs "]" ++ r))) = some (plainExprs w es, r) := by
      cases es with
      | nil => exact rList_end 93 rfl (s := []) rfl
      | cons a as =>
        have h2 := read_list w as (AstFmt.indent c) 93 (.inr rfl) (bs ",") (AstFmt.step (AstFmt.indent c)) (AstFmt.step c) (by decide) rfl (step_sep _) (step_sep c) r h.2
        have hd : Done ((ProgramFmt.exprs w (AstFmt.indent c) as).flatMap (fun t => bs "," ++ (AstFmt.step (AstFmt.indent c) ++ t)) ++ (AstFmt.step c ++ 93 :: r)) :=
          flat_done rfl (by decide) (done_sep (step_sep c) rfl)
        have h1 := (read_expr w a (AstFmt.indent c) _ h.1 hd.after).trans (rSuffix_done hd)
        have := rList_cons (.inr rfl) h1 h2
        simp only [ProgramFmt.exprs, List.map_cons, AstFmt.sepBy, List.append_assoc, plainExprs, List.flatMap_map]
        rw [rList_seps (step_sep _), if_neg (by simp)]
        exact this
    exact node_array key
  | .dict is, c, r, h, hr => by
    simp only [ProgramFmt.lit, plainLit, List.append_assoc]
    have key : rItems (AstFmt.sepBy (bs ",") ((ProgramFmt.items w (AstFmt.indent c) is).map (AstFmt.step (AstFmt.indent c) ++ ·)) ++
        ((if is.isEmpty = true then [] else AstFmt.step c) ++ (bs "]" ++ r))) = some (plainItems w is, r) := by
      cases is with
      | nil => exact rItems_end (s := []) rfl
      | cons a as =>
        obtain ⟨k, a⟩ := a
        have h2 := read_items w as (AstFmt.indent c) (bs ",") (AstFmt.step (AstFmt.indent c)) (AstFmt.step c) (by decide) rfl (step_sep _) (step_sep c) r h.2.2
        have hd : Done ((ProgramFmt.items w (AstFmt.indent c) as).flatMap (fun t => bs "," ++ (AstFmt.step (AstFmt.indent c) ++ t)) ++ (AstFmt.step c ++ 93 :: r)) :=
          flat_done rfl (by decide) (done_sep (step_sep c) rfl)
        have h1 := (read_expr w a (AstFmt.indent c) _ h.2.1 hd.after).trans (rSuffix_done hd)
        rw [← node_blank] at h1
        have := rItems_cons (w := w) h.1 h1 h2
        simp only [ProgramFmt.items, List.map_cons, AstFmt.sepBy, List.append_assoc, plainItems, List.flatMap_map]
        rw [rItems_seps (step_sep _), if_neg (by simp)]
        exact this
    exact node_dict key
  | .function ps f b, c, r, h, hr => by
    simp only [ProgramFmt.lit, plainLit, List.append_assoc]
    have q2 : Quiet (AstFmt.step c ++ (bs "end" ++ r)) := quiet_step c (show some (101 : UInt8) ≠ some 61 by decide) (show some (101 : UInt8) ≠ some 115 by decide)
    have q1 : Quiet (AstFmt.line c ++ (ProgramFmt.block w (AstFmt.indent c) b ++ (AstFmt.step c ++ (bs "end" ++ r)))) := by
      cases c with
      | some n => exact quiet_cons (x := 10) rfl (by decide)
      | none =>
        cases b with
        | nil => exact quiet_blank (show some (32 : UInt8) ≠ some 61 by decide) (show some (32 : UInt8) ≠ some 115 by decide)
        | cons s ss =>
          obtain ⟨y, hy⟩ := block_start w s ss (AstFmt.step none ++ (bs "end" ++ r))
          show Quiet (32 :: (ProgramFmt.block w none (s :: ss) ++ _))
          rw [hy]
          exact quiet_blank (by simp) (by simp)
    have hb := read_block w b (AstFmt.indent c) _ h q2
    have hb' : rBlock (AstFmt.line c ++ (ProgramFmt.block w (AstFmt.indent c) b ++ (AstFmt.step c ++ (bs "end" ++ r)))) = more (nodes w b) (AstFmt.step c ++ (bs "end" ++ r)) := by
      rw [rBlock_seps (line_sep c), hb]
    have hf := read_frame f (AstFmt.indent c) q1
    rw [more_more hb', ← rBlock_seps (newline_sep c)] at hf
    have he : more ((List.range f.slots).map (slotNode f) ++ nodes w b) (AstFmt.step c ++ (bs "end" ++ r)) =
        some (((List.range f.slots).map (slotNode f) ++ nodes w b, false), r) := by
      unfold more
      rw [rBlock_seps (step_sep c), rBlock_end hr.1]
      simp
    have := node_function (ps := ps) (hf.trans he)
    rw [nodes, frameOf_slots, stmtsOf_slots, stmtsOf_nodes] at this
    exact this
  | .ident x, c, r, h, hr => word_ident h hr.1
theorem read_list (w : World) : ∀ (es : List Expr) (c : Option Nat) (close : UInt8), close = 41 ∨ close = 93 → ∀ (sep pre post : Bytes), sep ≠ [] →
    sep.all isSep = true → pre.all isSep = true → post.all isSep = true → ∀ r, LegibleExprs w es →
    rList close ((ProgramFmt.exprs w c es).flatMap (fun t => sep ++ (pre ++ t)) ++ (post ++ close :: r)) = some (plainExprs w es, r)
  | [], c, close, hc, sep, pre, post, h0, h1, h2, h3, r, _ => rList_end close (by rcases hc with rfl | rfl <;> rfl) h3
  | e :: es, c, close, hc, sep, pre, post, h0, h1, h2, h3, r, h => by
    have ih := read_list w es c close hc sep pre post h0 h1 h2 h3 r h.2
    simp only [ProgramFmt.exprs, List.flatMap_cons, List.append_assoc]
    rw [rList_seps h1, rList_seps h2]
    have hd : Done ((ProgramFmt.exprs w c es).flatMap (fun t => sep ++ (pre ++ t)) ++ (post ++ close :: r)) := flat_done h1 h0 (done_sep h3 (close_done hc r))
    exact rList_cons hc ((read_expr w e c _ h.1 hd.after).trans (rSuffix_done hd)) ih
theorem read_items (w : World) : ∀ (es : List (Sym × Expr)) (c : Option Nat) (sep pre post : Bytes), sep ≠ [] →
    sep.all isSep = true → pre.all isSep = true → post.all isSep = true → ∀ r, LegibleItems w es →
    rItems ((ProgramFmt.items w c es).flatMap (fun t => sep ++ (pre ++ t)) ++ (post ++ 93 :: r)) = some (plainItems w es, r)
  | [], c, sep, pre, post, h0, h1, h2, h3, r, _ => rItems_end h3
  | (k, e) :: es, c, sep, pre, post, h0, h1, h2, h3, r, h => by
    have ih := read_items w es c sep pre post h0 h1 h2 h3 r h.2.2
    simp only [ProgramFmt.items, List.flatMap_cons, List.append_assoc]
    rw [rItems_seps h1, rItems_seps h2]
    have hd : Done ((ProgramFmt.items w c es).flatMap (fun t => sep ++ (pre ++ t)) ++ (post ++ 93 :: r)) := flat_done h1 h0 (done_sep h3 rfl)
    have h1 := (read_expr w e c _ h.2.1 hd.after).trans (rSuffix_done hd)
    rw [← node_blank] at h1
    exact rItems_cons (w := w) h.1 h1 ih
theorem read_lvalue (w : World) : ∀ (l : Lvalue) (r : Bytes), LegibleLvalue w l → Done r →
    ∃ e, rNode (ProgramFmt.lvalue w l ++ r) = some (.e e, r) ∧ lval e = plainLvalue w l
  | .ident n _, r, _, hr => ⟨_, (rNode_slot n hr.after).trans (rSuffix_done hr), rfl⟩
  | .access o f _, r, h, hr => by
    have h2 := (read_expr w f none (93 :: r) h.2 (Done.after rfl)).trans (rSuffix_done rfl)
    refine ⟨.access (plainExpr w o) (plainExpr w f) noPos, ?_, rfl⟩
    simp only [ProgramFmt.lvalue, List.append_assoc]
    refine (read_expr w o none (91 :: (ProgramFmt.expr w none f ++ 93 :: r)) h.1 ⟨rfl, fun _ _ e => by cases e⟩).trans ?_
    exact (rSuffix_index h2).trans (rSuffix_done hr)
theorem read_stmt (w : World) : ∀ (s : Stmt) (c : Option Nat) (r : Bytes), LegibleStmt w s → Quiet r →
    rBlock (ProgramFmt.stmt w c s ++ r) = more [stmtNode (plainStmt w s)] r
  | .assign l e, c, r, h, hr => by
    simp only [ProgramFmt.stmt, List.append_assoc]
    obtain ⟨e', h1, h2⟩ := read_lvalue w l (32 :: 61 :: 32 :: (ProgramFmt.expr w c e ++ r)) h.1 rfl
    have h3 := (read_expr w e c r h.2 hr.1.after).trans (rSuffix_done hr.1)
    rw [← node_blank] at h3
    refine (rBlock_assign h1 h3).trans ?_
    rw [h2]
    rfl
  | .return_ e, c, r, h, hr => by
    simp only [ProgramFmt.stmt, List.append_assoc]
    exact rBlock_node (node_return ((read_expr w e c r h hr.1.after).trans (rSuffix_done hr.1))) (by intro e; cases e) (by intro e; cases e) hr.2.1
  | .break_, c, r, h, hr => rBlock_node (rNode_break hr.1.after.1) (by intro e; cases e) (by intro e; cases e) hr.2.1
  | .while_ a b, c, r, h, hr => by
    simp only [ProgramFmt.stmt, List.append_assoc]
    have h2 := block_end (w := w) (c := c) hr.1.after.1 (fun R hR => read_block w b _ R h.2 hR)
    rw [← rBlock_seps (line_sep c)] at h2
    have h1 := (read_expr w a none (32 :: (bs "do" ++ (AstFmt.line c ++ ((if b.isEmpty = true then [] else ProgramFmt.block w (AstFmt.indent c) b ++ AstFmt.line c) ++ (AstFmt.margin c ++ (bs "end" ++ r)))))) h.1
      (Done.after rfl)).trans (rSuffix_done rfl)
    have := node_while h1 h2
    rw [nodes, stmtsOf_nodes] at this
    exact rBlock_node this (by intro e; cases e) (by intro e; cases e) hr.2.1
  | .for_ n a b, c, r, h, hr => by
    simp only [ProgramFmt.stmt, ProgramFmt.slot, List.append_assoc]
    have h2 := block_end (w := w) (c := c) hr.1.after.1 (fun R hR => read_block w b _ R h.2 hR)
    rw [← rBlock_seps (line_sep c)] at h2
    have h1 := (read_expr w a none (32 :: (bs "do" ++ (AstFmt.line c ++ ((if b.isEmpty = true then [] else ProgramFmt.block w (AstFmt.indent c) b ++ AstFmt.line c) ++ (AstFmt.margin c ++ (bs "end" ++ r)))))) h.1
      (Done.after rfl)).trans (rSuffix_done rfl)
    have := node_for (n := n) h1 h2
    rw [nodes, stmtsOf_nodes] at this
    exact rBlock_node this (by intro e; cases e) (by intro e; cases e) hr.2.1
  | .expr e, c, r, h, hr =>
    rBlock_node ((read_expr w e c r h hr.1.after).trans (rSuffix_done hr.1)) (by intro e; cases e) (by intro e; cases e) hr.2.1
theorem read_block (w : World) : ∀ (b : List Stmt) (c : Option Nat) (r : Bytes), LegibleBlock w b → Quiet r →
    rBlock (ProgramFmt.block w c b ++ r) = more (nodes w b) r
  | [], c, r, _, _ => (more_nil r).symm
  | [s], c, r, h, hr => by
    simp only [ProgramFmt.block, List.append_assoc]
    rw [rBlock_seps (before_sep c)]
    exact read_stmt w s c r h.1 hr
  | s :: s' :: ss, c, r, h, hr => by
    simp only [ProgramFmt.block, List.append_assoc]
    rw [rBlock_seps (before_sep c), read_stmt w s c _ h.1 (quiet_between c _)]
    have ih := read_block w (s' :: ss) c r h.2 hr
    rw [← rBlock_seps (between_sep c)] at ih
    exact more_more ih
end

/-- **The text of a legible program is read back.** -/
theorem read_program {w : World} {p : Program} (h : LegibleBlock w p.statements) : rProgram (ProgramFmt.text w p) = some (plainProgram w p) := by
  have q : Quiet ([] : Bytes) := ⟨rfl, by simp, by simp⟩
  have hb := read_block w p.statements (some 0) [] h q
  rw [List.append_nil, ← rBlock_seps (step_sep (some 0))] at hb
  have hf := read_frame (ProgramFmt.rootFrame p) (some 0) (r := AstFmt.step (some 0) ++ ProgramFmt.block w (some 0) p.statements) (quiet_cons (x := 10) rfl (by decide))
  rw [more_more hb] at hf
  have he : rBlock [] = some (([], false), []) := by rw [rBlock.eq_def]; rfl
  unfold more at hf
  rw [he] at hf
  unfold rProgram ProgramFmt.text
  rw [List.append_assoc]
  refine (congrArg (fun z => z >>= _) hf).trans ?_
  simp only [Option.bind_eq_bind, Option.bind_some, List.append_nil, nodes, stmtsOf_slots, stmtsOf_nodes, frameOf_slots]
  rfl

end Hush.ProgramRead

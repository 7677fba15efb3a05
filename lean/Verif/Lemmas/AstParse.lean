import Verif.Lemmas.AstLex
import Verif.Lemmas.ShowEval

/-!
The tokens of the text of a syntax tree are read as the tree.
-/

namespace Hush
open Spec Ast

/-- A token that neither continues an expression nor makes an assignment. -/
def startKind (k : TokenKind) : Bool := stops 7 (some k) && (some k != some (.operator .assign))

theorem head_expr {w : World} : ∀ (e : Expr) {i : Bool}, PrintsExpr w i e →
    ∃ k ks, exprKinds w e = k :: ks ∧ (startsBracket (leftmost e) = false → startKind k = true)
  | .illFormed, _, h => h.elim
  | .self_ _, _, _ => ⟨_, _, rfl, fun _ => rfl⟩
  | .ident .., _, _ => ⟨_, _, rfl, fun _ => rfl⟩
  | .lit l _, _, h => by
    cases l with
    | ident => exact h.elim
    | array => exact ⟨_, _, rfl, fun h => by cases h⟩
    | _ => exact ⟨_, _, rfl, fun _ => rfl⟩
  | .unary op _ _, _, _ => by cases op <;> exact ⟨_, _, rfl, fun h => by cases h⟩
  | .binary .., _, _ => ⟨_, _, rfl, fun h => by cases h⟩
  | .if_ .., _, _ => ⟨_, _, rfl, fun _ => rfl⟩
  | .access o f p, i, h => by
    by_cases hf : ∃ s q, f = .lit (.ident s) q
    · obtain ⟨s, q, rfl⟩ := hf
      obtain ⟨k, ks, h1, h2⟩ := head_expr o h.1
      exact ⟨k, _, by simp only [exprKinds, h1, List.cons_append]; rfl, h2⟩
    · have hf' : ∀ s q, f = .lit (.ident s) q → False := fun s q e => hf ⟨s, q, e⟩
      simp only [PrintsExpr] at h
      obtain ⟨k, ks, h1, h2⟩ := head_expr o h.1
      exact ⟨k, _, by simp only [exprKinds, h1, List.cons_append]; rfl, h2⟩
  | .call f as _, _, h => by
    obtain ⟨k, ks, h1, h2⟩ := head_expr f h.1
    exact ⟨k, _, by simp only [exprKinds, h1, List.cons_append]; rfl, h2⟩
  | .command .., _, h => h.elim

theorem head_stmt {w : World} {i : Bool} (s : Stmt) (h : PrintsStmt w i s) :
    ∃ k ks, stmtKinds w s = k :: ks ∧ ((firstPart s).all (fun e => !startsBracket e) = true → startKind k = true) := by
  cases s with
  | illFormed => exact h.elim
  | assign l r =>
    obtain ⟨k, ks, h1, h2⟩ := head_expr l h.1
    exact ⟨k, _, by simp only [stmtKinds, h1, List.cons_append]; rfl, fun h => h2 (by simpa [firstPart] using h)⟩
  | expr e =>
    obtain ⟨k, ks, h1, h2⟩ := head_expr (w := w) e h
    exact ⟨k, ks, h1, fun h => h2 (by simpa [firstPart] using h)⟩
  | _ => exact ⟨_, _, rfl, fun _ => rfl⟩

theorem commaKinds_cons (a b : List TokenKind) (ks : List (List TokenKind)) : commaKinds (a :: b :: ks) = a ++ .comma :: commaKinds (b :: ks) := by
  simp [commaKinds]

theorem parse_names : ∀ (ps : List (Sym × Pos)) (ts : List Token), ts.map (·.kind) = commaKinds (ps.map (fun p => [TokenKind.identifier p.1])) →
    ∃ ps' : List (Sym × Pos), SepBy Param .comma ps' ts ∧ ps'.map (·.1) = ps.map (·.1)
  | [], ts, h => by
    have : ts = [] := by simpa [commaKinds] using h
    subst this
    exact ⟨[], .nil, rfl⟩
  | [p], ts, h => by
    obtain ⟨q, rfl⟩ := map_kind_one h
    exact ⟨[(p.1, q)], .last .mk, rfl⟩
  | p :: p2 :: ps, ts, h => by
    rw [List.map_cons, List.map_cons, commaKinds_cons] at h
    obtain ⟨t1, t2, rfl, h1, h2⟩ := map_kind_append h
    obtain ⟨q, rfl⟩ := map_kind_one h1
    obtain ⟨q', t3, rfl, h3⟩ := map_kind_cons h2
    obtain ⟨ps', g1, g2⟩ := parse_names (p2 :: ps) t3 h3
    exact ⟨(p.1, q) :: ps', .cons .mk g1, by simp only [List.map_cons, g2]⟩

/-- Derivations of the phrases between parentheses. -/
theorem derives_op {op : BinOp} {l r : Expr} {t1 t2 : List Token} {p : Pos} (h1 : Derives (.postfix l) t1) (h2 : Derives (.postfix r) t2) :
    Derives (.level 7 (.binary l op r p)) (t1 ++ ⟨.operator (binToken op), p⟩ :: t2) := by
  have up : ∀ n {e ts}, Derives (.postfix e) ts → Derives (.level n e) ts := by
    intro n e ts h
    induction n with
    | zero => exact .noPrefix h
    | succ n ih => exact .up ih
  have lift : ∀ n m {e ts}, Derives (.level n e) ts → n ≤ m → Derives (.level m e) ts := by
    intro n m e ts h hm
    induction hm with
    | refl => exact h
    | step _ ih => exact .up ih
  have hl : ∃ k, binLevel op = k + 1 ∧ k + 1 ≤ 7 := by cases op <;> exact ⟨_, rfl, by decide⟩
  obtain ⟨k, hk, hk'⟩ := hl
  exact lift _ _ (.binary (up (k + 1) h1) hk (up k h2)) hk'

theorem derives_postfix {e : Expr} {ts : List Token} (h : Derives (.postfix e) ts) : Derives (.level 7 e) ts := derives_lift (.noPrefix h)

mutual
theorem parse_expr {w : World} : ∀ (e : Expr) (i : Bool), PrintsExpr w i e → ∀ ts : List Token, ts.map (·.kind) = exprKinds w e →
    ∃ e', Derives (.postfix e') ts ∧ SameExpr w e e'
  | .illFormed, _, h, _, _ => h.elim
  | .self_ _, _, _, ts, hk => by
    obtain ⟨p, rfl⟩ := map_kind_one hk
    exact ⟨_, .noPostfix .self_, p, rfl⟩
  | .ident s _, _, _, ts, hk => by
    obtain ⟨p, rfl⟩ := map_kind_one hk
    exact ⟨_, .noPostfix .ident, p, rfl⟩
  | .lit l _, i, h, ts, hk => by
    obtain ⟨l', p, h1, h2⟩ := parse_lit l i h ts hk
    exact ⟨_, .noPostfix h1, l', p, rfl, h2⟩
  | .unary .try_ e _, i, h, ts, hk => by
    obtain ⟨p, t0, rfl, h0⟩ := map_kind_cons hk
    obtain ⟨t1, t2, rfl, h1, h2⟩ := map_kind_append h0
    obtain ⟨p', t3, rfl, h3⟩ := map_kind_cons h2
    obtain ⟨p'', rfl⟩ := map_kind_one h3
    obtain ⟨e', g1, g2⟩ := parse_expr e true h t1 h1
    refine ⟨.unary .try_ e' p', ?_, e', p', rfl, g2⟩
    have := Derives.noPostfix (.paren (p := p) (p' := p'') (derives_postfix (.try_ (p := p') g1)))
    simpa using this
  | .unary .minus e _, i, h, ts, hk => by
    obtain ⟨p, t0, rfl, h0⟩ := map_kind_cons hk
    obtain ⟨p', t1, rfl, h1⟩ := map_kind_cons h0
    obtain ⟨t2, t3, rfl, h2, h3⟩ := map_kind_append h1
    obtain ⟨p'', rfl⟩ := map_kind_one h3
    obtain ⟨e', g1, g2⟩ := parse_expr e true h t2 h2
    exact ⟨.unary .minus e' p', .noPostfix (.paren (derives_lift (.minus (.noPrefix g1)))), e', p', rfl, g2⟩
  | .unary .not e _, i, h, ts, hk => by
    obtain ⟨p, t0, rfl, h0⟩ := map_kind_cons hk
    obtain ⟨p', t1, rfl, h1⟩ := map_kind_cons h0
    obtain ⟨t2, t3, rfl, h2, h3⟩ := map_kind_append h1
    obtain ⟨p'', rfl⟩ := map_kind_one h3
    obtain ⟨e', g1, g2⟩ := parse_expr e true h t2 h2
    exact ⟨.unary .not e' p', .noPostfix (.paren (derives_lift (.not (.noPrefix g1)))), e', p', rfl, g2⟩
  | .binary l op r _, i, h, ts, hk => by
    obtain ⟨p, t0, rfl, h0⟩ := map_kind_cons hk
    obtain ⟨t1, t2, rfl, h1, h2⟩ := map_kind_append h0
    obtain ⟨p', t3, rfl, h3⟩ := map_kind_cons h2
    obtain ⟨t4, t5, rfl, h4, h5⟩ := map_kind_append h3
    obtain ⟨p'', rfl⟩ := map_kind_one h5
    obtain ⟨l', g1, g2⟩ := parse_expr l true h.1 t1 h1
    obtain ⟨r', g3, g4⟩ := parse_expr r true h.2 t4 h4
    refine ⟨.binary l' op r' p', ?_, l', r', p', rfl, g2, g4⟩
    have := Derives.noPostfix (.paren (p := p) (p' := p'') (derives_op (op := op) (p := p') g1 g3))
    simpa using this
  | .if_ c t e _, i, h, ts, hk => by
    obtain ⟨p, t0, rfl, h0⟩ := map_kind_cons hk
    obtain ⟨t1, t2, rfl, h1, h2⟩ := map_kind_append h0
    obtain ⟨p', t3, rfl, h3⟩ := map_kind_cons h2
    obtain ⟨t4, t5, rfl, h4, h5⟩ := map_kind_append h3
    obtain ⟨t6, t7, rfl, h6, h7⟩ := map_kind_append h5
    obtain ⟨p'', rfl⟩ := map_kind_one h7
    obtain ⟨c', g1, g2⟩ := parse_expr c true h.1 t1 h1
    obtain ⟨t', f, g3, g4, -⟩ := parse_block t i h.2.1 t4 h4
    cases e with
    | nil =>
      have : t6 = [] := by simpa using h6
      subst this
      refine ⟨.if_ c' t' [] p, ?_, c', t', [], p, rfl, g2, g4, rfl⟩
      have := Derives.noPostfix (.if_ (p := p) (p' := p'') (.condThen (p := p') (derives_postfix g1) g3))
      simpa using this
    | cons x xs =>
      simp only [List.isEmpty_cons, Bool.false_eq_true, if_false] at h6
      obtain ⟨q, t8, rfl, h8⟩ := map_kind_cons h6
      obtain ⟨e', f', g5, g6, -⟩ := parse_block (x :: xs) i h.2.2.1 t8 h8
      refine ⟨.if_ c' t' e' p, ?_, c', t', e', p, rfl, g2, g4, g6⟩
      have := Derives.noPostfix (.if_ (p := p) (p' := p'') (.condElse (p := p') (p' := q) (derives_postfix g1) g3 g5))
      simpa using this
  | .access o f p, i, h, ts, hk => by
    by_cases hf : ∃ s q, f = .lit (.ident s) q
    · obtain ⟨s, q, rfl⟩ := hf
      obtain ⟨t1, t2, rfl, h1, h2⟩ := map_kind_append hk
      obtain ⟨p', t3, rfl, h3⟩ := map_kind_cons h2
      obtain ⟨p'', rfl⟩ := map_kind_one h3
      obtain ⟨o', g1, g2⟩ := parse_expr o true h.1 t1 h1
      exact ⟨_, .dot g1, o', _, _, rfl, g2, _, _, rfl, rfl⟩
    · have hf' : ∀ s q, f = .lit (.ident s) q → False := fun s q e => hf ⟨s, q, e⟩
      simp only [PrintsExpr] at h
      simp only [exprKinds] at hk
      obtain ⟨t1, t2, rfl, h1, h2⟩ := map_kind_append hk
      obtain ⟨p', t3, rfl, h3⟩ := map_kind_cons h2
      obtain ⟨t4, t5, rfl, h4, h5⟩ := map_kind_append h3
      obtain ⟨p'', rfl⟩ := map_kind_one h5
      obtain ⟨o', g1, g2⟩ := parse_expr o true h.1 t1 h1
      obtain ⟨f', g3, g4⟩ := parse_expr f true h.2 t4 h4
      exact ⟨_, .index g1 (derives_postfix g3), o', f', _, rfl, g2, g4⟩
  | .call f as _, i, h, ts, hk => by
    obtain ⟨t1, t2, rfl, h1, h2⟩ := map_kind_append hk
    obtain ⟨p', t3, rfl, h3⟩ := map_kind_cons h2
    obtain ⟨t4, t5, rfl, h4, h5⟩ := map_kind_append h3
    obtain ⟨p'', rfl⟩ := map_kind_one h5
    obtain ⟨f', g1, g2⟩ := parse_expr f true h.1 t1 h1
    obtain ⟨as', g3, g4⟩ := parse_exprs as true h.2 t4 h4
    exact ⟨_, .call g1 g3, f', as', _, rfl, g2, g4⟩
  | .command .., _, h, _, _ => h.elim
theorem parse_lit {w : World} : ∀ (l : Lit) (i : Bool), PrintsLit w i l → ∀ ts : List Token, ts.map (·.kind) = literalKinds w l →
    ∃ l' p, Derives (.primary (.lit l' p)) ts ∧ SameLit w l l'
  | .nil, _, _, ts, hk => by
    obtain ⟨p, rfl⟩ := map_kind_one hk
    exact ⟨_, p, .lit, rfl⟩
  | .bool true, _, _, ts, hk => by
    obtain ⟨p, rfl⟩ := map_kind_one hk
    exact ⟨_, p, .lit, rfl⟩
  | .bool false, _, _, ts, hk => by
    obtain ⟨p, rfl⟩ := map_kind_one hk
    exact ⟨_, p, .lit, rfl⟩
  | .int _, _, _, ts, hk => by
    obtain ⟨p, rfl⟩ := map_kind_one hk
    exact ⟨_, p, .lit, rfl⟩
  | .float _, _, h, ts, hk => by
    obtain ⟨p, rfl⟩ := map_kind_one hk
    exact ⟨_, p, .lit, _, rfl, h.2⟩
  | .byte _, _, _, ts, hk => by
    obtain ⟨p, rfl⟩ := map_kind_one hk
    exact ⟨_, p, .lit, rfl⟩
  | .string _, _, _, ts, hk => by
    obtain ⟨p, rfl⟩ := map_kind_one hk
    exact ⟨_, p, .lit, rfl⟩
  | .array es, i, h, ts, hk => by
    obtain ⟨p, t0, rfl, h0⟩ := map_kind_cons hk
    obtain ⟨t1, t2, rfl, h1, h2⟩ := map_kind_append h0
    obtain ⟨p', rfl⟩ := map_kind_one h2
    obtain ⟨es', g1, g2⟩ := parse_exprs es i h t1 h1
    exact ⟨_, p, .array g1, es', rfl, g2⟩
  | .dict is, i, h, ts, hk => by
    obtain ⟨p, t0, rfl, h0⟩ := map_kind_cons hk
    obtain ⟨t1, t2, rfl, h1, h2⟩ := map_kind_append h0
    obtain ⟨p', rfl⟩ := map_kind_one h2
    obtain ⟨is', g1, g2⟩ := parse_items is i h t1 h1
    exact ⟨_, p, .dict g1, is', rfl, g2⟩
  | .function ps b, i, h, ts, hk => by
    obtain ⟨p, t0, rfl, h0⟩ := map_kind_cons hk
    obtain ⟨p', t1, rfl, h1⟩ := map_kind_cons h0
    obtain ⟨t2, t3, rfl, h2, h3⟩ := map_kind_append h1
    obtain ⟨p'', t4, rfl, h4⟩ := map_kind_cons h3
    obtain ⟨t5, t6, rfl, h5, h6⟩ := map_kind_append h4
    obtain ⟨p3, rfl⟩ := map_kind_one h6
    obtain ⟨ps', g1, g2⟩ := parse_names ps t2 h2
    obtain ⟨b', f, g3, g4, -⟩ := parse_block b i h.2 t5 h5
    exact ⟨_, p, .function (.func g1 g3), ps', b', rfl, g2, g4⟩
  | .ident _, _, h, _, _ => h.elim
theorem parse_exprs {w : World} : ∀ (es : List Expr) (i : Bool), PrintsExprs w i es → ∀ ts : List Token, ts.map (·.kind) = commaKinds (exprsKinds w es) →
    ∃ es', Derives (.exprs es') ts ∧ SameExprs w es es'
  | [], _, _, ts, hk => by
    have : ts = [] := by simpa [commaKinds, exprsKinds] using hk
    subst this
    exact ⟨[], .exprsNil, rfl⟩
  | [e], i, h, ts, hk => by
    have hk : ts.map (·.kind) = exprKinds w e := by simpa [commaKinds, exprsKinds] using hk
    obtain ⟨e', g1, g2⟩ := parse_expr e i h.1 ts hk
    exact ⟨[e'], .exprsLast (derives_postfix g1), e', [], rfl, g2, rfl⟩
  | e :: x :: es, i, h, ts, hk => by
    simp only [exprsKinds, commaKinds_cons] at hk
    obtain ⟨t1, t2, rfl, h1, h2⟩ := map_kind_append hk
    obtain ⟨p, t3, rfl, h3⟩ := map_kind_cons h2
    obtain ⟨e', g1, g2⟩ := parse_expr e i h.1 t1 h1
    obtain ⟨es', g3, g4⟩ := parse_exprs (x :: es) i h.2 t3 (by simpa only [exprsKinds] using h3)
    exact ⟨_, .exprsCons (derives_postfix g1) g3, e', es', rfl, g2, g4⟩
theorem parse_items {w : World} : ∀ (is : List ((Sym × Pos) × Expr)) (i : Bool), PrintsItems w i is →
    ∀ ts : List Token, ts.map (·.kind) = commaKinds (itemsKinds w is) → ∃ is', Derives (.items is') ts ∧ SameItems w is is'
  | [], _, _, ts, hk => by
    have : ts = [] := by simpa [commaKinds, itemsKinds] using hk
    subst this
    exact ⟨[], .itemsNil, rfl⟩
  | [((k, _), e)], i, h, ts, hk => by
    have hk : ts.map (·.kind) = .identifier k :: .colon :: exprKinds w e := by simpa [commaKinds, itemsKinds] using hk
    obtain ⟨p, t0, rfl, h0⟩ := map_kind_cons hk
    obtain ⟨p', t1, rfl, h1⟩ := map_kind_cons h0
    obtain ⟨e', g1, g2⟩ := parse_expr e i h.2.1 t1 h1
    exact ⟨_, .itemsLast (derives_postfix g1), p, e', [], rfl, g2, rfl⟩
  | ((k, _), e) :: ((k2, q2), e2) :: is, i, h, ts, hk => by
    simp only [itemsKinds, commaKinds_cons, List.cons_append] at hk
    obtain ⟨p, t0, rfl, h0⟩ := map_kind_cons hk
    obtain ⟨p', t1, rfl, h1⟩ := map_kind_cons h0
    obtain ⟨t2, t3, rfl, h2, h3⟩ := map_kind_append h1
    obtain ⟨p'', t4, rfl, h4⟩ := map_kind_cons h3
    obtain ⟨e', g1, g2⟩ := parse_expr e i h.2.1 t2 h2
    obtain ⟨is', g3, g4⟩ := parse_items (((k2, q2), e2) :: is) i h.2.2 t4 (by simpa only [itemsKinds] using h4)
    exact ⟨_, .itemsCons (derives_postfix g1) g3, p, e', is', rfl, g2, g4⟩
theorem parse_stmt {w : World} : ∀ (s : Stmt) (i : Bool), PrintsStmt w i s → ∀ ts : List Token, ts.map (·.kind) = stmtKinds w s →
    ∃ s' f, Derives (.stmt s' f) ts ∧ SameStmt w s s' ∧ (f = .any ∨ (endsInExpr s = true ∧ (f = .expr ∨ f = .exprNotAssign)))
  | .illFormed, _, h, _, _ => h.elim
  | .let_ s e _, i, h, ts, hk => by
    obtain ⟨p, t0, rfl, h0⟩ := map_kind_cons hk
    obtain ⟨p', t1, rfl, h1⟩ := map_kind_cons h0
    obtain ⟨p'', t2, rfl, h2⟩ := map_kind_cons h1
    obtain ⟨e', g1, g2⟩ := parse_expr e i h.2 t2 h2
    exact ⟨_, _, .letInit (derives_postfix g1), ⟨e', _, rfl, g2⟩, .inr ⟨rfl, .inl rfl⟩⟩
  | .assign l r _, i, h, ts, hk => by
    obtain ⟨t1, t2, rfl, h1, h2⟩ := map_kind_append hk
    obtain ⟨p, t3, rfl, h3⟩ := map_kind_cons h2
    obtain ⟨l', g1, g2⟩ := parse_expr l true h.1 t1 h1
    obtain ⟨r', g3, g4⟩ := parse_expr r i h.2 t3 h3
    exact ⟨_, _, .assign (derives_postfix g1) (derives_postfix g3), ⟨l', r', _, rfl, g2, g4⟩, .inr ⟨rfl, .inl rfl⟩⟩
  | .return_ e _, i, h, ts, hk => by
    obtain ⟨p, t0, rfl, h0⟩ := map_kind_cons hk
    obtain ⟨e', g1, g2⟩ := parse_expr e i h t0 h0
    exact ⟨_, _, .return_ (derives_postfix g1), ⟨e', _, rfl, g2⟩, .inr ⟨rfl, .inl rfl⟩⟩
  | .break_ _, _, _, ts, hk => by
    obtain ⟨p, rfl⟩ := map_kind_one hk
    exact ⟨_, _, .break_, ⟨_, rfl⟩, .inl rfl⟩
  | .while_ c b _, i, h, ts, hk => by
    obtain ⟨p, t0, rfl, h0⟩ := map_kind_cons hk
    obtain ⟨t1, t2, rfl, h1, h2⟩ := map_kind_append h0
    obtain ⟨p', t3, rfl, h3⟩ := map_kind_cons h2
    obtain ⟨t4, t5, rfl, h4, h5⟩ := map_kind_append h3
    obtain ⟨p'', rfl⟩ := map_kind_one h5
    obtain ⟨c', g1, g2⟩ := parse_expr c true h.1 t1 h1
    obtain ⟨b', f, g3, g4, -⟩ := parse_block b i h.2 t4 h4
    exact ⟨_, _, .while_ (derives_postfix g1) g3, ⟨c', b', _, rfl, g2, g4⟩, .inl rfl⟩
  | .for_ s e b _, i, h, ts, hk => by
    obtain ⟨p, t0, rfl, h0⟩ := map_kind_cons hk
    obtain ⟨p1, t00, rfl, h00⟩ := map_kind_cons h0
    obtain ⟨p2, t01, rfl, h01⟩ := map_kind_cons h00
    obtain ⟨t1, t2, rfl, h1, h2⟩ := map_kind_append h01
    obtain ⟨p', t3, rfl, h3⟩ := map_kind_cons h2
    obtain ⟨t4, t5, rfl, h4, h5⟩ := map_kind_append h3
    obtain ⟨p'', rfl⟩ := map_kind_one h5
    obtain ⟨e', g1, g2⟩ := parse_expr e true h.2.1 t1 h1
    obtain ⟨b', f, g3, g4, -⟩ := parse_block b i h.2.2 t4 h4
    exact ⟨_, _, .for_ (derives_postfix g1) g3, ⟨e', b', _, rfl, g2, g4⟩, .inl rfl⟩
  | .expr e, i, h, ts, hk => by
    obtain ⟨e', g1, g2⟩ := parse_expr e i h ts hk
    exact ⟨_, _, .exprStmt (derives_postfix g1), ⟨e', rfl, g2⟩, .inr ⟨rfl, .inr rfl⟩⟩
theorem parse_block {w : World} : ∀ (b : List Stmt) (i : Bool), PrintsBlock w i b → ∀ ts : List Token, ts.map (·.kind) = blockKinds w b →
    ∃ b' f, Derives (.block b' f) ts ∧ SameStmts w b b' ∧ f.ok none = true
  | [], _, _, ts, hk => by
    have : ts = [] := by simpa [blockKinds] using hk
    subst this
    exact ⟨[], _, .blockNil, rfl, rfl⟩
  | [s], i, h, ts, hk => by
    have hk : ts.map (·.kind) = stmtKinds w s := by simpa [blockKinds] using hk
    obtain ⟨s', f, g1, g2, g3⟩ := parse_stmt s i h.1 ts hk
    refine ⟨[s'], f, .blockLast g1, ⟨s', [], rfl, g2, rfl⟩, ?_⟩
    rcases g3 with rfl | ⟨-, rfl | rfl⟩ <;> rfl
  | s :: x :: ss, i, h, ts, hk => by
    obtain ⟨k1, k2, k3, k4⟩ := h
    have hk : ts.map (·.kind) = stmtKinds w s ++ blockKinds w (x :: ss) := by simpa only [blockKinds] using hk
    obtain ⟨t1, t2, rfl, h1, h2⟩ := map_kind_append hk
    obtain ⟨s', f, g1, g2, g3⟩ := parse_stmt s i k1 t1 h1
    obtain ⟨b', f', g4, g5, g6⟩ := parse_block (x :: ss) i k4 t2 h2
    obtain ⟨k, ks, j1, j2⟩ := head_stmt x k4.1
    have ht : ∃ p t, t2 = ⟨k, p⟩ :: t := by
      have h2 : t2.map (·.kind) = k :: (ks ++ blockKinds w ss) := by simpa only [blockKinds, j1, List.cons_append] using h2
      obtain ⟨p, t, e, -⟩ := map_kind_cons h2
      exact ⟨p, t, e⟩
    obtain ⟨p, t, rfl⟩ := ht
    refine ⟨s' :: b', f', .blockCons g1 ?_ g4 (by simp) ?_, ⟨s', b', rfl, g2, g5⟩, g6⟩
    · have hr := (k2 (by simp)).2
      cases s <;> simp only [SameStmt] at g2
      case return_ => exact absurd rfl (hr _ _)
      case illFormed => exact k1.elim
      case break_ => obtain ⟨_, rfl⟩ := g2; rfl
      case let_ => obtain ⟨_, _, rfl, -⟩ := g2; rfl
      case assign => obtain ⟨_, _, _, rfl, -⟩ := g2; rfl
      case while_ => obtain ⟨_, _, _, rfl, -⟩ := g2; rfl
      case for_ => obtain ⟨_, _, _, rfl, -⟩ := g2; rfl
      case expr => obtain ⟨_, rfl, -⟩ := g2; rfl
    · rcases g3 with rfl | ⟨he, hf⟩
      · rfl
      · have hs := j2 (by simpa using k3 he)
        unfold startKind at hs
        rw [Bool.and_eq_true] at hs
        rcases hf with rfl | rfl
        · exact hs.1
        · show (_ && _) = true
          rw [Bool.and_eq_true]
          exact hs
end

/-! ### No arguments of commands -/

theorem comma_code {ks : List (List TokenKind)} (h : ∀ k ∈ ks, k.all notArgument = true) : (commaKinds ks).all notArgument = true := by
  cases ks with
  | nil => rfl
  | cons k ks =>
    rw [commaKinds, List.all_append, h k (by simp), Bool.true_and, List.all_eq_true]
    intro x hx
    obtain ⟨y, hy, hx⟩ := List.mem_flatMap.1 hx
    rcases List.mem_cons.1 hx with rfl | hx
    · rfl
    · exact List.all_eq_true.1 (h y (by simp [hy])) x hx

mutual
theorem expr_code (w : World) : ∀ e : Expr, (exprKinds w e).all notArgument = true
  | .illFormed | .self_ _ | .ident .. | .command .. => rfl
  | .lit l _ => lit_code w l
  | .unary op e _ => by cases op <;> simp [exprKinds, notArgument, expr_code w e]
  | .binary l op r _ => by simp [exprKinds, notArgument, expr_code w l, expr_code w r]
  | .if_ c t e _ => by
    cases e with
    | nil => simp [exprKinds, notArgument, expr_code w c, block_code w t]
    | cons x xs => simp [exprKinds, notArgument, expr_code w c, block_code w t, block_code w (x :: xs)]
  | .access o f p => by
    by_cases hf : ∃ s q, f = .lit (.ident s) q
    · obtain ⟨s, q, rfl⟩ := hf
      simp [exprKinds, notArgument, expr_code w o]
    · have hf' : ∀ s q, f = .lit (.ident s) q → False := fun s q e => hf ⟨s, q, e⟩
      simp [exprKinds, notArgument, expr_code w o, expr_code w f]
  | .call f as _ => by simp [exprKinds, notArgument, expr_code w f, comma_code (exprs_code w as)]
theorem lit_code (w : World) : ∀ l : Lit, (literalKinds w l).all notArgument = true
  | .nil | .bool _ | .int _ | .float _ | .byte _ | .string _ | .ident _ => rfl
  | .array es => by simp [literalKinds, notArgument, comma_code (exprs_code w es)]
  | .dict is => by simp [literalKinds, notArgument, comma_code (items_code w is)]
  | .function ps b => by
    have h : (commaKinds (ps.map (fun p => [TokenKind.identifier p.1]))).all notArgument = true := by
      refine comma_code fun k hk => ?_
      obtain ⟨p, -, rfl⟩ := List.mem_map.1 hk
      rfl
    simp [literalKinds, notArgument, h, block_code w b]
theorem exprs_code (w : World) : ∀ es : List Expr, ∀ k ∈ exprsKinds w es, k.all notArgument = true
  | [], _, h => by simp [exprsKinds] at h
  | e :: es, k, h => by
    rcases List.mem_cons.1 h with rfl | h
    · exact expr_code w e
    · exact exprs_code w es k h
theorem items_code (w : World) : ∀ is : List ((Sym × Pos) × Expr), ∀ k ∈ itemsKinds w is, k.all notArgument = true
  | [], _, h => by simp [itemsKinds] at h
  | ((x, _), e) :: is, k, h => by
    rcases List.mem_cons.1 h with rfl | h
    · simp [notArgument, expr_code w e]
    · exact items_code w is k h
theorem stmt_code (w : World) : ∀ s : Stmt, (stmtKinds w s).all notArgument = true
  | .illFormed | .break_ _ => rfl
  | .let_ _ e _ => by simp [stmtKinds, notArgument, expr_code w e]
  | .assign l r _ => by simp [stmtKinds, notArgument, expr_code w l, expr_code w r]
  | .return_ e _ => by simp [stmtKinds, notArgument, expr_code w e]
  | .while_ c b _ => by simp [stmtKinds, notArgument, expr_code w c, block_code w b]
  | .for_ _ e b _ => by simp [stmtKinds, notArgument, expr_code w e, block_code w b]
  | .expr e => expr_code w e
theorem block_code (w : World) : ∀ b : List Stmt, (blockKinds w b).all notArgument = true
  | [] => rfl
  | s :: ss => by simp [blockKinds, stmt_code w s, block_code w ss]
end

theorem prior_eq : ∀ (ks : List TokenKind) (x), prior ks x = prependKinds (ks.map .ok) x
  | [], x => (prependKinds_nil x).symm
  | k :: ks, x => by
    rw [prior, prior_eq ks x, ← prependKinds_append]
    rfl

/-- The text is a program text of the same tree. -/
theorem ast_read {w : World} {b : Block} (h : PrintsBlock w false b) :
    ∃ a, syntaxAnalysis (AstFmt.text w b) = some a ∧ a.isOk = true ∧ SameStmts w b a.ast := by
  have hk := lex_block w (some 0) b h [] rfl
  rw [List.append_nil, prior_eq] at hk
  have he : toks [] = some (true, []) := rfl
  rw [he] at hk
  unfold toks at hk
  cases hl : lexFrom .root (AstFmt.text w b) with
  | timeout => rw [AstFmt.text] at hl; rw [hl] at hk; cases hk
  | crash os => rw [AstFmt.text] at hl; rw [hl] at hk; simp [LexResult.kinds, prependKinds] at hk
  | done os =>
    have hl' := hl
    rw [AstFmt.text] at hl'
    rw [hl'] at hk
    simp only [LexResult.kinds, prependKinds, List.append_nil, Option.some.injEq, Prod.mk.injEq, true_and] at hk
    obtain ⟨h1, h2⟩ := kinds_map hk (block_code w b)
    obtain ⟨b', f, g1, g2, g3⟩ := parse_block b false h _ h1
    have hp := parse_complete ⟨f, g1, g3⟩
    refine ⟨⟨b', [], []⟩, ?_, rfl, g2⟩
    rw [syntaxAnalysis, lex_root, hl]
    simp only [hp, h2]
    rfl

/-! ### The same tree has the same text -/

mutual
theorem text_expr {w : World} : ∀ (e e' : Expr) (c : Option Nat), SameExpr w e e' → AstFmt.expr w c e' = AstFmt.expr w c e
  | .illFormed, e', c, h => by cases h; rfl
  | .self_ _, e', c, h => by obtain ⟨p, rfl⟩ := h; rfl
  | .ident s _, e', c, h => by obtain ⟨p, rfl⟩ := h; rfl
  | .lit l _, e', c, h => by
    obtain ⟨l', p, rfl, h⟩ := h
    exact text_lit l l' c h
  | .unary op e _, e', c, h => by
    obtain ⟨x, p, rfl, h⟩ := h
    cases op <;> simp only [AstFmt.expr, text_expr e x none h]
  | .binary l op r _, e', c, h => by
    obtain ⟨x, y, p, rfl, h1, h2⟩ := h
    simp only [AstFmt.expr, text_expr l x none h1, text_expr r y none h2]
  | .if_ a t e _, e', c, h => by
    obtain ⟨x, y, z, p, rfl, h1, h2, h3⟩ := h
    simp only [AstFmt.expr, text_expr a x none h1, text_block t y _ h2, text_block e z _ h3, text_empty t y h2, text_empty e z h3]
  | .access o f p, e', c, h => by
    obtain ⟨x, y, q, rfl, h1, h2⟩ := h
    by_cases hf : ∃ s q, f = .lit (.ident s) q
    · obtain ⟨s, q, rfl⟩ := hf
      obtain ⟨l', q', rfl, h2⟩ := h2
      cases h2
      simp only [AstFmt.expr, text_expr o x none h1]
    · have hf' : ∀ s q, f = .lit (.ident s) q → False := fun s q e => hf ⟨s, q, e⟩
      have hy' : ∀ s q, y = .lit (.ident s) q → False := by
        rintro s q rfl
        cases f with
        | lit l p =>
          obtain ⟨l', q', e, h2⟩ := h2
          cases e
          cases l with
          | ident s' => exact hf' _ _ rfl
          | float => obtain ⟨_, e, _⟩ := h2; cases e
          | array => obtain ⟨_, e, _⟩ := h2; cases e
          | dict => obtain ⟨_, e, _⟩ := h2; cases e
          | function => obtain ⟨_, _, e, _⟩ := h2; cases e
          | _ => cases h2
        | illFormed => cases h2
        | self_ => obtain ⟨_, e⟩ := h2; cases e
        | ident => obtain ⟨_, e⟩ := h2; cases e
        | unary => obtain ⟨_, _, e, _⟩ := h2; cases e
        | binary => obtain ⟨_, _, _, e, _⟩ := h2; cases e
        | if_ => obtain ⟨_, _, _, _, e, _⟩ := h2; cases e
        | access => obtain ⟨_, _, _, e, _⟩ := h2; cases e
        | call => obtain ⟨_, _, _, e, _⟩ := h2; cases e
        | command => obtain ⟨_, e⟩ := h2; cases e
      simp only [AstFmt.expr, text_expr o x none h1, text_expr f y none h2]
  | .call f as _, e', c, h => by
    obtain ⟨x, y, p, rfl, h1, h2⟩ := h
    simp only [AstFmt.expr, text_expr f x none h1, text_exprs as y none h2]
  | .command .., e', c, h => by obtain ⟨p, rfl⟩ := h; rfl
theorem text_lit {w : World} : ∀ (l l' : Lit) (c : Option Nat), SameLit w l l' → AstFmt.lit w c l' = AstFmt.lit w c l
  | .nil, _, c, h => by cases h; rfl
  | .bool _, _, c, h => by cases h; rfl
  | .int _, _, c, h => by cases h; rfl
  | .float _, _, c, h => by
    obtain ⟨t, rfl, h⟩ := h
    simp only [AstFmt.lit, h]
  | .byte _, _, c, h => by cases h; rfl
  | .string _, _, c, h => by cases h; rfl
  | .array es, _, c, h => by
    obtain ⟨x, rfl, h⟩ := h
    have : x.isEmpty = es.isEmpty := by
      cases es with
      | nil => cases h; rfl
      | cons => obtain ⟨_, _, rfl, _⟩ := h; rfl
    simp only [AstFmt.lit, text_exprs es x _ h, this]
  | .dict is, _, c, h => by
    obtain ⟨x, rfl, h⟩ := h
    have : x.isEmpty = is.isEmpty := by
      cases is with
      | nil => cases h; rfl
      | cons => obtain ⟨_, _, _, rfl, _⟩ := h; rfl
    simp only [AstFmt.lit, text_items is x _ h, this]
  | .function ps b, _, c, h => by
    obtain ⟨x, y, rfl, h1, h2⟩ := h
    have : x.map (fun p => AstFmt.symbol w p.1) = ps.map (fun p => AstFmt.symbol w p.1) := by
      have := congrArg (List.map (AstFmt.symbol w)) h1
      simpa [Function.comp_def] using this
    simp only [AstFmt.lit, text_block b y _ h2, this]
  | .ident _, _, c, h => by cases h; rfl
theorem text_exprs {w : World} : ∀ (es es' : List Expr) (c : Option Nat), SameExprs w es es' → AstFmt.exprs w c es' = AstFmt.exprs w c es
  | [], _, c, h => by cases h; rfl
  | e :: es, _, c, h => by
    obtain ⟨x, y, rfl, h1, h2⟩ := h
    simp only [AstFmt.exprs, text_expr e x c h1, text_exprs es y c h2]
theorem text_items {w : World} : ∀ (is is' : List ((Sym × Pos) × Expr)) (c : Option Nat), SameItems w is is' → AstFmt.items w c is' = AstFmt.items w c is
  | [], _, c, h => by cases h; rfl
  | ((k, _), e) :: is, _, c, h => by
    obtain ⟨p, x, y, rfl, h1, h2⟩ := h
    simp only [AstFmt.items, text_expr e x c h1, text_items is y c h2]
theorem text_stmt {w : World} : ∀ (s s' : Stmt) (c : Option Nat), SameStmt w s s' → AstFmt.stmt w c s' = AstFmt.stmt w c s
  | .illFormed, _, c, h => by cases h; rfl
  | .let_ _ e _, _, c, h => by
    obtain ⟨x, p, rfl, h⟩ := h
    simp only [AstFmt.stmt, text_expr e x c h]
  | .assign l r _, _, c, h => by
    obtain ⟨x, y, p, rfl, h1, h2⟩ := h
    simp only [AstFmt.stmt, text_expr l x none h1, text_expr r y c h2]
  | .return_ e _, _, c, h => by
    obtain ⟨x, p, rfl, h⟩ := h
    simp only [AstFmt.stmt, text_expr e x c h]
  | .break_ _, _, c, h => by obtain ⟨p, rfl⟩ := h; rfl
  | .while_ a b _, _, c, h => by
    obtain ⟨x, y, p, rfl, h1, h2⟩ := h
    simp only [AstFmt.stmt, text_expr a x none h1, text_block b y _ h2, text_empty b y h2]
  | .for_ _ e b _, _, c, h => by
    obtain ⟨x, y, p, rfl, h1, h2⟩ := h
    simp only [AstFmt.stmt, text_expr e x none h1, text_block b y _ h2, text_empty b y h2]
  | .expr e, _, c, h => by
    obtain ⟨x, rfl, h⟩ := h
    exact text_expr e x c h
theorem text_block {w : World} : ∀ (b b' : List Stmt) (c : Option Nat), SameStmts w b b' → AstFmt.block w c b' = AstFmt.block w c b
  | [], _, c, h => by cases h; rfl
  | [s], _, c, h => by
    obtain ⟨x, y, rfl, h1, h2⟩ := h
    cases h2
    simp only [AstFmt.block, text_stmt s x c h1]
  | s :: t :: ss, _, c, h => by
    obtain ⟨x, y, rfl, h1, h2⟩ := h
    have ih := text_block (t :: ss) y c h2
    obtain ⟨x', y', rfl, h3, h4⟩ := h2
    simp only [AstFmt.block, text_stmt s x c h1, ih]
theorem text_empty {w : World} : ∀ (b b' : List Stmt), SameStmts w b b' → b'.isEmpty = b.isEmpty
  | [], _, h => by cases h; rfl
  | _ :: _, _, h => by obtain ⟨_, _, rfl, _⟩ := h; rfl
end

end Hush

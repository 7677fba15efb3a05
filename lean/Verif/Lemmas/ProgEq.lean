import Verif.Spec.Execution

/-!
A test for equality of programs, to check which program a source gives.
-/

namespace Hush
open Spec

namespace Prog

mutual
/-- Equality of expressions. -/
def exprEq : Expr → Expr → Bool
  | .ident s p, .ident s' p' => s == s' && p == p'
  | .lit l p, .lit l' p' => litEq l l' && p == p'
  | .unary o e p, .unary o' e' p' => o == o' && exprEq e e' && p == p'
  | .binary l o r p, .binary l' o' r' p' => exprEq l l' && o == o' && exprEq r r' && p == p'
  | .if_ c t e p, .if_ c' t' e' p' => exprEq c c' && blockEq t t' && blockEq e e' && p == p'
  | .access o f p, .access o' f' p' => exprEq o o' && exprEq f f' && p == p'
  | .call f as p, .call f' as' p' => exprEq f f' && exprsEq as as' && p == p'
  | .command b p, .command b' p' => b == b' && p == p'
  | _, _ => false
/-- Equality of lists of expressions. -/
def exprsEq : List Expr → List Expr → Bool
  | [], [] => true
  | e :: es, e' :: es' => exprEq e e' && exprsEq es es'
  | _, _ => false
/-- Equality of literals. -/
def litEq : Lit → Lit → Bool
  | .nil, .nil => true
  | .bool b, .bool b' => b == b'
  | .int i, .int i' => i == i'
  | .float t, .float t' => t == t'
  | .byte b, .byte b' => b == b'
  | .string s, .string s' => s == s'
  | .array es, .array es' => exprsEq es es'
  | .dict fs, .dict fs' => fieldsEq fs fs'
  | .function n f b, .function n' f' b' => n == n' && f == f' && blockEq b b'
  | .ident s, .ident s' => s == s'
  | _, _ => false
/-- Equality of fields. -/
def fieldsEq : List (Sym × Expr) → List (Sym × Expr) → Bool
  | [], [] => true
  | (k, e) :: es, (k', e') :: es' => k == k' && exprEq e e' && fieldsEq es es'
  | _, _ => false
/-- Equality of targets of assignments. -/
def lvalueEq : Lvalue → Lvalue → Bool
  | .ident s p, .ident s' p' => s == s' && p == p'
  | .access o f p, .access o' f' p' => exprEq o o' && exprEq f f' && p == p'
  | _, _ => false
/-- Equality of statements. -/
def stmtEq : Stmt → Stmt → Bool
  | .assign l r, .assign l' r' => lvalueEq l l' && exprEq r r'
  | .return_ e, .return_ e' => exprEq e e'
  | .break_, .break_ => true
  | .while_ c b, .while_ c' b' => exprEq c c' && blockEq b b'
  | .for_ s e b, .for_ s' e' b' => s == s' && exprEq e e' && blockEq b b'
  | .expr e, .expr e' => exprEq e e'
  | _, _ => false
/-- Equality of blocks. -/
def blockEq : List Stmt → List Stmt → Bool
  | [], [] => true
  | s :: ss, s' :: ss' => stmtEq s s' && blockEq ss ss'
  | _, _ => false
end

mutual
theorem exprEq_sound : ∀ a b, exprEq a b = true → a = b
  | .ident .., b => by cases b <;> simp [exprEq]
  | .lit l p, b => by
    cases b <;> simp [exprEq]
    exact fun h1 h2 => ⟨litEq_sound _ _ h1, h2⟩
  | .unary o e p, b => by
    cases b <;> simp [exprEq]
    exact fun h0 h1 h2 => ⟨h0, exprEq_sound _ _ h1, h2⟩
  | .binary l o r p, b => by
    cases b <;> simp [exprEq]
    exact fun h0 h1 h2 h3 => ⟨exprEq_sound _ _ h0, h1, exprEq_sound _ _ h2, h3⟩
  | .if_ c t e p, b => by
    cases b <;> simp [exprEq]
    exact fun h0 h1 h2 h3 => ⟨exprEq_sound _ _ h0, blockEq_sound _ _ h1, blockEq_sound _ _ h2, h3⟩
  | .access o f p, b => by
    cases b <;> simp [exprEq]
    exact fun h0 h1 h2 => ⟨exprEq_sound _ _ h0, exprEq_sound _ _ h1, h2⟩
  | .call f as p, b => by
    cases b <;> simp [exprEq]
    exact fun h0 h1 h2 => ⟨exprEq_sound _ _ h0, exprsEq_sound _ _ h1, h2⟩
  | .command .., b => by cases b <;> simp [exprEq]
theorem exprsEq_sound : ∀ a b, exprsEq a b = true → a = b
  | [], b => by cases b <;> simp [exprsEq]
  | e :: es, b => by
    cases b <;> simp [exprsEq]
    exact fun h1 h2 => ⟨exprEq_sound _ _ h1, exprsEq_sound _ _ h2⟩
theorem litEq_sound : ∀ a b, litEq a b = true → a = b
  | .nil, b => by cases b <;> simp [litEq]
  | .bool _, b => by cases b <;> simp [litEq]
  | .int _, b => by cases b <;> simp [litEq]
  | .float _, b => by cases b <;> simp [litEq]
  | .byte _, b => by cases b <;> simp [litEq]
  | .string _, b => by cases b <;> simp [litEq]
  | .array _, b => by
    cases b <;> simp [litEq]
    exact fun h => exprsEq_sound _ _ h
  | .dict _, b => by
    cases b <;> simp [litEq]
    exact fun h => fieldsEq_sound _ _ h
  | .function .., b => by
    cases b <;> simp [litEq]
    exact fun h0 h1 h2 => ⟨h0, h1, blockEq_sound _ _ h2⟩
  | .ident _, b => by cases b <;> simp [litEq]
theorem fieldsEq_sound : ∀ a b, fieldsEq a b = true → a = b
  | [], b => by cases b <;> simp [fieldsEq]
  | (k, e) :: es, b => by
    cases b <;> simp [fieldsEq]
    rename_i q _
    obtain ⟨k', e'⟩ := q
    simp only [fieldsEq, Bool.and_eq_true, beq_iff_eq]
    rintro ⟨⟨rfl, h1⟩, h2⟩
    exact ⟨by rw [exprEq_sound _ _ h1], fieldsEq_sound _ _ h2⟩
theorem lvalueEq_sound : ∀ a b, lvalueEq a b = true → a = b
  | .ident .., b => by cases b <;> simp [lvalueEq]
  | .access .., b => by
    cases b <;> simp [lvalueEq]
    exact fun h0 h1 h2 => ⟨exprEq_sound _ _ h0, exprEq_sound _ _ h1, h2⟩
theorem stmtEq_sound : ∀ a b, stmtEq a b = true → a = b
  | .assign .., b => by
    cases b <;> simp [stmtEq]
    exact fun h0 h1 => ⟨lvalueEq_sound _ _ h0, exprEq_sound _ _ h1⟩
  | .return_ _, b => by
    cases b <;> simp [stmtEq]
    exact fun h => exprEq_sound _ _ h
  | .break_, b => by cases b <;> simp [stmtEq]
  | .while_ .., b => by
    cases b <;> simp [stmtEq]
    exact fun h0 h1 => ⟨exprEq_sound _ _ h0, blockEq_sound _ _ h1⟩
  | .for_ .., b => by
    cases b <;> simp [stmtEq]
    exact fun h0 h1 h2 => ⟨h0, exprEq_sound _ _ h1, blockEq_sound _ _ h2⟩
  | .expr _, b => by
    cases b <;> simp [stmtEq]
    exact fun h => exprEq_sound _ _ h
theorem blockEq_sound : ∀ a b, blockEq a b = true → a = b
  | [], b => by cases b <;> simp [blockEq]
  | e :: es, b => by
    cases b <;> simp [blockEq]
    exact fun h1 h2 => ⟨stmtEq_sound _ _ h1, blockEq_sound _ _ h2⟩
end

end Prog

/-- Whether the source is accepted and gives the program. -/
def accepted (src : Bytes) (p : Program) : Bool :=
  match syntaxAnalysis src with
  | some a => a.isOk && (match analyze a.ast with
    | .ok p' => Prog.blockEq p'.statements p.statements && p'.rootSlots == p.rootSlots
    | _ => false)
  | none => false

theorem accepts_of {src p} (h : accepted src p = true) : Accepts src p := by
  simp only [accepted] at h
  split at h
  · rename_i a ha
    simp only [Bool.and_eq_true] at h
    obtain ⟨h1, h2⟩ := h
    split at h2
    · rename_i p' hp
      simp only [Bool.and_eq_true, beq_iff_eq] at h2
      refine ⟨a, ha, h1, ?_⟩
      rw [hp]
      cases p; cases p'
      simp only at h2
      rw [Prog.blockEq_sound _ _ h2.1, h2.2]
    · cases h2
  · cases h

end Hush

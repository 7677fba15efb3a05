import Verif.Model.Ast
import Verif.Spec.Show

/-!
Specification side of the printing of syntax trees: when trees are the same apart from positions, and which trees are printed in such a way that they can
be read back.
-/

namespace Hush.Spec
open Hush Hush.Ast

/-! ### The same tree -/

mutual
/-- The expressions are the same apart from positions; floats may be written differently. -/
def SameExpr (w : World) : Expr → Expr → Prop
  | .illFormed, x => x = .illFormed
  | .self_ _, x => ∃ p, x = .self_ p
  | .ident s _, x => ∃ p, x = .ident s p
  | .lit l _, x => ∃ l' p, x = .lit l' p ∧ SameLit w l l'
  | .unary op e _, x => ∃ e' p, x = .unary op e' p ∧ SameExpr w e e'
  | .binary l op r _, x => ∃ l' r' p, x = .binary l' op r' p ∧ SameExpr w l l' ∧ SameExpr w r r'
  | .if_ c t e _, x => ∃ c' t' e' p, x = .if_ c' t' e' p ∧ SameExpr w c c' ∧ SameStmts w t t' ∧ SameStmts w e e'
  | .access o f _, x => ∃ o' f' p, x = .access o' f' p ∧ SameExpr w o o' ∧ SameExpr w f f'
  | .call f as _, x => ∃ f' as' p, x = .call f' as' p ∧ SameExpr w f f' ∧ SameExprs w as as'
  | .command b _, x => ∃ p, x = .command b p
termination_by structural e => e
/-- The same for literals. -/
def SameLit (w : World) : Lit → Lit → Prop
  | .nil, x => x = .nil
  | .bool b, x => x = .bool b
  | .int i, x => x = .int i
  | .float t, x => ∃ t', x = .float t' ∧ w.parseFloat t' = w.parseFloat t
  | .byte b, x => x = .byte b
  | .string s, x => x = .string s
  | .array es, x => ∃ es', x = .array es' ∧ SameExprs w es es'
  | .dict is, x => ∃ is', x = .dict is' ∧ SameItems w is is'
  | .function ps b, x => ∃ ps' b', x = .function ps' b' ∧ ps'.map (·.1) = ps.map (·.1) ∧ SameStmts w b b'
  | .ident s, x => x = .ident s
termination_by structural e => e
/-- The same for lists of expressions. -/
def SameExprs (w : World) : List Expr → List Expr → Prop
  | [], x => x = []
  | e :: es, x => ∃ e' es', x = e' :: es' ∧ SameExpr w e e' ∧ SameExprs w es es'
termination_by structural e => e
/-- The same for entries. -/
def SameItems (w : World) : List ((Sym × Pos) × Expr) → List ((Sym × Pos) × Expr) → Prop
  | [], x => x = []
  | ((k, _), e) :: is, x => ∃ p e' is', x = ((k, p), e') :: is' ∧ SameExpr w e e' ∧ SameItems w is is'
termination_by structural e => e
/-- The same for statements. -/
def SameStmt (w : World) : Stmt → Stmt → Prop
  | .illFormed, x => x = .illFormed
  | .let_ s e _, x => ∃ e' p, x = .let_ s e' p ∧ SameExpr w e e'
  | .assign l r _, x => ∃ l' r' p, x = .assign l' r' p ∧ SameExpr w l l' ∧ SameExpr w r r'
  | .return_ e _, x => ∃ e' p, x = .return_ e' p ∧ SameExpr w e e'
  | .break_ _, x => ∃ p, x = .break_ p
  | .while_ c b _, x => ∃ c' b' p, x = .while_ c' b' p ∧ SameExpr w c c' ∧ SameStmts w b b'
  | .for_ s e b _, x => ∃ e' b' p, x = .for_ s e' b' p ∧ SameExpr w e e' ∧ SameStmts w b b'
  | .expr e, x => ∃ e', x = .expr e' ∧ SameExpr w e e'
termination_by structural e => e
/-- The same for blocks. -/
def SameStmts (w : World) : List Stmt → List Stmt → Prop
  | [], x => x = []
  | s :: ss, x => ∃ s' ss', x = s' :: ss' ∧ SameStmt w s s' ∧ SameStmts w ss ss'
termination_by structural e => e
end

/-! ### What can be read back -/

/-- The part of an expression that is written first. -/
def leftmost : Expr → Expr
  | .access o _ _ => leftmost o
  | .call f _ _ => leftmost f
  | e => e

/-- The expression at the beginning of a statement. -/
def firstPart : Stmt → Option Expr
  | .expr e => some (leftmost e)
  | .assign l _ _ => some (leftmost l)
  | _ => none

/-- It is an operation (which is written in parentheses) or an array. -/
def startsBracket : Expr → Bool
  | .unary .. | .binary .. | .lit (.array _) _ => true
  | _ => false

/-- The statement ends in an expression. -/
def endsInExpr : Stmt → Bool
  | .break_ _ | .while_ .. | .for_ .. => false
  | _ => true

/-- An integer literal. -/
def isInteger : Expr → Bool
  | .lit (.int _) _ => true
  | _ => false

/-- A byte that can be printed, or a tab, a line feed or NUL. -/
def QuotableByte (b : UInt8) : Prop := b = 0 ∨ b = 9 ∨ b = 10 ∨ (32 ≤ b ∧ b < 127)

mutual
/-- An expression that is written in such a way that it can be read back. `inline`: it is part of an operation, call, access, condition or loop head, and
so are all its parts. -/
def PrintsExpr (w : World) (inline : Bool) : Expr → Prop
  | .illFormed => False
  | .self_ _ => True
  | .ident s _ => IsIdent s
  | .lit l _ => PrintsLit w inline l
  | .unary _ e _ => PrintsExpr w true e
  | .binary l _ r _ => PrintsExpr w true l ∧ PrintsExpr w true r
  | .if_ c t e _ => PrintsExpr w true c ∧ PrintsBlock w inline t ∧ PrintsBlock w inline e ∧ (inline = true → t ≠ [])
  | .access o (.lit (.ident s) _) _ => PrintsExpr w true o ∧ IsIdent s ∧ isInteger o = false
  | .access o f _ => PrintsExpr w true o ∧ PrintsExpr w true f
  | .call f as _ => PrintsExpr w true f ∧ PrintsExprs w true as
  | .command .. => False
/-- The same for literals. -/
def PrintsLit (w : World) (inline : Bool) : Lit → Prop
  | .nil | .bool _ => True
  | .int i => 0 ≤ i ∧ i < 2 ^ 63
  | .float t => FloatText (w.floatDisplay (w.parseFloat t)) ∧ w.parseFloat (w.floatDisplay (w.parseFloat t)) = w.parseFloat t
  | .byte b => QuotableByte b
  | .string s => ∃ cs, s = utf8 cs ∧ QuotableText w cs
  | .array es => PrintsExprs w inline es
  | .dict is => PrintsItems w inline is
  | .function ps b => (∀ p ∈ ps, IsIdent p.1) ∧ PrintsBlock w inline b
  | .ident _ => False
/-- The same for lists of expressions. -/
def PrintsExprs (w : World) (inline : Bool) : List Expr → Prop
  | [] => True
  | e :: es => PrintsExpr w inline e ∧ PrintsExprs w inline es
/-- The same for entries. -/
def PrintsItems (w : World) (inline : Bool) : List ((Sym × Pos) × Expr) → Prop
  | [] => True
  | ((k, _), e) :: is => IsIdent k ∧ PrintsExpr w inline e ∧ PrintsItems w inline is
/-- The same for statements. -/
def PrintsStmt (w : World) (inline : Bool) : Stmt → Prop
  | .illFormed => False
  | .let_ s e _ => IsIdent s ∧ PrintsExpr w inline e
  | .assign l r _ => PrintsExpr w true l ∧ PrintsExpr w inline r
  | .return_ e _ => PrintsExpr w inline e
  | .break_ _ => True
  | .while_ c b _ => PrintsExpr w true c ∧ PrintsBlock w inline b
  | .for_ s e b _ => IsIdent s ∧ PrintsExpr w true e ∧ PrintsBlock w inline b
  | .expr e => PrintsExpr w inline e
/-- The same for blocks: nothing follows a `return`, no statement that starts with a bracket follows
one that ends in an expression, and inline there is at most one statement. -/
def PrintsBlock (w : World) (inline : Bool) : List Stmt → Prop
  | [] => True
  | s :: ss =>
    PrintsStmt w inline s ∧
      (ss ≠ [] → inline = false ∧ (∀ e p, s ≠ .return_ e p)) ∧
      (endsInExpr s = true → (ss.head?.bind firstPart).all (fun e => !startsBracket e) = true) ∧ PrintsBlock w inline ss
end

end Hush.Spec

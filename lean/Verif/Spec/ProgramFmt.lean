import Verif.Model.Program
import Verif.Model.Interp
import Verif.Spec.AstFmt

/-!
Specification side of the printing of analysed programs: programs apart from positions, and which programs are printed legibly.
-/

namespace Hush.Spec
open Hush Hush.Prog

/-! ### Programs apart from positions -/

/-- The frame as a table: for each slot of the frame the slot it is captured from (the last capture of the slot counts), and which slot is that of
`self`. The order of the captures is gone. -/
def plainFrame (f : FrameInfo) : FrameInfo :=
  ⟨f.slots,
    (List.range f.slots).filterMap (fun i => (f.captures.reverse.find? (fun c => c.to == i)).map (fun c => ⟨c.from_, i⟩)),
    f.selfSlot.filter (· < f.slots)⟩

mutual
/-- The expression without positions; the frames of functions are tables, and floats are written in the normal way. -/
def plainExpr (w : World) : Expr → Expr
  | .ident n _ => .ident n noPos
  | .lit l _ => .lit (plainLit w l) noPos
  | .unary op e _ => .unary op (plainExpr w e) noPos
  | .binary l op r _ => .binary (plainExpr w l) op (plainExpr w r) noPos
  | .if_ a t e _ => .if_ (plainExpr w a) (plainBlock w t) (plainBlock w e) noPos
  | .access o f _ => .access (plainExpr w o) (plainExpr w f) noPos
  | .call f as _ => .call (plainExpr w f) (plainExprs w as) noPos
  | .command b _ => .command b noPos
/-- The same for literals. -/
def plainLit (w : World) : Lit → Lit
  | .nil => .nil
  | .bool b => .bool b
  | .int i => .int i
  | .float t => .float (w.floatDisplay (w.parseFloat t))
  | .byte b => .byte b
  | .string s => .string s
  | .array es => .array (plainExprs w es)
  | .dict is => .dict (plainItems w is)
  | .function ps f b => .function ps (plainFrame f) (plainBlock w b)
  | .ident x => .ident x
/-- The same for lists of expressions. -/
def plainExprs (w : World) : List Expr → List Expr
  | [] => []
  | e :: es => plainExpr w e :: plainExprs w es
/-- The same for entries. -/
def plainItems (w : World) : List (Sym × Expr) → List (Sym × Expr)
  | [] => []
  | (k, e) :: is => (k, plainExpr w e) :: plainItems w is
/-- The same for targets of assignments. -/
def plainLvalue (w : World) : Lvalue → Lvalue
  | .ident n _ => .ident n noPos
  | .access o f _ => .access (plainExpr w o) (plainExpr w f) noPos
/-- The same for statements. -/
def plainStmt (w : World) : Stmt → Stmt
  | .assign l r => .assign (plainLvalue w l) (plainExpr w r)
  | .return_ e => .return_ (plainExpr w e)
  | .break_ => .break_
  | .while_ a b => .while_ (plainExpr w a) (plainBlock w b)
  | .for_ n e b => .for_ n (plainExpr w e) (plainBlock w b)
  | .expr e => .expr (plainExpr w e)
/-- The same for blocks. -/
def plainBlock (w : World) : List Stmt → List Stmt
  | [] => []
  | s :: ss => plainStmt w s :: plainBlock w ss
end

/-- The program without positions. -/
def plainProgram (w : World) (p : Program) : Program := ⟨plainBlock w p.statements, p.rootSlots⟩

/-! ### What is printed legibly -/

mutual
/-- No command blocks; floats have a text with a point or an exponent, from which they can be read back; texts and bytes have no other control characters
than tabs, line feeds and NUL; names are names of the language. -/
def LegibleExpr (w : World) : Expr → Prop
  | .ident .. => True
  | .lit l _ => LegibleLit w l
  | .unary _ e _ => LegibleExpr w e
  | .binary l _ r _ => LegibleExpr w l ∧ LegibleExpr w r
  | .if_ a t e _ => LegibleExpr w a ∧ LegibleBlock w t ∧ LegibleBlock w e
  | .access o f _ => LegibleExpr w o ∧ LegibleExpr w f
  | .call f as _ => LegibleExpr w f ∧ LegibleExprs w as
  | .command .. => False
/-- The same for literals. -/
def LegibleLit (w : World) : Lit → Prop
  | .nil | .bool _ => True
  | .int i => 0 ≤ i
  | .float t => FloatText (w.floatDisplay (w.parseFloat t)) ∧ w.parseFloat (w.floatDisplay (w.parseFloat t)) = w.parseFloat t
  | .byte b => QuotableByte b
  | .string s => ∃ cs, s = utf8 cs ∧ QuotableText w cs
  | .array es => LegibleExprs w es
  | .dict is => LegibleItems w is
  | .function _ _ b => LegibleBlock w b
  | .ident x => IsIdent x
/-- The same for lists of expressions. -/
def LegibleExprs (w : World) : List Expr → Prop
  | [] => True
  | e :: es => LegibleExpr w e ∧ LegibleExprs w es
/-- The same for entries. -/
def LegibleItems (w : World) : List (Sym × Expr) → Prop
  | [] => True
  | (k, e) :: is => IsIdent k ∧ LegibleExpr w e ∧ LegibleItems w is
/-- The same for targets of assignments. -/
def LegibleLvalue (w : World) : Lvalue → Prop
  | .ident .. => True
  | .access o f _ => LegibleExpr w o ∧ LegibleExpr w f
/-- The same for statements. -/
def LegibleStmt (w : World) : Stmt → Prop
  | .assign l r => LegibleLvalue w l ∧ LegibleExpr w r
  | .return_ e => LegibleExpr w e
  | .break_ => True
  | .while_ a b => LegibleExpr w a ∧ LegibleBlock w b
  | .for_ _ e b => LegibleExpr w e ∧ LegibleBlock w b
  | .expr e => LegibleExpr w e
/-- The same for blocks. -/
def LegibleBlock (w : World) : List Stmt → Prop
  | [] => True
  | s :: ss => LegibleStmt w s ∧ LegibleBlock w ss
end

end Hush.Spec

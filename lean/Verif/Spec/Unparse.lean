import Verif.Spec.Grammar

/-!
Specification: writing down an expression tree with parentheses only where the documented precedence and left
associativity need them.
-/

namespace Hush.Spec
open Hush Hush.Ast

/-- Expression trees over literals, identifiers, operators, calls and accesses. -/
inductive Tree where
  | ident (x : Sym) (p : Pos)
  | lit (l : TokLit) (p : Pos)
  | neg (t : Tree) (p : Pos)
  | not (t : Tree) (p : Pos)
  | try_ (t : Tree) (p : Pos)
  | bin (l : Tree) (op : BinOp) (r : Tree) (p : Pos)
  | call (f : Tree) (args : List Tree) (p : Pos)
  | index (o i : Tree) (p : Pos)
  | dot (o : Tree) (x : Sym) (p px : Pos)

mutual
/-- The syntax tree meant by the tree. -/
def Tree.expr : Tree → Expr
  | .ident x p => .ident x p
  | .lit l p => .lit (litValue l) p
  | .neg t p => .unary .minus t.expr p
  | .not t p => .unary .not t.expr p
  | .try_ t p => .unary .try_ t.expr p
  | .bin l op r p => .binary l.expr op r.expr p
  | .call f args p => .call f.expr (Tree.exprs args) p
  | .index o i p => .access o.expr i.expr p
  | .dot o x p px => .access o.expr (.lit (.ident x) px) p
def Tree.exprs : List Tree → List Expr
  | [] => []
  | t :: ts => t.expr :: Tree.exprs ts
end

/-- Documented precedence: the larger, the looser. 0: postfix and primary; 1: prefix; 2–8: `* / %`, `+ -`, `++`,
relational, equality, `and`, `or`. -/
def Tree.prec : Tree → Nat
  | .neg .. | .not .. => 1
  | .bin _ op _ _ => match op with
    | .times | .div | .mod => 2
    | .plus | .minus => 3
    | .concat => 4
    | .greater | .greaterEquals | .lower | .lowerEquals => 5
    | .equals | .notEquals => 6
    | .and => 7
    | .or => 8
  | _ => 0

/-- Parentheses around `ts`. -/
def parens (ts : List Token) : List Token := ⟨.openParens, ⟨0, 0⟩⟩ :: (ts ++ [⟨.closeParens, ⟨0, 0⟩⟩])

/-- Parenthesise what binds looser than `k`. -/
def atPrec (k : Nat) (t : Tree) (ts : List Token) : List Token := if t.prec ≤ k then ts else parens ts

mutual
/-- Write a tree. The left operand of a binary operator may have the same precedence (left associativity), the right
one must bind tighter. -/
def Tree.write : Tree → List Token
  | .ident x p => [⟨.identifier x, p⟩]
  | .lit l p => [⟨.literal l, p⟩]
  | .neg t p => ⟨.operator .minus, p⟩ :: atPrec 1 t t.write
  | .not t p => ⟨.operator .not, p⟩ :: atPrec 1 t t.write
  | .try_ t p => atPrec 0 t t.write ++ [⟨.operator .try_, p⟩]
  | .bin l op r p =>
    atPrec (Tree.prec (.bin l op r p)) l l.write ++
      ⟨.operator (binToken op), p⟩ :: atPrec (Tree.prec (.bin l op r p) - 1) r r.write
  | .call f args p =>
    atPrec 0 f f.write ++ ⟨.openParens, p⟩ :: (Tree.writeArgs args ++ [⟨.closeParens, ⟨0, 0⟩⟩])
  | .index o i p => atPrec 0 o o.write ++ ⟨.openBracket, p⟩ :: (i.write ++ [⟨.closeBracket, ⟨0, 0⟩⟩])
  | .dot o x p px => atPrec 0 o o.write ++ [⟨.operator .dot, p⟩, ⟨.identifier x, px⟩]
/-- Arguments, separated by commas. -/
def Tree.writeArgs : List Tree → List Token
  | [] => []
  | [t] => t.write
  | t :: ts => t.write ++ ⟨.comma, ⟨0, 0⟩⟩ :: Tree.writeArgs ts
end

end Hush.Spec

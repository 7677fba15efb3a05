import Verif.Model.ProgramFmt
import Verif.Spec.ProgramFmt
import Verif.Lemmas.AstLex

/-!
A reader for the text of analysed programs (a device of the proofs only).
-/

namespace Hush.ProgramRead
open Hush Hush.Spec Hush.Prog

/-- Blanks and separators. -/
def isSep (b : UInt8) : Bool := b == 9 || b == 10 || b == 32 || b == 59 || b == 44

/-- Without blanks at the beginning. -/
def skip (b : Bytes) : Bytes := b.dropWhile isSep

/-- What is read at one place: an expression, another statement, the line of a slot, or the end of a block. -/
inductive Node where
  | e (e : Expr)
  | s (s : Stmt)
  | slot (i : Nat) (from_ : Option Nat) (self_ : Bool)
  | end_
  | else_

/-- The expression. -/
def Node.expr : Node → Expr
  | .e x => x
  | _ => .ident 0 noPos

/-- The target that is written like the expression. -/
def lval : Expr → Lvalue
  | .ident n p => .ident n p
  | .access o f p => .access o f p
  | _ => .ident 0 noPos

/-- The digits at the beginning. -/
def digits (b : Bytes) : Bytes := b.takeWhile isDigit
/-- The rest behind them. -/
def behindDigits (b : Bytes) : Bytes := b.dropWhile isDigit
/-- The word at the beginning. -/
def word (b : Bytes) : Bytes := b.takeWhile isWord
/-- The rest behind it. -/
def behindWord (b : Bytes) : Bytes := b.dropWhile isWord
/-- The value of the digits at the beginning. -/
def number (b : Bytes) : Nat := decimal (digits b)

/-- The part of a number behind the point. -/
def fraction (b : Bytes) : Bytes × Bytes :=
  match b with
  | x :: d :: r => if x = 46 ∧ isDigit d = true then (46 :: digits (d :: r), behindDigits (d :: r)) else ([], b)
  | _ => ([], b)

/-- The exponent of a number. -/
def exponent (b : Bytes) : Bytes × Bytes :=
  match b with
  | x :: r => if x = 101 then (101 :: digits r, behindDigits r) else ([], b)
  | _ => ([], b)

/-- An integer or a float. -/
def numeral (b : Bytes) : Lit × Bytes :=
  let f := fraction (behindDigits b)
  let x := exponent f.2
  if f.1 ++ x.1 = [] then (.int (number b), x.2) else (.float (digits b ++ (f.1 ++ x.1)), x.2)

/-- The inside of a text in quotation marks. -/
def quoted : Bytes → Bytes × Bytes
  | [] => ([], [])
  | x :: r =>
    if x = cDQuote then ([], r)
    else if x = cBackslash then
      match r with
      | y :: r => ((validateEscape y).getD 0 :: (quoted r).1, (quoted r).2)
      | [] => ([], [])
    else (x :: (quoted r).1, (quoted r).2)

/-- The byte in a byte literal. -/
def byte : Bytes → UInt8 × Bytes
  | [] => (0, [])
  | x :: r =>
    if x = cBackslash then
      match r with
      | y :: r => ((validateEscape y).getD 0, r.drop 1)
      | [] => (0, [])
    else (x, r.drop 1)

/-- A binary operator, up to the blank behind it. -/
def operator (b : Bytes) : Option (BinOp × Bytes) :=
  let o := b.takeWhile (· != 32)
  ([.plus, .minus, .times, .div, .mod, .equals, .notEquals, .greater, .greaterEquals, .lower, .lowerEquals, .and, .or, .concat].find?
    (fun op => AstFmt.binOp op == o)).map (fun op => (op, b.dropWhile (· != 32)))

/-- The line of a slot, behind `let #`. -/
def slotLine (r : Bytes) : Node × Bytes :=
  let i := number r
  let r := (behindDigits r).drop 2
  let w := word r
  let r := behindWord r
  let (c, r) := if w = bs "auto" then (none, r) else (some (number (r.drop 2)), behindDigits (r.drop 2))
  if r.take 2 = [32, 115] then (.slot i c true, r.drop 5) else (.slot i c false, r)

/-- The slot of a line. -/
def slotOf : Node → Option (Nat × Option Nat × Bool)
  | .slot i c s => some (i, c, s)
  | _ => none

/-- The frame given by lines of slots. -/
def frameOf (ns : List Node) : FrameInfo :=
  let ls := ns.filterMap slotOf
  ⟨ls.length, ls.filterMap (fun l => l.2.1.map (fun c => ⟨c, l.1⟩)), (ls.find? (fun l => l.2.2)).map (·.1)⟩

/-- The statements among what was read. -/
def stmtsOf (ns : List Node) : List Stmt :=
  ns.filterMap (fun | .e x => some (.expr x) | .s x => some x | _ => none)

mutual
/-- Read at a place. -/
def rNode (b : Bytes) : Option (Node × Bytes) := do
  let (x, r) ← rAtom (skip b)
  rSuffix x r
partial_fixpoint
/-- Read something other than an access or a call. -/
def rAtom (b : Bytes) : Option (Node × Bytes) :=
  match b with
  | [] => none
  | x :: r =>
    if x = 35 then some (.e (.ident (number r) noPos), behindDigits r)
    else if x = 34 then some (.e (.lit (.string (quoted r).1) noPos), (quoted r).2)
    else if x = 39 then some (.e (.lit (.byte (byte r).1) noPos), (byte r).2)
    else if x = 91 then do
      let (es, r) ← rList 93 r
      some (.e (.lit (.array es) noPos), r)
    else if x = 64 then do
      let (is, r) ← rItems (r.drop 1)
      some (.e (.lit (.dict is) noPos), r)
    else if x = 45 then do
      let (e, r) ← rNode r
      some (.e (.unary .minus e.expr noPos), r)
    else if x = 40 then do
      let (e, r) ← rNode r
      if r.head? = some 41 then some (e, r.drop 1)
      else if r.take 2 = [32, 63] then some (.e (.unary .try_ e.expr noPos), r.drop 3)
      else do
        let (op, r) ← operator (r.drop 1)
        let (e', r) ← rNode r
        some (.e (.binary e.expr op e'.expr noPos), r.drop 1)
    else if isDigit x = true then some (.e (.lit (numeral b).1 noPos), (numeral b).2)
    else if isWordStart x = true then rWord (word b) (behindWord b)
    else none
partial_fixpoint
/-- Go on behind a word. -/
def rWord (w r : Bytes) : Option (Node × Bytes) :=
  if w = bs "nil" then some (.e (.lit .nil noPos), r)
  else if w = bs "true" then some (.e (.lit (.bool true) noPos), r)
  else if w = bs "false" then some (.e (.lit (.bool false) noPos), r)
  else if w = bs "not" then do
    let (e, r) ← rNode r
    some (.e (.unary .not e.expr noPos), r)
  else if w = bs "if" then do
    let (a, r) ← rNode r
    let (t, r) ← rBlock ((skip r).drop 4)
    if t.2 = true then do
      let (e, r) ← rBlock r
      some (.e (.if_ a.expr (stmtsOf t.1) (stmtsOf e.1) noPos), r)
    else some (.e (.if_ a.expr (stmtsOf t.1) [] noPos), r)
  else if w = bs "function" then do
    let (b, r') ← rBlock ((behindDigits (r.drop 1)).drop 1)
    some (.e (.lit (.function (number (r.drop 1)) (frameOf b.1) (stmtsOf b.1)) noPos), r')
  else if w = bs "let" then some (slotLine (r.drop 2))
  else if w = bs "end" then some (.end_, r)
  else if w = bs "else" then some (.else_, r)
  else if w = bs "return" then do
    let (e, r) ← rNode r
    some (.s (.return_ e.expr), r)
  else if w = bs "break" then some (.s .break_, r)
  else if w = bs "while" then do
    let (a, r) ← rNode r
    let (b, r) ← rBlock ((skip r).drop 2)
    some (.s (.while_ a.expr (stmtsOf b.1)), r)
  else if w = bs "for" then do
    let (e, r') ← rNode ((skip (behindDigits (r.drop 2))).drop 2)
    let (b, r') ← rBlock ((skip r').drop 2)
    some (.s (.for_ (number (r.drop 2)) e.expr (stmtsOf b.1)), r')
  else some (.e (.lit (.ident w) noPos), r)
partial_fixpoint
/-- Read accesses and calls. -/
def rSuffix (x : Node) (b : Bytes) : Option (Node × Bytes) :=
  match x, b with
  | .e f, y :: r =>
    if y = 40 then do
      let (es, r) ← rList 41 r
      rSuffix (.e (.call f es noPos)) r
    else if y = 91 then do
      let (i, r) ← rNode r
      rSuffix (.e (.access f i.expr noPos)) (r.drop 1)
    else if y = 46 then rSuffix (.e (.access f (.lit (.ident (word r)) noPos) noPos)) (behindWord r)
    else some (x, b)
  | _, _ => some (x, b)
partial_fixpoint
/-- Read expressions up to a bracket. -/
def rList (close : UInt8) (b : Bytes) : Option (List Expr × Bytes) :=
  match skip b with
  | [] => none
  | x :: r =>
    if x = close then some ([], r)
    else do
      let (e, r) ← rNode (x :: r)
      let (es, r) ← rList close r
      some (e.expr :: es, r)
partial_fixpoint
/-- Read entries up to a bracket. -/
def rItems (b : Bytes) : Option (List (Sym × Expr) × Bytes) :=
  match skip b with
  | [] => none
  | x :: r =>
    if x = 93 then some ([], r)
    else do
      let (e, r') ← rNode ((behindWord (x :: r)).drop 1)
      let (is, r') ← rItems r'
      some ((word (x :: r), e.expr) :: is, r')
partial_fixpoint
/-- Read statements up to `end` or `else` (true), or up to the end of the text. -/
def rBlock (b : Bytes) : Option ((List Node × Bool) × Bytes) :=
  match skip b with
  | [] => some (([], false), [])
  | x :: r => do
    let (n, r) ← rNode (x :: r)
    match n with
    | .end_ => some (([], false), r)
    | .else_ => some (([], true), r)
    | n =>
      if r.take 2 = [32, 61] then do
        let (e, r) ← rNode (r.drop 2)
        let (ns, r) ← rBlock r
        some ((.s (.assign (lval n.expr) e.expr) :: ns.1, ns.2), r)
      else do
        let (ns, r) ← rBlock r
        some ((n :: ns.1, ns.2), r)
partial_fixpoint
end

/-- Read a program. -/
def rProgram (b : Bytes) : Option Program := do
  let (ns, _) ← rBlock b
  some ⟨stmtsOf ns.1, (frameOf ns.1).slots⟩

end Hush.ProgramRead

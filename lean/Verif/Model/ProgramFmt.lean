import Verif.Model.AstFmt
import Verif.Model.Program

/-!
The text of analysed programs, as printed by `--program`: src/semantic/program/fmt.rs and src/semantic/program/mem/fmt.rs. Simplified: without colours
(src/term/color.rs:9-27: there are none unless both output streams are terminals). Indentation, separators and operators are those of syntax trees
(the code repeats them: `Context`, 33-61; `step`, 677-684; operators 183-213), see Model/AstFmt.
-/

namespace Hush.ProgramFmt
open Hush.Prog
open Hush.AstFmt (indent step sepBy unOp binOp between before line newline margin symbol tabs blockKind)

/-- `Display for SlotIx`, src/semantic/program/mem/fmt.rs:10-15. -/
def slot (n : Nat) : Bytes := bs "#" ++ natDigits n

/-- What `slots[i]` is after all captures have been entered, in order (src/semantic/program/mem/fmt.rs:28-39): the origin of the last capture to
the slot, if any. -/
def captured (f : FrameInfo) (i : Nat) : Option Nat := (f.captures.reverse.find? (fun c => c.to == i)).map (·.from_)

/-- The line of one slot, src/semantic/program/mem/fmt.rs:45-69. -/
def slotLine (f : FrameInfo) (c : Option Nat) (i : Nat) : Bytes :=
  before c ++ bs "let" ++ bs " " ++ slot i ++ bs ": " ++
    (match captured f i with
      | none => bs "auto"
      | some j => bs "capture" ++ bs " " ++ slot j) ++
    (if f.selfSlot = some i then bs " self" else [])

/-- `Display for FrameInfo`, src/semantic/program/mem/fmt.rs:18-74, for frames without captures outside of the frame (see `frameAborts`). -/
def frame (f : FrameInfo) (c : Option Nat) : Bytes := sepBy (between c) ((List.range f.slots).map (slotLine f c))

/-- The index `slots[to.0 as usize]` is out of bounds, a Rust panic, src/semantic/program/mem/fmt.rs:38. -/
def frameAborts (f : FrameInfo) : Bool := f.captures.any (fun c => f.slots ≤ c.to)

/-! ### Commands -/

/-- `Display for ArgUnit`, src/semantic/program/fmt.rs:414-426. -/
def argUnit (w : World) : Prog.ArgUnit → Bytes
  | .literal s => Show.escapeDebug w (utf8Lossy s)
  | .dollar n _ => bs "${" ++ slot n ++ bs "}"

/-- `Display for ArgPart`, src/semantic/program/fmt.rs:429-471. -/
def argPart (w : World) : Prog.ArgPart → Bytes
  | .unit u => argUnit w u
  | .home => bs "~/"
  | .range a b => bs "{" ++ intText a ++ bs ".." ++ intText b ++ bs "}"
  | .collection items => bs "{" ++ sepBy (bs ",") (items.map (argUnit w)) ++ bs "}"
  | .star => bs "*"
  | .percent => bs "%"
  | .charClass s => bs "[" ++ Show.escapeDebug w (utf8Lossy s) ++ bs "]"

/-- `Display for Argument`, src/semantic/program/fmt.rs:474-484. -/
def argument (w : World) (a : Prog.Argument) : Bytes := bs "\"" ++ a.parts.flatMap (argPart w) ++ bs "\""

/-- `Display for RedirectionTarget`, src/semantic/program/fmt.rs:487-503. -/
def target (w : World) : Prog.RedirectionTarget → Bytes
  | .fd n => bs ">" ++ natDigits n
  | .overwrite a => bs ">" ++ argument w a
  | .append a => bs ">>" ++ argument w a

/-- `Display for Redirection`, src/semantic/program/fmt.rs:506-525. -/
def redirection (w : World) : Prog.Redirection → Bytes
  | .output n t => natDigits n ++ target w t
  | .input false a => bs "<" ++ argument w a
  | .input true a => bs "<<" ++ argument w a

/-- `Display for command::Builtin`, src/semantic/program/fmt.rs:528-540. -/
def builtin : Builtin → Bytes
  | .alias => bs "alias" | .cd => bs "cd" | .exec => bs "exec" | .exec0 => bs "exec0" | .spawn0 => bs "spawn0"

/-- `Display for BasicCommand`, src/semantic/program/fmt.rs:550-578. -/
def basic (w : World) (c : Prog.BasicCommand) : Bytes :=
  c.env.flatMap (fun e => argUnit w e.1 ++ bs "=" ++ argument w e.2 ++ bs " ") ++ argument w c.program ++
    c.arguments.flatMap (fun a => bs " " ++ argument w a) ++ c.redirections.flatMap (fun r => bs " " ++ redirection w r) ++
    (if c.abortOnError then [] else bs " ?")

/-- `Display for Command`, src/semantic/program/fmt.rs:581-612. The mark of a built-in command is written if it is *not* guarded (592). -/
def command (w : World) : Prog.Command → Bytes
  | .builtin p args abort _ => builtin p ++ args.flatMap (fun a => bs " " ++ argument w a) ++ (if abort then bs " ?" else [])
  | .external head tail => basic w head ++ tail.flatMap (fun b => bs " | " ++ basic w b)

/-- `Display for CommandBlock`, src/semantic/program/fmt.rs:615-648. -/
def commandBlock (w : World) (c : Option Nat) (b : Prog.CommandBlock) : Bytes :=
  blockKind b.kind ++ step (indent c) ++ command w b.head ++ b.tail.flatMap (fun x => bs ";" ++ step (indent c) ++ command w x) ++
    step c ++ bs "}"

/-! ### Expressions and statements -/

mutual
/-- `Display for Expr`, src/semantic/program/fmt.rs:216-320. -/
def expr (w : World) (c : Option Nat) : Expr → Bytes
  | .ident n _ => slot n
  | .lit l _ => lit w c l
  | .unary .try_ e _ => bs "(" ++ expr w none e ++ bs " ?" ++ bs ")"
  | .unary op e _ => bs "(" ++ unOp op ++ bs " " ++ expr w none e ++ bs ")"
  | .binary l op r _ => bs "(" ++ expr w none l ++ bs " " ++ binOp op ++ bs " " ++ expr w none r ++ bs ")"
  | .if_ a t e _ =>
    bs "if" ++ bs " " ++ expr w none a ++ bs " " ++ bs "then" ++ newline c ++
      (if t.isEmpty then [] else block w (indent c) t ++ line c) ++ margin c ++
      (if e.isEmpty then [] else bs "else" ++ newline c ++ block w (indent c) e ++ line c ++ margin c) ++ bs "end"
  | .access o (.lit (.ident x) _) _ => expr w none o ++ bs "." ++ symbol w x
  | .access o f _ => expr w none o ++ bs "[" ++ expr w none f ++ bs "]"
  | .call f args _ => expr w none f ++ bs "(" ++ sepBy (bs ", ") (exprs w none args) ++ bs ")"
  | .command b _ => commandBlock w c b
/-- `Display for Literal`, src/semantic/program/fmt.rs:85-180; the text of a float is that of the number which the source text denotes. -/
def lit (w : World) (c : Option Nat) : Lit → Bytes
  | .nil => bs "nil"
  | .bool b => boolText b
  | .int i => intText i
  | .float t => w.floatDisplay (w.parseFloat t)
  | .byte b => bs "'" ++ Show.escapeChar w true (utf8Encode b.toNat) ++ bs "'"
  | .string s => Show.string w s
  | .array es =>
    bs "[" ++ sepBy (bs ",") ((exprs w (indent c) es).map (step (indent c) ++ ·)) ++ (if es.isEmpty then [] else step c) ++ bs "]"
  | .dict is =>
    bs "@[" ++ sepBy (bs ",") ((items w (indent c) is).map (step (indent c) ++ ·)) ++ (if is.isEmpty then [] else step c) ++ bs "]"
  | .function ps f b =>
    bs "function" ++ bs "(" ++ natDigits ps ++ bs ")" ++ newline c ++ frame f (indent c) ++ line c ++ block w (indent c) b ++ step c ++ bs "end"
  | .ident x => symbol w x
/-- The texts of expressions. (Helper of src/semantic/program/fmt.rs.) -/
def exprs (w : World) (c : Option Nat) : List Expr → List Bytes
  | [] => []
  | e :: es => expr w c e :: exprs w c es
/-- The texts of the entries of a dict, src/semantic/program/fmt.rs:133-143. -/
def items (w : World) (c : Option Nat) : List (Sym × Expr) → List Bytes
  | [] => []
  | (k, e) :: is => (symbol w k ++ bs ": " ++ expr w c e) :: items w c is
/-- `Display for Lvalue`, src/semantic/program/fmt.rs:323-338. -/
def lvalue (w : World) : Lvalue → Bytes
  | .ident n _ => slot n
  | .access o f _ => expr w none o ++ bs "[" ++ expr w none f ++ bs "]"
/-- `Display for Statement`, src/semantic/program/fmt.rs:341-411. -/
def stmt (w : World) (c : Option Nat) : Stmt → Bytes
  | .assign l r => lvalue w l ++ bs " = " ++ expr w c r
  | .return_ e => bs "return" ++ bs " " ++ expr w c e
  | .break_ => bs "break"
  | .while_ a b =>
    bs "while" ++ bs " " ++ expr w none a ++ bs " " ++ bs "do" ++ line c ++ (if b.isEmpty then [] else block w (indent c) b ++ line c) ++ margin c ++
      bs "end"
  | .for_ n e b =>
    bs "for" ++ bs " " ++ slot n ++ bs " " ++ bs "in" ++ bs " " ++ expr w none e ++ bs " " ++ bs "do" ++ line c ++
      (if b.isEmpty then [] else block w (indent c) b ++ line c) ++ margin c ++ bs "end"
  | .expr e => expr w c e
/-- `Display for Block`, src/semantic/program/fmt.rs:64-82. -/
def block (w : World) (c : Option Nat) : List Stmt → Bytes
  | [] => []
  | [s] => before c ++ stmt w c s
  | s :: ss => before c ++ stmt w c s ++ between c ++ block w c ss
end

/-- The frame of a program, src/semantic/program/fmt.rs:664-668. -/
def rootFrame (p : Program) : FrameInfo := ⟨p.rootSlots, [], none⟩

/-- `Display for Program`, src/semantic/program/fmt.rs:651-674, without the line above it (`Program for` and the path). -/
def text (w : World) (p : Program) : Bytes := frame (rootFrame p) (some 0) ++ step (some 0) ++ block w (some 0) p.statements

/-! ### Where printing panics

The only panic in the two files is that of `frameAborts`; these functions look for a function with such a frame wherever the text of one is written. -/

mutual
/-- Printing the expression panics. (The panic of src/semantic/program/mem/fmt.rs:38 within src/semantic/program/fmt.rs.) -/
def abortsExpr : Expr → Bool
  | .lit l _ => abortsLit l
  | .unary _ e _ => abortsExpr e
  | .binary l _ r _ => abortsExpr l || abortsExpr r
  | .if_ a t e _ => abortsExpr a || abortsBlock t || abortsBlock e
  | .access o f _ => abortsExpr o || abortsExpr f
  | .call f as _ => abortsExpr f || abortsExprs as
  | .ident .. | .command .. => false
/-- Printing the literal panics. (The panic of src/semantic/program/mem/fmt.rs:38 within src/semantic/program/fmt.rs.) -/
def abortsLit : Lit → Bool
  | .array es => abortsExprs es
  | .dict is => abortsItems is
  | .function _ f b => frameAborts f || abortsBlock b
  | _ => false
/-- Printing one of the expressions panics. (The panic of src/semantic/program/mem/fmt.rs:38 within src/semantic/program/fmt.rs.) -/
def abortsExprs : List Expr → Bool
  | [] => false
  | e :: es => abortsExpr e || abortsExprs es
/-- Printing one of the entries panics. (The panic of src/semantic/program/mem/fmt.rs:38 within src/semantic/program/fmt.rs.) -/
def abortsItems : List (Sym × Expr) → Bool
  | [] => false
  | (_, e) :: is => abortsExpr e || abortsItems is
/-- Printing the target panics. (The panic of src/semantic/program/mem/fmt.rs:38 within src/semantic/program/fmt.rs.) -/
def abortsLvalue : Lvalue → Bool
  | .ident .. => false
  | .access o f _ => abortsExpr o || abortsExpr f
/-- Printing the statement panics. (The panic of src/semantic/program/mem/fmt.rs:38 within src/semantic/program/fmt.rs.) -/
def abortsStmt : Stmt → Bool
  | .assign l r => abortsLvalue l || abortsExpr r
  | .return_ e | .expr e => abortsExpr e
  | .break_ => false
  | .while_ a b => abortsExpr a || abortsBlock b
  | .for_ _ e b => abortsExpr e || abortsBlock b
/-- Printing the block panics. (The panic of src/semantic/program/mem/fmt.rs:38 within src/semantic/program/fmt.rs.) -/
def abortsBlock : List Stmt → Bool
  | [] => false
  | s :: ss => abortsStmt s || abortsBlock ss
end

/-- Printing the program panics. (The panic of src/semantic/program/mem/fmt.rs:38 within src/semantic/program/fmt.rs.) -/
def aborts (p : Program) : Bool := frameAborts (rootFrame p) || abortsBlock p.statements

end Hush.ProgramFmt

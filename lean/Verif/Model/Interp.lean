import Verif.Model.Lib
import Verif.Model.Frontend

/-!
The interpreter: src/runtime/mod.rs, src/runtime/mem.rs, `eval_command_block` of src/runtime/command/mod.rs, and the library
functions that call back into the interpreter.

The mutually recursive functions of the code are tasks. `step` does the work of one task, calling `rec` for the recursive
calls; `run` closes the recursion with a budget. The budget also bounds the depth of comparisons of values.
-/

namespace Hush

/-- `Slot`, src/runtime/mem.rs:40-47. -/
inductive Slot where
  | regular (v : Value)
  | closed (cell : Nat)
deriving DecidableEq, Repr

/-- `Runtime`, src/runtime/mod.rs:42-51, with the objects in memory. The top of the stack is the head of the list.
`files` are the paths of the modules evaluated so far, by number, `trace` is what was done to the outside. `shrunk` is the local
variable `shrinked` of the innermost running call (src/runtime/mod.rs:608). `leaked` is a ghost: the number of slots that failed
evaluations of modules left on the stack. -/
structure RState where
  stack : List Slot
  args : List Value
  heap : Heap
  modules : List (Sym × Value)
  files : List Sym
  trace : List Event
  shrunk : Bool
  leaked : Nat
  std : Value
  argv : Value

/-- `Flow`, src/runtime/flow.rs:5-13. -/
inductive Flow where
  | regular (v : Value)
  | return_ (v : Value)
  | break_
deriving DecidableEq, Repr

/-- The result of `eval_expr`: flow, position, value of `self`. The other functions return only the flow. (src/runtime/mod.rs:257-273.) -/
structure Out where
  flow : Flow
  pos : Pos
  obj : Value
deriving DecidableEq, Repr

/-- Computations that change the state and may stop. (The methods of `Runtime`, src/runtime/mod.rs.) -/
def M (α : Type) : Type := RState → Except Stop α × RState

namespace M

/-- No computation. (Helper of src/runtime/mod.rs.) -/
def ret (a : α) : M α := fun s => (.ok a, s)

/-- Sequence; the operator `?` of Rust. (As everywhere in src/runtime/mod.rs.) -/
def andThen (m : M α) (f : α → M β) : M β := fun s =>
  match m s with
  | (.ok a, s') => f a s'
  | (.error e, s') => (.error e, s')

/-- Notation only: the operator `?` of Rust; not part of src/. -/
instance : Monad M where
  pure := ret
  bind := andThen

/-- Stop. (Helper of src/runtime/mod.rs.) -/
def stop (e : Stop) : M α := fun s => (.error e, s)

/-- A language-level panic. (`Err(Panic)`, src/runtime/panic.rs:14-96.) -/
def panic (k : PanicKind) (pos : Pos) : M α := stop (.panic ⟨k, pos⟩)

/-- A Rust panic. (Helper of src/runtime/mod.rs.) -/
def crash (k : CrashKind) : M α := stop (.crash k)

/-- A pure computation. (Helper of src/runtime/mod.rs.) -/
def lift : Except Stop α → M α
  | .ok a => ret a
  | .error e => stop e

/-- The state. (Helper of src/runtime/mod.rs.) -/
def get : M RState := fun s => (.ok s, s)

/-- Change the state. (Helper of src/runtime/mod.rs.) -/
def modify (f : RState → RState) : M Unit := fun s => (.ok (), f s)

/-- Allocate. (`Gc::new` in src/runtime/mod.rs and src/runtime/mem.rs.) -/
def alloc (f : Heap → α × Heap) : M α := fun s =>
  match f s.heap with
  | (a, h) => (.ok a, { s with heap := h })

/-- Read the memory. (Helper of src/runtime/mod.rs.) -/
def reads (f : Heap → Except Stop α) : M α := fun s => (f s.heap, s)

/-- A comparison of values; the budget may be too small. (For src/runtime/mod.rs:716-749.) -/
def deep : Option α → Except Stop α
  | some a => .ok a
  | none => .error .timeout

end M

/-- A position for results that have none. (Helper of src/runtime/mod.rs.) -/
def noPos : Pos := ⟨0, 0⟩

/-- An ordinary result. (Helper of src/runtime/mod.rs.) -/
def Out.value (v : Value) (pos : Pos) : Out := ⟨.regular v, pos, .nil⟩

/-! ### The stack, src/runtime/mem.rs -/

/-- `Slot::fetch`, src/runtime/mem.rs:52-57. -/
def Slot.fetch (h : Heap) : Slot → Value
  | .regular v => v
  | .closed c => h.cell c

/-- `Stack::fetch`, src/runtime/mem.rs:142-145. -/
def fetch (ix : Nat) : M Value := fun s =>
  match s.stack[ix]? with
  | some slot => (.ok (slot.fetch s.heap), s)
  | none => (.error (.crash .slot), s)

/-- `Stack::store`, src/runtime/mem.rs:166-170, with `Slot::store`, 61-66. -/
def store (ix : Nat) (v : Value) : M Unit := fun s =>
  match s.stack[ix]? with
  | some (.regular _) => (.ok (), { s with stack := s.stack.set ix (.regular v) })
  | some (.closed c) => (.ok (), { s with heap := s.heap.setCell c v })
  | none => (.error (.crash .slot), s)

/-- `Stack::capture`, src/runtime/mem.rs:149-153, with `Slot::capture`, 71-82. -/
def capture (ix : Nat) : M Nat := fun s =>
  match s.stack[ix]? with
  | some (.regular v) =>
    let r := s.heap.newCell v
    (.ok r.1, { s with stack := s.stack.set ix (.closed r.1), heap := r.2 })
  | some (.closed c) => (.ok c, s)
  | none => (.error (.crash .slot), s)

/-- `Stack::place`, src/runtime/mem.rs:157-161. -/
def place (ix : Nat) (c : Nat) : M Unit := fun s =>
  match s.stack[ix]? with
  | some _ => (.ok (), { s with stack := s.stack.set ix (.closed c) })
  | none => (.error (.crash .slot), s)

/-- `Stack::extend`, src/runtime/mem.rs:122-131. -/
def extend (w : World) (n : Nat) (pos : Pos) : M Unit := fun s =>
  if s.stack.length + n > w.limit then (.error (.panic ⟨.stackOverflow, pos⟩), s)
  else (.ok (), { s with stack := List.replicate n (.regular .nil) ++ s.stack })

/-- `Stack::shrink`, src/runtime/mem.rs:135-137; the subtraction underflows if the stack is too short. -/
def shrink (n : Nat) : M Unit := fun s =>
  if s.stack.length < n then (.error (.crash .slot), s)
  else (.ok (), { s with stack := s.stack.drop n })

/-- Capture the variables of a function literal, src/runtime/mod.rs:224-233. -/
def captureAll : List Prog.Capture → M (List (Nat × Nat))
  | [] => pure []
  | c :: cs => do
    let cell ← capture c.from_
    let rest ← captureAll cs
    pure ((cell, c.to) :: rest)

/-- Place arguments, src/runtime/mod.rs:594-596. -/
def storeArgs : Nat → List Value → M Unit
  | _, [] => pure ()
  | ix, v :: vs => do
    store ix v
    storeArgs (ix + 1) vs

/-- Place captured variables, src/runtime/mod.rs:599-601. -/
def placeAll : List (Nat × Nat) → M Unit
  | [] => pure ()
  | (c, slot) :: rest => do
    place slot c
    placeAll rest

/-- Place `self`, src/runtime/mod.rs:604-606. -/
def storeSelf (obj : Value) : Option Nat → M Unit
  | none => pure ()
  | some ix => store ix obj

/-! ### Operators -/

/-- `Runtime::unary_op`, src/runtime/mod.rs:665-675. -/
def unaryValue (w : World) (op : UnOp) (v : Value) (pos : Pos) : Except Stop Flow :=
  match op, v with
  | .minus, .float f => .ok (.regular (.float (w.fneg f)))
  | .minus, .int i => (w.arith (-i)).map (fun r => .regular (.int r))
  | .minus, v => .error (.panic ⟨.typeError v (bs "int or float"), pos⟩)
  | .not, .bool b => .ok (.regular (.bool !b))
  | .not, v => .error (.panic ⟨.typeError v (bs "bool"), pos⟩)
  | .try_, .error d c => .ok (.return_ (.error d c))
  | .try_, v => .ok (.regular v)

/-- The arithmetic operators. (src/runtime/mod.rs:716-720.) -/
def BinOp.isArith : BinOp → Bool
  | .plus | .minus | .times | .div | .mod => true
  | _ => false

/-- The ordering operators. (src/runtime/mod.rs:722-726.) -/
def BinOp.isOrd : BinOp → Bool
  | .lower | .lowerEquals | .greater | .greaterEquals => true
  | _ => false

/-- The integer operation and the panic if it has no result, src/runtime/mod.rs:797-829. -/
def intOp (op : BinOp) (a b : Int) : Except PanicKind Int :=
  match op with
  | .plus => (checked (a + b)).elim (.error .integerOverflow) .ok
  | .minus => (checked (a - b)).elim (.error .integerOverflow) .ok
  | .times => (checked (a * b)).elim (.error .integerOverflow) .ok
  | .div => (checkedDiv a b).elim (.error .divisionByZero) .ok
  | _ => (checkedRem a b).elim (.error .divisionByZero) .ok

/-- The float operation. (src/runtime/mod.rs:797-829.) -/
def floatOp (w : World) (op : BinOp) : UInt64 → UInt64 → UInt64 :=
  match op with
  | .plus => w.fadd
  | .minus => w.fsub
  | .times => w.fmul
  | .div => w.fdiv
  | _ => w.frem

/-- `Runtime::arithmetic_op`, src/runtime/mod.rs:758-830. -/
def arithValue (w : World) (op : BinOp) (pos : Pos) (l : Value) (lpos : Pos) (r : Value) (rpos : Pos) :
    Except Stop Value :=
  match l, r with
  | .int a, .int b =>
    match intOp op a b with
    | .ok i => .ok (.int i)
    | .error k => .error (.panic ⟨k, pos⟩)
  | .int _, r => .error (.panic ⟨.typeError r (bs "int"), rpos⟩)
  | .float a, .float b => .ok (.float (floatOp w op a b))
  | .float _, r => .error (.panic ⟨.typeError r (bs "float"), rpos⟩)
  | l, _ => .error (.panic ⟨.typeError l (bs "int or float"), lpos⟩)

/-- The closures of src/runtime/mod.rs:868-874. -/
def ordHolds (op : BinOp) (o : Ordering) : Bool :=
  match op with
  | .lower => o == .lt
  | .lowerEquals => o != .gt
  | .greater => o == .gt
  | _ => o != .lt

/-- `Runtime::ord_op`, src/runtime/mod.rs:835-875. -/
def ordValue (op : BinOp) (l : Value) (lpos : Pos) (r : Value) (rpos : Pos) : Except Stop Value :=
  match l, r with
  | .int a, .int b => .ok (.bool (ordHolds op (compare a b)))
  | .float a, .float b => .ok (.bool (ordHolds op (floatCmp a b)))
  | .byte a, .byte b => .ok (.bool (ordHolds op (compare a.toNat b.toNat)))
  | .string a, .string b => .ok (.bool (ordHolds op (bytesCmp a b)))
  | .int _, r => .error (.panic ⟨.typeError r (bs "int"), rpos⟩)
  | .float _, r => .error (.panic ⟨.typeError r (bs "float"), rpos⟩)
  | .byte _, r => .error (.panic ⟨.typeError r (bs "char"), rpos⟩)
  | .string _, r => .error (.panic ⟨.typeError r (bs "string"), rpos⟩)
  | l, _ => .error (.panic ⟨.typeError l (bs "int, float, byte or string"), lpos⟩)

/-- `++`, src/runtime/mod.rs:731-749. -/
def concatValue (l : Value) (lpos : Pos) (r : Value) (rpos : Pos) : Except Stop Value :=
  match l, r with
  | .string a, .string b => .ok (.string (a ++ b))
  | .string _, r => .error (.panic ⟨.typeError r (bs "string"), rpos⟩)
  | l, _ => .error (.panic ⟨.typeError l (bs "string"), lpos⟩)

/-- The operators other than `and` and `or`, src/runtime/mod.rs:716-749. -/
def strictValue (w : World) (h : Heap) (n : Nat) (op : BinOp) (pos : Pos) (l : Value) (lpos : Pos) (r : Value)
    (rpos : Pos) : Except Stop Value :=
  if op.isArith then arithValue w op pos l lpos r rpos
  else if op.isOrd then ordValue op l lpos r rpos
  else if op = .equals then (M.deep (valueEq h n l r)).map .bool
  else if op = .notEquals then (M.deep (valueEq h n l r)).map (fun b => .bool !b)
  else concatValue l lpos r rpos

/-- What the left operand of `and` and `or` decides, src/runtime/mod.rs:701-714: the result, or that the right operand is
to be evaluated. -/
def shortCircuit (op : BinOp) (l : Value) (lpos : Pos) : Except Stop (Option Value) :=
  match l with
  | .bool b =>
    if op = .and then .ok (if b then none else some (.bool false))
    else .ok (if b then some (.bool true) else none)
  | l => .error (.panic ⟨.typeError l (bs "bool"), lpos⟩)

/-! ### Elements -/

/-- `Array::index`, src/runtime/value/array.rs:59-69, and `Str::index`, src/runtime/value/string.rs:34-44. -/
def indexOf (l : List α) (i : Int) : Option α := if 0 ≤ i then l[i.toNat]? else none

/-- `Error::get`, src/runtime/value/error.rs:40-62. -/
def errorField (h : Heap) (d : Bytes) (c : Nat) (k : Value) : Option Value :=
  if k = .string (bs "description") then some (.string d)
  else if k = .string (bs "context") then some (h.context c)
  else none

/-- A value or the panic for an index out of bounds. (src/runtime/mod.rs:341-363.) -/
def orOutOfBounds (r : Option Value) (ix : Value) (pos : Pos) : Except Stop Value :=
  match r with
  | some v => .ok v
  | none => .error (.panic ⟨.indexOutOfBounds ix, pos⟩)

/-- Element access, src/runtime/mod.rs:341-363. -/
def accessValue (h : Heap) (n : Nat) (obj : Value) (opos : Pos) (field : Value) (fpos : Pos) : Except Stop Value :=
  match obj, field with
  | .dict d, field =>
    match dictGet h n d field with
    | none => .error .timeout
    | some r => orOutOfBounds r field fpos
  | .array a, .int i => orOutOfBounds (indexOf (h.array a) i) (.int i) fpos
  | .array _, field => .error (.panic ⟨.typeError field (bs "int"), fpos⟩)
  | .string s, .int i => orOutOfBounds ((indexOf s i).map .byte) (.int i) fpos
  | .string _, field => .error (.panic ⟨.typeError field (bs "int"), fpos⟩)
  | .error d c, field => orOutOfBounds (errorField h d c field) field fpos
  | obj, _ => .error (.panic ⟨.typeError obj (bs "string, array, dict or error"), opos⟩)

/-- Element assignment, src/runtime/mod.rs:447-465, with `Array::set`, src/runtime/value/array.rs:81-95, and `Dict::insert`,
src/runtime/value/dict.rs:60-62. The dict is mutably borrowed while the key is hashed. -/
def assignValue (h : Heap) (n : Nat) (obj : Value) (opos : Pos) (field : Value) (fpos : Pos) (v : Value) (pos : Pos) :
    Except Stop Heap :=
  match obj, field with
  | .dict d, field =>
    match touches h (.inl d) n field with
    | none => .error .timeout
    | some true => .error (.crash .borrow)
    | some false =>
      match dictInsert h n (h.dict d) field v with
      | none => .error .timeout
      | some es => .ok (h.setDict d es)
  | .array a, .int i =>
    if i ≥ (h.array a).length then .error (.panic ⟨.indexOutOfBounds (.int i), fpos⟩)
    else if i < 0 then .error (.panic ⟨.indexOutOfBounds (.int i), pos⟩)
    else .ok (h.setArray a ((h.array a).set i.toNat v))
  | .array _, field => .error (.panic ⟨.typeError field (bs "int"), fpos⟩)
  | .error _ _, field => .error (.panic ⟨.assignToReadonlyField field, fpos⟩)
  | obj, _ => .error (.panic ⟨.typeError obj (bs "array, dict or error"), opos⟩)

/-- `HashMap::insert` with a string as key, as in a dict literal (src/runtime/mod.rs:214), where all keys are strings. -/
def fieldInsert (k : Sym) (v : Value) : List (Value × Value) → List (Value × Value)
  | [] => [(.string k, v)]
  | e :: es => if e.1 = .string k then (e.1, v) :: es else e :: fieldInsert k v es

/-! ### Tasks -/

/-- The recursive functions of the interpreter with their arguments. `m` is the number of the module whose code is executed. `tail` is
the closure `tail_call`: `some n` shrinks the stack by `n` slots, `none` does nothing. (src/runtime/mod.rs:91-649.) -/
inductive Task where
  /-- `eval_tail_expr`; `eval_expr` when `tail` is `none`. -/
  | expr (m : Nat) (tail : Option Nat) (e : Prog.Expr)
  /-- The loop over the items of an array literal, src/runtime/mod.rs:191-200. -/
  | items (m : Nat) (es : List Prog.Expr) (acc : List Value)
  /-- The loop over the items of a dict literal, src/runtime/mod.rs:205-219. -/
  | fields (m : Nat) (fs : List (Sym × Prog.Expr)) (acc : List (Value × Value))
  /-- The loop over the arguments of a call, src/runtime/mod.rs:384-392. -/
  | args (m : Nat) (es : List Prog.Expr) (start : Nat)
  /-- `eval_tail_statement`. -/
  | stmt (m : Nat) (tail : Option Nat) (s : Prog.Stmt)
  /-- `eval_tail_block`. -/
  | block (m : Nat) (tail : Option Nat) (b : List Prog.Stmt)
  /-- The loop of a while statement, src/runtime/mod.rs:485-503. -/
  | loop (m : Nat) (cond : Prog.Expr) (body : List Prog.Stmt)
  /-- The loop of a for statement, src/runtime/mod.rs:516-557. -/
  | iter (m : Nat) (slot : Nat) (f : Fn) (pos : Pos) (body : List Prog.Stmt)
  /-- `call`, src/runtime/mod.rs:570-649. -/
  | call (m : Nat) (obj : Value) (f : Fn) (start : Nat) (pos : Pos)
  /-- `eval`, src/runtime/mod.rs:91-118. -/
  | program (m : Nat) (p : Program)

/-- Continue with an ordinary value; otherwise end with the flow (macro `regular_expr`, src/runtime/mod.rs:275-282). -/
def Out.regular (o : Out) (pos : Pos) (k : Value → Pos → Value → M Out) : M Out :=
  match o.flow with
  | .regular v => k v o.pos o.obj
  | f => pure ⟨f, pos, .nil⟩

/-- `tail_call(self)`, src/runtime/mod.rs:394, with the closure of 612-615. -/
def tailShrink : Option Nat → M Unit
  | none => pure ()
  | some n => do
    shrink n
    M.modify (fun s => { s with shrunk := true })

/-- Answer of the outside to something done in this state.
(For the unmodelled parts of src/runtime/lib/*.rs and src/runtime/command/exec/mod.rs.) -/
def answer (args : List Value) : Reply → M Value
  | .value t => M.alloc (fun h => t.build args h)
  | .panic p => M.stop (.panic p)
  | .crash => M.crash .native
  | .exit c => M.stop (.exit c)

/-- Record an event. (For the unmodelled parts of src/runtime/lib/*.rs and src/runtime/command/exec/mod.rs.) -/
def record (e : Event) : M Unit := M.modify (fun s => { s with trace := s.trace ++ [e] })

/-- The variables and arrays seen when command arguments are built. (For src/runtime/command/mod.rs:149-474.) -/
def argEnv (w : World) (s : RState) : ArgEnv where
  fetch ix := (s.stack[ix]?).map (·.fetch s.heap)
  array := s.heap.array
  home := w.home s.trace
  floatText := w.floatText

/-- `Runtime::eval_command_block`, src/runtime/command/mod.rs:25-146. The execution is that of the world. -/
def evalCommand (w : World) (b : Prog.CommandBlock) : M Value := do
  let s ← M.get
  let ex ← M.lift (buildBlock (argEnv w s) b.head b.tail)
  record (.command b.kind ex)
  match b.kind with
  | .asynchronous =>
    let f ← M.alloc (fun h => h.newNative (bs "<command>.join") (.join (some s.trace.length)))
    M.alloc (fun h => h.newDict [(.string (bs "join"), f)])
  | kind => answer [] (w.command s.trace kind ex)

/-- `eval_literal`, src/runtime/mod.rs:165-252. -/
def stepLit (w : World) (rec : Task → M Out) (m : Nat) (l : Prog.Lit) (pos : Pos) : M Out :=
  match l with
  | .nil => pure (.value .nil pos)
  | .bool b => pure (.value (.bool b) pos)
  | .int i => pure (.value (.int i) pos)
  | .float t => pure (.value (.float (w.parseFloat t)) pos)
  | .byte b => pure (.value (.byte b) pos)
  | .string s => pure (.value (.string s) pos)
  | .array es => do
    let o ← rec (.items m es [])
    pure ⟨o.flow, pos, .nil⟩
  | .dict fs => do
    let o ← rec (.fields m fs [])
    pure ⟨o.flow, pos, .nil⟩
  | .function params frame body => do
    let context ← captureAll frame.captures
    let f ← M.alloc (fun h => h.newClosure ⟨params, frame, body, context, m, pos⟩)
    pure (.value f pos)
  | .ident s => pure (.value (.string s) pos)

/-- `eval_tail_expr`, src/runtime/mod.rs:267-407, with `unary_op`, 653-676, and `binary_op`, 680-753. -/
def stepExpr (w : World) (n : Nat) (rec : Task → M Out) (m : Nat) (tail : Option Nat) (e : Prog.Expr) : M Out :=
  match e with
  | .ident slot pos => do
    let v ← fetch slot
    pure (.value v pos)
  | .lit l pos => stepLit w rec m l pos
  | .unary op e pos => do
    let o ← rec (.expr m none e)
    o.regular pos fun v vpos _ => do
      let f ← M.lift (unaryValue w op v vpos)
      pure ⟨f, pos, .nil⟩
  | .binary l op r pos => do
    let o ← rec (.expr m none l)
    o.regular pos fun v vpos _ =>
      if op = .and ∨ op = .or then do
        match ← M.lift (shortCircuit op v vpos) with
        | some v => pure (.value v pos)
        | none =>
          let o ← rec (.expr m none r)
          o.regular pos fun v vpos _ =>
            match v with
            | .bool b => pure (.value (.bool b) pos)
            | v => M.panic (.typeError v (bs "bool")) vpos
      else do
        let o ← rec (.expr m none r)
        o.regular pos fun v' vpos' _ => do
          let r ← M.reads (fun h => strictValue w h n op pos v vpos v' vpos')
          pure (.value r pos)
  | .if_ c t e pos => do
    let o ← rec (.expr m none c)
    o.regular pos fun v vpos _ =>
      match v with
      | .bool b => do
        let o ← rec (.block m none (if b then t else e))
        pure ⟨o.flow, pos, .nil⟩
      | v => M.panic (.invalidCondition v) vpos
  | .access obj field pos => do
    let o ← rec (.expr m none obj)
    o.regular pos fun v vpos _ => do
      let o ← rec (.expr m none field)
      o.regular pos fun f fpos _ => do
        let r ← M.reads (fun h => accessValue h n v vpos f fpos)
        pure ⟨.regular r, pos, v⟩
  | .call f args pos => do
    let o ← rec (.expr m none f)
    o.regular pos fun v vpos obj =>
      match v with
      | .function f => do
        let s ← M.get
        let o ← rec (.args m args s.args.length)
        o.regular pos fun _ _ _ => do
          tailShrink tail
          let o ← rec (.call m obj f s.args.length pos)
          pure ⟨o.flow, pos, .nil⟩
      | v => M.panic (.invalidCall v) vpos
  | .command b pos => do
    let v ← evalCommand w b
    pure (.value v pos)

/-- `eval_tail_statement`, src/runtime/mod.rs:417-565. -/
def stepStmt (n : Nat) (rec : Task → M Out) (m : Nat) (tail : Option Nat) (s : Prog.Stmt) : M Out :=
  match s with
  | .assign l r => do
    let o ← rec (.expr m none r)
    o.regular noPos fun v _ _ =>
      match l with
      | .ident slot _ => do
        store slot v
        pure (.value .nil noPos)
      | .access obj field pos => do
        let o ← rec (.expr m none obj)
        o.regular noPos fun obj opos _ => do
          let o ← rec (.expr m none field)
          o.regular noPos fun field fpos _ => do
            let h ← M.reads (fun h => assignValue h n obj opos field fpos v pos)
            M.modify (fun s => { s with heap := h })
            pure (.value .nil noPos)
  | .return_ e => do
    let o ← rec (.expr m tail e)
    match o.flow with
    | .regular v => pure ⟨.return_ v, noPos, .nil⟩
    | f => pure ⟨f, noPos, .nil⟩
  | .break_ => pure ⟨.break_, noPos, .nil⟩
  | .while_ c b => rec (.loop m c b)
  | .for_ slot e b => do
    let o ← rec (.expr m none e)
    o.regular noPos fun v vpos _ =>
      match v with
      | .function f => rec (.iter m slot f vpos b)
      | v => M.panic (.typeError v (bs "function")) vpos
  | .expr e => rec (.expr m tail e)

/-- The outcome of the body of a loop: stop it with the flow, or go on (src/runtime/mod.rs:496-500, 550-554). -/
def afterBody (o : Out) (again : M Out) : M Out :=
  match o.flow with
  | .regular _ => again
  | .return_ v => pure ⟨.return_ v, noPos, .nil⟩
  | .break_ => pure (.value .nil noPos)

/-- What an iterator returned, src/runtime/mod.rs:520-548: the next value, or the end. -/
def nextValue (h : Heap) (n : Nat) (v : Value) (pos : Pos) : Except Stop (Option Value) :=
  match v with
  | .dict d =>
    match dictGet h n d Lib.kFinished with
    | none => .error .timeout
    | some none => .error (.panic ⟨.indexOutOfBounds Lib.kFinished, pos⟩)
    | some (some (.bool true)) => .ok none
    | some (some (.bool false)) =>
      match dictGet h n d Lib.kValue with
      | none => .error .timeout
      | some none => .error (.panic ⟨.indexOutOfBounds Lib.kValue, pos⟩)
      | some (some v) => .ok (some v)
    | some (some v) => .error (.panic ⟨.typeError v (bs "bool"), pos⟩)
  | v => .error (.panic ⟨.typeError v (bs "dict"), pos⟩)

/-- `Catch::call`, src/runtime/lib/catch.rs:23-60: run, and turn a panic into an error. -/
def catching (w : World) (m : M Out) : M Value := fun s =>
  match m s with
  | (.ok o, s) =>
    match o.flow with
    | .regular v => (.ok v, s)
    | _ => (.error (.crash .flow), s)
  | (.error (.panic p), s) =>
    let r := s.heap.newError (bs "caught panic: " ++ w.showPanic s.heap p) (.string (bs "panic"))
    (.ok r.1, { s with heap := r.2 })
  | (.error e, s) => (.error e, s)

/-- The value of a call. (src/runtime/mod.rs:608-649.) -/
def Out.result (o : Out) : M Value :=
  match o.flow with
  | .regular v => pure v
  | _ => M.crash .flow

/-- The file of a module. (For src/runtime/lib/import.rs:53-77.) -/
def RState.file (s : RState) (m : Nat) : Sym := s.files.getD m []

/-- `Import::load`, src/runtime/lib/import.rs:80-130; that the lexer aborts on some sources is a Rust panic. -/
def loadModule (w : World) (rec : Task → M Out) (path : Sym) (pos : Pos) : M Value := do
  let s ← M.get
  record (.load path)
  match w.readFile s.trace path with
  | .error e => M.panic (.io e) pos
  | .ok src =>
    match syntaxAnalysis src with
    | none => M.crash .todo
    | some a =>
      if a.isOk then
        match analyze a.ast with
        | .ok p => do
          M.modify (fun s => { s with files := s.files ++ [path] })
          let o ← rec (.program s.files.length p)
          o.result
        | .errors _ => M.panic (.importFailed path) pos
        | .crash => M.crash .todo
      else M.panic (.importFailed path) pos

/-- `Import::call`, src/runtime/lib/import.rs:136-146, and `Import::import`, 31-50. -/
def importModule (w : World) (rec : Task → M Out) (m : Nat) (args : List Value) (pos : Pos) : M Value :=
  match args with
  | [.string target] => do
    let s ← M.get
    match w.resolve s.trace (s.file m) target with
    | .error e => M.panic (.io e) pos
    | .ok path =>
      match s.modules.lookup path with
      | some v => do
        record (.imported path v)
        pure v
      | none =>
        let v ← loadModule w rec path pos
        M.modify (fun s => { s with modules := (path, v) :: s.modules })
        record (.imported path v)
        pure v
  | [v] => M.panic (.typeError v (bs "string")) pos
  | args => M.panic (.invalidArgs args.length 1) pos

/-- `Join::call`, src/runtime/command/exec/join.rs:37-54. -/
def joinCommand (w : World) (addr : Nat) (pos : Pos) : M Value := do
  let s ← M.get
  match s.heap.native addr with
  | .join (some t) => do
    M.modify (fun s => { s with heap := s.heap.setNative addr (.join none) })
    record (.join t)
    answer [] (w.joined s.trace t)
  | _ => M.panic .invalidJoin pos

/-- A library function: modelled, or that of the world. (src/runtime/lib/*.rs, called by src/runtime/value/function.rs:222-224.) -/
def callLib (w : World) (n : Nat) (name : Bytes) (addr : Nat) (args : List Value) (pos : Pos) : M Value := fun s =>
  match Lib.call w name ⟨n, addr, args, pos, s.argv⟩ s.heap with
  | some (.ok (v, h)) => (.ok v, { s with heap := h })
  | some (.error e) => (.error e, s)
  | none =>
    (do
      record (.native name args)
      answer args (w.native s.trace name (s.heap.native addr) args s.heap) : M Value) s

/-- `RustFun::call`, src/runtime/value/function.rs:222-224: the native function of the given name. -/
def nativeCall (w : World) (n : Nat) (rec : Task → M Out) (m : Nat) (name : Bytes) (addr : Nat) (start : Nat) (pos : Pos) :
    M Value := do
  let s ← M.get
  let args := s.args.drop start
  if name = bs "std.catch" then
    match args with
    | [.function f] => catching w (rec (.call m .nil f (start + 1) pos))
    | [v] => M.panic (.typeError v (bs "function")) pos
    | args => M.panic (.invalidArgs args.length 1) pos
  else if name = bs "std.bind<impl>" then
    match s.heap.native addr with
    | .bound obj f => do
      let o ← rec (.call m obj f start pos)
      o.result
    | _ => M.crash .native
  else if name = bs "std.import" then importModule w rec m args pos
  else if name = bs "<command>.join" then joinCommand w addr pos
  else callLib w n name addr args pos

/-- Run and then change the state in every case. (For src/runtime/mod.rs:608-623.) -/
def finally_ (m : M α) (f : RState → RState) : M α := fun s =>
  match m s with
  | (r, s') => (r, f s')

/-- The body of a function, src/runtime/mod.rs:608-623: the stack is shrunk afterwards, even after a panic, unless a tail call did
so. The flag of the caller is restored. An evaluation that has not come to its end does not crash here. -/
def withFrame (slots : Nat) (body : M Out) : M Out := fun s =>
  match body { s with shrunk := false } with
  | (r, s1) =>
    if s1.shrunk then (r, { s1 with shrunk := s.shrunk })
    else
      match shrink slots s1 with
      | (.ok _, s2) => (r, { s2 with shrunk := s.shrunk })
      | (.error e, s2) => (match r with | .error .timeout => r | _ => .error e, { s2 with shrunk := s.shrunk })

/-- `call`, src/runtime/mod.rs:570-649. -/
def stepCall (w : World) (n : Nat) (rec : Task → M Out) (m : Nat) (obj : Value) (f : Fn) (start : Nat) (pos : Pos) :
    M Out := fun s =>
  if s.args.length < start then (.error (.crash .slot), s)
  else
    match f with
    | .hush a =>
      let c := s.heap.closure a
      let args := s.args.drop start
      (do
        M.modify (fun s => { s with args := s.args.take start })
        if args.length ≠ c.params then M.panic (.invalidArgs args.length c.params) pos
        else do
          extend w c.frame.slots pos
          storeArgs 0 args
          placeAll c.context
          storeSelf obj c.frame.selfSlot
          let o ← withFrame c.frame.slots (rec (.block c.module (some c.frame.slots) c.body))
          match o.flow with
          | .regular v => pure (.value v pos)
          | .return_ v => pure (.value v pos)
          | .break_ => M.crash .flow : M Out) s
    | .native name addr =>
      (do
        let v ← finally_ (nativeCall w n rec m name addr start pos)
          (fun s => { s with args := s.args.take start })
        pure (.value v pos) : M Out) s

/-- `eval`, src/runtime/mod.rs:91-118. If the evaluation panics, the slots stay. -/
def stepProgram (w : World) (rec : Task → M Out) (m : Nat) (p : Program) : M Out := do
  extend w p.rootSlots noPos
  let s ← M.get
  store 0 s.std
  let o ← fun s =>
    match rec (.block m none p.statements) s with
    | (.ok o, s) => (.ok o, s)
    | (.error e, s) => (.error e, { s with leaked := s.leaked + p.rootSlots })
  match o.flow with
  | .regular v => do
    shrink p.rootSlots
    pure (.value v noPos)
  | _ => M.crash .flow

/-- One task. (src/runtime/mod.rs:91-649.) -/
def step (w : World) (n : Nat) (rec : Task → M Out) : Task → M Out
  | .expr m tail e => stepExpr w n rec m tail e
  | .items _ [] acc => do
    let v ← M.alloc (fun h => h.newArray acc)
    pure (.value v noPos)
  | .items m (e :: es) acc => do
    let o ← rec (.expr m none e)
    o.regular noPos fun v _ _ => rec (.items m es (acc ++ [v]))
  | .fields _ [] acc => do
    let v ← M.alloc (fun h => h.newDict acc)
    pure (.value v noPos)
  | .fields m ((k, e) :: fs) acc => do
    let o ← rec (.expr m none e)
    o.regular noPos fun v _ _ => rec (.fields m fs (fieldInsert k v acc))
  | .args _ [] _ => pure (.value .nil noPos)
  | .args m (e :: es) start => do
    let o ← rec (.expr m none e)
    match o.flow with
    | .regular v => do
      M.modify (fun s => { s with args := s.args ++ [v] })
      rec (.args m es start)
    | f => do
      M.modify (fun s => { s with args := s.args.take start })
      pure ⟨f, noPos, .nil⟩
  | .stmt m tail s => stepStmt n rec m tail s
  | .block _ _ [] => pure (.value .nil noPos)
  | .block m tail [s] => rec (.stmt m tail s)
  | .block m tail (s :: rest) => do
    let o ← rec (.stmt m none s)
    o.regular noPos fun _ _ _ => rec (.block m tail rest)
  | .loop m c b => do
    let o ← rec (.expr m none c)
    o.regular noPos fun v vpos _ =>
      match v with
      | .bool true => do
        let o ← rec (.block m none b)
        afterBody o (rec (.loop m c b))
      | .bool false => pure (.value .nil noPos)
      | v => M.panic (.invalidCondition v) vpos
  | .iter m slot f pos b => do
    let s ← M.get
    let o ← rec (.call m .nil f s.args.length pos)
    let v ← o.result
    match ← M.reads (fun h => nextValue h n v pos) with
    | none => pure (.value .nil noPos)
    | some v => do
      store slot v
      let o ← rec (.block m none b)
      afterBody o (rec (.iter m slot f pos b))
  | .call m obj f start pos => stepCall w n rec m obj f start pos
  | .program m p => stepProgram w rec m p

/-- The interpreter with a budget. (src/runtime/mod.rs:91-649.) -/
def run (w : World) : Nat → Task → M Out
  | 0, _ => M.stop .timeout
  | n + 1, t => step w n (run w n) t

/-! ### The start -/

/-- The names of the functions of the standard library, without the prefix `std.`: all `inventory::submit!` of
src/runtime/lib/*.rs. -/
def stdNames : List Bytes :=
  [bs "args", bs "assert", bs "bind", bs "bytes", bs "catch", bs "cd", bs "contains", bs "cwd", bs "env", bs "export",
   bs "error", bs "exit", bs "float", bs "glob", bs "has_error", bs "import", bs "int", bs "is_empty", bs "iter",
   bs "len", bs "panic", bs "pop", bs "print", bs "println", bs "push", bs "rand", bs "randint", bs "randseed",
   bs "range", bs "read", bs "regex", bs "replace", bs "sleep", bs "sort", bs "split", bs "substr", bs "to_string",
   bs "trim", bs "type", bs "typecheck", bs "try_typecheck"]

/-- The groups of the standard library with their functions. (src/runtime/lib.rs:24-53.) -/
def stdGroups : List (Bytes × List Bytes) :=
  [(bs "base64", [bs "encode", bs "decode"]), (bs "hex", [bs "encode", bs "decode"]),
   (bs "json", [bs "encode", bs "decode"])]

/-- A native function without state; all share the state 0. (src/runtime/lib.rs:24-53.) -/
def stdFn (name : Bytes) : Value := .function (.native (bs "std." ++ name) 0)

/-- `Runtime::new`, src/runtime/mod.rs:56-75, with `lib::new`, src/runtime/lib.rs:24-53. -/
def RState.init (argv : List Bytes) (file : Sym) : RState :=
  let groups := stdGroups.map (fun g => g.2.map (fun f => (Value.string f, stdFn (g.1 ++ [cDot] ++ f))))
  let std := stdNames.map (fun f => (Value.string f, stdFn f))
    ++ stdGroups.zipIdx.map (fun g => (Value.string g.1.1, Value.dict g.2))
  { stack := []
    args := []
    heap := { Heap.empty with
      arrays := [argv.map .string]
      dicts := groups ++ [std]
      natives := [.none] }
    modules := []
    files := [file]
    trace := []
    shrunk := false
    leaked := 0
    std := .dict groups.length
    argv := .array 0 }

/-- `Runtime::new` and `Runtime::eval` of a program, as in src/main.rs. -/
def runProgram (w : World) (n : Nat) (p : Program) (argv : List Bytes) (file : Sym) : Except Stop Out × RState :=
  run w n (.program 0 p) (RState.init argv file)

end Hush

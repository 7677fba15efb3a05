import Verif.Model.Interp

/-!
A reference semantics for variables. Every variable is an object of its own in memory (`Heap.cells`), from the start and for
ever. A running function knows the variables of its slots: `env` gives the address of the variable of each slot. Calling a
function makes new variables for its parameters and declarations; the captured ones are those of the function value, which got them
from the function that created it. There is no stack of slots, nothing is moved, and a function cannot get at variables other
than those in its `env`.

Everything that has nothing to do with variables (operators, library, commands) is that of the model; so is the order of
evaluation. Two things remain of the stack: the number of slots in use, because exceeding the limit is a panic, and whether the
evaluation of a module ended with a panic, because the interpreter does not recover from that (`catching`).
-/

namespace Hush
namespace Spec
namespace Vars

/-- A state. The stack of `base` is not used. -/
structure State where
  base : RState
  /-- The number of slots of the functions being executed. -/
  height : Nat
  /-- Whether the evaluation of some module ended with a panic. -/
  failed : Bool

/-- Computations; without a result if they go on after the failure of a module. -/
def VM (α : Type) : Type := State → Option (Except Stop α × State)

namespace VM

/-- No computation. -/
def ret (a : α) : VM α := fun s => some (.ok a, s)

/-- Sequence. -/
def andThen (m : VM α) (f : α → VM β) : VM β := fun s =>
  match m s with
  | none => none
  | some (.ok a, s') => f a s'
  | some (.error e, s') => some (.error e, s')

instance : Monad VM where
  pure := ret
  bind := andThen

/-- Stop. -/
def stop (e : Stop) : VM α := fun s => some (.error e, s)

/-- A language-level panic. -/
def panic (k : PanicKind) (pos : Pos) : VM α := stop (.panic ⟨k, pos⟩)

/-- A Rust panic. -/
def crash (k : CrashKind) : VM α := stop (.crash k)

/-- Something that has nothing to do with variables. -/
def other (m : M α) : VM α := fun s =>
  match m s.base with
  | (r, b) => some (r, { s with base := b })

end VM

/-! ### Variables -/

/-- The value of the variable of a slot. -/
def value (env : List Nat) (ix : Nat) : VM Value := fun s =>
  match env[ix]? with
  | some x => some (.ok (s.base.heap.cell x), s)
  | none => some (.error (.crash .slot), s)

/-- Assign to the variable of a slot. -/
def assign (env : List Nat) (ix : Nat) (v : Value) : VM Unit := fun s =>
  match env[ix]? with
  | some x => some (.ok (), { s with base := { s.base with heap := s.base.heap.setCell x v } })
  | none => some (.error (.crash .slot), s)

/-- New variables, nil at first. -/
def newVars (n : Nat) : VM (List Nat) := fun s =>
  some (.ok (List.range' s.base.heap.cells.length n),
    { s with base := { s.base with heap := { s.base.heap with cells := s.base.heap.cells ++ List.replicate n .nil } } })

/-- Assign to the variables of consecutive slots. -/
def assignAll (env : List Nat) : Nat → List Value → VM Unit
  | _, [] => pure ()
  | ix, v :: vs => do
    assign env ix v
    assignAll env (ix + 1) vs

/-- The variables captured by a function literal, with the slots that they will have. -/
def captures (env : List Nat) : List Prog.Capture → VM (List (Nat × Nat))
  | [] => pure []
  | c :: cs =>
    match env[c.from_]? with
    | some x => do
      let rest ← captures env cs
      pure ((x, c.to) :: rest)
    | none => VM.crash .slot

/-- The variables of a function: its own, except for the captured ones. -/
def withCaptured : List Nat → List (Nat × Nat) → List Nat
  | env, [] => env
  | env, (x, slot) :: rest => withCaptured (env.set slot x) rest

/-- `self`. -/
def assignSelf (env : List Nat) (obj : Value) : Option Nat → VM Unit
  | none => pure ()
  | some ix => assign env ix obj

/-! ### The number of slots -/

/-- The slots of a function or module. -/
def enter (w : World) (n : Nat) (pos : Pos) : VM Unit := fun s =>
  if s.height + n > w.limit then some (.error (.panic ⟨.stackOverflow, pos⟩), s)
  else some (.ok (), { s with height := s.height + n })

/-- A tail call gives up the slots before. -/
def release : Option Nat → VM Unit
  | none => pure ()
  | some n => fun s => some (.ok (), { s with height := s.height - n })

/-- The number of slots is as before in the end. -/
def restoring (m : VM α) : VM α := fun s =>
  match m s with
  | none => none
  | some (r, s') => some (r, { s' with height := s.height })

/-! ### Evaluation -/

/-- Continue with an ordinary value; otherwise end with the flow. -/
def go (o : Out) (pos : Pos) (k : Value → Pos → Value → VM Out) : VM Out :=
  match o.flow with
  | .regular v => k v o.pos o.obj
  | f => pure ⟨f, pos, .nil⟩

/-- The value of a call. -/
def result (o : Out) : VM Value :=
  match o.flow with
  | .regular v => pure v
  | _ => VM.crash .flow

/-- The outcome of the body of a loop. -/
def afterBody (o : Out) (again : VM Out) : VM Out :=
  match o.flow with
  | .regular _ => again
  | .return_ v => pure ⟨.return_ v, noPos, .nil⟩
  | .break_ => pure (.value .nil noPos)

/-- The variables seen when command arguments are built. -/
def argEnv (w : World) (env : List Nat) (s : RState) : ArgEnv where
  fetch ix := (env[ix]?).map s.heap.cell
  array := s.heap.array
  home := w.home s.trace
  floatText := w.floatText

/-- A command block. -/
def command (w : World) (env : List Nat) (b : Prog.CommandBlock) : VM Value := VM.other do
  let s ← M.get
  let ex ← M.lift (buildBlock (argEnv w env s) b.head b.tail)
  record (.command b.kind ex)
  match b.kind with
  | .asynchronous =>
    let f ← M.alloc (fun h => h.newNative (bs "<command>.join") (.join (some s.trace.length)))
    M.alloc (fun h => h.newDict [(.string (bs "join"), f)])
  | kind => answer [] (w.command s.trace kind ex)

/-- The recursive calls: the variables of the running function, what is to be done. -/
abbrev Rec := List Nat → Task → VM Out

/-- Literals. A function value has the variables that it captures. -/
def literal (w : World) (rec : Rec) (env : List Nat) (m : Nat) (l : Prog.Lit) (pos : Pos) : VM Out :=
  match l with
  | .nil => pure (.value .nil pos)
  | .bool b => pure (.value (.bool b) pos)
  | .int i => pure (.value (.int i) pos)
  | .float t => pure (.value (.float (w.parseFloat t)) pos)
  | .byte b => pure (.value (.byte b) pos)
  | .string s => pure (.value (.string s) pos)
  | .array es => do
    let o ← rec env (.items m es [])
    pure ⟨o.flow, pos, .nil⟩
  | .dict fs => do
    let o ← rec env (.fields m fs [])
    pure ⟨o.flow, pos, .nil⟩
  | .function params frame body => do
    let context ← captures env frame.captures
    let f ← VM.other (M.alloc (fun h => h.newClosure ⟨params, frame, body, context, m, pos⟩))
    pure (.value f pos)
  | .ident s => pure (.value (.string s) pos)

/-- Expressions. -/
def expr (w : World) (n : Nat) (rec : Rec) (env : List Nat) (m : Nat) (tail : Option Nat) (e : Prog.Expr) : VM Out :=
  match e with
  | .ident slot pos => do
    let v ← value env slot
    pure (.value v pos)
  | .lit l pos => literal w rec env m l pos
  | .unary op e pos => do
    let o ← rec env (.expr m none e)
    go o pos fun v vpos _ => do
      let f ← VM.other (M.lift (unaryValue w op v vpos))
      pure ⟨f, pos, .nil⟩
  | .binary l op r pos => do
    let o ← rec env (.expr m none l)
    go o pos fun v vpos _ =>
      if op = .and ∨ op = .or then do
        match ← VM.other (M.lift (shortCircuit op v vpos)) with
        | some v => pure (.value v pos)
        | none =>
          let o ← rec env (.expr m none r)
          go o pos fun v vpos _ =>
            match v with
            | .bool b => pure (.value (.bool b) pos)
            | v => VM.panic (.typeError v (bs "bool")) vpos
      else do
        let o ← rec env (.expr m none r)
        go o pos fun v' vpos' _ => do
          let r ← VM.other (M.reads (fun h => strictValue w h n op pos v vpos v' vpos'))
          pure (.value r pos)
  | .if_ c t e pos => do
    let o ← rec env (.expr m none c)
    go o pos fun v vpos _ =>
      match v with
      | .bool b => do
        let o ← rec env (.block m none (if b then t else e))
        pure ⟨o.flow, pos, .nil⟩
      | v => VM.panic (.invalidCondition v) vpos
  | .access obj field pos => do
    let o ← rec env (.expr m none obj)
    go o pos fun v vpos _ => do
      let o ← rec env (.expr m none field)
      go o pos fun f fpos _ => do
        let r ← VM.other (M.reads (fun h => accessValue h n v vpos f fpos))
        pure ⟨.regular r, pos, v⟩
  | .call f args pos => do
    let o ← rec env (.expr m none f)
    go o pos fun v vpos obj =>
      match v with
      | .function f => do
        let s ← VM.other M.get
        let o ← rec env (.args m args s.args.length)
        go o pos fun _ _ _ => do
          release tail
          let o ← rec [] (.call m obj f s.args.length pos)
          pure ⟨o.flow, pos, .nil⟩
      | v => VM.panic (.invalidCall v) vpos
  | .command b pos => do
    let v ← command w env b
    pure (.value v pos)

/-- Statements. -/
def stmt (n : Nat) (rec : Rec) (env : List Nat) (m : Nat) (tail : Option Nat) (s : Prog.Stmt) : VM Out :=
  match s with
  | .assign l r => do
    let o ← rec env (.expr m none r)
    go o noPos fun v _ _ =>
      match l with
      | .ident slot _ => do
        assign env slot v
        pure (.value .nil noPos)
      | .access obj field pos => do
        let o ← rec env (.expr m none obj)
        go o noPos fun obj opos _ => do
          let o ← rec env (.expr m none field)
          go o noPos fun field fpos _ => do
            let h ← VM.other (M.reads (fun h => assignValue h n obj opos field fpos v pos))
            VM.other (M.modify (fun s => { s with heap := h }))
            pure (.value .nil noPos)
  | .return_ e => do
    let o ← rec env (.expr m tail e)
    match o.flow with
    | .regular v => pure ⟨.return_ v, noPos, .nil⟩
    | f => pure ⟨f, noPos, .nil⟩
  | .break_ => pure ⟨.break_, noPos, .nil⟩
  | .while_ c b => rec env (.loop m c b)
  | .for_ slot e b => do
    let o ← rec env (.expr m none e)
    go o noPos fun v vpos _ =>
      match v with
      | .function f => rec env (.iter m slot f vpos b)
      | v => VM.panic (.typeError v (bs "function")) vpos
  | .expr e => rec env (.expr m tail e)

/-- `std.catch`. -/
def catching (w : World) (m : VM Out) : VM Value := fun s =>
  match m s with
  | none => none
  | some (.ok o, s) =>
    match o.flow with
    | .regular v => some (.ok v, s)
    | _ => some (.error (.crash .flow), s)
  | some (.error (.panic p), s) =>
    if s.failed then none
    else
      let r := s.base.heap.newError (bs "caught panic: " ++ w.showPanic s.base.heap p) (.string (bs "panic"))
      some (.ok r.1, { s with base := { s.base with heap := r.2 } })
  | some (.error e, s) => some (.error e, s)

/-- Loading a module. -/
def load (w : World) (rec : Rec) (path : Sym) (pos : Pos) : VM Value := do
  let s ← VM.other M.get
  VM.other (record (.load path))
  match w.readFile s.trace path with
  | .error e => VM.panic (.io e) pos
  | .ok src =>
    match syntaxAnalysis src with
    | none => VM.crash .todo
    | some a =>
      if a.isOk then
        match analyze a.ast with
        | .ok p => do
          VM.other (M.modify (fun s => { s with files := s.files ++ [path] }))
          let o ← rec [] (.program s.files.length p)
          result o
        | .errors _ => VM.panic (.importFailed path) pos
        | .crash => VM.crash .todo
      else VM.panic (.importFailed path) pos

/-- `std.import`. -/
def import_ (w : World) (rec : Rec) (m : Nat) (args : List Value) (pos : Pos) : VM Value :=
  match args with
  | [.string target] => do
    let s ← VM.other M.get
    match w.resolve s.trace (s.file m) target with
    | .error e => VM.panic (.io e) pos
    | .ok path =>
      match s.modules.lookup path with
      | some v => do
        VM.other (record (.imported path v))
        pure v
      | none =>
        let v ← load w rec path pos
        VM.other (M.modify (fun s => { s with modules := (path, v) :: s.modules }))
        VM.other (record (.imported path v))
        pure v
  | [v] => VM.panic (.typeError v (bs "string")) pos
  | args => VM.panic (.invalidArgs args.length 1) pos

/-- Native functions. -/
def native (w : World) (n : Nat) (rec : Rec) (m : Nat) (name : Bytes) (addr : Nat) (start : Nat) (pos : Pos) : VM Value := do
  let s ← VM.other M.get
  let args := s.args.drop start
  if name = bs "std.catch" then
    match args with
    | [.function f] => catching w (rec [] (.call m .nil f (start + 1) pos))
    | [v] => VM.panic (.typeError v (bs "function")) pos
    | args => VM.panic (.invalidArgs args.length 1) pos
  else if name = bs "std.bind<impl>" then
    match s.heap.native addr with
    | .bound obj f => do
      let o ← rec [] (.call m obj f start pos)
      result o
    | _ => VM.crash .native
  else if name = bs "std.import" then import_ w rec m args pos
  else if name = bs "<command>.join" then VM.other (joinCommand w addr pos)
  else VM.other (callLib w n name addr args pos)

/-- Run and then change the state in every case. -/
def finally_ (m : VM α) (f : RState → RState) : VM α := fun s =>
  match m s with
  | none => none
  | some (r, s') => some (r, { s' with base := f s'.base })

/-- The body of a function in new variables, with arguments. -/
def body (w : World) (rec : Rec) (obj : Value) (c : Closure) (args : List Value) (pos : Pos) : VM Out := do
  if args.length ≠ c.params then VM.panic (.invalidArgs args.length c.params) pos
  else do
    enter w c.frame.slots pos
    let own ← newVars c.frame.slots
    assignAll own 0 args
    assignSelf (withCaptured own c.context) obj c.frame.selfSlot
    let o ← rec (withCaptured own c.context) (.block c.module (some c.frame.slots) c.body)
    match o.flow with
    | .regular v => pure (.value v pos)
    | .return_ v => pure (.value v pos)
    | .break_ => VM.crash .flow

/-- Calls. -/
def call (w : World) (n : Nat) (rec : Rec) (m : Nat) (obj : Value) (f : Fn) (start : Nat) (pos : Pos) : VM Out := fun s =>
  if s.base.args.length < start then some (.error (.crash .slot), s)
  else
    match f with
    | .hush a =>
      (do
        VM.other (M.modify (fun s => { s with args := s.args.take start }))
        restoring (body w rec obj (s.base.heap.closure a) (s.base.args.drop start) pos) : VM Out) s
    | .native name addr =>
      (do
        let v ← finally_ (native w n rec m name addr start pos) (fun s => { s with args := s.args.take start })
        pure (.value v pos) : VM Out) s

/-- If it stops, a module has failed. -/
def failing (m : VM α) : VM α := fun s =>
  match m s with
  | some (.error e, s') => some (.error e, { s' with failed := true })
  | r => r

/-- Modules: `std` is the variable of slot 0. -/
def program (w : World) (rec : Rec) (m : Nat) (p : Program) : VM Out := restoring do
  enter w p.rootSlots noPos
  let own ← newVars p.rootSlots
  let s ← VM.other M.get
  assign own 0 s.std
  let o ← failing (rec own (.block m none p.statements))
  match o.flow with
  | .regular v => pure (.value v noPos)
  | _ => VM.crash .flow

/-- One task. -/
def step (w : World) (n : Nat) (rec : Rec) (env : List Nat) : Task → VM Out
  | .expr m tail e => expr w n rec env m tail e
  | .items _ [] acc => do
    let v ← VM.other (M.alloc (fun h => h.newArray acc))
    pure (.value v noPos)
  | .items m (e :: es) acc => do
    let o ← rec env (.expr m none e)
    go o noPos fun v _ _ => rec env (.items m es (acc ++ [v]))
  | .fields _ [] acc => do
    let v ← VM.other (M.alloc (fun h => h.newDict acc))
    pure (.value v noPos)
  | .fields m ((k, e) :: fs) acc => do
    let o ← rec env (.expr m none e)
    go o noPos fun v _ _ => rec env (.fields m fs (fieldInsert k v acc))
  | .args _ [] _ => pure (.value .nil noPos)
  | .args m (e :: es) start => do
    let o ← rec env (.expr m none e)
    match o.flow with
    | .regular v => do
      VM.other (M.modify (fun s => { s with args := s.args ++ [v] }))
      rec env (.args m es start)
    | f => do
      VM.other (M.modify (fun s => { s with args := s.args.take start }))
      pure ⟨f, noPos, .nil⟩
  | .stmt m tail s => stmt n rec env m tail s
  | .block _ _ [] => pure (.value .nil noPos)
  | .block m tail [s] => rec env (.stmt m tail s)
  | .block m tail (s :: rest) => do
    let o ← rec env (.stmt m none s)
    go o noPos fun _ _ _ => rec env (.block m tail rest)
  | .loop m c b => do
    let o ← rec env (.expr m none c)
    go o noPos fun v vpos _ =>
      match v with
      | .bool true => do
        let o ← rec env (.block m none b)
        afterBody o (rec env (.loop m c b))
      | .bool false => pure (.value .nil noPos)
      | v => VM.panic (.invalidCondition v) vpos
  | .iter m slot f pos b => do
    let s ← VM.other M.get
    let o ← rec [] (.call m .nil f s.args.length pos)
    let v ← result o
    match ← VM.other (M.reads (fun h => nextValue h n v pos)) with
    | none => pure (.value .nil noPos)
    | some v => do
      assign env slot v
      let o ← rec env (.block m none b)
      afterBody o (rec env (.iter m slot f pos b))
  | .call m obj f start pos => call w n rec m obj f start pos
  | .program m p => program w rec m p

/-- The evaluation with a budget, as in the model. -/
def run (w : World) : Nat → Rec
  | 0, _, _ => VM.stop .timeout
  | n + 1, env, t => step w n (run w n) env t

/-- The evaluation of a program from the start. -/
def runProgram (w : World) (n : Nat) (p : Program) (argv : List Bytes) (file : Sym) : Option (Except Stop Out × State) :=
  run w n [] (.program 0 p) ⟨RState.init argv file, 0, false⟩

/-- The world does not look at the values of captured variables. (Library functions that are answered by the world print functions
by their position, src/runtime/value/fmt.rs:17-34.) -/
def Blind (w : World) : Prop :=
  ∀ (h : Heap) (cells : List Value) (closures : List Closure),
    closures.map (fun c => { c with context := [] }) = h.closures.map (fun c => { c with context := [] }) →
    (∀ p, w.showPanic { h with cells := cells, closures := closures } p = w.showPanic h p) ∧
    ∀ evs name st args, w.native evs name st args { h with cells := cells, closures := closures } = w.native evs name st args h

end Vars
end Spec
end Hush

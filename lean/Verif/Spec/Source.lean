import Verif.Spec.Variables
import Verif.Spec.Binding

/-!
A semantics of source code by names: it executes the syntax tree, in which a variable is just its name. There are no slots, frames,
captures or analysis here. The variables that the code can see at a point are a list of names with the objects in memory they
stand for, innermost declaration first; a function value is its text with the list of the place where it was created. What is visible is
decided by the text alone: the list grows at a declaration, for the rest of the block, and is that of the enclosing code again
behind the block.

Every call makes one new variable for each parameter and for each declaration in the text of the function (so a declaration in the body of
a loop is one variable, not one for each iteration). The addresses of new variables are left open, as long as no two are
the same; and so are three things that depend on the representation of functions: a call may fail because the stack is full;
two functions are compared by some of the variables visible to them; and how many objects for variables a call makes beyond those needed.
Hence this semantics is a relation between the state before and the outcomes. Everything that has nothing to do with
names is that of the model.
-/

namespace Hush
namespace Spec
namespace Src

/-- A function value: its text, the variables visible at the literal, the number of the module. -/
structure Fun where
  params : List (Sym × Pos)
  body : Ast.Block
  names : List (Sym × Nat)
  module : Nat

instance : Inhabited Fun := ⟨⟨[], [], [], 0⟩⟩

/-- A state. The stack of `base` is not used; the functions of its memory are only used for printing and comparing. -/
structure State where
  base : RState
  funs : List Fun

/-- Computations: the possible outcomes in each state. -/
def NM (α : Type) : Type := State → Except Stop α × State → Prop

namespace NM

/-- No computation. -/
def ret (a : α) : NM α := fun s r => r = (.ok a, s)

/-- Sequence. -/
def andThen (m : NM α) (f : α → NM β) : NM β := fun s r =>
  (∃ a s', m s (.ok a, s') ∧ f a s' r) ∨ (∃ e s', m s (.error e, s') ∧ r = (.error e, s'))

instance : Monad NM where
  pure := ret
  bind := andThen

/-- Stop. -/
def stop (e : Stop) : NM α := fun s r => r = (.error e, s)

/-- A language-level panic. -/
def panic (k : PanicKind) (pos : Pos) : NM α := stop (.panic ⟨k, pos⟩)

/-- A Rust panic. -/
def crash (k : CrashKind) : NM α := stop (.crash k)

/-- Something that has nothing to do with variables. -/
def other (m : M α) : NM α := fun s r => r = ((m s.base).1, { s with base := (m s.base).2 })

/-- There is no such execution. -/
def never : NM α := fun _ _ => False

end NM

/-! ### Declarations in the text -/

mutual
/-- The number of declarations in an expression, not counting those in functions. -/
def declsExpr : Ast.Expr → Nat
  | .lit l _ => declsLit l
  | .unary _ e _ => declsExpr e
  | .binary l _ r _ => declsExpr l + declsExpr r
  | .if_ c t e _ => declsExpr c + (declsBlock t + declsBlock e)
  | .access o f _ => declsExpr o + declsExpr f
  | .call f es _ => declsExpr f + declsExprs es
  | _ => 0
/-- In a list of expressions. -/
def declsExprs : List Ast.Expr → Nat
  | [] => 0
  | e :: es => declsExpr e + declsExprs es
/-- In a literal. -/
def declsLit : Ast.Lit → Nat
  | .array es => declsExprs es
  | .dict fs => declsFields fs
  | _ => 0
/-- In the fields of a dict. -/
def declsFields : List ((Sym × Pos) × Ast.Expr) → Nat
  | [] => 0
  | ((_, _), e) :: fs => declsExpr e + declsFields fs
/-- In a statement. -/
def declsStmt : Ast.Stmt → Nat
  | .let_ _ e _ => 1 + declsExpr e
  | .assign l r _ => declsExpr l + declsExpr r
  | .return_ e _ => declsExpr e
  | .while_ c b _ => declsExpr c + declsBlock b
  | .for_ _ e b _ => declsExpr e + (1 + declsBlock b)
  | .expr e => declsExpr e
  | _ => 0
/-- In a block. -/
def declsBlock : List Ast.Stmt → Nat
  | [] => 0
  | s :: ss => declsStmt s + declsBlock ss
end

/-! ### Variables -/

/-- What code can see: the variables by name, innermost first; the variable of `self`; the variables of the declarations in the code, in
the order of the text. -/
structure Env where
  names : List (Sym × Nat)
  self : Option Nat
  own : List Nat

/-- The same, for the code behind `n` declarations. -/
def Env.skip (E : Env) (n : Nat) : Env := { E with own := E.own.drop n }

/-- The value of a variable. -/
def value (x : Option Nat) : NM Value := fun s r =>
  match x with
  | some x => r = (.ok (s.base.heap.cell x), s)
  | none => False

/-- Assign to a variable. -/
def assign (x : Option Nat) (v : Value) : NM Unit := fun s r =>
  match x with
  | some x => r = (.ok (), { s with base := { s.base with heap := s.base.heap.setCell x v } })
  | none => False

/-- New variables, nil at first: for `n` parameters, `k` declarations, and possibly for `self`. -/
def newVars (n k : Nat) : NM (List Nat × List Nat × Option Nat) := fun s r =>
  ∃ size params own self, params.length = n ∧ own.length = k ∧ (params ++ own ++ self.toList).Nodup ∧
    (∀ x ∈ params ++ own ++ self.toList, s.base.heap.cells.length ≤ x ∧ x < s.base.heap.cells.length + size) ∧
    r = (.ok (params, own, self),
      { s with base := { s.base with heap := { s.base.heap with cells := s.base.heap.cells ++ List.replicate size .nil } } })

/-- Assign to variables one after the other. -/
def assignAll : List Nat → List Value → NM Unit
  | x :: xs, v :: vs => do
    assign (some x) v
    assignAll xs vs
  | _, _ => pure ()

/-- `self`. -/
def assignSelf (self : Option Nat) (obj : Value) : NM Unit :=
  match self with
  | none => pure ()
  | some x => assign (some x) obj

/-- The stack may be full. -/
def mayOverflow (pos : Pos) : NM Unit := fun s r => r = (.ok (), s) ∨ r = (.error (.panic ⟨.stackOverflow, pos⟩), s)

/-- A new function value. What is known of its representation in memory: the number of parameters and the position; and the variables by which
it is compared are variables that it can see. -/
def newFun (E : Env) (m : Nat) (ps : List (Sym × Pos)) (b : Ast.Block) (pos : Pos) : NM Value := fun s r =>
  ∃ c : Closure, c.params = ps.length ∧ c.module = m ∧ c.pos = pos ∧ (∀ q ∈ c.context, ∃ x, E.names.lookup x = some q.1) ∧
    r = (.ok (s.base.heap.newClosure c).1,
      { s with base := { s.base with heap := (s.base.heap.newClosure c).2 }, funs := s.funs ++ [⟨ps, b, E.names, m⟩] })

/-! ### Evaluation -/

/-- Continue with an ordinary value; otherwise end with the flow. -/
def go (o : Out) (pos : Pos) (k : Value → Pos → Value → NM Out) : NM Out :=
  match o.flow with
  | .regular v => k v o.pos o.obj
  | f => pure ⟨f, pos, .nil⟩

/-- The value of a call. -/
def result (o : Out) : NM Value :=
  match o.flow with
  | .regular v => pure v
  | _ => NM.crash .flow

/-- The outcome of the body of a loop. -/
def afterBody (o : Out) (again : NM Out) : NM Out :=
  match o.flow with
  | .regular _ => again
  | .return_ v => pure ⟨.return_ v, noPos, .nil⟩
  | .break_ => pure (.value .nil noPos)

/-- Command arguments, in which variables are given by their addresses. -/
def argEnv (w : World) (s : RState) : ArgEnv where
  fetch x := some (s.heap.cell x)
  array := s.heap.array
  home := w.home s.trace
  floatText := w.floatText

/-- A command block: each `$x` in it is the variable of that name. -/
def command (w : World) (E : Env) (b : Ast.CommandBlock) : NM Value := fun st r =>
  ∃ b' : Prog.CommandBlock, CommandBlockTo [⟨[E.names], ⟨0, [], none⟩⟩] b b' ∧
    (NM.other do
      let s ← M.get
      let ex ← M.lift (buildBlock (argEnv w s) b'.head b'.tail)
      record (.command b'.kind ex)
      match b'.kind with
      | .asynchronous =>
        let f ← M.alloc (fun h => h.newNative (bs "<command>.join") (.join (some s.trace.length)))
        M.alloc (fun h => h.newDict [(.string (bs "join"), f)])
      | kind => answer [] (w.command s.trace kind ex)) st r

/-- What is to be done. -/
inductive Job where
  | expr (m : Nat) (e : Ast.Expr)
  | items (m : Nat) (es : List Ast.Expr) (acc : List Value)
  | fields (m : Nat) (fs : List ((Sym × Pos) × Ast.Expr)) (acc : List (Value × Value))
  | args (m : Nat) (es : List Ast.Expr) (start : Nat)
  /-- initialise a declared variable -/
  | init (m : Nat) (x : Nat) (e : Ast.Expr)
  | stmt (m : Nat) (s : Ast.Stmt)
  | block (m : Nat) (b : List Ast.Stmt)
  | loop (m : Nat) (cond : Ast.Expr) (body : List Ast.Stmt)
  | iter (m : Nat) (x : Nat) (f : Fn) (pos : Pos) (body : List Ast.Stmt)
  | call (m : Nat) (obj : Value) (f : Fn) (start : Nat) (pos : Pos)
  | program (m : Nat) (b : Ast.Block)

/-- The recursive calls. -/
abbrev Rec := Env → Job → NM Out

/-- No variables. -/
def Env.empty : Env := ⟨[], none, []⟩

/-- Literals. -/
def literal (w : World) (rec : Rec) (E : Env) (m : Nat) (l : Ast.Lit) (pos : Pos) : NM Out :=
  match l with
  | .nil => pure (.value .nil pos)
  | .bool b => pure (.value (.bool b) pos)
  | .int i => pure (.value (.int i) pos)
  | .float t => pure (.value (.float (w.parseFloat t)) pos)
  | .byte b => pure (.value (.byte b) pos)
  | .string s => pure (.value (.string s) pos)
  | .array es => do
    let o ← rec E (.items m es [])
    pure ⟨o.flow, pos, .nil⟩
  | .dict fs => do
    let o ← rec E (.fields m fs [])
    pure ⟨o.flow, pos, .nil⟩
  | .function ps b => do
    let f ← newFun E m ps b pos
    pure (.value f pos)
  | .ident s => pure (.value (.string s) pos)

/-- Expressions. -/
def expr (w : World) (n : Nat) (rec : Rec) (E : Env) (m : Nat) (e : Ast.Expr) : NM Out :=
  match e with
  | .illFormed => NM.never
  | .self_ pos => do
    let v ← value E.self
    pure (.value v pos)
  | .ident x pos => do
    let v ← value (E.names.lookup x)
    pure (.value v pos)
  | .lit l pos => literal w rec E m l pos
  | .unary op e pos => do
    let o ← rec E (.expr m e)
    go o pos fun v vpos _ => do
      let f ← NM.other (M.lift (unaryValue w op v vpos))
      pure ⟨f, pos, .nil⟩
  | .binary l op r pos => do
    let o ← rec E (.expr m l)
    go o pos fun v vpos _ =>
      if op = .and ∨ op = .or then do
        match ← NM.other (M.lift (shortCircuit op v vpos)) with
        | some v => pure (.value v pos)
        | none =>
          let o ← rec (E.skip (declsExpr l)) (.expr m r)
          go o pos fun v vpos _ =>
            match v with
            | .bool b => pure (.value (.bool b) pos)
            | v => NM.panic (.typeError v (bs "bool")) vpos
      else do
        let o ← rec (E.skip (declsExpr l)) (.expr m r)
        go o pos fun v' vpos' _ => do
          let r ← NM.other (M.reads (fun h => strictValue w h n op pos v vpos v' vpos'))
          pure (.value r pos)
  | .if_ c t e pos => do
    let o ← rec E (.expr m c)
    go o pos fun v vpos _ =>
      match v with
      | .bool true => do
        let o ← rec (E.skip (declsExpr c)) (.block m t)
        pure ⟨o.flow, pos, .nil⟩
      | .bool false => do
        let o ← rec (E.skip (declsExpr c + declsBlock t)) (.block m e)
        pure ⟨o.flow, pos, .nil⟩
      | v => NM.panic (.invalidCondition v) vpos
  | .access obj field pos => do
    let o ← rec E (.expr m obj)
    go o pos fun v vpos _ => do
      let o ← rec (E.skip (declsExpr obj)) (.expr m field)
      go o pos fun f fpos _ => do
        let r ← NM.other (M.reads (fun h => accessValue h n v vpos f fpos))
        pure ⟨.regular r, pos, v⟩
  | .call f args pos => do
    let o ← rec E (.expr m f)
    go o pos fun v vpos obj =>
      match v with
      | .function g => do
        let s ← NM.other M.get
        let o ← rec (E.skip (declsExpr f)) (.args m args s.args.length)
        go o pos fun _ _ _ => do
          let o ← rec Env.empty (.call m obj g s.args.length pos)
          pure ⟨o.flow, pos, .nil⟩
      | v => NM.panic (.invalidCall v) vpos
  | .command b pos => do
    let v ← command w E b
    pure (.value v pos)

/-- Statements other than declarations. -/
def stmt (n : Nat) (rec : Rec) (E : Env) (m : Nat) (s : Ast.Stmt) : NM Out :=
  match s with
  | .illFormed => NM.never
  | .let_ _ _ _ => NM.never
  | .assign l r _ => do
    let o ← rec (E.skip (declsExpr l)) (.expr m r)
    go o noPos fun v _ _ =>
      match l with
      | .ident x _ => do
        assign (E.names.lookup x) v
        pure (.value .nil noPos)
      | .access obj field pos => do
        let o ← rec E (.expr m obj)
        go o noPos fun o' opos _ => do
          let o ← rec (E.skip (declsExpr obj)) (.expr m field)
          go o noPos fun field fpos _ => do
            let h ← NM.other (M.reads (fun h => assignValue h n o' opos field fpos v pos))
            NM.other (M.modify (fun s => { s with heap := h }))
            pure (.value .nil noPos)
      | _ => NM.never
  | .return_ e _ => do
    let o ← rec E (.expr m e)
    match o.flow with
    | .regular v => pure ⟨.return_ v, noPos, .nil⟩
    | f => pure ⟨f, noPos, .nil⟩
  | .break_ _ => pure ⟨.break_, noPos, .nil⟩
  | .while_ c b _ => rec E (.loop m c b)
  | .for_ x e b _ => do
    let o ← rec E (.expr m e)
    go o noPos fun v vpos _ =>
      match v, E.own.drop (declsExpr e) with
      | .function f, y :: own => rec ⟨(x, y) :: E.names, E.self, own⟩ (.iter m y f vpos b)
      | .function _, [] => NM.never
      | v, _ => NM.panic (.typeError v (bs "function")) vpos
  | .expr e => rec E (.expr m e)

/-- The first statement of a block. A declared variable is visible in its initialiser. -/
def first (rec : Rec) (E : Env) (m : Nat) (s : Ast.Stmt) : NM Out :=
  match s with
  | .let_ x e _ =>
    match E.own with
    | y :: own => rec ⟨(x, y) :: E.names, E.self, own⟩ (.init m y e)
    | [] => NM.never
  | s => rec E (.stmt m s)

/-- What the rest of a block can see: its declarations, but not those inside statements. -/
def behind (E : Env) (s : Ast.Stmt) : Env :=
  match s, E.own with
  | .let_ x e _, y :: own => ⟨(x, y) :: E.names, E.self, own.drop (declsExpr e)⟩
  | s, _ => E.skip (declsStmt s)

/-- `std.catch`. -/
def catching (w : World) (m : NM Out) : NM Value := fun s r =>
  (∃ o s', m s (.ok o, s') ∧ result o s' r) ∨
  (∃ p s', m s (.error (.panic p), s') ∧
    r = (.ok (s'.base.heap.newError (bs "caught panic: " ++ w.showPanic s'.base.heap p) (.string (bs "panic"))).1,
      { s' with base := { s'.base with heap :=
          (s'.base.heap.newError (bs "caught panic: " ++ w.showPanic s'.base.heap p) (.string (bs "panic"))).2 } })) ∨
  (∃ e s', m s (.error e, s') ∧ (∀ p, e ≠ .panic p) ∧ r = (.error e, s'))

/-- Loading a module: it is executed if it has no syntax errors and no static errors. -/
def load (w : World) (rec : Rec) (path : Sym) (pos : Pos) : NM Value := do
  let s ← NM.other M.get
  NM.other (record (.load path))
  match w.readFile s.trace path with
  | .error e => NM.panic (.io e) pos
  | .ok src =>
    match syntaxAnalysis src with
    | none => NM.crash .todo
    | some a =>
      if a.isOk then
        match analyze a.ast with
        | .ok _ => do
          NM.other (M.modify (fun s => { s with files := s.files ++ [path] }))
          let o ← rec Env.empty (.program s.files.length a.ast)
          result o
        | .errors _ => NM.panic (.importFailed path) pos
        | .crash => NM.crash .todo
      else NM.panic (.importFailed path) pos

/-- `std.import`. -/
def import_ (w : World) (rec : Rec) (m : Nat) (args : List Value) (pos : Pos) : NM Value :=
  match args with
  | [.string target] => do
    let s ← NM.other M.get
    match w.resolve s.trace (s.file m) target with
    | .error e => NM.panic (.io e) pos
    | .ok path =>
      match s.modules.lookup path with
      | some v => do
        NM.other (record (.imported path v))
        pure v
      | none =>
        let v ← load w rec path pos
        NM.other (M.modify (fun s => { s with modules := (path, v) :: s.modules }))
        NM.other (record (.imported path v))
        pure v
  | [v] => NM.panic (.typeError v (bs "string")) pos
  | args => NM.panic (.invalidArgs args.length 1) pos

/-- Native functions. -/
def native (w : World) (n : Nat) (rec : Rec) (m : Nat) (name : Bytes) (addr : Nat) (start : Nat) (pos : Pos) : NM Value := do
  let s ← NM.other M.get
  let args := s.args.drop start
  if name = bs "std.catch" then
    match args with
    | [.function f] => catching w (rec Env.empty (.call m .nil f (start + 1) pos))
    | [v] => NM.panic (.typeError v (bs "function")) pos
    | args => NM.panic (.invalidArgs args.length 1) pos
  else if name = bs "std.bind<impl>" then
    match s.heap.native addr with
    | .bound obj f => do
      let o ← rec Env.empty (.call m obj f start pos)
      result o
    | _ => NM.crash .native
  else if name = bs "std.import" then import_ w rec m args pos
  else if name = bs "<command>.join" then NM.other (joinCommand w addr pos)
  else NM.other (callLib w n name addr args pos)

/-- Run and then change the state in every case. -/
def finally_ (m : NM α) (f : RState → RState) : NM α := fun s r =>
  ∃ x s', m s (x, s') ∧ r = (x, { s' with base := f s'.base })

/-- The body of a function in new variables, with arguments: it sees its parameters and what was visible where it was created. -/
def body (rec : Rec) (obj : Value) (f : Fun) (args : List Value) (pos : Pos) : NM Out := do
  if args.length ≠ f.params.length then NM.panic (.invalidArgs args.length f.params.length) pos
  else do
    mayOverflow pos
    let vars ← newVars f.params.length (declsBlock f.body)
    assignAll vars.1 args
    assignSelf vars.2.2 obj
    let o ← rec ⟨((f.params.map (·.1)).zip vars.1).reverse ++ f.names, vars.2.2, vars.2.1⟩ (.block f.module f.body)
    match o.flow with
    | .regular v => pure (.value v pos)
    | .return_ v => pure (.value v pos)
    | .break_ => NM.crash .flow

/-- Calls. -/
def call (w : World) (n : Nat) (rec : Rec) (m : Nat) (obj : Value) (f : Fn) (start : Nat) (pos : Pos) : NM Out := fun s r =>
  if s.base.args.length < start then r = (.error (.crash .slot), s)
  else
    match f with
    | .hush a =>
      (do
        NM.other (M.modify (fun s => { s with args := s.args.take start }))
        body rec obj (s.funs.getD a default) (s.base.args.drop start) pos : NM Out) s r
    | .native name addr =>
      (do
        let v ← finally_ (native w n rec m name addr start pos) (fun s => { s with args := s.args.take start })
        pure (.value v pos) : NM Out) s r

/-- Modules: only `std` is visible at first. -/
def program (rec : Rec) (m : Nat) (b : Ast.Block) : NM Out := do
  mayOverflow noPos
  let vars ← newVars 1 (declsBlock b)
  let s ← NM.other M.get
  assignAll vars.1 [s.std]
  let o ← rec ⟨[bs "std"].zip vars.1, none, vars.2.1⟩ (.block m b)
  match o.flow with
  | .regular v => pure (.value v noPos)
  | _ => NM.crash .flow

/-- One job. -/
def step (w : World) (n : Nat) (rec : Rec) (E : Env) : Job → NM Out
  | .expr m e => expr w n rec E m e
  | .items _ [] acc => do
    let v ← NM.other (M.alloc (fun h => h.newArray acc))
    pure (.value v noPos)
  | .items m (e :: es) acc => do
    let o ← rec E (.expr m e)
    go o noPos fun v _ _ => rec (E.skip (declsExpr e)) (.items m es (acc ++ [v]))
  | .fields _ [] acc => do
    let v ← NM.other (M.alloc (fun h => h.newDict acc))
    pure (.value v noPos)
  | .fields m (((k, _), e) :: fs) acc => do
    let o ← rec E (.expr m e)
    go o noPos fun v _ _ => rec (E.skip (declsExpr e)) (.fields m fs (fieldInsert k v acc))
  | .args _ [] _ => pure (.value .nil noPos)
  | .args m (e :: es) start => do
    let o ← rec E (.expr m e)
    match o.flow with
    | .regular v => do
      NM.other (M.modify (fun s => { s with args := s.args ++ [v] }))
      rec (E.skip (declsExpr e)) (.args m es start)
    | f => do
      NM.other (M.modify (fun s => { s with args := s.args.take start }))
      pure ⟨f, noPos, .nil⟩
  | .init m x e => do
    let o ← rec E (.expr m e)
    go o noPos fun v _ _ => do
      assign (some x) v
      pure (.value .nil noPos)
  | .stmt m s => stmt n rec E m s
  | .block _ [] => pure (.value .nil noPos)
  | .block m [s] => first rec E m s
  | .block m (s :: rest) => do
    let o ← first rec E m s
    go o noPos fun _ _ _ => rec (behind E s) (.block m rest)
  | .loop m c b => do
    let o ← rec E (.expr m c)
    go o noPos fun v vpos _ =>
      match v with
      | .bool true => do
        let o ← rec (E.skip (declsExpr c)) (.block m b)
        afterBody o (rec E (.loop m c b))
      | .bool false => pure (.value .nil noPos)
      | v => NM.panic (.invalidCondition v) vpos
  | .iter m x f pos b => do
    let s ← NM.other M.get
    let o ← rec Env.empty (.call m .nil f s.args.length pos)
    let v ← result o
    match ← NM.other (M.reads (fun h => nextValue h n v pos)) with
    | none => pure (.value .nil noPos)
    | some v => do
      assign (some x) v
      let o ← rec E (.block m b)
      afterBody o (rec E (.iter m x f pos b))
  | .call m obj f start pos => call w n rec m obj f start pos
  | .program m b => program rec m b

/-- The evaluation with a budget, as in the model. -/
def run (w : World) : Nat → Rec
  | 0, _, _ => NM.stop .timeout
  | n + 1, E, j => step w n (run w n) E j

/-- The possible outcomes of the execution of a syntax tree from the start. -/
def Runs (w : World) (n : Nat) (b : Ast.Block) (argv : List Bytes) (file : Sym) (r : Except Stop Out × State) : Prop :=
  run w n Env.empty (.program 0 b) ⟨RState.init argv file, []⟩ r

end Src
end Spec
end Hush

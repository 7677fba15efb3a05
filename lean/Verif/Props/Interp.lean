import Verif.Lemmas.InterpReach
import Verif.Lemmas.ProgEq
import Verif.Props.Binding

/-!
Properties C16, C17, C18, C26 and C48: what executions of accepted programs cannot do.
-/

namespace Hush.Props
open Hush Hush.Spec

/-! ### A world for examples -/

/-- A world with the given files in which nothing else can be done. -/
def fileWorld (files : Bytes → Option Bytes) : World where
  checks := true
  limit := 100
  fneg x := x
  fadd x _ := x
  fsub x _ := x
  fmul x _ := x
  fdiv x _ := x
  frem x _ := x
  ofInt _ := 0
  parseFloat _ := 0
  floatText _ := []
  jsonFloat _ := []
  jsonNumber _ := none
  errorText _ _ := []
  plain _ _ := true
  pathText _ := []
  floatDisplay _ := []
  showPanic _ _ := []
  native _ _ _ _ _ := .crash
  command _ _ _ := .crash
  joined _ _ := .crash
  home _ := none
  resolve _ _ t := .ok t
  readFile _ p := match files p with
    | some src => .ok src
    | none => .error []

/-! ### C16 -/

/-- C16, partially: the execution of an accepted program never accesses a missing variable slot (or argument) and never meets
impossible control flow. Missing from C16: that there is no other Rust panic; see `no_crash_violated`. -/
theorem no_internal_crash_partial (src : Bytes) (p : Program) (h : Accepts src p) (w : World) (n : Nat) (argv : List Bytes)
    (file : Sym) (e : Stop) (he : (runProgram w n p argv file).1 = .error e) : e ≠ .crash .slot ∧ e ≠ .crash .flow := by
  have := run_ok w n ⟨0, false, false⟩ (.program 0 p) (RState.init argv file) (program_pre h)
  simp only [Runs] at this
  simp only [runProgram] at he
  rcases hm : run w n (.program 0 p) (RState.init argv file) with ⟨e' | o, s1⟩
  · rw [hm] at this he
    cases he
    exact this.1
  · rw [hm] at he; cases he

/-- The program `let d = @[] d[d] = 1`. -/
def borrowProgram : Program :=
  ⟨[.assign (.ident 1 (q 4)) (.lit (.dict []) (q 8)),
    .assign (.access (.ident 1 (q 12)) (.ident 1 (q 14)) (q 13)) (.lit (.int 1) (q 19))], 2⟩

set_option maxRecDepth 100000 in
/-- C16 is violated: an accepted program that makes the interpreter panic (the dict is borrowed mutably while it is hashed). -/
theorem no_crash_violated : ∃ src p w n, Accepts src p ∧ (runProgram w n p [] []).1 = .error (.crash .borrow) :=
  ⟨bs "let d = @[] d[d] = 1", borrowProgram, fileWorld fun _ => none, 10, accepts_of (by decide +kernel), by decide +kernel⟩

/-- The program `let f = function (a, b) return a end std.len(f(1, 2))`. -/
def panicProgram : Program :=
  ⟨[.assign (.ident 1 (q 4)) (.lit (.function 2 ⟨2, [], none⟩ [.return_ (.ident 0 (q 31))]) (q 8)),
    .expr (.call (.access (.ident 0 (q 37)) (.lit (.ident (bs "len")) (q 41)) (q 40))
      [.call (.ident 1 (q 45)) [.lit (.int 1) (q 47), .lit (.int 2) (q 50)] (q 46)] (q 44))], 2⟩

-- An accepted program with a call of a function.
set_option maxRecDepth 100000 in
example : Accepts (bs "let f = function (a, b) return a end std.len(f(1, 2))") panicProgram := accepts_of (by decide +kernel)

-- Its execution ends with a panic of the language.
set_option maxRecDepth 100000 in
example : (runProgram (fileWorld fun _ => none) 15 panicProgram [] []).1
    = .error (.panic ⟨.typeError (.int 1) (bs "string, array or dict"), q 44⟩) := by decide +kernel

/-! ### C17 -/

/-- C17, partially: in the execution of an accepted program, after a call that returned or stopped (with a panic, say) the stack is
what it was, slot by slot, provided that every module that was loaded in the course of it was completed; in any case slots are only
added on top. No
arguments are pending after a call that returned, nor after the call of a native function such as `std.catch` that panicked.
(A slot of a captured variable refers to a cell, whose contents may change.)
Missing from C17: that nothing is added on top even if a module fails; see `calls_balanced_violated`. -/
theorem calls_balanced_partial (w : World) (src : Bytes) (k : Nat) (m : Nat) (obj : Value) (f : Fn) (start : Nat) (pos : Pos)
    (s : RState) (h : Performed w src k (.call m obj f start pos) s) (r : Except Stop Out) (s' : RState)
    (hr : run w k (.call m obj f start pos) s = (r, s')) :
    (∃ junk, s'.stack = junk ++ s.stack) ∧
    (AllCompleted s s' → s'.stack = s.stack) ∧
    ((∃ o, r = .ok o) ∨ 0 < k ∧ (∃ name addr, f = .native name addr) → s'.args = s.args.take start) := by
  obtain ⟨c, hp, h1⟩ := performed_runs h
  simp only [Runs, hr] at h1
  have core : Core 0 s s' := by
    cases r with
    | ok o => exact h1.1
    | error e => exact h1.2.1
  obtain ⟨j, hl, hn, hd⟩ := core.stack
  rw [Nat.zero_add, List.drop_zero] at hd
  refine ⟨⟨s'.stack.take j, by rw [← hd, List.take_append_drop]⟩, ?_, ?_⟩
  · intro hq
    have hj := core.quiet.leaked (let ⟨evs, he, _⟩ := core.rest.trace; ⟨evs, he.symm⟩) hq
    have : j = 0 := by omega
    rw [this, List.drop_zero] at hd
    exact hd
  · rintro (⟨o, rfl⟩ | ⟨hk, name, addr, rfl⟩)
    · exact h1.2.2
    · obtain ⟨k, rfl⟩ : ∃ k', k = k' + 1 := ⟨k - 1, by omega⟩
      cases r with
      | ok o => exact h1.2.2
      | error e =>
        have h0 : ¬ s.args.length < start := Nat.not_lt.2 hp.2
        have h3 := native_ok (w := w) (n := k) (m := m) (name := name) (addr := addr) (pos := pos) (run_ok w k) hp.1 hp.2
        simp only [NativeOk, Runs] at h3
        simp only [run, step, stepCall, if_neg h0, bind, M.andThen, finally_, pure, M.ret] at hr
        rcases hm : nativeCall w k (run w k) m name addr start pos s with ⟨e' | v, s1⟩
        · rw [hm] at h3 hr
          simp only [Prod.mk.injEq] at hr
          obtain ⟨_, rfl⟩ := hr
          exact take_of_prefix h3.2.2 hp.2
        · rw [hm] at hr; simp at hr

/-- The callee and the arguments of the call in the program `std.catch(function() std.import("m") end)`. -/
def catchCallee : Prog.Expr := .access (.ident 0 (q 0)) (.lit (.ident (bs "catch")) (q 4)) (q 3)
/-- See `catchCallee`. -/
def catchArgs : List Prog.Expr :=
  [.lit (.function 0 ⟨1, [⟨0, 0⟩], none⟩
    [.expr (.call (.access (.ident 0 (q 21)) (.lit (.ident (bs "import")) (q 25)) (q 24)) [.lit (.string (bs "m")) (q 32)] (q 31))])
    (q 10)]

/-- A world in which the source of every module is `nil()`, which panics. -/
def nilWorld : World := fileWorld fun _ => some (bs "nil()")

/-- The state in which the program starts. -/
def startState : RState := { RState.init [] [] with stack := [.regular (.dict 3)] }
/-- The state after the callee has been evaluated. -/
def calleeState : RState := (run nilWorld 16 (.expr 0 none catchCallee) startState).2
/-- The state after the arguments have been evaluated: this is when the call is performed. -/
def argsState : RState := (run nilWorld 16 (.args 0 catchArgs 0) calleeState).2

set_option maxRecDepth 100000 in
theorem catch_call_performed : Performed nilWorld (bs "std.catch(function() std.import(\"m\") end)") 16
    (.call 0 (.dict 3) (.native (bs "std.catch") 0) 0 (q 9)) argsState := by
  have h1 : (run nilWorld 16 (.expr 0 none catchCallee) startState).1 = .ok ⟨.regular (stdFn (bs "catch")), q 3, .dict 3⟩ := by
    decide +kernel
  have h2 : (run nilWorld 16 (.args 0 catchArgs 0) calleeState).1 = .ok ⟨.regular .nil, noPos, .nil⟩ := by
    decide +kernel
  have h3 : calleeState.args = [] := by decide +kernel
  refine ⟨⟨[.expr (.call catchCallee catchArgs (q 9))], 1⟩, [], [], 20, accepts_of (by decide +kernel), ?_⟩
  refine .sub (starts_program (s1 := { RState.init [] [] with stack := [.regular .nil] }) (s2 := startState) rfl rfl) ?_
  refine .sub starts_last (.sub starts_stmtExpr ?_)
  have := starts_call (w := nilWorld) (n := 16) (m := 0) (tail := none) (f := catchCallee) (args := catchArgs) (pos := q 9)
    (s := startState) (o := ⟨.regular (stdFn (bs "catch")), q 3, .dict 3⟩) (s1 := calleeState)
    (o2 := ⟨.regular .nil, noPos, .nil⟩) (v2 := .nil) (s2 := argsState) (s3 := argsState)
    (fn := .native (bs "std.catch") 0) (Prod.ext h1 rfl) rfl (by rw [h3]; exact Prod.ext h2 rfl) rfl rfl
  rw [h3] at this
  exact .sub this (.self _ _ _)

set_option maxRecDepth 100000 in
/-- C17 is violated: the call of `std.catch` in `std.catch(function() std.import("m") end)`, where the module `m` panics, returns and leaves
the stack one slot higher than it was. -/
theorem calls_balanced_violated : ∃ src k m obj f start pos s,
    Performed nilWorld src k (.call m obj f start pos) s ∧ (run nilWorld k (.call m obj f start pos) s).1.isOk = true ∧
    (run nilWorld k (.call m obj f start pos) s).2.stack.length = s.stack.length + 1 :=
  ⟨_, _, _, _, _, _, _, _, catch_call_performed, by decide +kernel, by decide +kernel⟩

/-! ### C18 -/

/-- The program `let x = 5 std.catch(function() std.import("m") end) x`. -/
def catchProgram : Program :=
  ⟨[.assign (.ident 1 (q 4)) (.lit (.int 5) (q 8)),
    .expr (.call (.access (.ident 0 (q 10)) (.lit (.ident (bs "catch")) (q 14)) (q 13))
      [.lit (.function 0 ⟨1, [⟨0, 0⟩], none⟩
        [.expr (.call (.access (.ident 0 (q 31)) (.lit (.ident (bs "import")) (q 35)) (q 34)) [.lit (.string (bs "m")) (q 42)] (q 41))])
        (q 20)] (q 19)),
    .expr (.ident 1 (q 52))], 2⟩

set_option maxRecDepth 100000 in
theorem catchProgram_accepted : Accepts (bs "let x = 5 std.catch(function() std.import(\"m\") end) x") catchProgram :=
  accepts_of (by decide +kernel)

set_option maxRecDepth 100000 in
/-- C18 is violated: in `let x = 5 std.catch(function() std.import("m") end) x`, if the module `m` panics, the last expression does not
have the value 5 but that of another variable (here `std`, a dict). -/
theorem failed_import_violated :
    Accepts (bs "let x = 5 std.catch(function() std.import(\"m\") end) x") catchProgram ∧
    (runProgram nilWorld 20 catchProgram [] []).1 = .ok ⟨.regular (.dict 3), noPos, .nil⟩ :=
  ⟨catchProgram_accepted, by decide +kernel⟩

/-! ### C26 -/

/-- C26: in the execution of an accepted program no task changes the description or the context of an existing error: errors
that exist when the task starts have the same fields when it ends or stops. (Strings are values, not objects.) -/
theorem errors_immutable (w : World) (src : Bytes) (k : Nat) (t : Task) (s : RState) (h : Performed w src k t s)
    (d : Bytes) (c : Nat) (hc : c < s.heap.contexts.length) (key : Value) :
    errorField (run w k t s).2.heap d c key = errorField s.heap d c key := by
  obtain ⟨site, hp, -⟩ := performed_runs h
  obtain ⟨l, hl⟩ := (runs_rest (w := w) (k := k) hp).1.heap.contexts
  simp only [errorField, Heap.context, ← hl, List.getD_eq_getElem?_getD, List.getElem?_append_left hc]

/-- C26: assigning to an element of a string or to a field of an error panics, and changes nothing: the state is the one after the
evaluation of the operands. -/
theorem assign_readonly (w : World) (n m : Nat) (tail : Option Nat) (obj field rhs : Prog.Expr) (pos : Pos) (s s1 s2 s3 : RState)
    (o1 o2 o3 : Out) (v1 v2 v3 : Value)
    (h1 : run w n (.expr m none rhs) s = (.ok o1, s1)) (f1 : o1.flow = .regular v1)
    (h2 : run w n (.expr m none obj) s1 = (.ok o2, s2)) (f2 : o2.flow = .regular v2)
    (h3 : run w n (.expr m none field) s2 = (.ok o3, s3)) (f3 : o3.flow = .regular v3)
    (hv : (∃ b, v2 = .string b) ∨ ∃ d c, v2 = .error d c) :
    ∃ p, run w (n + 1) (.stmt m tail (.assign (.access obj field pos) rhs)) s = (.error (.panic p), s3) := by
  simp only [run, step, stepStmt, bind, M.andThen, h1, Out.regular, f1, h2, f2, h3, f3, M.reads]
  rcases hv with ⟨b, rfl⟩ | ⟨d, c, rfl⟩
  · exact ⟨_, rfl⟩
  · exact ⟨_, rfl⟩

-- `"ab"[0] = nil`.
example : (run nilWorld 3 (.stmt 0 none (.assign (.access (.lit (.string (bs "ab")) (q 0)) (.lit (.int 0) (q 5)) (q 4)) (.lit .nil (q 9))))
    startState).1 = .error (.panic ⟨.typeError (.string (bs "ab")) (bs "array, dict or error"), q 0⟩) := rfl

/-! ### C48 -/

/-- C48, for the whole execution of an accepted program: once an import of a module has returned, the module is not loaded again; and
if a module was loaded only once, all its imports returned the same value.
Missing from C48: a module that imports itself (directly or not) while it is being evaluated may be evaluated more than once, and its
imports return different values; see `evaluated_once_violated`. -/
theorem evaluated_once_partial (src : Bytes) (p : Program) (h : Accepts src p) (w : World) (n : Nat) (argv : List Bytes) (file : Sym) :
    let tr := (runProgram w n p argv file).2.trace
    (∀ before after path v, tr = before ++ .imported path v :: after → .load path ∉ after) ∧
    (∀ path v v', tr.count (.load path) ≤ 1 → .imported path v ∈ tr → .imported path v' ∈ tr → v = v') := by
  obtain ⟨evs, he, hh⟩ := (runs_rest (w := w) (k := n) (program_pre (argv := argv) (file := file) (c := ⟨0, false, false⟩) h)).1.trace
  have ht : (runProgram w n p argv file).2.trace = evs := he
  simp only [ht]
  refine ⟨?_, ?_⟩
  · intro before after path v hx hl
    have := hh.once
    rw [hx, List.pairwise_append, List.pairwise_cons] at this
    exact this.2.1.1 _ hl path v rfl rfl
  · intro path v v' hc h1 h2
    have := hh.single path v h1 hc
    rw [hh.single path v' h2 hc] at this
    simpa using this.symm

/-- C48: an import that returns leaves the event `imported` with the value it returns; it loads the module only if it was not known, and then
leaves the event `load` first. -/
theorem import_returns (w : World) (n m : Nat) (obj : Value) (addr start : Nat) (pos : Pos) (s : RState) (target : Bytes) (path : Sym)
    (ha : s.args.drop start = [.string target]) (hs : start ≤ s.args.length) (hp : w.resolve s.trace (s.file m) target = .ok path)
    (o : Out) (s' : RState) (hr : run w (n + 1) (.call m obj (.native (bs "std.import") addr) start pos) s = (.ok o, s')) :
    ∃ v, o.flow = .regular v ∧ s'.modules.lookup path = some v ∧
      (match s.modules.lookup path with
       | some u => v = u ∧ s'.trace = s.trace ++ [.imported path v]
       | none => ∃ s1, loadModule w (run w n) path pos s = (.ok v, s1) ∧ s'.trace = s1.trace ++ [.imported path v]) := by
  have n1 : ¬ bs "std.import" = bs "std.catch" := by decide
  have n2 : ¬ bs "std.import" = bs "std.bind<impl>" := by decide
  simp only [run, step, stepCall, if_neg (Nat.not_lt.2 hs), bind, M.andThen, finally_, nativeCall, M.get, if_neg n1, if_neg n2, if_pos,
    ha, importModule, hp] at hr
  cases hl : s.modules.lookup path with
  | some u =>
    simp only [hl, record, M.modify, M.andThen, pure, M.ret, Prod.mk.injEq, Except.ok.injEq] at hr
    obtain ⟨rfl, rfl⟩ := hr
    exact ⟨u, rfl, hl, rfl, rfl⟩
  | none =>
    simp only [hl, M.andThen] at hr
    rcases hm : loadModule w (run w n) path pos s with ⟨e | v, s1⟩
    · rw [hm] at hr; simp at hr
    · rw [hm] at hr
      simp only [record, M.modify, M.andThen, pure, M.ret, Prod.mk.injEq, Except.ok.injEq] at hr
      obtain ⟨rfl, rfl⟩ := hr
      exact ⟨v, rfl, by simp, s1, rfl, rfl⟩

/-- The program `std.import("m")`. -/
def importProgram : Program :=
  ⟨[.expr (.call (.access (.ident 0 (q 0)) (.lit (.ident (bs "import")) (q 4)) (q 3)) [.lit (.string (bs "m")) (q 11)] (q 10))], 1⟩

/-- A world in which the module `m` imports itself, the first time that it is evaluated. -/
def circularWorld : World := fileWorld fun _ =>
  some (bs "let a = std.args() if std.len(a) == 0 then std.push(a, 1) std.import(\"m\") end @[]")

set_option maxRecDepth 100000 in
/-- C48 is violated: a module is evaluated twice, successfully, and its imports return different dicts. -/
theorem evaluated_once_violated :
    Accepts (bs "std.import(\"m\")") importProgram ∧
    (runProgram circularWorld 40 importProgram [] []).2.trace =
      [.load (bs "m"), .load (bs "m"), .imported (bs "m") (.dict 4), .imported (bs "m") (.dict 5)] :=
  ⟨accepts_of (by decide +kernel), by decide +kernel⟩

/-- The program `std.import("m") std.import("m")`. -/
def importTwice : Program :=
  ⟨[.expr (.call (.access (.ident 0 (q 0)) (.lit (.ident (bs "import")) (q 4)) (q 3)) [.lit (.string (bs "m")) (q 11)] (q 10)),
    .expr (.call (.access (.ident 0 (q 16)) (.lit (.ident (bs "import")) (q 20)) (q 19)) [.lit (.string (bs "m")) (q 27)] (q 26))], 1⟩

set_option maxRecDepth 100000 in
-- An execution with two imports of a module and one load.
example : Accepts (bs "std.import(\"m\") std.import(\"m\")") importTwice ∧
    (runProgram (fileWorld fun _ => some (bs "@[]")) 20 importTwice [] []).2.trace =
      [.load (bs "m"), .imported (bs "m") (.dict 4), .imported (bs "m") (.dict 4)] :=
  ⟨accepts_of (by decide +kernel), by decide +kernel⟩

end Hush.Props

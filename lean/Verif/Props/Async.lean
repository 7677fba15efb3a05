import Verif.Lemmas.Joins
import Verif.Props.Interp

/-!
Property C42: asynchronous commands are joined exactly once.
-/

namespace Hush.Props
open Hush Hush.Spec

/-- The function `join` in the value of an asynchronous block. -/
def joinFn (a : Nat) : Fn := .native (bs "<command>.join") a

/-- Tasks that are performed after or in a task which is performed from `s`: `s'` is the state at the end of the task, or one in which
some task is started in its course. -/
def After (w : World) (k : Nat) (t : Task) (s s' : RState) : Prop :=
  s' = (run w k t s).2 ∨ ∃ k' t', Reaches w k t s k' t' s'

/-- C42: the value of an asynchronous block is a dict with the function `join`; the block is started (once) and its handle is
open. -/
theorem async_started (w : World) (n m : Nat) (tail : Option Nat) (b : Prog.CommandBlock) (pos : Pos) (s : RState) (o : Out) (s' : RState)
    (hb : b.kind = .asynchronous) (h : run w (n + 1) (.expr m tail (.command b pos)) s = (.ok o, s')) :
    ∃ (d a : Nat) (ex : ExBlock), o = ⟨.regular (.dict d), pos, .nil⟩ ∧
      s'.heap.dict d = [(.string (bs "join"), .function (joinFn a))] ∧
      s'.heap.natives[a]? = some (.join (some s.trace.length)) ∧ s.heap.natives[a]? = none ∧
      s'.trace = s.trace ++ [.command .asynchronous ex] := by
  rcases b with ⟨kind, head, rest⟩
  cases hb
  simp only [run, step, stepExpr, evalCommand, bind, M.andThen, M.get] at h
  cases hx : buildBlock (argEnv w s) head rest with
  | error e => rw [hx] at h; cases h
  | ok ex =>
    rw [hx] at h
    cases h
    refine ⟨s.heap.dicts.length, s.heap.natives.length, ex, rfl, ?_, ?_, ?_, rfl⟩
    · show (s.heap.dicts ++ [_]).getD _ _ = _
      simp [joinFn]
    · show (s.heap.natives ++ [_])[_]? = _
      simp
    · simp

/-- C42, a call of `join` when the handle is open: it waits for the command, and returns its result (or fails as it did); the handle is
used up. -/
theorem join_returns (w : World) (n m a t start : Nat) (obj : Value) (pos : Pos) (s : RState) (hs : start ≤ s.args.length)
    (h : s.heap.natives[a]? = some (.join (some t))) :
    let r := run w (n + 1) (.call m obj (joinFn a) start pos) s
    r.2.trace = s.trace ++ [.join t] ∧ r.2.heap.natives[a]? = some (.join none) ∧
    (∀ x, w.joined s.trace t = .value x → ∃ h, r.1 = .ok ⟨.regular (x.build [] h).1, pos, .nil⟩) ∧
    (∀ p, w.joined s.trace t = .panic p → r.1 = .error (.panic p)) := by
  have hn : s.heap.native a = .join (some t) := by simp [Heap.native, List.getD_eq_getElem?_getD, h]
  have e1 : ¬ (bs "<command>.join" = bs "std.catch") := by decide
  have e2 : ¬ (bs "<command>.join" = bs "std.bind<impl>") := by decide
  have e3 : ¬ (bs "<command>.join" = bs "std.import") := by decide
  have hl : (s.heap.setNative a (.join none)).natives[a]? = some (.join none) :=
    List.getElem?_set_self (lt_of_getElem?_some h)
  simp only [joinFn, run, step, stepCall, if_neg (Nat.not_lt.2 hs), bind, M.andThen, finally_, nativeCall, M.get, if_neg e1, if_neg e2,
    if_neg e3, if_true, joinCommand, hn, M.modify, record]
  cases hj : w.joined s.trace t with
  | value x =>
    refine ⟨rfl, ?_, ?_, by simp⟩
    · exact (keeps_build [] (s.heap.setNative a (.join none)) x).joins a none |>.2 hl
    · rintro x' ⟨⟩; exact ⟨_, rfl⟩
  | panic p => exact ⟨rfl, hl, by simp, by rintro _ ⟨⟩; rfl⟩
  | crash => exact ⟨rfl, hl, by simp, by simp⟩
  | exit c => exact ⟨rfl, hl, by simp, by simp⟩

/-- C42, a call of `join` when the handle is used up: it panics; nothing happens otherwise (the arguments are taken off). -/
theorem join_panics (w : World) (n m a start : Nat) (obj : Value) (pos : Pos) (s : RState) (hs : start ≤ s.args.length)
    (h : s.heap.natives[a]? = some (.join none)) :
    run w (n + 1) (.call m obj (joinFn a) start pos) s =
      (.error (.panic ⟨.invalidJoin, pos⟩), { s with args := s.args.take start }) := by
  have hn : s.heap.native a = .join none := by simp [Heap.native, List.getD_eq_getElem?_getD, h]
  have e1 : ¬ (bs "<command>.join" = bs "std.catch") := by decide
  have e2 : ¬ (bs "<command>.join" = bs "std.bind<impl>") := by decide
  have e3 : ¬ (bs "<command>.join" = bs "std.import") := by decide
  simp only [joinFn, run, step, stepCall, if_neg (Nat.not_lt.2 hs), bind, M.andThen, finally_, nativeCall, M.get, if_neg e1, if_neg e2,
    if_neg e3, if_true, joinCommand, hn]
  rfl

/-- C42, in every execution of an accepted program: suppose that the handle `a` of the command `t` is open. Whenever `join` is called
afterwards, if the command was not yet joined the call waits for it and returns its result; otherwise the call panics. -/
theorem join_once (w : World) (src : Bytes) (k : Nat) (task : Task) (s s' : RState) (hp : Performed w src k task s) (a t : Nat)
    (ha : s.heap.natives[a]? = some (.join (some t))) (hl : After w k task s s')
    (n m start : Nat) (obj : Value) (pos : Pos) (hs : start ≤ s'.args.length) :
    let r := run w (n + 1) (.call m obj (joinFn a) start pos) s'
    (.join t ∉ s'.trace → r.2.trace = s'.trace ++ [.join t] ∧
      (∀ x, w.joined s'.trace t = .value x → ∃ h, r.1 = .ok ⟨.regular (x.build [] h).1, pos, .nil⟩) ∧
      (∀ p, w.joined s'.trace t = .panic p → r.1 = .error (.panic p))) ∧
    (.join t ∈ s'.trace → r.2.trace = s'.trace ∧ r.1 = .error (.panic ⟨.invalidJoin, pos⟩)) := by
  obtain ⟨c, hc⟩ := performed_pre hp
  have h0 : Life a t s := ⟨performed_handles hp, .inl ⟨ha, ((performed_handles hp).opened a t ha).2.1⟩⟩
  have h1 : Life a t s' := by
    rcases hl with rfl | ⟨k', t', hr⟩
    · exact stable_run (stable_life a t) w k task s h0
    · exact stable_reaches (stable_life a t) hr hc h0
  refine ⟨fun ht => ?_, fun ht => ?_⟩
  · rcases h1.2 with ⟨h2, -⟩ | ⟨-, h2⟩
    · obtain ⟨r1, -, r3, r4⟩ := join_returns w n m a t start obj pos s' hs h2
      exact ⟨r1, r3, r4⟩
    · exact absurd h2 ht
  · rcases h1.2 with ⟨-, h2⟩ | ⟨h2, -⟩
    · exact absurd ht h2
    · rw [join_panics w n m a start obj pos s' hs h2]
      exact ⟨rfl, rfl⟩

/-- C42, for the whole execution of a program: no asynchronous command is waited for more than once, and only commands that
were started are. -/
theorem joined_once (p : Program) (w : World) (n : Nat) (argv : List Bytes) (file : Sym) :
    let tr := (runProgram w n p argv file).2.trace
    (∀ t, tr.count (.join t) ≤ 1) ∧
    ∀ (i t : Nat), tr[i]? = some (.join t) → t < i ∧ ∃ ex, tr[t]? = some (.command .asynchronous ex) := by
  have := stable_run stable_handles w n (.program 0 p) (RState.init argv file) (handles_init _ _)
  exact ⟨this.once, this.after⟩

/-! ### Examples -/

/-- A world in which asynchronous commands succeed. -/
def joinWorld : World := { nilWorld with joined := fun _ _ => .value .nil }

/-- The statement `let a = &{ x }`. -/
def asyncStmt : Prog.Stmt :=
  .assign (.ident 1 (q 4)) (.command ⟨.asynchronous,
    .external ⟨⟨[.unit (.literal [120])], q 11⟩, [], [], [], true, q 11⟩ [], []⟩ (q 8))
/-- The statement `a.join()` at the given column. -/
def joinStmt (n : Nat) : Prog.Stmt :=
  .expr (.call (.access (.ident 1 (q n)) (.lit (.ident (bs "join")) (q (n + 2))) (q (n + 1))) [] (q (n + 6)))

/-- The state in which the program starts. -/
def asyncStart : RState := { RState.init [] [] with stack := [.regular (.dict 3), .regular .nil] }
/-- The state after `let a = &{ x }`. -/
def asyncState : RState := (run joinWorld 18 (.stmt 0 none asyncStmt) asyncStart).2

set_option maxRecDepth 100000 in
theorem async_performed : Performed joinWorld (bs "let a = &{ x } a.join() a.join()") 18 (.block 0 none [joinStmt 15, joinStmt 24]) asyncState := by
  refine ⟨⟨[asyncStmt, joinStmt 15, joinStmt 24], 2⟩, [], [], 20, accepts_of (by decide +kernel), ?_⟩
  refine .sub (starts_program (s1 := { RState.init [] [] with stack := [.regular .nil, .regular .nil] }) (s2 := asyncStart) rfl rfl) ?_
  have h : (run joinWorld 18 (.stmt 0 none asyncStmt) asyncStart).1 = .ok ⟨.regular .nil, noPos, .nil⟩ := by decide +kernel
  exact .sub (starts_rest (o := ⟨.regular .nil, noPos, .nil⟩) (v := .nil) (s1 := asyncState) (Prod.ext h rfl) rfl) (.self _ _ _)

-- The first call returns, the second panics.
example : asyncState.heap.natives[1]? = some (.join (some 0)) ∧ After joinWorld 18 (.block 0 none [joinStmt 15, joinStmt 24]) asyncState asyncState :=
  ⟨by decide +kernel, .inr ⟨_, _, .self _ _ _⟩⟩
set_option maxRecDepth 100000 in
example : (run joinWorld 18 (.stmt 0 none (joinStmt 15)) asyncState).1 = .ok ⟨.regular .nil, q 21, .nil⟩ ∧
    (run joinWorld 18 (.stmt 0 none (joinStmt 15)) asyncState).2.trace.count (.join 0) = 1 ∧
    (run joinWorld 18 (.block 0 none [joinStmt 15, joinStmt 24]) asyncState).1 = .error (.panic ⟨.invalidJoin, q 30⟩) := by
  decide +kernel

end Hush.Props

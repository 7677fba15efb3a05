import Verif.Lemmas.InterpTail
import Verif.Props.Eval

/-!
Property C19: tail calls.
-/

namespace Hush.Props
open Hush Hush.Spec

/-! ### Chains of tail calls -/

/-- C19, partially: a function whose last statement is a call (returned or not) hands its variables back before it calls. So in the
execution of an accepted source, after any number `n` of such calls, one calling the next, the stack of variables is the one with
which the first call started; so the function called last gets its variables if and only if there would have been room for them
at the start, and the outcome and the final state of the first call are those of the last one. Missing from C19: calls that are last in
a branch of an `if` (see `tail_calls_violated`), and executions in which a module is loaded meanwhile and fails (it leaves
variables on the stack, see `failed_import_violated`). -/
theorem tail_calls_partial (w : World) (src : Bytes) (k n : Nat) (c c' : Invocation) (s s' : RState)
    (hp : Performed w src k c.task s) (h : TailCalls w n c s c' s') (hl : AllCompleted s s') :
    s'.stack = s.stack ∧
    (∀ a, c'.fn = .hush a → (s'.args.drop c'.start).length = (s'.heap.closure a).params →
      ((∃ s0, Begins w c'.self a c'.start c'.pos s' s0) ↔ s.stack.length + (s'.heap.closure a).frame.slots ≤ w.limit)) ∧
    (∀ r s'', Ends w c.task s r s'' ↔
      ∃ r' s1, Ends w c'.task s' r' s1 ∧ r = passed c.pos r' ∧ s'' = { s1 with shrunk := s.shrunk }) := by
  obtain ⟨site, hi, hc⟩ := performed_pre hp
  obtain ⟨l, hs, he⟩ := tailCalls_link h hi hc
  have hst : s'.stack = s.stack := by
    obtain ⟨j, h1, h2, h3⟩ := l.stack
    have : j = 0 := by
      have := l.quiet.leaked (let ⟨evs, he, _⟩ := l.rest.trace; ⟨evs, he.symm⟩) hl
      omega
    subst this
    simpa using h3
  refine ⟨hst, fun a _ hn => ?_, fun r s'' => he⟩
  constructor
  · rintro ⟨s0, _, _, s1, hb, _⟩
    obtain ⟨_, _, hx, _⟩ := bind_value hb
    simp only [extend] at hx
    split at hx
    · cases hx
    · rename_i hle
      have : s'.stack.length + (s'.heap.closure a).frame.slots ≤ w.limit := Nat.not_lt.1 hle
      rwa [hst] at this
  · intro hle
    obtain ⟨s1, h1⟩ := begins_of_room (obj := c'.self) (pos := c'.pos) l.inv hn (by rw [hst]; exact hle)
    exact ⟨_, hs, hn, s1, h1, rfl⟩

/-! ### A function that counts down -/

/-- The condition `n == 0`. -/
def isZero : Prog.Expr := .binary (.ident 0 (q 24)) .equals (.lit (.int 0) (q 29)) (q 26)

/-- The call `f(n - 1)`, in a column. -/
def next (i : Nat) : Prog.Expr :=
  .call (.ident 1 (q i)) [.binary (.ident 0 (q (i + 2))) .minus (.lit (.int 1) (q (i + 6))) (q (i + 4))] (q (i + 1))

/-- The function `function (n) if n == 0 then return 0 end return f(n - 1) end`. -/
def countdown : Closure :=
  ⟨1, ⟨2, [⟨1, 1⟩], none⟩, [.expr (.if_ isZero [.return_ (.lit (.int 0) (q 43))] [] (q 21)), .return_ (next 56)], [(0, 1)], 0, q 8⟩

/-- The function `function (n) if n == 0 then return 0 else return f(n - 1) end end`. -/
def countdown' : Closure :=
  ⟨1, ⟨2, [⟨1, 1⟩], none⟩, [.expr (.if_ isZero [.return_ (.lit (.int 0) (q 43))] [.return_ (next 57)] (q 21))], [(0, 1)], 0, q 8⟩

/-- The function is the only object of its kind, and the value of the variable that it captured. -/
structure Counting (c : Closure) (s : RState) : Prop where
  closures : s.heap.closures = [c]
  cell : s.heap.cell 0 = .function (.hush 0)

/-- The state at the start of the body. -/
def bodyState (pre : List Value) (i : Int) (s : RState) : RState :=
  { s with args := pre, stack := .regular (.int i) :: .closed 0 :: s.stack, shrunk := false }

theorem counting_begins {w : World} {c : Closure} {s : RState} {pre : List Value} {i : Int} {obj : Value} {pos : Pos} (h : Counting c s)
    (hc : c = countdown ∨ c = countdown') (hs : s.args = pre ++ [.int i]) (hl : s.stack.length + 2 ≤ w.limit) :
    Begins w obj 0 pre.length pos s (bodyState pre i s) := by
  have hcl : s.heap.closure 0 = c := by simp [Heap.closure, h.closures]
  simp only [Begins, hcl, hs]
  refine ⟨by simp, by rcases hc with rfl | rfl <;> simp [countdown, countdown'], { bodyState pre i s with shrunk := s.shrunk }, ?_, rfl⟩
  have hlim : ¬ w.limit < s.stack.length + 2 := by omega
  rcases hc with rfl | rfl <;>
  simp [countdown, countdown', bind, M.andThen, extend, hlim, storeArgs, store, placeAll, place, storeSelf, cut, hs, bodyState,
    List.replicate, pure, M.ret]

theorem counting_zero {w : World} {s : RState} {pre : List Value} {i : Int} (m : Nat) :
    Yields w m isZero (bodyState pre i s) (.bool (i == 0)) (q 26) .nil (bodyState pre i s) := ⟨nofun, 3, rfl⟩

theorem counting_next {w : World} {s : RState} {pre : List Value} {i : Int} (k : Nat) (hi : 0 < i) (hi' : i < 2 ^ 63) :
    InOrder w 0 push [.binary (.ident 0 (q k)) .minus (.lit (.int 1) (q (k + 4))) (q (k + 2))] (bodyState pre i s) [.int (i - 1)]
      { bodyState pre i s with args := pre ++ [.int (i - 1)] } := by
  have h : intOp .minus i 1 = .ok (i - 1) := by
    have : isI64 (i - 1) = true := by simp only [isI64, decide_eq_true_eq]; omega
    simp only [intOp, checked, this, if_true]
    rfl
  refine .cons (v := .int (i - 1)) (pos := q (k + 2)) (obj := .nil) (s1 := bodyState pre i s) ?_ (.nil _)
  have h1 : Yields w 0 (.ident 0 (q k)) (bodyState pre i s) (.int i) (q k) .nil (bodyState pre i s) := ⟨nofun, 1, rfl⟩
  refine (ends_strict (by decide) (by decide)).2 (.value h1 (yields_int ..) ⟨nofun, 0, ?_⟩)
  simp [strictValue, BinOp.isArith, arithValue, h]

theorem counting_fn {w : World} {c : Closure} {s : RState} {pre : List Value} {i : Int} (k : Nat) (h : Counting c s) :
    Yields w 0 (.ident 1 (q k)) (bodyState pre i s) (.function (.hush 0)) (q k) .nil (bodyState pre i s) := by
  refine ⟨nofun, 1, ?_⟩
  show ((.ok (.value (s.heap.cell 0) (q k)), bodyState pre i s) : Except Stop Out × RState) = _
  rw [h.cell]
  rfl

theorem counting_if {w : World} {s : RState} {pre : List Value} {i : Int} {t e : List Prog.Stmt} {pos : Pos} {r s'} (hi : i ≠ 0)
    (h : Ends w (.block 0 none e) (bodyState pre i s) r s') (tail : Option Nat) :
    Ends w (.stmt 0 tail (.expr (.if_ isZero t e pos))) (bodyState pre i s) (passed pos r) s' := by
  have hz := counting_zero (w := w) (s := s) (pre := pre) (i := i) 0
  rw [show (i == 0) = false by simpa using hi] at hz
  exact ends_exprStmt.2 (ends_iff.2 (lim_go hz (lim_passed.2 ⟨r, h, rfl⟩)))

theorem counting_inv {c : Closure} {s : RState} (h : Counting c s) (hc : c = countdown ∨ c = countdown') : Inv s := by
  intro c' hc'
  rw [h.closures] at hc'
  simp only [List.mem_singleton] at hc'
  subst hc'
  rcases hc with rfl | rfl <;>
  · refine ⟨by decide, rfl, ?_, nofun, ?_, by decide, nofun⟩
    · simp [countdown, countdown']
    · simp [countdown, countdown', BlockOk, StmtOk, Spec.ExprOk, ExprsOk, LitOk, isZero, next]

theorem counting_closed (b : Bool) (r : Except Stop Out) (pre : List Value) (i : Int) (s : RState) :
    closed 2 b r (bodyState pre i s) = (r, { s with args := pre, shrunk := b }) := by
  have : ¬ s.stack.length + 1 + 1 < 2 := by omega
  simp [closed, bodyState, shrink, this]

/-- The first function calls itself. -/
theorem counting_tail {w : World} {n : Nat} {s : RState} {pre : List Value} {m : Nat} {obj : Value} {pos : Pos}
    (h : Counting countdown s) (hn : ((n + 1 : Nat) : Int) < 2 ^ 63) (hs : s.args = pre ++ [.int ((n + 1 : Nat) : Int)])
    (hl : s.stack.length + 2 ≤ w.limit) :
    TailCall w ⟨m, obj, .hush 0, pre.length, pos⟩ s ⟨0, .nil, .hush 0, pre.length, q 57⟩
      { s with args := pre ++ [.int n], shrunk := true } := by
  have hb := counting_begins (obj := obj) (pos := pos) h (.inl rfl) hs hl
  have hcl : s.heap.closure 0 = countdown := by simp [Heap.closure, h.closures]
  have hx := TailCall.mk (m := m) (before := [.expr (.if_ isZero [.return_ (.lit (.int 0) (q 43))] [] (q 21))]) (last := .return_ (next 56))
    hb (by rw [hcl]; rfl) (.inl rfl)
    (by rw [hcl]; exact .cons (counting_if (by omega) (r := .ok ⟨.regular .nil, noPos, .nil⟩) ⟨nofun, 1, rfl⟩ none) (.nil _))
    (by rw [hcl]; exact counting_fn 56 h)
    (by rw [hcl]; exact counting_next 58 (by omega) hn)
  rw [hcl] at hx
  simpa [released, bodyState, countdown] using hx

/-- The first function calls itself as often as its argument says. -/
theorem counting_chain {w : World} (n : Nat) {s : RState} {pre : List Value} {m : Nat} {obj : Value} {pos : Pos}
    (h : Counting countdown s) (hn : (n : Int) < 2 ^ 63) (hs : s.args = pre ++ [.int n]) (hl : s.stack.length + 2 ≤ w.limit) :
    ∃ c' s', TailCalls w n ⟨m, obj, .hush 0, pre.length, pos⟩ s c' s' ∧ s'.trace = s.trace := by
  induction n generalizing s m obj pos with
  | zero => exact ⟨_, _, .none _ _, rfl⟩
  | succ n ih =>
    obtain ⟨c', s', h1, h2⟩ := ih (s := { s with args := pre ++ [.int n], shrunk := true }) (m := 0) (obj := .nil) (pos := q 57)
      ⟨h.closures, h.cell⟩ (by push_cast at hn; omega) rfl hl
    exact ⟨c', s', .next (counting_tail h hn hs hl) h1, h2⟩

/-- The call of the first function ends with 0. -/
theorem countdown_ends {w : World} (n : Nat) {s : RState} {pre : List Value} {m : Nat} {obj : Value} {pos : Pos}
    (h : Counting countdown s) (hn : (n : Int) < 2 ^ 63) (hs : s.args = pre ++ [.int n]) (hl : s.stack.length + 2 ≤ w.limit) :
    Ends w (.call m obj (.hush 0) pre.length pos) s (done (.int 0) pos) { s with args := pre } := by
  induction n generalizing s m obj pos with
  | zero =>
    have hb := counting_begins (obj := obj) (pos := pos) h (.inl rfl) hs hl
    have hcl : s.heap.closure 0 = countdown := by simp [Heap.closure, h.closures]
    have hbody : Ends w (bodyOf s.heap 0) (bodyState pre 0 s) (.ok ⟨.return_ (.int 0), noPos, .nil⟩) (bodyState pre 0 s) := by
      rw [bodyOf, hcl]
      exact ⟨nofun, 8, rfl⟩
    refine (ends_begins (counting_inv h (.inl rfl)) hb).2 (lim_then (lim_withFrame.2 ⟨_, _, hbody, ?_⟩)
      (a := ⟨.return_ (.int 0), noPos, .nil⟩) (s1 := { s with args := pre }) (lim_const.2 ⟨nofun, rfl⟩))
    rw [hcl]
    exact counting_closed ..
  | succ n ih =>
    have hstep := counting_tail (m := m) (obj := obj) (pos := pos) h hn hs hl
    have := ih (s := { s with args := pre ++ [.int n], shrunk := true }) (m := 0) (obj := .nil) (pos := q 57) ⟨h.closures, h.cell⟩
      (by push_cast at hn; omega) rfl hl
    exact (tailCall_link hstep (counting_inv h (.inl rfl))).2.2.2.2 ⟨_, _, this, rfl, rfl⟩

theorem counting_refused {w : World} {s : RState} {pre : List Value} {i : Int} {m : Nat} {obj : Value} {pos : Pos}
    (h : Counting countdown' s) (hs : s.args = pre ++ [.int i]) (hl : w.limit < s.stack.length + 2) :
    Ends w (.call m obj (.hush 0) pre.length pos) s (.error (.panic ⟨.stackOverflow, pos⟩)) { s with args := pre } := by
  have hcl : s.heap.closure 0 = countdown' := by simp [Heap.closure, h.closures]
  refine ⟨nofun, 1, ?_⟩
  simp [run, step, stepCall, hs, hcl, bind, M.andThen, M.modify, extend, countdown', hl]

/-- The call of the second function overflows the stack. -/
theorem countdown_overflows {w : World} (d n : Nat) {s : RState} {pre : List Value} {m : Nat} {obj : Value} {pos : Pos}
    (h : Counting countdown' s) (hn : (n : Int) < 2 ^ 63) (hs : s.args = pre ++ [.int n]) (hd : w.limit < s.stack.length + 2 * d + 2)
    (hdn : d ≤ n) :
    ∃ p, Ends w (.call m obj (.hush 0) pre.length pos) s (.error (.panic ⟨.stackOverflow, p⟩)) { s with args := pre } := by
  induction d generalizing s n m obj pos with
  | zero => exact ⟨_, counting_refused h hs (by omega)⟩
  | succ d ih =>
    by_cases hl : s.stack.length + 2 ≤ w.limit
    · have hcl : s.heap.closure 0 = countdown' := by simp [Heap.closure, h.closures]
      obtain ⟨n, rfl⟩ : ∃ k, n = k + 1 := ⟨n - 1, by omega⟩
      have hb := counting_begins (obj := obj) (pos := pos) h (.inr rfl) hs hl
      have hnext := counting_next (w := w) (s := s) (pre := pre) (i := ((n + 1 : Nat) : Int)) 59 (by omega) hn
      rw [show ((n + 1 : Nat) : Int) - 1 = n by omega] at hnext
      obtain ⟨p, hp⟩ := ih n (s := { bodyState pre ((n + 1 : Nat) : Int) s with args := pre ++ [.int n] }) (m := 0) (obj := .nil) (pos := q 58)
        ⟨h.closures, h.cell⟩ (by omega) rfl (by simp only [bodyState, List.length_cons]; omega) (by omega)
      have hcall : Eval w 0 (next 57) (bodyState pre ((n + 1 : Nat) : Int) s) (.error (.panic ⟨.stackOverflow, p⟩))
          (bodyState pre ((n + 1 : Nat) : Int) s) := ends_calling.2 (.call (counting_fn 57 h) hnext hp)
      have hret : Ends w (.block 0 none [.return_ (next 57)]) (bodyState pre ((n + 1 : Nat) : Int) s) (.error (.panic ⟨.stackOverflow, p⟩))
          (bodyState pre ((n + 1 : Nat) : Int) s) := ends_lastStmt.2 (ends_returnStmt.2 ⟨_, hcall, rfl⟩)
      have hbody : Ends w (bodyOf s.heap 0) (bodyState pre ((n + 1 : Nat) : Int) s) (.error (.panic ⟨.stackOverflow, p⟩))
          (bodyState pre ((n + 1 : Nat) : Int) s) := by
        rw [bodyOf, hcl]
        exact ends_lastStmt.2 (counting_if (by omega) hret _)
      refine ⟨p, (ends_begins (counting_inv h (.inr rfl)) hb).2 (lim_fails (lim_withFrame.2 ⟨_, _, hbody, ?_⟩))⟩
      rw [hcl]
      exact counting_closed ..
    · exact ⟨_, counting_refused h hs (by omega)⟩

/-- The source in which the first function is called with the number of the arguments of the process. -/
def countdownSource : Bytes :=
  bs "let f = function (n) if n == 0 then return 0 end return f(n - 1) end f(std.len(std.args()))"

/-- The source in which the second function is. -/
def countdownSource' : Bytes :=
  bs "let f = function (n) if n == 0 then return 0 else return f(n - 1) end end f(std.len(std.args()))"

/-- The program of a source with one of the functions; the argument starts in the column `i`. -/
def countdownProgram (c : Closure) (i : Nat) : Program :=
  ⟨[.assign (.ident 1 (q 4)) (.lit (.function c.params c.frame c.body) (q 8)),
   .expr (.call (.ident 1 (q i)) [.call (.access (.ident 0 (q (i + 2))) (.lit (.ident (bs "len")) (q (i + 6))) (q (i + 5)))
    [.call (.access (.ident 0 (q (i + 10))) (.lit (.ident (bs "args")) (q (i + 14))) (q (i + 13))) [] (q (i + 18))] (q (i + 9))] (q (i + 1)))], 2⟩

set_option maxRecDepth 100000 in
theorem countdown_accepted : Accepts countdownSource (countdownProgram countdown 69) := accepts_of (by decide +kernel)

set_option maxRecDepth 100000 in
theorem countdown_accepted' : Accepts countdownSource' (countdownProgram countdown' 74) := accepts_of (by decide +kernel)

/-- The state after the function has been assigned. -/
def assigned (c : Closure) (argv : List Bytes) (file : Sym) : RState :=
  let s := RState.init argv file
  { s with stack := [.regular s.std, .closed 0], heap := { s.heap with cells := [.function (.hush 0)], closures := [c] } }

theorem countdown_assigned (w : World) (c : Closure) (hc : c = countdown ∨ c = countdown') (argv : List Bytes) (file : Sym) :
    Ends w (.stmt 0 none (.assign (.ident 1 (q 4)) (.lit (.function c.params c.frame c.body) (q 8))))
      { RState.init argv file with stack := [.regular (RState.init argv file).std, .regular .nil] }
      (.ok ⟨.regular .nil, noPos, .nil⟩) (assigned c argv file) := by
  rcases hc with rfl | rfl <;> exact ⟨nofun, 3, rfl⟩

theorem countdown_args (w : World) (c : Closure) (argv : List Bytes) (file : Sym) (i : Nat) :
    InOrder w 0 push [.call (.access (.ident 0 (q (i + 2))) (.lit (.ident (bs "len")) (q (i + 6))) (q (i + 5)))
      [.call (.access (.ident 0 (q (i + 10))) (.lit (.ident (bs "args")) (q (i + 14))) (q (i + 13))) [] (q (i + 18))] (q (i + 9))]
      (assigned c argv file) [.int argv.length] { assigned c argv file with args := [.int argv.length] } := by
  have h : Yields w 0 (.call (.access (.ident 0 (q (i + 10))) (.lit (.ident (bs "args")) (q (i + 14))) (q (i + 13))) [] (q (i + 18)))
      (assigned c argv file) (.array 0) (q (i + 18)) .nil (assigned c argv file) := ⟨nofun, 8, rfl⟩
  have hf : Yields w 0 (.access (.ident 0 (q (i + 2))) (.lit (.ident (bs "len")) (q (i + 6))) (q (i + 5)))
      (assigned c argv file) (.function (.native (bs "std.len") 0)) (q (i + 5)) (.dict 3) (assigned c argv file) := ⟨nofun, 8, rfl⟩
  have hc : Ends w (.call 0 (.dict 3) (.native (bs "std.len") 0) 0 (q (i + 9))) { assigned c argv file with args := [.array 0] }
      (done (.int (argv.map Value.string).length) (q (i + 9))) (assigned c argv file) := ⟨nofun, 8, rfl⟩
  rw [List.length_map] at hc
  have h1 : Yields w 0 (.call (.access (.ident 0 (q (i + 2))) (.lit (.ident (bs "len")) (q (i + 6))) (q (i + 5)))
      [.call (.access (.ident 0 (q (i + 10))) (.lit (.ident (bs "args")) (q (i + 14))) (q (i + 13))) [] (q (i + 18))] (q (i + 9)))
      (assigned c argv file) (.int argv.length) (q (i + 9)) .nil (assigned c argv file) :=
    ends_calling.2 (.call hf (.cons h (.nil _)) hc)
  exact .cons h1 (.nil _)

/-- The program as a whole, from the outcome of the first call. -/
theorem countdown_program (w : World) (c : Closure) (hc : c = countdown ∨ c = countdown') (argv : List Bytes) (file : Sym) (i : Nat)
    {r} (h : Ends w (.call 0 .nil (.hush 0) 0 (q (i + 1))) { assigned c argv file with args := [.int argv.length] }
      r { assigned c argv file with args := [] }) :
    Ends w (.block 0 none (countdownProgram c i).statements)
      { RState.init argv file with stack := [.regular (RState.init argv file).std, .regular .nil] } (passed (q (i + 1)) r)
      (assigned c argv file) := by
  have hf : Yields w 0 (.ident 1 (q i)) (assigned c argv file) (.function (.hush 0)) (q i) .nil (assigned c argv file) := ⟨nofun, 1, rfl⟩
  exact (ends_afterStmts (before := [_]) (.cons (countdown_assigned w c hc argv file) (.nil _))).2
    (ends_exprStmt.2 (ends_calling.2 (.call hf (countdown_args w c argv file i) h)))

theorem countdown_room (w : World) (hl : 2 ≤ w.limit) (c : Closure) (i : Nat) (argv : List Bytes) (file : Sym) :
    extend w (countdownProgram c i).rootSlots noPos (RState.init argv file) =
      (.ok (), { RState.init argv file with stack := [.regular .nil, .regular .nil] }) := by
  simp only [extend]
  rw [if_neg]
  · rfl
  · exact Nat.not_lt.2 hl

theorem countdown_std (argv : List Bytes) (file : Sym) :
    store 0 (RState.init argv file).std { RState.init argv file with stack := [.regular .nil, .regular .nil] } =
      (.ok (), { RState.init argv file with stack := [.regular (RState.init argv file).std, .regular .nil] }) := rfl

/-- The call is performed. -/
theorem countdown_performed (w : World) (hl : 2 ≤ w.limit) (argv : List Bytes) (file : Sym) :
    Performed w countdownSource 16 (.call 0 .nil (.hush 0) 0 (q 70)) { assigned countdown argv file with args := [.int argv.length] } := by
  refine ⟨_, argv, file, 21, countdown_accepted, ?_⟩
  refine .sub (starts_program (countdown_room w hl countdown 69 argv file) (countdown_std argv file)) ?_
  refine .sub (starts_rest (o := ⟨.regular .nil, noPos, .nil⟩) (s1 := assigned countdown argv file) rfl rfl)
    (.sub starts_last (.sub starts_stmtExpr ?_))
  have h1 : run w 16 (.expr 0 none (.ident 1 (q 69))) (assigned countdown argv file) =
    (.ok ⟨.regular (.function (.hush 0)), q 69, .nil⟩, assigned countdown argv file) := rfl
  refine .sub (starts_call h1 rfl (o2 := ⟨.regular .nil, noPos, .nil⟩) (v2 := .nil)
    (s2 := { assigned countdown argv file with args := [.int argv.length] }) ?_ rfl rfl) (.self _ _ _)
  rw [← List.length_map (as := argv) (f := Value.string)]
  rfl

-- For every number of arguments there is a chain of as many tail calls in the execution of the source.
example (w : World) (hl : 4 ≤ w.limit) (argv : List Bytes) (ha : argv.length < 2 ^ 63) (file : Sym) : ∃ c c' s s',
    Performed w countdownSource 16 c.task s ∧ TailCalls w argv.length c s c' s' ∧ AllCompleted s s' := by
  obtain ⟨c', s', h1, h2⟩ := counting_chain (w := w) argv.length (s := { assigned countdown argv file with args := [.int argv.length] })
    (pre := []) (m := 0) (obj := .nil) (pos := q 70) ⟨rfl, rfl⟩ (by exact_mod_cast ha) rfl hl
  exact ⟨⟨0, .nil, .hush 0, 0, q 70⟩, c', _, s', countdown_performed w (by omega) argv file, h1, by simp only [AllCompleted, h2, List.drop_length]; exact Nat.zero_le _⟩

/-- C19, an instance for all depths of recursion: the program in which a function calls itself last, as often as there are arguments,
ends with 0, whatever their number is, as soon as there is room for one activation (2 variables besides the 2 of the program). -/
theorem countdown_total (w : World) (hl : 4 ≤ w.limit) (argv : List Bytes) (ha : argv.length < 2 ^ 63) (file : Sym) :
    ∃ p s', Accepts countdownSource p ∧ Ends w (.program 0 p) (RState.init argv file) (.ok ⟨.regular (.int 0), noPos, .nil⟩) s' := by
  have h := countdown_program w countdown (.inl rfl) argv file 69
    (countdown_ends argv.length (pre := []) ⟨rfl, rfl⟩ (by exact_mod_cast ha) rfl hl)
  refine ⟨_, { assigned countdown argv file with stack := [] }, countdown_accepted, ends_iff.2 ?_⟩
  obtain ⟨_, N, hN⟩ := ends_iff_run.1 h
  refine ⟨nofun, N, fun n hn => ?_⟩
  have := hN n hn
  dsimp only at this
  simp only [step, stepProgram, bind, M.andThen, countdown_room w (by omega) countdown 69 argv file, M.get]
  rw [countdown_std]
  dsimp only
  rw [this]
  rfl

/-- C19 is violated for a call that is last in a branch of an `if`, which is the common way to write it: with enough arguments, the
program overflows the stack, however large the stack is. -/
theorem tail_calls_violated (w : World) (argv : List Bytes) (ha : argv.length < 2 ^ 63) (hn : w.limit ≤ argv.length) (file : Sym) :
    ∃ p pos s', Accepts countdownSource' p ∧
      Ends w (.program 0 p) (RState.init argv file) (.error (.panic ⟨.stackOverflow, pos⟩)) s' := by
  by_cases hl : 2 ≤ w.limit
  · obtain ⟨pos, h⟩ := countdown_overflows (w := w) w.limit argv.length (s := { assigned countdown' argv file with args := [.int argv.length] })
      (m := 0) (obj := .nil) (pos := q 75) (pre := []) ⟨rfl, rfl⟩ (by exact_mod_cast ha) rfl (by omega) hn
    have h := countdown_program w countdown' (.inr rfl) argv file 74 h
    refine ⟨_, pos, { assigned countdown' argv file with leaked := 2 }, countdown_accepted', ends_iff.2 ?_⟩
    obtain ⟨_, N, hN⟩ := ends_iff_run.1 h
    refine ⟨nofun, N, fun n hn => ?_⟩
    have := hN n hn
    dsimp only at this
    simp only [step, stepProgram, bind, M.andThen, countdown_room w (by omega) countdown' 74 argv file, M.get]
    rw [countdown_std]
    dsimp only
    rw [this]
    rfl
  · refine ⟨_, noPos, RState.init argv file, countdown_accepted', nofun, 1, ?_⟩
    have hlim : 2 > w.limit := by omega
    have hx : extend w (countdownProgram countdown' 74).rootSlots noPos (RState.init argv file) =
        (.error (.panic ⟨.stackOverflow, noPos⟩), RState.init argv file) := by
      simp only [extend]
      rw [if_pos]
      exact hlim
    simp only [run, step, stepProgram, bind, M.andThen, hx]

end Hush.Props

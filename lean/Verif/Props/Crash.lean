import Verif.Lemmas.CrashRun
import Verif.Props.Interp

/-!
Property C16, continued: where Rust panics come from.
-/

namespace Hush.Props
open Hush Hush.Spec

/-- C16, partially: if the execution of an accepted program ends in a Rust panic, then it performed a task that is in the list
`Raises`: a negation of the least integer or a similar overflow in a build with overflow checks, an assignment to a dict under a key that
contains the dict, the sorting of an array that contains itself, one of a few library functions on arguments they do not check, the import
of a module on whose source the lexer aborts, or something outside of the model (a command, a function of the world). Missing from C16: that
there is no Rust panic at all; see `no_crash_violated`. -/
theorem crash_origin_partial (src : Bytes) (p : Program) (h : Accepts src p) (w : World) (n : Nat) (argv : List Bytes) (file : Sym)
    (k : CrashKind) (hk : (runProgram w n p argv file).1 = .error (.crash k)) :
    ∃ j t s, Reaches w n (.program 0 p) (RState.init argv file) j t s ∧ Raises w t s k :=
  crash_source (c := ⟨0, false, false⟩) (program_pre h) hk

/-- C16, partially: the same for every task that is performed in an execution. -/
theorem task_crash_origin_partial (src : Bytes) (w : World) (n : Nat) (t : Task) (s : RState) (h : Performed w src n t s)
    (k : CrashKind) (hk : (run w n t s).1 = .error (.crash k)) : ∃ j t' s', Reaches w n t s j t' s' ∧ Raises w t' s' k := by
  obtain ⟨c, hp⟩ := performed_pre h
  exact crash_source hp hk

/-- C16, partially: in a build without overflow checks arithmetic is never a Rust panic. -/
theorem no_arith_crash (src : Bytes) (p : Program) (h : Accepts src p) (w : World) (hw : w.checks = false) (n : Nat)
    (argv : List Bytes) (file : Sym) : (runProgram w n p argv file).1 ≠ .error (.crash .arith) := by
  intro hk
  obtain ⟨j, t, s, -, hr⟩ := crash_origin_partial src p h w n argv file _ hk
  have e : ∀ x : Bool, x = true → x = w.checks → False := by intro x h1 h2; rw [hw] at h2; rw [h1] at h2; cases h2
  cases hr with
  | negation _ _ hc => exact e _ hc rfl
  | call ha =>
    generalize s.args.drop _ = args at ha
    cases ha with
    | range _ _ _ hc => exact e _ hc rfl
    | substr _ hc => exact e _ hc rfl

/-! ### Every case does occur -/

/-- The source is accepted, and its execution ends in the Rust panic. -/
def crashes (w : World) (n : Nat) (src : Bytes) (k : CrashKind) : Bool :=
  match syntaxAnalysis src with
  | none => false
  | some a =>
    if a.isOk then
      match analyze a.ast with
      | .ok p =>
        match (runProgram w n p [] []).1 with
        | .error (.crash k') => k' == k
        | _ => false
      | _ => false
    else false

theorem crashes_accepts {w n src k} (h : crashes w n src k = true) :
    ∃ p, Accepts src p ∧ (runProgram w n p [] []).1 = .error (.crash k) := by
  unfold crashes at h
  split at h
  · cases h
  · rename_i a ha
    split at h
    · split at h
      · rename_i p hp
        split at h
        · rename_i k' hk
          simp only [beq_iff_eq] at h
          exact ⟨p, ⟨a, ha, by assumption, hp⟩, by rw [hk, h]⟩
        · cases h
      · cases h
    · cases h

/-- A world with a module `m` with the text `{ a[b }`, on which the lexer aborts. -/
def badModule : World := fileWorld fun p => if p = bs "m" then some (bs "{ a[b }") else none

set_option maxRecDepth 100000 in
/-- The Rust panics of the list do occur (with overflow checks; the commands and the functions outside of the model abort in this
world). -/
theorem crash_witnesses : ∀ c ∈ [
    (bs "let x = 0 - 9223372036854775807 - 1 let y = -x", CrashKind.arith),
    (bs "let d = @[] d[[d]] = 1", .borrow),
    (bs "let a = [1] std.push(a, a) std.sort(a)", .borrow),
    (bs "for i in std.range(9223372036854775806, 9223372036854775807, 5) do end", .arith),
    (bs "std.substr(\"a\", 0 - 1, 1)", .arith),
    (bs "std.export(\"\", \"x\")", .native),
    (bs "std.randint(1, 0)", .native),
    (bs "std.import(\"m\")", .todo),
    (bs "{ ls }", .native),
    (bs "let h = &{ ls } h.join()", .native),
    (bs "std.println(1)", .native)],
    ∃ p n, Accepts c.1 p ∧ (runProgram badModule n p [] []).1 = .error (.crash c.2) := by
  have h : ∀ src k, crashes badModule 20 src k = true →
      ∃ p n, Accepts src p ∧ (runProgram badModule n p [] []).1 = .error (.crash k) := fun src k hc =>
    let ⟨p, h1, h2⟩ := crashes_accepts hc
    ⟨p, 20, h1, h2⟩
  simp only [List.forall_mem_cons, List.not_mem_nil, false_imp_iff, implies_true, and_true]
  refine ⟨?_, ?_, ?_, ?_, ?_, ?_, ?_, ?_, ?_, ?_, ?_⟩ <;> exact h _ _ (by decide +kernel)

/-- `crash_origin_partial` on `let d = @[] d[d] = 1`. -/
example : ∃ j t s, Reaches (fileWorld fun _ => none) 10 (.program 0 borrowProgram) (RState.init [] []) j t s ∧
    Raises (fileWorld fun _ => none) t s .borrow :=
  crash_origin_partial (bs "let d = @[] d[d] = 1") borrowProgram (accepts_of (by decide +kernel)) _ _ _ _ _ (by decide +kernel)

/-- `task_crash_origin_partial` on the same. -/
example : ∃ j t s, Reaches (fileWorld fun _ => none) 10 (.program 0 borrowProgram) (RState.init [] []) j t s ∧
    Raises (fileWorld fun _ => none) t s .borrow :=
  task_crash_origin_partial (bs "let d = @[] d[d] = 1") _ 10 (.program 0 borrowProgram) (RState.init [] [])
    ⟨_, _, _, _, accepts_of (by decide +kernel), .self _ _ _⟩ .borrow (by decide +kernel)

set_option maxRecDepth 100000 in
/-- `no_arith_crash` on the negation of the least integer: without checks the result is a value. -/
example : ∃ p, Accepts (bs "let x = 0 - 9223372036854775807 - 1 let y = -x") p ∧
    (runProgram { badModule with checks := false } 20 p [] []).1 ≠ .error (.crash .arith) :=
  let ⟨p, h, _⟩ := crashes_accepts (w := badModule) (n := 20) (src := bs "let x = 0 - 9223372036854775807 - 1 let y = -x") (k := .arith)
    (by decide +kernel)
  ⟨p, h, no_arith_crash _ p h _ rfl 20 [] []⟩

end Hush.Props

import Verif.Lemmas.Bound
import Verif.Props.Calls
import Verif.Props.Tail

/-!
Property C64: the limit of the stack.
-/

namespace Hush.Props
open Hush Hush.Spec

/-- C64: whatever is executed, the running functions and modules together never have more variables on the stack than the limit. -/
theorem stack_bounded (w : World) (src : Bytes) (k : Nat) (t : Task) (s : RState) (h : Performed w src k t s) :
    s.stack.length ≤ w.limit ∧ ∀ r s', Ends w t s r s' → s'.stack.length ≤ w.limit := by
  refine ⟨performed_fits h, fun r s' ⟨_, n, hn⟩ => ?_⟩
  have := fits_run w n t s (performed_fits h)
  rwa [hn] at this

/-- C64: a call for whose variables there is no room is a stack overflow panic at the position of the call, and leaves the variables as they were; the
stack overflows in no other case: otherwise the body is executed with the new variables. -/
theorem overflow_reported (w : World) (src : Bytes) (k m : Nat) (obj : Value) (a start : Nat) (pos : Pos) (s : RState)
    (h : Performed w src k (.call m obj (.hush a) start pos) s) (hn : (s.args.drop start).length = (s.heap.closure a).params) :
    (w.limit < s.stack.length + (s.heap.closure a).frame.slots →
      ∃ s', Ends w (.call m obj (.hush a) start pos) s (.error (.panic ⟨.stackOverflow, pos⟩)) s' ∧ s'.stack = s.stack ∧ s'.heap = s.heap) ∧
    (s.stack.length + (s.heap.closure a).frame.slots ≤ w.limit → ∀ r s', Ends w (.call m obj (.hush a) start pos) s r s' →
      ∃ r' s1, Ends w (bodyOf s.heap a) (entered (s.heap.closure a) obj start s) r' s1 ∧ ∀ e, r = .error e → r' = .error e) := by
  refine ⟨fun hl => ⟨_, (call_rule w src k m obj a start pos s h _ _).2 (.overflow hn hl), rfl, rfl⟩, fun hl r s' he => ?_⟩
  cases (call_rule w src k m obj a start pos s h _ _).1 he with
  | wrongNumber h1 => exact absurd hn h1
  | overflow _ h1 => omega
  | stops _ _ h1 => exact ⟨_, _, h1, fun e h => h⟩
  | falls _ _ h1 => exact ⟨_, _, h1, nofun⟩
  | returns _ _ h1 => exact ⟨_, _, h1, nofun⟩

-- A call that is performed, of a function with 2 variables besides the 2 of the program: there is room iff the limit is 4 or more.
example (w : World) (hl : 2 ≤ w.limit) (argv : List Bytes) (file : Sym) :
    ∃ s, Performed w countdownSource 16 (.call 0 .nil (.hush 0) 0 (q 70)) s ∧ (s.args.drop 0).length = (s.heap.closure 0).params ∧
      s.stack.length + (s.heap.closure 0).frame.slots = 4 :=
  ⟨_, countdown_performed w hl argv file, rfl, rfl⟩

end Hush.Props

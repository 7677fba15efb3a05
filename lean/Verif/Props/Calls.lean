import Verif.Lemmas.Calls
import Verif.Lemmas.VarOps
import Verif.Props.Tail

/-!
Property C60: calls.
-/

namespace Hush.Props
open Hush Hush.Spec

/-- C60: the call of a function written in Hush, in any execution of an accepted source, is that of the rules `Called`: the number of arguments
must be that of the parameters and there must be room for the variables; then the body is executed, exactly once, with new variables: the
parameters are the arguments in order, `self` is the object, the captured variables are those of the creating function and the others are nil. The value
is the one that is returned, or that of the last statement; a panic is passed on. Afterwards the variables are gone. -/
theorem call_rule (w : World) (src : Bytes) (k m : Nat) (obj : Value) (a start : Nat) (pos : Pos) (s : RState)
    (h : Performed w src k (.call m obj (.hush a) start pos) s) (r : Except Stop Out) (s' : RState) :
    Ends w (.call m obj (.hush a) start pos) s r s' ↔ Called w obj a start pos s r s' := by
  obtain ⟨c, hi, hs⟩ := performed_pre h
  exact ends_called hi hs

/-- C60: when the body begins, parameter `i` is argument `i`, `self` is the object, a captured variable is shared, and all variables of the caller
are below. -/
theorem parameters_bound (w : World) (src : Bytes) (k m : Nat) (obj : Value) (a start : Nat) (pos : Pos) (s : RState)
    (h : Performed w src k (.call m obj (.hush a) start pos) s) (hn : (s.args.drop start).length = (s.heap.closure a).params) :
    (∀ (i : Nat) (v : Value), (s.args.drop start)[i]? = some v → (entered (s.heap.closure a) obj start s).stack[i]? = some (.regular v)) ∧
    (∀ i, (s.heap.closure a).frame.selfSlot = some i → (entered (s.heap.closure a) obj start s).stack[i]? = some (.regular obj)) ∧
    (∀ q ∈ (s.heap.closure a).context, (entered (s.heap.closure a) obj start s).stack[q.2]? = some (.closed q.1)) ∧
    (∀ i, (s.heap.closure a).params ≤ i → i < (s.heap.closure a).frame.slots → (s.heap.closure a).frame.selfSlot ≠ some i →
      (∀ q ∈ (s.heap.closure a).context, q.2 ≠ i) → (entered (s.heap.closure a) obj start s).stack[i]? = some (.regular .nil)) ∧
    (entered (s.heap.closure a) obj start s).stack.drop (s.heap.closure a).frame.slots = s.stack := by
  obtain ⟨c, hi, hs⟩ := performed_pre h
  have hc := hi.closure a
  revert hc hn
  generalize s.heap.closure a = c
  intro hn hc
  have hlen : (newFrame c (s.args.drop start) obj).length = c.frame.slots := by simp [newFrame]
  have get : ∀ i, i < c.frame.slots → (entered c obj start s).stack[i]? = some (initial c (s.args.drop start) obj i) := by
    intro i hi
    simp only [entered]
    rw [List.getElem?_append_left (by omega)]
    simp [newFrame, hi]
  have find : ∀ q ∈ c.context, c.context.find? (fun x => x.2 = q.2) = some q := by
    intro q hq
    cases hf : c.context.find? (fun x => x.2 = q.2) with
    | none =>
      rw [List.find?_eq_none] at hf
      exact absurd (decide_eq_true rfl) (hf q hq)
    | some q' =>
      have h1 := List.mem_of_find?_eq_some hf
      have h2 := List.find?_some hf
      simp only [decide_eq_true_eq] at h2
      have h3 := hc.once
      obtain ⟨x, hx⟩ := List.getElem?_of_mem h1
      obtain ⟨y, hy⟩ := List.getElem?_of_mem hq
      have h4 : (c.context.map (·.2))[x]? = some q.2 := by rw [List.getElem?_map, hx]; exact congrArg some h2
      have h5 : (c.context.map (·.2))[y]? = some q.2 := by rw [List.getElem?_map, hy]; rfl
      have := nodup_inj h3 h4 h5
      subst this
      rw [hx] at hy
      exact hy
  have miss : ∀ i, (∀ q ∈ c.context, q.2 ≠ i) → c.context.find? (fun x => x.2 = i) = none := by
    intro i hi
    rw [List.find?_eq_none]
    intro q hq he
    exact hi q hq (by simpa using he)
  refine ⟨?_, ?_, ?_, ?_, ?_⟩
  · intro i v hv
    obtain ⟨hv', -⟩ := List.getElem?_eq_some_iff.1 hv
    have hfit := hc.fits
    rw [get i (by omega), initial, miss i (fun q hq he => by have := (hc.target q hq).1; omega)]
    dsimp only
    rw [if_neg (fun hs => by have := (hc.self_ i hs).1; omega), List.getD_eq_getElem?_getD, hv]
    rfl
  · intro i hs
    rw [get i (hc.self_ i hs).2, initial, miss i (hc.apart i hs)]
    dsimp only
    rw [if_pos hs]
  · intro q hq
    rw [get q.2 (hc.target q hq).2, initial, find q hq]
  · intro i h1 h2 h3 h4
    rw [get i h2, initial, miss i h4]
    dsimp only
    rw [if_neg h3, List.getD_eq_getElem?_getD, List.getElem?_eq_none (by omega)]
    rfl
  · simp only [entered]
    rw [← hlen, List.drop_left]

-- A call that is performed, with its argument.
example (w : World) (hl : 2 ≤ w.limit) : Performed w countdownSource 16 (.call 0 .nil (.hush 0) 0 (q 70))
      { assigned countdown [] [] with args := [.int 0] } ∧
    ({ assigned countdown [] [] with args := [.int 0] } : RState).args.drop 0 = [.int 0] :=
  ⟨countdown_performed w hl [] [], rfl⟩

/-- A function with parameters, `self`, a captured variable and a local one. -/
def sampleClosure : Closure := ⟨2, ⟨5, [⟨1, 3⟩], some 2⟩, [], [(7, 3)], 0, noPos⟩

-- Its variables, when it is called with 4 and 5 as a member of a dict: both parameters, the object, the captured variable, nil.
example : newFrame sampleClosure [.int 4, .int 5] (.dict 0) =
    [.regular (.int 4), .regular (.int 5), .regular (.dict 0), .closed 7, .regular .nil] := rfl

end Hush.Props

import Verif.Spec.Evaluation
import Verif.Spec.Reference

/-!
What a `for` loop does, independent of the interpreter.
-/

namespace Hush.Spec
open Hush

/-- What a loop goes through: the element for turn `k` in a state, `none` at the end, and the state after it has been asked for. -/
structure Source where
  element : Nat → RState → Option Value
  asked : Nat → RState → RState

/-- `Visits w m slot body q k s vs finished r s'`: from turn `k` on, the loop does this. In each turn the source is asked for an
element, the loop variable `slot` gets it and the body is executed; this is repeated until there is no element, or until the
body is left by `break`, `return`, a panic or the like. `vs` are the values of the loop variable, `finished` says that the loop was not
left by the body, `r` is the outcome. -/
inductive Visits (w : World) (m slot : Nat) (body : List Prog.Stmt) (q : Source) :
    Nat → RState → List Value → Bool → Except Stop Out → RState → Prop
  | finish {k s} : q.element k s = none → Visits w m slot body q k s [] true (done .nil noPos) (q.asked k s)
  | turn {k s v s1 x p obj s2 vs fin r s'} : q.element k s = some v → store slot v (q.asked k s) = (.ok (), s1) →
    Ends w (.block m none body) s1 (.ok ⟨.regular x, p, obj⟩) s2 → Visits w m slot body q (k + 1) s2 vs fin r s' →
    Visits w m slot body q k s (v :: vs) fin r s'
  | broken {k s v s1 p obj s2} : q.element k s = some v → store slot v (q.asked k s) = (.ok (), s1) →
    Ends w (.block m none body) s1 (.ok ⟨.break_, p, obj⟩) s2 → Visits w m slot body q k s [v] false (done .nil noPos) s2
  | returned {k s v s1 x p obj s2} : q.element k s = some v → store slot v (q.asked k s) = (.ok (), s1) →
    Ends w (.block m none body) s1 (.ok ⟨.return_ x, p, obj⟩) s2 →
    Visits w m slot body q k s [v] false (.ok ⟨.return_ x, noPos, .nil⟩) s2
  | stopped {k s v s1 e s2} : q.element k s = some v → store slot v (q.asked k s) = (.ok (), s1) →
    Ends w (.block m none body) s1 (.error e) s2 → Visits w m slot body q k s [v] false (.error e) s2
  | noVariable {k s v e s1} : q.element k s = some v → store slot v (q.asked k s) = (.error e, s1) →
    Visits w m slot body q k s [] false (.error e) s1

/-- The keys of the dict that an iterator returns. -/
def finishedKey : Value := .string [102, 105, 110, 105, 115, 104, 101, 100]
def valueKey : Value := .string [118, 97, 108, 117, 101]
def keyKey : Value := .string [107, 101, 121]

/-- The state with more dicts. -/
def withDicts (ds : List (List (Value × Value))) (s : RState) : RState :=
  { s with heap := { s.heap with dicts := s.heap.dicts ++ ds } }

/-- The state in which the private state of the iterator `it` is `st`. -/
def withPrivate (it : Nat) (st : NState) (s : RState) : RState :=
  { s with heap := { s.heap with natives := s.heap.natives.set it st } }

/-- The state with a new native function that has the private state `st`. -/
def withNative (st : NState) (s : RState) : RState :=
  { s with heap := { s.heap with natives := s.heap.natives ++ [st] } }

/-- The state after the iterator `it` has been asked: if there was an element its private state is now `st`, and there is a new dict. -/
def asked (it : Nat) (st : NState) (s : RState) : Option Value → RState
  | none => withDicts [[(finishedKey, .bool true)]] s
  | some v => withDicts [[(finishedKey, .bool false), (valueKey, v)]] (withPrivate it st s)

/-- The array `a`, as it is at the time of the turn. -/
def arraySource (it a : Nat) : Source where
  element k s := (s.heap.array a)[k]?
  asked k s := asked it (.arrayIter a (k + 1)) s (s.heap.array a)[k]?

/-- The bytes of a string. -/
def stringSource (it : Nat) (x : Bytes) : Source where
  element k _ := x[k]?.map .byte
  asked k s := asked it (.stringIter x (k + 1)) s (x[k]?.map .byte)

/-- `a`, `a + st`, `a + 2 * st`, ... while below `b`, or above `b` if `st` is not positive. -/
def rangeElement (a b st : Int) (k : Nat) : Option Int :=
  let i := a + k * st
  if (0 < st ∧ i < b) ∨ (¬ 0 < st ∧ b < i) then some i else none

/-- The range of integers. -/
def rangeSource (it : Nat) (a b st : Int) : Source where
  element k _ := (rangeElement a b st k).map .int
  asked k s := asked it (.intRange (a + (k + 1) * st) b st) s ((rangeElement a b st k).map .int)

/-- The entries of a dict from the last to the first, each as a new dict. -/
def entriesSource (it : Nat) (es : List (Value × Value)) : Source where
  element k s := es.reverse[k]?.map (fun _ => .dict s.heap.dicts.length)
  asked k s :=
    match es.reverse[k]? with
    | none => withDicts [[(finishedKey, .bool true)]] s
    | some e => withDicts [[(keyKey, e.1), (valueKey, e.2)], [(finishedKey, .bool false), (valueKey, .dict s.heap.dicts.length)]]
        (withPrivate it (.dictIter (es.reverse.drop (k + 1)).reverse) s)

end Hush.Spec

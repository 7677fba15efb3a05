import Verif.Spec.Evaluation

/-!
What the library functions are to do, independent of the code.
-/

namespace Hush.Spec
open Hush

/-- A call of the library function `name` with the arguments `args`, in any state with the heap `h`, ends with the outcome `r` (a value or a
panic at the position of the call); afterwards the heap is `h'`, and otherwise only the arguments are taken off. -/
def Calls (w : World) (name : Bytes) (args : List Value) (h : Heap) (r : Except PanicKind Value) (h' : Heap) : Prop :=
  ∀ m obj addr start pos (s : RState), start ≤ s.args.length → s.args.drop start = args → s.heap = h →
    Ends w (.call m obj (.native name addr) start pos) s
      (match r with
        | .ok v => .ok ⟨.regular v, pos, .nil⟩
        | .error k => .error (.panic ⟨k, pos⟩))
      { s with heap := h', args := s.args.take start }

/-- `parts` are the parts of the text between the occurrences of `p`, from left to right and without overlap: in each part
together with what follows it up to the end of the separator, the separator occurs only at the end. -/
inductive Splits (p : Bytes) : Bytes → List Bytes → Prop
  | last {s : Bytes} : ¬ p <:+: s → Splits p s [s]
  | part {a s : Bytes} {rest : List Bytes} : ¬ p <:+: a ++ p.dropLast → Splits p s rest → Splits p (a ++ p ++ s) (a :: rest)

/-- The separator between the parts. -/
def joined (p : Bytes) : List Bytes → Bytes
  | [] => []
  | [a] => a
  | a :: b :: rest => a ++ p ++ joined p (b :: rest)

/-- The values are of the same type. -/
def SameType : Value → Value → Prop
  | .nil, .nil | .bool _, .bool _ | .byte _, .byte _ | .int _, .int _ | .float _, .float _ | .string _, .string _ | .array _, .array _
  | .dict _, .dict _ | .function _, .function _ | .error _ _, .error _ _ => True
  | _, _ => False

/-- The name of the type of a value. -/
def typeName : Value → Bytes
  | .nil => bs "nil"
  | .bool _ => bs "bool"
  | .byte _ => bs "char"
  | .int _ => bs "int"
  | .float _ => bs "float"
  | .string _ => bs "string"
  | .array _ => bs "array"
  | .dict _ => bs "dict"
  | .function _ => bs "function"
  | .error _ _ => bs "error"

/-- An error is contained in the value: it is one, or it is contained in an element of the array, or in a key or a value of the
dict. -/
inductive HasError (h : Heap) : Value → Prop
  | error (d : Bytes) (c : Nat) : HasError h (.error d c)
  | element {a : Nat} {v : Value} : v ∈ h.array a → HasError h v → HasError h (.array a)
  | key {d : Nat} {k v : Value} : (k, v) ∈ h.dict d → HasError h k → HasError h (.dict d)
  | value {d : Nat} {k v : Value} : (k, v) ∈ h.dict d → HasError h v → HasError h (.dict d)

/-- Following references into arrays and dicts comes to an end. -/
inductive Grounded (h : Heap) : Value → Prop
  | array {a : Nat} : (∀ v ∈ h.array a, Grounded h v) → Grounded h (.array a)
  | dict {d : Nat} : (∀ e ∈ h.dict d, Grounded h e.1) → (∀ e ∈ h.dict d, Grounded h e.2) → Grounded h (.dict d)
  | other {v : Value} : (∀ a, v ≠ .array a) → (∀ d, v ≠ .dict d) → Grounded h v

end Hush.Spec

import Verif.Spec.Evaluation
import Verif.Spec.Execution

/-!
Where Rust panics come from: a list of the operations that abort the interpreter, with the circumstances, independent of the
interpreter.
-/

namespace Hush.Spec
open Hush

/-- The array or dict `x` is found in the value when references are followed: items of arrays, keys and values of dicts,
contexts of errors. A function is not looked into. -/
inductive Inside (h : Heap) (x : Value) : Value → Prop
  | self : Inside h x x
  | item {a v} : v ∈ h.array a → Inside h x v → Inside h x (.array a)
  | key {d e} : e ∈ h.dict d → Inside h x e.1 → Inside h x (.dict d)
  | value {d e} : e ∈ h.dict d → Inside h x e.2 → Inside h x (.dict d)
  | context {t c} : Inside h x (h.context c) → Inside h x (.error t c)

/-- The number is not an `i64`. -/
def Overflows (i : Int) : Prop := i < -9223372036854775808 ∨ 9223372036854775807 < i

/-- A native function aborts the interpreter when it is called from module `m` with these arguments in the state `s`. -/
inductive Aborts (w : World) (m : Nat) (s : RState) : (name : Bytes) → (addr : Nat) → (args : List Value) → CrashKind → Prop
  /-- Sorting an array with at least two items that contains itself. -/
  | sort {addr a v} : 1 < (s.heap.array a).length → v ∈ s.heap.array a → Inside s.heap (.array a) v →
    Aborts w m s (bs "std.sort") addr [.array a] .borrow
  /-- The step of an integer range that is not at its end overflows, with overflow checks. -/
  | range {addr a b d} : s.heap.native addr = .intRange a b d → (0 < d ∧ a < b ∨ d ≤ 0 ∧ b < a) → Overflows (a + d) → w.checks = true →
    Aborts w m s (bs "std.range<impl>") addr [] .arith
  /-- A substring with a negative start or length (or a sum that is not a `usize`), with overflow checks. -/
  | substr {addr t i n} : (i < 0 ∨ n < 0 ∨ 18446744073709551616 ≤ i + n) → w.checks = true →
    Aborts w m s (bs "std.substr") addr [.string t, .int i, .int n] .arith
  /-- Exporting a variable with an empty name. -/
  | «export» {addr v} : (0 : UInt8) ∉ v → Aborts w m s (bs "std.export") addr [.string [], .string v] .native
  /-- A random integer from an empty range. -/
  | randint {addr a b} : b < a → Aborts w m s (bs "std.randint") addr [.int a, .int b] .native
  /-- Importing a module on whose source the lexer aborts. -/
  | «import» {addr target path src} : w.resolve s.trace (s.file m) target = .ok path → s.modules.lookup path = none →
    w.readFile s.trace path = .ok src → syntaxAnalysis src = none → Aborts w m s (bs "std.import") addr [.string target] .todo
  /-- A bound function without its state (never made by the library). -/
  | bound {addr args} : (∀ obj f, s.heap.native addr ≠ .bound obj f) → Aborts w m s (bs "std.bind<impl>") addr args .native
  /-- The join of an asynchronous command aborts. -/
  | join {addr args t} : s.heap.native addr = .join (some t) → w.joined s.trace t = .crash →
    Aborts w m s (bs "<command>.join") addr args .native
  /-- A function that is not modelled aborts. -/
  | other {name addr args} : w.native s.trace name (s.heap.native addr) args s.heap = .crash → Aborts w m s name addr args .native

/-- Performing the task in the state `s` aborts the interpreter by itself, not because of a task it starts. -/
inductive Raises (w : World) : Task → RState → CrashKind → Prop
  /-- The negation of the least integer, with overflow checks. -/
  | negation {m tail e pos s i p obj s'} : Yields w m e s (.int i) p obj s' → Overflows (-i) → w.checks = true →
    Raises w (.expr m tail (.unary .minus e pos)) s .arith
  /-- The assignment of an entry to a dict under a key that contains the dict. -/
  | ownKey {m tail a b pos e s v p obj s1 d p1 obj1 s2 key p2 obj2 s3} : Yields w m e s v p obj s1 →
    Yields w m a s1 (.dict d) p1 obj1 s2 → Yields w m b s2 key p2 obj2 s3 → Inside s3.heap (.dict d) key →
    Raises w (.stmt m tail (.assign (.access a b pos) e)) s .borrow
  /-- The execution of a command block aborts. -/
  | command {m tail b pos s ex} : buildBlock (argEnv w s) b.head b.tail = .ok ex → b.kind ≠ .asynchronous →
    w.command s.trace b.kind ex = .crash → Raises w (.expr m tail (.command b pos)) s .native
  /-- The call of a native function. -/
  | call {m obj name addr start pos s k} : Aborts w m s name addr (s.args.drop start) k →
    Raises w (.call m obj (.native name addr) start pos) s k

end Hush.Spec

import Verif.Model.Interp
import Verif.Spec.WellFormed
import Verif.Spec.Execution
import Verif.Lemmas.Wf
import Verif.Lemmas.ParseWritten

/-!
What every task of the interpreter preserves: definitions and rules for the primitives.
-/

namespace Hush
open Spec

/-- From state `s` the computation ends with a value such that `Q`, or stops such that `E`. -/
def Runs (m : M α) (s : RState) (Q : α → RState → Prop) (E : Stop → RState → Prop) : Prop :=
  match m s with
  | (.ok a, s') => Q a s'
  | (.error e, s') => E e s'

theorem runs_bind {m : M α} {f : α → M β} {s Q E} (h : Runs m s (fun a s' => Runs (f a) s' Q E) E) :
    Runs (m >>= f) s Q E := by
  simp only [Runs, bind, M.andThen] at h ⊢
  rcases hm : m s with ⟨_ | _, s'⟩
  · rw [hm] at h; exact h
  · rw [hm] at h; exact h

theorem runs_mono {m : M α} {s} {Q Q' : α → RState → Prop} {E E' : Stop → RState → Prop} (h : Runs m s Q E)
    (hQ : ∀ a s', Q a s' → Q' a s') (hE : ∀ e s', E e s' → E' e s') : Runs m s Q' E' := by
  simp only [Runs] at h ⊢
  rcases hm : m s with ⟨_ | _, s'⟩
  · rw [hm] at h; exact hE _ _ h
  · rw [hm] at h; exact hQ _ _ h

theorem runs_pure {a : α} {s} {Q : α → RState → Prop} {E} (h : Q a s) : Runs (pure a) s Q E := h
theorem runs_stop {e s} {Q : α → RState → Prop} {E : Stop → RState → Prop} (h : E e s) : Runs (M.stop e) s Q E := h
theorem runs_panic {k p s} {Q : α → RState → Prop} {E : Stop → RState → Prop} (h : E (.panic ⟨k, p⟩) s) :
    Runs (M.panic k p) s Q E := h
theorem runs_get {s} {Q : RState → RState → Prop} {E} (h : Q s s) : Runs M.get s Q E := h
theorem runs_modify {f s} {Q : Unit → RState → Prop} {E} (h : Q () (f s)) : Runs (M.modify f) s Q E := h
theorem runs_alloc {f : Heap → α × Heap} {s} {Q : α → RState → Prop} {E}
    (h : Q (f s.heap).1 { s with heap := (f s.heap).2 }) : Runs (M.alloc f) s Q E := h
theorem runs_lift {x : Except Stop α} {s} {Q : α → RState → Prop} {E : Stop → RState → Prop}
    (h1 : ∀ a, x = .ok a → Q a s) (h2 : ∀ e, x = .error e → E e s) : Runs (M.lift x) s Q E := by
  cases x with
  | ok a => exact h1 a rfl
  | error e => exact h2 e rfl
theorem runs_reads {f : Heap → Except Stop α} {s} {Q : α → RState → Prop} {E : Stop → RState → Prop}
    (h1 : ∀ a, f s.heap = .ok a → Q a s) (h2 : ∀ e, f s.heap = .error e → E e s) : Runs (M.reads f) s Q E := by
  simp only [Runs, M.reads]
  cases h : f s.heap with
  | ok a => exact h1 a h
  | error e => exact h2 e h

/-! ### Preservation -/

/-- The two assertions of the interpreter core do not fail. -/
def Tolerable (e : Stop) : Prop := e ≠ .crash .slot ∧ e ≠ .crash .flow

/-- Existing function objects and errors do not change; objects are only added. -/
structure HeapGrows (h h' : Heap) : Prop where
  closures : h.closures <+: h'.closures
  contexts : h.contexts <+: h'.contexts
  cells : h.cells.length ≤ h'.cells.length
  arrays : h.arrays.length ≤ h'.arrays.length
  dicts : h.dicts.length ≤ h'.dicts.length
  natives : h.natives.length ≤ h'.natives.length

theorem HeapGrows.refl (h : Heap) : HeapGrows h h :=
  ⟨List.prefix_refl _, List.prefix_refl _, Nat.le_refl _, Nat.le_refl _, Nat.le_refl _, Nat.le_refl _⟩

theorem HeapGrows.trans {a b c : Heap} (h1 : HeapGrows a b) (h2 : HeapGrows b c) : HeapGrows a c :=
  ⟨h1.1.trans h2.1, h1.2.trans h2.2, h1.3.trans h2.3, h1.4.trans h2.4, h1.5.trans h2.5, h1.6.trans h2.6⟩

/-- Function objects are well-formed. -/
structure ClosureOk (c : Closure) : Prop where
  fits : c.params ≤ c.frame.slots
  context : c.context.map (·.2) = c.frame.captures.map (·.to)
  target : ∀ q ∈ c.context, c.params ≤ q.2 ∧ q.2 < c.frame.slots
  self_ : ∀ s, c.frame.selfSlot = some s → c.params ≤ s ∧ s < c.frame.slots
  body : BlockOk ⟨c.frame.slots, true, false⟩ c.body
  once : (c.context.map (·.2)).Nodup
  apart : ∀ s, c.frame.selfSlot = some s → ∀ q ∈ c.context, q.2 ≠ s

/-- The invariant of states. -/
def Inv (s : RState) : Prop := ∀ c ∈ s.heap.closures, ClosureOk c

theorem Inv.closure {s} (h : Inv s) (a : Nat) : ClosureOk (s.heap.closure a) := by
  simp only [Heap.closure, List.getD_eq_getElem?_getD]
  cases ha : s.heap.closures[a]? with
  | some c => exact h c (List.mem_of_getElem? ha)
  | none => exact ⟨Nat.le_refl _, rfl, by simp [default], by simp [default], by simp [default, BlockOk], by simp [default], by simp [default]⟩

/-- The stack below the topmost `k` slots does not change, except that failed imports may leave slots on top. -/
def StackRel (k : Nat) (s s' : RState) : Prop :=
  ∃ j, s'.leaked = s.leaked + j ∧ s'.stack.length = s.stack.length + j ∧ s'.stack.drop (k + j) = s.stack.drop k

/-- How modules were loaded: `f` and `f'` are the modules known before and after the events. -/
structure History (f f' : Sym → Option Value) (evs : List Event) : Prop where
  keeps : ∀ p v, f p = some v → f' p = some v ∧ .load p ∉ evs ∧ ∀ v', .imported p v' ∈ evs → v' = v
  known : ∀ p v, .imported p v ∈ evs → ∃ u, f' p = some u
  once : evs.Pairwise (fun a b => ∀ p v, a = .imported p v → b ≠ .load p)
  single : ∀ p v, .imported p v ∈ evs → evs.count (.load p) ≤ 1 → f' p = some v
  absent : ∀ p, f p = none → .load p ∉ evs → f' p = none ∧ ∀ v, .imported p v ∉ evs

theorem History.nil (f) : History f f [] := by
  constructor <;> simp

theorem History.append {f g h e1 e2} (h1 : History f g e1) (h2 : History g h e2) : History f h (e1 ++ e2) where
  keeps p v hf := by
    obtain ⟨a1, a2, a3⟩ := h1.keeps p v hf
    obtain ⟨b1, b2, b3⟩ := h2.keeps p v a1
    refine ⟨b1, by simp [a2, b2], fun v' hv => ?_⟩
    rcases List.mem_append.1 hv with hv | hv
    · exact a3 _ hv
    · exact b3 _ hv
  known p v hv := by
    rcases List.mem_append.1 hv with hv | hv
    · obtain ⟨u, hu⟩ := h1.known p v hv
      exact ⟨u, (h2.keeps p u hu).1⟩
    · exact h2.known p v hv
  once := by
    rw [List.pairwise_append]
    refine ⟨h1.once, h2.once, ?_⟩
    rintro a ha b hb p v rfl rfl
    obtain ⟨u, hu⟩ := h1.known p v ha
    exact (h2.keeps p u hu).2.1 hb
  single p v hv hc := by
    rw [List.count_append] at hc
    rcases List.mem_append.1 hv with hv | hv
    · exact (h2.keeps p v (h1.single p v hv (by omega))).1
    · cases hg : g p with
      | none => exact h2.single p v hv (by omega)
      | some u =>
        obtain ⟨b1, _, b3⟩ := h2.keeps p u hg
        rw [b3 v hv, b1]
  absent p hf hl := by
    simp only [List.mem_append, not_or] at hl
    obtain ⟨a1, a2⟩ := h1.absent p hf hl.1
    obtain ⟨b1, b2⟩ := h2.absent p a1 hl.2
    exact ⟨b1, fun v => by simp [a2 v, b2 v]⟩

/-- Any other event. -/
theorem History.other {f e} (h1 : ∀ p, e ≠ .load p) (h2 : ∀ p v, e ≠ .imported p v) : History f f [e] where
  keeps p v hf := ⟨hf, by simpa using (h1 p).symm, fun v' hv => absurd (List.mem_singleton.1 hv).symm (h2 p v')⟩
  known p v hv := absurd (List.mem_singleton.1 hv).symm (h2 p v)
  once := by simp
  single p v hv := absurd (List.mem_singleton.1 hv).symm (h2 p v)
  absent p hf _ := ⟨hf, fun v hv => absurd (List.mem_singleton.1 hv).symm (h2 p v)⟩

/-- A module that is not known is loaded. -/
theorem History.load {f p} (h : f p = none) : History f f [.load p] where
  keeps q v hf := ⟨hf, by simp; rintro rfl; simp [h] at hf, by simp⟩
  known := by simp
  once := by simp
  single := by simp
  absent q hf _ := ⟨hf, by simp⟩

/-- A known module is imported. -/
theorem History.again {f p v} (h : f p = some v) : History f f [.imported p v] where
  keeps q u hf := ⟨hf, by simp, by simp; rintro rfl; rw [h] at hf; simpa using hf⟩
  known q u hq := by simp at hq; exact ⟨v, by rw [hq.1, h]⟩
  once := by simp
  single q u hq _ := by simp at hq; rw [hq.1, hq.2, h]
  absent q hq _ := ⟨hq, fun u hu => by simp at hu; rw [hu.1, h] at hq; simp at hq⟩

/-- A module that was not known is imported. -/
theorem History.first {f g g' p v body} (h0 : f p = none) (h : History f g body) (hp : g' p = some v)
    (ho : ∀ q, q ≠ p → g' q = g q) : History f g' (.load p :: (body ++ [.imported p v])) where
  keeps q u hq := by
    have hne : q ≠ p := by rintro rfl; simp [h0] at hq
    obtain ⟨a1, a2, a3⟩ := h.keeps q u hq
    refine ⟨by rw [ho q hne, a1], by simp [a2, hne], fun v' hv => ?_⟩
    simp [hne] at hv
    exact a3 v' hv
  known q u hq := by
    by_cases hne : q = p
    · exact ⟨v, by rw [hne, hp]⟩
    · simp [hne] at hq; rw [ho q hne]; exact h.known q u hq
  once := by
    rw [List.pairwise_cons, List.pairwise_append]
    refine ⟨by simp, h.once, by simp, ?_⟩
    simp
  single q u hq hc := by
    by_cases hne : q = p
    · subst hne
      simp only [List.count_cons, List.count_append] at hc
      have h0' : body.count (.load q) = 0 := by simp at hc; omega
      have := (h.absent q h0 (List.count_eq_zero.1 h0')).2 u
      simp [this] at hq
      rw [hq, hp]
    · simp [hne] at hq
      rw [ho q hne]
      refine h.single q u hq ?_
      simp only [List.count_cons, List.count_append] at hc
      omega
  absent q hq hl := by
    have hne : q ≠ p := by rintro rfl; simp at hl
    simp at hl
    obtain ⟨a1, a2⟩ := h.absent q hq hl.2
    exact ⟨by rw [ho q hne, a1], fun u => by simp [a2, hne]⟩

/-- What else is preserved: loaded modules stay loaded and are not loaded again. -/
structure Rest (s s' : RState) : Prop where
  heap : HeapGrows s.heap s'.heap
  modules : ∀ p v, s.modules.lookup p = some v → s'.modules.lookup p = some v
  trace : ∃ evs, s'.trace = s.trace ++ evs ∧ History (fun p => s.modules.lookup p) (fun p => s'.modules.lookup p) evs
  files : s.files <+: s'.files
  std : s'.std = s.std
  argv : s'.argv = s.argv
  counted : s'.modules.length + loadCount s.trace ≤ s.modules.length + loadCount s'.trace

/-- Slots were left on the stack only if some module was loaded and not completed. -/
def Quiet (s s' : RState) : Prop :=
  s'.leaked = s.leaked ∨ s'.modules.length + loadCount s.trace < s.modules.length + loadCount s'.trace

theorem loadCount_append (a b : List Event) : loadCount (a ++ b) = loadCount a + loadCount b := List.countP_append

theorem Quiet.leaked {s s'} (h : Quiet s s') (ht : s.trace <+: s'.trace) (hc : AllCompleted s s') : s'.leaked = s.leaked := by
  rcases h with h | h
  · exact h
  · obtain ⟨evs, he⟩ := ht
    rw [AllCompleted, ← he, List.drop_left] at hc
    rw [← he, loadCount_append] at h
    omega

/-- Everything but the arguments. -/
structure Core (k : Nat) (s s' : RState) : Prop where
  stack : StackRel k s s'
  rest : Rest s s'
  quiet : Quiet s s'
  shrunk : s'.shrunk = s.shrunk
  inv : Inv s'

theorem StackRel.refl (k s) : StackRel k s s := ⟨0, rfl, rfl, rfl⟩

theorem StackRel.trans {k a b c} (h1 : StackRel k a b) (h2 : StackRel k b c) : StackRel k a c := by
  obtain ⟨j1, l1, n1, d1⟩ := h1
  obtain ⟨j2, l2, n2, d2⟩ := h2
  refine ⟨j1 + j2, by omega, by omega, ?_⟩
  rw [← d1, show k + (j1 + j2) = (k + j2) + j1 by omega, ← List.drop_drop, d2, List.drop_drop]

theorem StackRel.weaken {k k' a b} (h : StackRel k a b) (hk : k ≤ k') : StackRel k' a b := by
  obtain ⟨j, l, n, d⟩ := h
  refine ⟨j, l, n, ?_⟩
  rw [show k' + j = (k + j) + (k' - k) by omega, ← List.drop_drop, d, List.drop_drop, show k + (k' - k) = k' by omega]

theorem StackRel.length_le {k a b} (h : StackRel k a b) : a.stack.length ≤ b.stack.length := by
  obtain ⟨j, _, n, _⟩ := h; omega

theorem Rest.refl (s) : Rest s s :=
  ⟨.refl _, fun _ _ h => h, ⟨[], by simp, .nil _⟩, List.prefix_refl _, rfl, rfl, Nat.le_refl _⟩

theorem Rest.trans {a b c} (h1 : Rest a b) (h2 : Rest b c) : Rest a c := by
  refine ⟨h1.heap.trans h2.heap, fun p v h => h2.modules _ _ (h1.modules _ _ h), ?_, h1.files.trans h2.files,
    h2.std.trans h1.std, h2.argv.trans h1.argv, by have := h1.counted; have := h2.counted; omega⟩
  obtain ⟨e1, t1, n1⟩ := h1.trace
  obtain ⟨e2, t2, n2⟩ := h2.trace
  exact ⟨e1 ++ e2, by simp [t1, t2], n1.append n2⟩

theorem Quiet.trans {a b c} (r1 : Rest a b) (r2 : Rest b c) (h1 : Quiet a b) (h2 : Quiet b c) : Quiet a c := by
  have := r1.counted
  have := r2.counted
  simp only [Quiet] at *
  omega

theorem Core.refl {k s} (h : Inv s) : Core k s s := ⟨.refl _ _, .refl _, .inl rfl, rfl, h⟩

theorem Core.trans {k a b c} (h1 : Core k a b) (h2 : Core k b c) : Core k a c :=
  ⟨h1.stack.trans h2.stack, h1.rest.trans h2.rest, h1.quiet.trans h1.rest h2.rest h2.quiet,
    h2.shrunk.trans h1.shrunk, h2.inv⟩

theorem Core.weaken {k k' a b} (h : Core k a b) (hk : k ≤ k') : Core k' a b :=
  ⟨h.stack.weaken hk, h.rest, h.quiet, h.shrunk, h.inv⟩

/-- Only the heap and the arguments changed. -/
theorem Core.ofHeap {k : Nat} {s s' : RState} (hh : HeapGrows s.heap s'.heap) (hc : Inv s')
    (h1 : s'.stack = s.stack) (h2 : s'.leaked = s.leaked) (h3 : s'.modules = s.modules) (h4 : s'.trace = s.trace)
    (h5 : s'.files = s.files) (h6 : s'.std = s.std) (h7 : s'.argv = s.argv) (h8 : s'.shrunk = s.shrunk) : Core k s s' := by
  refine ⟨⟨0, by simp [h2], by simp [h1], by simp [h1]⟩, ⟨hh, by simp [h3], ⟨[], by simp [h4], by rw [h3]; exact .nil _⟩, by simp [h5], h6, h7, by simp [h3, h4]⟩,
    .inl h2, h8, hc⟩

theorem Core.args {k s s'} (h : Core k s s') (as : List Value) : Core k s { s' with args := as } :=
  ⟨h.stack, ⟨h.rest.heap, h.rest.modules, h.rest.trace, h.rest.files, h.rest.std, h.rest.argv, h.rest.counted⟩, h.quiet, h.shrunk, h.inv⟩

theorem Core.args' {k s s'} (as : List Value) (h : Core k { s with args := as } s') : Core k s s' :=
  ⟨h.stack, ⟨h.rest.heap, h.rest.modules, h.rest.trace, h.rest.files, h.rest.std, h.rest.argv, h.rest.counted⟩, h.quiet, h.shrunk, h.inv⟩

/-- The frame of the running function was given up. -/
structure Gone (k : Nat) (b : Bool) (s s' : RState) : Prop where
  stack : ∃ j, s'.leaked = s.leaked + j ∧ s'.stack.length + k = s.stack.length + j ∧ s'.stack.drop j = s.stack.drop k
  rest : Rest s s'
  quiet : Quiet s s'
  shrunk : s'.shrunk = b
  inv : Inv s'

theorem Gone.after {k f a b c} (h1 : Core k a b) (h2 : Gone k f b c) : Gone k f a c := by
  refine ⟨?_, h1.rest.trans h2.rest, h1.quiet.trans h1.rest h2.rest h2.quiet, h2.shrunk, h2.inv⟩
  obtain ⟨j1, l1, n1, d1⟩ := h1.stack
  obtain ⟨j2, l2, n2, d2⟩ := h2.stack
  refine ⟨j1 + j2, by omega, by omega, ?_⟩
  rw [← d1, show j1 + j2 = j2 + j1 by omega, ← List.drop_drop, d2, List.drop_drop]

theorem Gone.before {k f a b c} (h1 : Gone k f a b) (h2 : Core 0 b c) : Gone k f a c := by
  refine ⟨?_, h1.rest.trans h2.rest, h1.quiet.trans h1.rest h2.rest h2.quiet, h2.shrunk.trans h1.shrunk, h2.inv⟩
  obtain ⟨j1, l1, n1, d1⟩ := h1.stack
  obtain ⟨j2, l2, n2, d2⟩ := h2.stack
  refine ⟨j1 + j2, by omega, by omega, ?_⟩
  rw [← d1, show j1 + j2 = j2 + j1 by omega, ← List.drop_drop, show j2 = 0 + j2 by omega, d2]
  simp

theorem Gone.args {k f s s'} (h : Gone k f s s') (as : List Value) : Gone k f s { s' with args := as } :=
  ⟨h.stack, ⟨h.rest.heap, h.rest.modules, h.rest.trace, h.rest.files, h.rest.std, h.rest.argv, h.rest.counted⟩, h.quiet, h.shrunk, h.inv⟩

/-- The frame is there, or was given up by a tail call. -/
def TailRel (tail : Option Nat) (k : Nat) (s s' : RState) : Prop := Core k s s' ∨ (tail.isSome = true ∧ Gone k true s s')

theorem TailRel.core {k s s'} (h : TailRel none k s s') : Core k s s' := h.elim id (fun h => by simp at h)

theorem TailRel.after {tail k a b c} (h1 : Core k a b) (h2 : TailRel tail k b c) : TailRel tail k a c :=
  h2.elim (fun h => .inl (h1.trans h)) (fun h => .inr ⟨h.1, .after h1 h.2⟩)

/-- Flow can be obeyed at the site. -/
def FlowOk (c : Site) : Flow → Prop
  | .regular _ => True
  | .return_ _ => c.inFn = true
  | .break_ => c.inLoop = true

/-- Tail calls give up the frame of the function they are in. -/
def TailPre (c : Site) (tail : Option Nat) : Prop := ∀ n, tail = some n → n = c.slots

/-- When a task may be started. -/
def Pre (c : Site) (t : Task) (s : RState) : Prop :=
  Inv s ∧
  match t with
  | .expr _ tail e => c.slots ≤ s.stack.length ∧ TailPre c tail ∧ Spec.ExprOk c e
  | .items _ es _ => c.slots ≤ s.stack.length ∧ ExprsOk c es
  | .fields _ fs _ => c.slots ≤ s.stack.length ∧ FieldsOk c fs
  | .args _ es start => c.slots ≤ s.stack.length ∧ ExprsOk c es ∧ start ≤ s.args.length
  | .stmt _ tail st => c.slots ≤ s.stack.length ∧ TailPre c tail ∧ StmtOk c st
  | .block _ tail b => c.slots ≤ s.stack.length ∧ TailPre c tail ∧ BlockOk c b
  | .loop _ e b => c.slots ≤ s.stack.length ∧ Spec.ExprOk c e ∧ BlockOk { c with inLoop := true } b
  | .iter _ slot _ _ b => c.slots ≤ s.stack.length ∧ slot < c.slots ∧ BlockOk { c with inLoop := true } b
  | .call _ _ _ start _ => start ≤ s.args.length
  | .program _ p => ProgramOk p

/-- What holds after a task that ended with a value. -/
def Post (c : Site) (t : Task) (s : RState) (o : Out) (s' : RState) : Prop :=
  match t with
  | .expr _ tail _ | .stmt _ tail _ | .block _ tail _ => TailRel tail c.slots s s' ∧ FlowOk c o.flow ∧ s'.args = s.args
  | .items _ _ _ | .fields _ _ _ | .loop _ _ _ | .iter _ _ _ _ _ => Core c.slots s s' ∧ FlowOk c o.flow ∧ s'.args = s.args
  | .args _ es start => Core c.slots s s' ∧
    match o.flow with
    | .regular _ => ∃ vs : List Value, vs.length = es.length ∧ s'.args = s.args ++ vs
    | f => FlowOk c f ∧ s'.args = s.args.take start
  | .call _ _ _ start _ => Core 0 s s' ∧ (∃ v, o.flow = .regular v) ∧ s'.args = s.args.take start
  | .program _ _ => Core 0 s s' ∧ (∃ v, o.flow = .regular v) ∧ s'.args = s.args

/-- What holds after a task that stopped. -/
def Stopped (c : Site) (t : Task) (s : RState) (e : Stop) (s' : RState) : Prop :=
  Tolerable e ∧
  match t with
  | .expr _ tail _ | .stmt _ tail _ | .block _ tail _ => TailRel tail c.slots s s' ∧ s.args <+: s'.args
  | .items _ _ _ | .fields _ _ _ | .loop _ _ _ | .iter _ _ _ _ _ | .args _ _ _ => Core c.slots s s' ∧ s.args <+: s'.args
  | .call _ _ _ start _ => Core 0 s s' ∧ s.args.take start <+: s'.args
  | .program _ _ => StackRel 0 s s' ∧ Rest s s' ∧ s'.shrunk = s.shrunk ∧ Inv s' ∧ s.args <+: s'.args

/-- The task does what it should from every state. -/
def TaskOk (r : Task → M Out) : Prop := ∀ c t s, Pre c t s → Runs (r t) s (Post c t s) (Stopped c t s)

end Hush

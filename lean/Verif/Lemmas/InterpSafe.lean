import Verif.Lemmas.InterpLib

/-!
Every task of the interpreter keeps the invariant: no assertion of the interpreter core fails, the stack is balanced, existing
functions and errors are unchanged, modules are loaded once.
-/

namespace Hush
open Spec

/-! ### Primitives -/

/-- The stop of a part of a task. -/
def StopRel (k : Nat) (s0 : RState) (e : Stop) (s' : RState) : Prop := Tolerable e ∧ Core k s0 s' ∧ s0.args <+: s'.args

/-- In the middle of a task started in `s0` with a frame of `k` slots. -/
structure At (k : Nat) (s0 s : RState) : Prop where
  core : Core k s0 s
  args : s.args = s0.args
  size : k ≤ s0.stack.length

theorem At.inv {k s0 s} (h : At k s0 s) : Inv s := h.core.inv
theorem At.size' {k s0 s} (h : At k s0 s) : k ≤ s.stack.length := h.size.trans h.core.stack.length_le
theorem At.start {k s} (h : Inv s) (hk : k ≤ s.stack.length) : At k s s := ⟨.refl h, rfl, hk⟩
theorem At.next {k s0 s s'} (h : At k s0 s) (hc : Core k s s') (ha : s'.args = s.args) : At k s0 s' :=
  ⟨h.core.trans hc, ha.trans h.args, h.size⟩
theorem At.stop {k s0 s e} (h : At k s0 s) (he : Tolerable e) : StopRel k s0 e s := ⟨he, h.core, by rw [h.args]; exact List.prefix_refl _⟩
theorem At.stopped {k s0 s s' e} (h : At k s0 s) (he : StopRel k s e s') : StopRel k s0 e s' :=
  ⟨he.1, h.core.trans he.2.1, by rw [← h.args]; exact he.2.2⟩

theorem inv_heap {s : RState} {h : Heap} (hi : Inv s) (hc : h.closures = s.heap.closures) : Inv { s with heap := h } := by
  intro c hm; simp only [hc] at hm; exact hi c hm

theorem core_heap {k : Nat} {s : RState} {h : Heap} (hi : Inv s) (hk : HeapKeeps s.heap h) : Core k s { s with heap := h } :=
  .ofHeap hk.grows (inv_heap hi hk.closures) rfl rfl rfl rfl rfl rfl rfl rfl

theorem core_grows {k : Nat} {s : RState} {h : Heap} (hi : Inv s) (hk : HeapGrows s.heap h) (hc : h.closures = s.heap.closures) :
    Core k s { s with heap := h } :=
  .ofHeap hk (inv_heap hi hc) rfl rfl rfl rfl rfl rfl rfl rfl

theorem core_stack {k : Nat} {s : RState} {st : List Slot} (hi : Inv s) (hl : st.length = s.stack.length)
    (hd : st.drop k = s.stack.drop k) : Core k s { s with stack := st } :=
  ⟨⟨0, rfl, hl, hd⟩, ⟨.refl _, fun _ _ h => h, ⟨[], by simp, .nil _⟩, List.prefix_refl _, rfl, rfl, Nat.le_refl _⟩, .inl rfl, rfl, hi⟩

theorem drop_set_lt {l : List α} {i k : Nat} {a} (h : i < k) : (l.set i a).drop k = l.drop k := by
  rw [List.drop_set_of_lt h]

theorem runs_fetch {k : Nat} {ix : Nat} {s} {Q : Value → RState → Prop} {E} (h : ix < k) (hk : k ≤ s.stack.length)
    (hq : ∀ v, Q v s) : Runs (fetch ix) s Q E := by
  simp only [Runs, fetch]
  rw [List.getElem?_eq_getElem (show ix < s.stack.length by omega)]
  exact hq _

theorem runs_store {k : Nat} {ix : Nat} {v s} {Q : Unit → RState → Prop} {E} (h : ix < k) (hk : k ≤ s.stack.length)
    (hi : Inv s) (hq : ∀ s', Core k s s' → s'.args = s.args → Q () s') : Runs (store ix v) s Q E := by
  simp only [Runs, store]
  rw [List.getElem?_eq_getElem (show ix < s.stack.length by omega)]
  cases s.stack[ix] with
  | regular v' => exact hq _ (core_stack hi (by simp) (drop_set_lt h)) rfl
  | closed c =>
    refine hq _ (.ofHeap ?_ hi rfl rfl rfl rfl rfl rfl rfl rfl) rfl
    exact ⟨List.prefix_refl _, List.prefix_refl _, by simp [Heap.setCell], Nat.le_refl _, Nat.le_refl _, Nat.le_refl _⟩

theorem runs_place {k : Nat} {ix : Nat} {c s} {Q : Unit → RState → Prop} {E} (h : ix < k) (hk : k ≤ s.stack.length)
    (hi : Inv s) (hq : ∀ s', Core k s s' → s'.args = s.args → Q () s') : Runs (place ix c) s Q E := by
  simp only [Runs, place]
  rw [List.getElem?_eq_getElem (show ix < s.stack.length by omega)]
  exact hq _ (core_stack hi (by simp) (drop_set_lt h)) rfl

theorem runs_capture {k : Nat} {ix : Nat} {s} {Q : Nat → RState → Prop} {E} (h : ix < k) (hk : k ≤ s.stack.length)
    (hi : Inv s) (hq : ∀ c s', Core k s s' → s'.args = s.args → Q c s') : Runs (capture ix) s Q E := by
  simp only [Runs, capture]
  rw [List.getElem?_eq_getElem (show ix < s.stack.length by omega)]
  cases s.stack[ix] with
  | regular v' =>
    refine hq _ _ (Core.trans (core_stack hi (st := s.stack.set ix (.closed s.heap.cells.length)) (by simp) (drop_set_lt h))
      (.ofHeap ?_ ?_ rfl rfl rfl rfl rfl rfl rfl rfl)) rfl
    · exact ⟨List.prefix_refl _, List.prefix_refl _, by simp [Heap.newCell], Nat.le_refl _, Nat.le_refl _, Nat.le_refl _⟩
    · exact hi
  | closed c => exact hq _ _ (.refl hi) rfl

theorem runs_captureAll {k : Nat} {cs : List Prog.Capture} {s} (h : ∀ c ∈ cs, c.from_ < k) (hk : k ≤ s.stack.length)
    (hi : Inv s) : ∀ {Q : List (Nat × Nat) → RState → Prop} {E},
    (∀ l s', Core k s s' → s'.args = s.args → l.map (·.2) = cs.map (·.to) → Q l s') → Runs (captureAll cs) s Q E := by
  induction cs generalizing s with
  | nil => intro Q E hq; exact hq _ _ (.refl hi) rfl rfl
  | cons c cs ih =>
    intro Q E hq
    simp only [captureAll]
    refine runs_bind (runs_capture (h c (by simp)) hk hi ?_)
    intro cell s1 c1 a1
    refine runs_bind (ih (fun c hc => h c (by simp [hc])) (hk.trans c1.stack.length_le) c1.inv ?_)
    intro l s2 c2 a2 hl
    exact runs_pure (hq _ _ (c1.trans c2) (a2.trans a1) (by simp [hl]))

theorem runs_storeArgs {k : Nat} {vs : List Value} {ix s} (h : ix + vs.length ≤ k) (hk : k ≤ s.stack.length)
    (hi : Inv s) : ∀ {Q : Unit → RState → Prop} {E},
    (∀ s', Core k s s' → s'.args = s.args → Q () s') → Runs (storeArgs ix vs) s Q E := by
  induction vs generalizing s ix with
  | nil => intro Q E hq; exact hq _ (.refl hi) rfl
  | cons v vs ih =>
    intro Q E hq
    simp only [storeArgs]
    simp only [List.length_cons] at h
    refine runs_bind (runs_store (show ix < k by omega) hk hi ?_)
    intro s1 c1 a1
    exact ih (by omega) (hk.trans c1.stack.length_le) c1.inv (fun s2 c2 a2 => hq _ (c1.trans c2) (a2.trans a1))

theorem runs_placeAll {k : Nat} {l : List (Nat × Nat)} {s} (h : ∀ q ∈ l, q.2 < k) (hk : k ≤ s.stack.length)
    (hi : Inv s) : ∀ {Q : Unit → RState → Prop} {E},
    (∀ s', Core k s s' → s'.args = s.args → Q () s') → Runs (placeAll l) s Q E := by
  induction l generalizing s with
  | nil => intro Q E hq; exact hq _ (.refl hi) rfl
  | cons q l ih =>
    intro Q E hq
    obtain ⟨c, ix⟩ := q
    simp only [placeAll]
    refine runs_bind (runs_place (h (c, ix) (by simp)) hk hi ?_)
    intro s1 c1 a1
    exact ih (fun q hq => h q (by simp [hq])) (hk.trans c1.stack.length_le) c1.inv
      (fun s2 c2 a2 => hq _ (c1.trans c2) (a2.trans a1))

theorem runs_storeSelf {k : Nat} {o : Option Nat} {v s} {Q : Unit → RState → Prop} {E} (h : ∀ ix, o = some ix → ix < k)
    (hk : k ≤ s.stack.length) (hi : Inv s) (hq : ∀ s', Core k s s' → s'.args = s.args → Q () s') :
    Runs (storeSelf v o) s Q E := by
  cases o with
  | none => exact hq _ (.refl hi) rfl
  | some ix => exact runs_store (h ix rfl) hk hi hq

/-! ### Evaluation -/

/-- The rest of a task started in `s0` does what it should. -/
def Ev (tail : Option Nat) (k : Nat) (F : Flow → Prop) (s0 : RState) (m : M Out) (s : RState) : Prop :=
  Runs m s (fun o s' => TailRel tail k s0 s' ∧ F o.flow ∧ s'.args = s0.args)
    (fun e s' => Tolerable e ∧ TailRel tail k s0 s' ∧ s0.args <+: s'.args)

theorem ev_from {tail k F s0 s} {m : M Out} (h : At k s0 s) (he : Ev tail k F s m s) : Ev tail k F s0 m s := by
  refine runs_mono he ?_ ?_
  · rintro o s' ⟨h1, h2, h3⟩; exact ⟨.after h.core h1, h2, h3.trans h.args⟩
  · rintro e s' ⟨h1, h2, h3⟩; exact ⟨h1, .after h.core h2, by rw [← h.args]; exact h3⟩

theorem ev_mono {tail k s0 s} {F F' : Flow → Prop} {m : M Out} (he : Ev tail k F s0 m s) (h : ∀ f, F f → F' f) :
    Ev tail k F' s0 m s :=
  runs_mono he (fun _ _ ⟨h1, h2, h3⟩ => ⟨h1, h _ h2, h3⟩) (fun _ _ h => h)

theorem ev_tail {tail k F s0 s} {m : M Out} (he : Ev none k F s0 m s) : Ev tail k F s0 m s :=
  runs_mono he (fun _ _ ⟨h1, h2, h3⟩ => ⟨.inl h1.core, h2, h3⟩) (fun _ _ ⟨h1, h2, h3⟩ => ⟨h1, .inl h2.core, h3⟩)

theorem ev_bind {tail k F s0 s} {m : M α} {f : α → M Out}
    (h : Runs m s (fun a s' => Ev tail k F s0 (f a) s') (StopRel k s0)) : Ev tail k F s0 (m >>= f) s :=
  runs_bind (runs_mono h (fun _ _ h => h) (fun _ _ h => ⟨h.1, .inl h.2.1, h.2.2⟩))

theorem ev_pure {tail k s0 s} {F : Flow → Prop} {o : Out} (h : At k s0 s) (hf : F o.flow) : Ev tail k F s0 (pure o) s :=
  runs_pure ⟨.inl h.core, hf, h.args⟩

theorem ev_panic {tail k F s0 s kd p} (h : At k s0 s) : Ev tail k F s0 (M.panic kd p) s :=
  runs_panic ⟨tolerable_panic _, .inl h.core, (h.stop tolerable_timeout).2.2⟩

/-- Evaluate a part and continue if it gives a value. -/
theorem ev_part {tail k s0 s} {F : Flow → Prop} {m : M Out} {pos} {f : Value → Pos → Value → M Out} (h : At k s0 s)
    (hm : Ev none k F s m s) (hf : ∀ v vpos obj s', At k s0 s' → Ev tail k F s0 (f v vpos obj) s') :
    Ev tail k F s0 (m >>= fun o => o.regular pos f) s := by
  refine ev_bind (runs_mono hm ?_ ?_)
  · rintro o s' ⟨h1, h2, h3⟩
    have h' := h.next h1.core h3
    simp only [Out.regular]
    split
    · exact hf _ _ _ _ h'
    · rename_i hn
      exact ev_pure h' h2
  · rintro e s' ⟨h1, h2, h3⟩
    exact h.stopped ⟨h1, h2.core, h3⟩

variable {r : Task → M Out}

theorem ev_expr (hr : TaskOk r) {c : Site} {m tail e s} (hi : Inv s) (hk : c.slots ≤ s.stack.length)
    (ht : TailPre c tail) (he : Spec.ExprOk c e) : Ev tail c.slots (FlowOk c) s (r (.expr m tail e)) s :=
  hr c (.expr m tail e) s ⟨hi, hk, ht, he⟩

theorem ev_stmt (hr : TaskOk r) {c : Site} {m tail e s} (hi : Inv s) (hk : c.slots ≤ s.stack.length)
    (ht : TailPre c tail) (he : StmtOk c e) : Ev tail c.slots (FlowOk c) s (r (.stmt m tail e)) s :=
  hr c (.stmt m tail e) s ⟨hi, hk, ht, he⟩

theorem ev_block (hr : TaskOk r) {c : Site} {m tail e s} (hi : Inv s) (hk : c.slots ≤ s.stack.length)
    (ht : TailPre c tail) (he : BlockOk c e) : Ev tail c.slots (FlowOk c) s (r (.block m tail e)) s :=
  hr c (.block m tail e) s ⟨hi, hk, ht, he⟩

theorem ev_ofCore {k : Nat} {F : Flow → Prop} {s s1} {m : M Out}
    (h : Runs m s1 (fun o s' => Core k s s' ∧ F o.flow ∧ s'.args = s.args) (StopRel k s)) : Ev none k F s m s1 :=
  runs_mono h (fun _ _ ⟨h1, h2, h3⟩ => ⟨.inl h1, h2, h3⟩) (fun _ _ ⟨h1, h2, h3⟩ => ⟨h1, .inl h2, h3⟩)

theorem ev_toCore {k : Nat} {F : Flow → Prop} {s s1} {m : M Out} (h : Ev none k F s m s1) :
    Runs m s1 (fun o s' => Core k s s' ∧ F o.flow ∧ s'.args = s.args) (StopRel k s) :=
  runs_mono h (fun _ _ ⟨h1, h2, h3⟩ => ⟨h1.core, h2, h3⟩) (fun _ _ ⟨h1, h2, h3⟩ => ⟨h1, h2.core, h3⟩)

theorem ev_items (hr : TaskOk r) {c : Site} {m es acc s} (hi : Inv s) (hk : c.slots ≤ s.stack.length) (he : ExprsOk c es) :
    Ev none c.slots (FlowOk c) s (r (.items m es acc)) s :=
  ev_ofCore (hr c (.items m es acc) s ⟨hi, hk, he⟩)

theorem ev_fields (hr : TaskOk r) {c : Site} {m fs acc s} (hi : Inv s) (hk : c.slots ≤ s.stack.length) (he : FieldsOk c fs) :
    Ev none c.slots (FlowOk c) s (r (.fields m fs acc)) s :=
  ev_ofCore (hr c (.fields m fs acc) s ⟨hi, hk, he⟩)

theorem ev_loop (hr : TaskOk r) {c : Site} {m e b s} (hi : Inv s) (hk : c.slots ≤ s.stack.length) (he : Spec.ExprOk c e)
    (hb : BlockOk { c with inLoop := true } b) : Ev none c.slots (FlowOk c) s (r (.loop m e b)) s :=
  ev_ofCore (hr c (.loop m e b) s ⟨hi, hk, he, hb⟩)

theorem ev_iter (hr : TaskOk r) {c : Site} {m slot f p b s} (hi : Inv s) (hk : c.slots ≤ s.stack.length)
    (hs : slot < c.slots) (hb : BlockOk { c with inLoop := true } b) :
    Ev none c.slots (FlowOk c) s (r (.iter m slot f p b)) s :=
  ev_ofCore (hr c (.iter m slot f p b) s ⟨hi, hk, hs, hb⟩)

/-- The result of a task with another position. -/
theorem ev_flow {tail k s0 s} {F : Flow → Prop} {m : M Out} {pos obj} (hm : Ev tail k F s0 m s) :
    Ev tail k F s0 (m >>= fun o => pure ⟨o.flow, pos, obj⟩) s :=
  runs_bind (runs_mono hm (fun _ _ h => runs_pure h) (fun _ _ h => h))

theorem tailPre_none (c : Site) : TailPre c none := fun _ h => by cases h

/-- Continue after an operation without effect on the state. -/
theorem ev_lift {tail k F s0 s} {x : Except Stop α} {f : α → M Out} (h : At k s0 s) (he : ∀ e, x = .error e → Tolerable e)
    (hf : ∀ a, x = .ok a → Ev tail k F s0 (f a) s) : Ev tail k F s0 (M.lift x >>= f) s :=
  ev_bind (runs_lift hf (fun e hx => h.stop (he e hx)))

/-- Continue after an operation that reads the memory. -/
theorem ev_reads {tail k F s0 s} {x : Heap → Except Stop α} {f : α → M Out} (h : At k s0 s)
    (he : ∀ e, x s.heap = .error e → Tolerable e) (hf : ∀ a, x s.heap = .ok a → Ev tail k F s0 (f a) s) :
    Ev tail k F s0 (M.reads x >>= f) s :=
  ev_bind (runs_reads hf (fun e hx => h.stop (he e hx)))

/-! ### Commands -/

theorem core_record {k s e} (hi : Inv s) (h : History (fun p => s.modules.lookup p) (fun p => s.modules.lookup p) [e]) :
    Core k s { s with trace := s.trace ++ [e] } :=
  ⟨⟨0, rfl, rfl, rfl⟩, ⟨.refl _, fun _ _ h => h, ⟨[e], rfl, h⟩, List.prefix_refl _, rfl, rfl, by simp [loadCount_append]⟩, .inl rfl, rfl, hi⟩

theorem runs_answer {k s0 s args rp} (h : At k s0 s) :
    Runs (answer args rp) s (fun _ s' => At k s0 s') (StopRel k s0) := by
  cases rp with
  | value t => simp only [answer]; refine runs_alloc ?_; exact h.next (core_heap h.inv (keeps_build _ _ _)) rfl
  | panic p => exact runs_stop (h.stop (tolerable_panic _))
  | crash => exact runs_stop (h.stop (tolerable_crash (by simp) (by simp)))
  | exit c => exact runs_stop (h.stop (tolerable_exit _))

theorem runs_command {k s0 s w} {b : Prog.CommandBlock} (h : At k s0 s) (hb : ∀ x ∈ blockSlots b, x < k) :
    Runs (evalCommand w b) s (fun _ s' => At k s0 s') (StopRel k s0) := by
  simp only [evalCommand]
  refine runs_bind (runs_get ?_)
  refine runs_bind (runs_lift ?_ ?_)
  · intro ex _
    have h1 : At k s0 { s with trace := s.trace ++ [.command b.kind ex] } :=
      h.next (core_record h.inv (.other (by simp) (by simp))) rfl
    refine runs_bind (runs_modify ?_)
    split
    · refine runs_bind (runs_alloc ?_)
      have h2 := h1.next (core_grows h1.inv (grows_newNative _ (bs "<command>.join") (.join (some s.trace.length))) rfl) rfl
      exact runs_alloc (h2.next (core_heap h2.inv (keeps_newDict _ _)) rfl)
    · exact runs_answer h1
  · intro e he
    refine h.stop (buildBlock_tolerable he ?_)
    intro x hx
    have := hb x hx
    have := h.size'
    simp only [argEnv]
    rw [List.getElem?_eq_getElem (show x < s.stack.length by omega)]
    rfl

/-! ### Expressions -/

theorem lit_ok (w : World) (hr : TaskOk r) {c : Site} {m l pos s} (hi : Inv s) (hk : c.slots ≤ s.stack.length)
    (he : LitOk c l) : Ev none c.slots (FlowOk c) s (stepLit w r m l pos) s := by
  have h0 := At.start hi hk
  cases l with
  | array es => simp only [LitOk] at he; simp only [stepLit]; exact ev_flow (ev_items hr hi hk he)
  | dict fs => simp only [LitOk] at he; simp only [stepLit]; exact ev_flow (ev_fields hr hi hk he)
  | function n f b =>
    simp only [LitOk] at he
    obtain ⟨hf, hb⟩ := he
    simp only [stepLit]
    refine ev_bind (runs_captureAll hf.source hk hi ?_)
    intro l s1 c1 a1 hl
    have h1 := h0.next c1 a1
    refine ev_bind (runs_alloc ?_)
    refine ev_pure (h1.next ?_ rfl) trivial
    refine .ofHeap ?_ ?_ rfl rfl rfl rfl rfl rfl rfl rfl
    · exact ⟨by simp [Heap.newClosure], List.prefix_refl _, Nat.le_refl _, Nat.le_refl _, Nat.le_refl _, Nat.le_refl _⟩
    · intro cl hc
      simp only [Heap.newClosure, List.mem_append, List.mem_singleton] at hc
      rcases hc with hc | rfl
      · exact h1.inv cl hc
      · refine ⟨hf.fits, hl, ?_, fun x hx => ⟨(hf.self_ x hx).1, (hf.self_ x hx).2.1⟩, hb, by rw [hl]; exact hf.once, ?_⟩
        · intro q hq
          have : q.2 ∈ l.map (·.2) := List.mem_map.mpr ⟨q, hq, rfl⟩
          rw [hl] at this
          obtain ⟨cp, hcp, he⟩ := List.mem_map.mp this
          rw [← he]
          exact hf.target cp hcp
        · intro x hx q hq
          have : q.2 ∈ l.map (·.2) := List.mem_map.mpr ⟨q, hq, rfl⟩
          rw [hl] at this
          obtain ⟨cp, hcp, he⟩ := List.mem_map.mp this
          rw [← he]
          exact (hf.self_ x hx).2.2 cp hcp
  | nil | bool | int | float | byte | string | ident => exact ev_pure h0 trivial

theorem tailShrink_ok {tail} {c : Site} {s} (hi : Inv s) (hk : c.slots ≤ s.stack.length) (ht : TailPre c tail)
    {Q : Unit → RState → Prop} {E} (h1 : tail = none → Q () s)
    (h2 : ∀ s', tail.isSome = true → Gone c.slots true s s' → s'.args = s.args → Q () s') :
    Runs (tailShrink tail) s Q E := by
  cases tail with
  | none => exact h1 rfl
  | some n =>
    have hn := ht n rfl
    subst hn
    simp only [tailShrink]
    refine runs_bind ?_
    simp only [Runs, shrink, if_neg (show ¬ s.stack.length < c.slots by omega)]
    refine h2 _ rfl ⟨⟨0, rfl, ?_, ?_⟩, ?_, .inl rfl, rfl, hi⟩ rfl
    · simp only [List.length_drop]; omega
    · rfl
    · exact ⟨.refl _, fun _ _ h => h, ⟨[], by simp, .nil _⟩, List.prefix_refl _, rfl, rfl, Nat.le_refl _⟩

theorem call_task (hr : TaskOk r) {m obj f start pos s} (hi : Inv s) (hs : start ≤ s.args.length) :
    Runs (r (.call m obj f start pos)) s
      (fun o s' => Core 0 s s' ∧ (∃ v, o.flow = .regular v) ∧ s'.args = s.args.take start)
      (fun e s' => Tolerable e ∧ Core 0 s s' ∧ s.args.take start <+: s'.args) :=
  hr ⟨0, false, false⟩ (.call m obj f start pos) s ⟨hi, hs⟩

theorem args_task (hr : TaskOk r) {c : Site} {m es s} (hi : Inv s) (hk : c.slots ≤ s.stack.length) (he : ExprsOk c es) :
    Runs (r (.args m es s.args.length)) s
      (fun o s' => Core c.slots s s' ∧
        ((∃ v, o.flow = .regular v) ∧ (∃ vs : List Value, vs.length = es.length ∧ s'.args = s.args ++ vs) ∨
          (∀ v, o.flow ≠ .regular v) ∧ FlowOk c o.flow ∧ s'.args = s.args))
      (fun e s' => Tolerable e ∧ Core c.slots s s' ∧ s.args <+: s'.args) := by
  refine runs_mono (hr c (.args m es s.args.length) s ⟨hi, hk, he, Nat.le_refl _⟩) ?_ (fun _ _ h => h)
  intro o s' h
  simp only [Post] at h
  refine ⟨h.1, ?_⟩
  obtain ⟨-, h⟩ := h
  revert h
  split
  · rename_i hf; intro h; exact .inl ⟨⟨_, hf⟩, h⟩
  · rename_i hf; rintro ⟨h1, h2⟩; exact .inr ⟨hf, h1, by simpa using h2⟩

theorem expr_ok (w : World) (n : Nat) (hr : TaskOk r) {c : Site} {m tail e s} (hi : Inv s) (hk : c.slots ≤ s.stack.length)
    (ht : TailPre c tail) (he : Spec.ExprOk c e) : Ev tail c.slots (FlowOk c) s (stepExpr w n r m tail e) s := by
  have h0 := At.start hi hk
  have sub : ∀ {m e s'}, At c.slots s s' → Spec.ExprOk c e → Ev none c.slots (FlowOk c) s' (r (.expr m none e)) s' :=
    fun h he => ev_expr hr h.inv h.size' (tailPre_none c) he
  cases e with
  | ident slot pos =>
    simp only [Spec.ExprOk] at he
    simp only [stepExpr]
    exact ev_bind (runs_fetch he hk (fun v => ev_pure h0 trivial))
  | lit l pos =>
    simp only [Spec.ExprOk] at he
    simp only [stepExpr]
    exact ev_tail (lit_ok w hr hi hk he)
  | unary op e pos =>
    simp only [Spec.ExprOk] at he
    simp only [stepExpr]
    refine ev_part h0 (sub h0 he.2) ?_
    intro v vpos obj s1 h1
    refine ev_lift h1 (fun e he => unaryValue_tolerable he) ?_
    intro f hf
    refine ev_pure h1 ?_
    rcases unaryValue_flow hf with ⟨v', rfl⟩ | ⟨ho, rfl⟩
    · trivial
    · exact he.1 ho
  | binary l op rt pos =>
    simp only [Spec.ExprOk] at he
    simp only [stepExpr]
    refine ev_part h0 (sub h0 he.1) ?_
    intro v vpos obj s1 h1
    split
    · refine ev_lift h1 (fun e he => shortCircuit_tolerable he) ?_
      intro o _
      cases o with
      | some v => exact ev_pure h1 trivial
      | none =>
        refine ev_part h1 (sub h1 he.2) ?_
        intro v2 vpos2 obj2 s2 h2
        cases v2 with
        | bool b => exact ev_pure h2 trivial
        | _ => exact ev_panic h2
    · refine ev_part h1 (sub h1 he.2) ?_
      intro v2 vpos2 obj2 s2 h2
      exact ev_reads h2 (fun e he => strictValue_tolerable he) (fun a _ => ev_pure h2 trivial)
  | if_ cd t f pos =>
    simp only [Spec.ExprOk] at he
    simp only [stepExpr]
    refine ev_part h0 (sub h0 he.1) ?_
    intro v vpos obj s1 h1
    cases v with
    | bool b =>
      refine ev_tail (ev_flow (ev_from h1 (ev_block hr h1.inv h1.size' (tailPre_none c) ?_)))
      cases b
      · exact he.2.2
      · exact he.2.1
    | _ => exact ev_panic h1
  | access o f pos =>
    simp only [Spec.ExprOk] at he
    simp only [stepExpr]
    refine ev_part h0 (sub h0 he.1) ?_
    intro v vpos obj s1 h1
    refine ev_part h1 (sub h1 he.2) ?_
    intro v2 vpos2 obj2 s2 h2
    exact ev_reads h2 (fun e he => accessValue_tolerable he) (fun a _ => ev_pure h2 trivial)
  | call f es pos =>
    simp only [Spec.ExprOk] at he
    simp only [stepExpr]
    refine ev_part h0 (sub h0 he.1) ?_
    intro v vpos obj s1 h1
    cases v with
    | function fn =>
      refine ev_bind (runs_get ?_)
      refine ev_bind (runs_mono (args_task hr h1.inv h1.size' he.2) ?_ (fun _ _ h => h1.stopped h))
      rintro o s2 ⟨c2, ⟨⟨v, hv⟩, vs, -, ha⟩ | ⟨hn, hf, ha⟩⟩
      · simp only [Out.regular, hv]
        refine runs_bind (tailShrink_ok c2.inv (h1.size'.trans c2.stack.length_le) ht ?_ ?_)
        · intro hnone
          refine runs_bind (runs_mono (call_task hr c2.inv (by simp [ha])) ?_ ?_)
          · rintro o3 s3 ⟨c3, ⟨v3, hv3⟩, ha3⟩
            refine runs_pure ⟨.inl (h1.core.trans (c2.trans (c3.weaken (Nat.zero_le _)))), by simp [hv3, FlowOk], ?_⟩
            rw [ha3, ha, ← h1.args]; simp
          · rintro e s3 ⟨t3, c3, ha3⟩
            refine ⟨t3, .inl (h1.core.trans (c2.trans (c3.weaken (Nat.zero_le _)))), ?_⟩
            rw [ha] at ha3; rw [← h1.args]; simpa using ha3
        · intro s3 htail g3 a3
          refine runs_bind (runs_mono (call_task hr g3.inv (by simp [a3, ha])) ?_ ?_)
          · rintro o4 s4 ⟨c4, ⟨v4, hv4⟩, ha4⟩
            refine runs_pure ⟨.inr ⟨htail, .after (h1.core.trans c2) (g3.before c4)⟩, by simp [hv4, FlowOk], ?_⟩
            rw [ha4, a3, ha, ← h1.args]; simp
          · rintro e s4 ⟨t4, c4, ha4⟩
            refine ⟨t4, .inr ⟨htail, .after (h1.core.trans c2) (g3.before c4)⟩, ?_⟩
            rw [a3, ha] at ha4; rw [← h1.args]; simpa using ha4
      · have h2 := h1.next c2 ha
        simp only [Out.regular]
        exact ev_pure h2 hf
    | _ => exact ev_panic h1
  | command b pos =>
    simp only [Spec.ExprOk] at he
    simp only [stepExpr]
    exact ev_bind (runs_mono (runs_command h0 he) (fun _ _ h => ev_pure h trivial) (fun _ _ h => h))

/-! ### Statements -/

theorem stmt_ok (n : Nat) (hr : TaskOk r) {c : Site} {m tail st s} (hi : Inv s) (hk : c.slots ≤ s.stack.length)
    (ht : TailPre c tail) (he : StmtOk c st) : Ev tail c.slots (FlowOk c) s (stepStmt n r m tail st) s := by
  have h0 := At.start hi hk
  have sub : ∀ {m e s'}, At c.slots s s' → Spec.ExprOk c e → Ev none c.slots (FlowOk c) s' (r (.expr m none e)) s' :=
    fun h he => ev_expr hr h.inv h.size' (tailPre_none c) he
  cases st with
  | assign l rt =>
    simp only [StmtOk] at he
    simp only [stepStmt]
    refine ev_part h0 (sub h0 he.2) ?_
    intro v vpos obj s1 h1
    cases l with
    | ident slot pos =>
      have hl := he.1
      simp only [LvalueOk] at hl
      exact ev_bind (runs_store hl h1.size' h1.inv (fun s2 c2 a2 => ev_pure (h1.next c2 a2) trivial))
    | access o f pos =>
      have hl := he.1
      simp only [LvalueOk] at hl
      refine ev_part h1 (sub h1 hl.1) ?_
      intro v2 vpos2 obj2 s2 h2
      refine ev_part h2 (sub h2 hl.2) ?_
      intro v3 vpos3 obj3 s3 h3
      refine ev_reads h3 (fun e he => assignValue_tolerable he) ?_
      intro h' hh
      refine ev_bind (runs_modify ?_)
      exact ev_pure (h3.next (core_heap h3.inv (assignValue_keeps hh)) rfl) trivial
  | return_ e =>
    simp only [StmtOk] at he
    simp only [stepStmt]
    refine runs_bind (runs_mono (ev_expr hr hi hk ht he.2) ?_ (fun _ _ h => h))
    rintro o s1 ⟨h1, h2, h3⟩
    split
    · exact runs_pure ⟨h1, he.1, h3⟩
    · exact runs_pure ⟨h1, h2, h3⟩
  | break_ =>
    simp only [StmtOk] at he
    simp only [stepStmt]
    exact ev_pure h0 he
  | while_ e b =>
    simp only [StmtOk] at he
    simp only [stepStmt]
    exact ev_tail (ev_loop hr hi hk he.1 he.2)
  | for_ slot e b =>
    simp only [StmtOk] at he
    simp only [stepStmt]
    refine ev_part h0 (sub h0 he.2.1) ?_
    intro v vpos obj s1 h1
    cases v with
    | function f => exact ev_tail (ev_from h1 (ev_iter hr h1.inv h1.size' he.1 he.2.2))
    | _ => exact ev_panic h1
  | expr e =>
    simp only [StmtOk] at he
    simp only [stepStmt]
    exact ev_expr hr hi hk ht he

/-- After the body of a loop. -/
theorem ev_afterBody {c : Site} {s0 s} {body again : M Out} (h : At c.slots s0 s)
    (hb : Ev none c.slots (FlowOk { c with inLoop := true }) s body s)
    (ha : ∀ s', At c.slots s0 s' → Ev none c.slots (FlowOk c) s0 again s') :
    Ev none c.slots (FlowOk c) s0 (body >>= fun o => afterBody o again) s := by
  refine ev_bind (runs_mono (ev_toCore hb) ?_ (fun _ _ he => h.stopped he))
  rintro o s' ⟨h1, h2, h3⟩
  have h' := h.next h1 h3
  simp only [afterBody]
  split
  · exact ha _ h'
  · rename_i v hv; rw [hv] at h2; exact ev_pure h' h2
  · exact ev_pure h' trivial


/-! ### Calls -/

/-- The end of a call restores the stack. -/
theorem withFrame_ok {k : Nat} {s} {body : M Out} {P : Flow → Prop} (hk : k ≤ s.stack.length)
    (hb : Ev (some k) k P { s with shrunk := false } body { s with shrunk := false }) :
    Runs (withFrame k body) s (fun o s' => Gone k s.shrunk s s' ∧ P o.flow ∧ s'.args = s.args)
      (fun e s' => Tolerable e ∧ Gone k s.shrunk s s' ∧ s.args <+: s'.args) := by
  have key : ∀ s2, TailRel (some k) k { s with shrunk := false } s2 →
      ∃ s3, (if s2.shrunk then s3 = s2 else shrink k s2 = (.ok (), s3)) ∧ s3.args = s2.args ∧
        Gone k s.shrunk s { s3 with shrunk := s.shrunk } := by
    rintro s2 (h | ⟨-, h⟩)
    · have hs : s2.shrunk = false := h.shrunk
      obtain ⟨j, hl, hn, hd⟩ := h.stack
      simp only at hl hn hd
      refine ⟨{ s2 with stack := s2.stack.drop k }, ?_, rfl, ⟨⟨j, hl, ?_, ?_⟩, ?_, h.quiet, rfl, h.inv⟩⟩
      · simp only [hs, Bool.false_eq_true, if_false, shrink]
        rw [if_neg (by omega)]
      · simp only [List.length_drop]; omega
      · simp only [List.drop_drop]; exact hd
      · exact ⟨h.rest.heap, h.rest.modules, h.rest.trace, h.rest.files, h.rest.std, h.rest.argv, h.rest.counted⟩
    · refine ⟨s2, by simp [h.shrunk], rfl, ⟨h.stack, ?_, h.quiet, rfl, h.inv⟩⟩
      exact ⟨h.rest.heap, h.rest.modules, h.rest.trace, h.rest.files, h.rest.std, h.rest.argv, h.rest.counted⟩
  simp only [Ev, Runs] at hb
  simp only [Runs, withFrame]
  rcases hm : body { s with shrunk := false } with ⟨e | o, s2⟩
  · rw [hm] at hb
    obtain ⟨h1, h2, h3⟩ := hb
    obtain ⟨s3, hs, ha, hg⟩ := key s2 h2
    simp only
    split at hs
    · rename_i hsh; simp only [hsh, if_true]; subst hs; exact ⟨h1, hg, h3⟩
    · rename_i hsh; simp only [if_neg hsh, hs]; exact ⟨h1, hg, by simp only [ha]; exact h3⟩
  · rw [hm] at hb
    obtain ⟨h1, h2, h3⟩ := hb
    obtain ⟨s3, hs, ha, hg⟩ := key s2 h1
    simp only
    split at hs
    · rename_i hsh; simp only [hsh, if_true]; subst hs; exact ⟨hg, h2, h3⟩
    · rename_i hsh; simp only [if_neg hsh, hs]; exact ⟨hg, h2, by simp only [ha]; exact h3⟩

theorem runs_extend {w : World} {n pos s Q E} (h1 : E (.panic ⟨.stackOverflow, pos⟩) s)
    (h2 : Q () { s with stack := List.replicate n (.regular .nil) ++ s.stack }) : Runs (extend w n pos) s Q E := by
  simp only [Runs, extend]
  by_cases h : s.stack.length + n > w.limit
  · rw [if_pos h]; exact h1
  · rw [if_neg h]; exact h2

theorem runs_hush (w : World) (hr : TaskOk r) {obj a start pos s} (hi : Inv s) :
    Runs (do
        M.modify (fun s => { s with args := s.args.take start })
        if (s.args.drop start).length ≠ (s.heap.closure a).params then
          M.panic (.invalidArgs (s.args.drop start).length (s.heap.closure a).params) pos
        else do
          extend w (s.heap.closure a).frame.slots pos
          storeArgs 0 (s.args.drop start)
          placeAll (s.heap.closure a).context
          storeSelf obj (s.heap.closure a).frame.selfSlot
          let o ← withFrame (s.heap.closure a).frame.slots
            (r (.block (s.heap.closure a).module (some (s.heap.closure a).frame.slots) (s.heap.closure a).body))
          match o.flow with
          | .regular v => pure (.value v pos)
          | .return_ v => pure (.value v pos)
          | .break_ => M.crash .flow : M Out) s
      (fun o s' => Core 0 s s' ∧ (∃ v, o.flow = .regular v) ∧ s'.args = s.args.take start)
      (fun e s' => Tolerable e ∧ Core 0 s s' ∧ s.args.take start <+: s'.args) := by
  have hc := hi.closure a
  revert hc
  generalize s.heap.closure a = c
  intro hc
  have c1 : Core 0 s { s with args := s.args.take start } := (Core.refl hi).args _
  refine runs_bind (runs_modify ?_)
  split
  · exact runs_panic ⟨tolerable_panic _, c1, List.prefix_refl _⟩
  · rename_i hlen
    simp only [ne_eq, Decidable.not_not] at hlen
    refine runs_bind (runs_extend ?_ ?_)
    · exact ⟨tolerable_panic _, c1, List.prefix_refl _⟩
    · simp only
      generalize hs2 : ({ s with args := s.args.take start
                               , stack := List.replicate c.frame.slots (.regular .nil) ++ s.stack } : RState) = s2
      have hst : s2.stack = List.replicate c.frame.slots (.regular .nil) ++ s.stack := by rw [← hs2]
      have hi2 : Inv s2 := by rw [← hs2]; exact hi
      have hk2 : c.frame.slots ≤ s2.stack.length := by rw [hst]; simp
      have ha2 : s2.args = s.args.take start := by rw [← hs2]
      have hfin : ∀ s3, Gone c.frame.slots s2.shrunk s2 s3 → Core 0 s s3 := by
        intro s3 g
        refine ⟨?_, ?_, ?_, ?_, g.inv⟩
        · obtain ⟨j, h1, h2, h3⟩ := g.stack
          refine ⟨j, by rw [h1, ← hs2], ?_, ?_⟩
          · rw [hst] at h2; simp only [List.length_append, List.length_replicate] at h2; omega
          · rw [hst] at h3; simpa using h3
        · have := g.rest; rw [← hs2] at this
          exact ⟨this.heap, this.modules, this.trace, this.files, this.std, this.argv, this.counted⟩
        · have := g.quiet; rw [← hs2] at this; exact this
        · rw [g.shrunk, ← hs2]
      have h2 : At c.frame.slots s2 s2 := At.start hi2 hk2
      refine runs_bind (runs_storeArgs (k := c.frame.slots) ?_ hk2 hi2 ?_)
      · rw [hlen]; have := hc.fits; omega
      intro s3 c3 a3
      have h3 := h2.next c3 a3
      refine runs_bind (runs_placeAll (k := c.frame.slots) (fun q hq => (hc.target q hq).2) h3.size' h3.inv ?_)
      intro s4 c4 a4
      have h4 := h3.next c4 a4
      refine runs_bind (runs_storeSelf (k := c.frame.slots) (fun ix hx => (hc.self_ ix hx).2) h4.size' h4.inv ?_)
      intro s5 c5 a5
      have h5 := h4.next c5 a5
      refine runs_bind (runs_mono (withFrame_ok h5.size' (P := FlowOk ⟨c.frame.slots, true, false⟩) ?_) ?_ ?_)
      · refine ev_block (c := ⟨c.frame.slots, true, false⟩) hr (s := { s5 with shrunk := false }) ?_ h5.size' ?_ hc.body
        · exact h5.inv
        · rintro n ⟨⟩; rfl
      · rintro o s6 ⟨g6, f6, a6⟩
        have c6 : Core 0 s s6 := hfin s6 (by have := Gone.after h5.core g6; rwa [h5.core.shrunk] at this)
        have e6 : s6.args = s.args.take start := by rw [a6, h5.args, ha2]
        split
        · exact runs_pure ⟨c6, ⟨_, rfl⟩, e6⟩
        · exact runs_pure ⟨c6, ⟨_, rfl⟩, e6⟩
        · rename_i hb; rw [hb] at f6; simp [FlowOk] at f6
      · rintro e s6 ⟨t6, g6, a6⟩
        refine ⟨t6, hfin s6 (by have := Gone.after h5.core g6; rwa [h5.core.shrunk] at this), ?_⟩
        rw [← ha2, ← h5.args]; exact a6

/-! ### Native functions -/

/-- A native function does what it should. -/
def NativeOk (start : Nat) (m : M Value) (s : RState) : Prop :=
  Runs m s (fun _ s' => Core 0 s s' ∧ s.args.take start <+: s'.args)
    (fun e s' => Tolerable e ∧ Core 0 s s' ∧ s.args.take start <+: s'.args)

theorem take_prefix (l : List α) (n) : l.take n <+: l := List.take_prefix n l

theorem native_stop {start s e} (hi : Inv s) (h : Tolerable e) : NativeOk start (M.stop e) s :=
  runs_stop ⟨h, .refl hi, take_prefix _ _⟩

theorem native_panic {start s k p} (hi : Inv s) : NativeOk start (M.panic k p) s := native_stop hi (tolerable_panic _)

theorem native_pure {start s v} (hi : Inv s) : NativeOk start (pure v) s := runs_pure ⟨.refl hi, take_prefix _ _⟩

/-- An operation that keeps the arguments. -/
theorem native_at {start s} {m : M Value} (h : Runs m s (fun _ s' => At 0 s s') (StopRel 0 s)) : NativeOk start m s := by
  refine runs_mono h ?_ ?_
  · intro v s' h; exact ⟨h.core, by rw [h.args]; exact take_prefix _ _⟩
  · rintro e s' ⟨h1, h2, h3⟩; exact ⟨h1, h2, (take_prefix _ _).trans h3⟩

theorem callLib_ok {w n name addr args pos start s} (hi : Inv s) : NativeOk start (callLib w n name addr args pos) s := by
  have hl := libOk_call w name ⟨n, addr, args, pos, s.argv⟩ s.heap
  have key : Runs (callLib w n name addr args pos) s (fun _ s' => At 0 s s') (StopRel 0 s) := by
    have h0 : At 0 s s := At.start hi (Nat.zero_le _)
    cases h : Lib.call w name ⟨n, addr, args, pos, s.argv⟩ s.heap with
    | none =>
      simp only [Runs, callLib, h]
      have : Runs (do
          record (.native name args)
          answer args (w.native s.trace name (s.heap.native addr) args s.heap) : M Value) s
          (fun _ s' => At 0 s s') (StopRel 0 s) := by
        refine runs_bind (runs_modify ?_)
        exact runs_answer (h0.next (core_record hi (.other (by simp) (by simp))) rfl)
      exact this
    | some x =>
      cases x with
      | error e => simp only [Runs, callLib, h]; exact h0.stop (hl.2 e h)
      | ok p =>
        obtain ⟨v, h'⟩ := p
        simp only [Runs, callLib, h]
        exact h0.next (core_heap hi (hl.1 v h' h)) rfl
  exact native_at key

theorem join_ok {w addr pos start s} (hi : Inv s) : NativeOk start (joinCommand w addr pos) s := by
  have h0 : At 0 s s := At.start hi (Nat.zero_le _)
  refine native_at ?_
  simp only [joinCommand]
  refine runs_bind (runs_get ?_)
  split
  · rename_i t _
    refine runs_bind (runs_modify ?_)
    have h1 := h0.next (core_grows hi (grows_setNative s.heap addr (.join none)) rfl) rfl
    refine runs_bind (runs_modify ?_)
    exact runs_answer (h1.next (core_record h1.inv (.other (by simp) (by simp))) rfl)
  · exact runs_panic (h0.stop (tolerable_panic _))

theorem catching_ok {w start s} {m : M Out} (h : Runs m s
      (fun o s' => Core 0 s s' ∧ (∃ v, o.flow = .regular v) ∧ s'.args = s.args.take (start + 1))
      (fun e s' => Tolerable e ∧ Core 0 s s' ∧ s.args.take (start + 1) <+: s'.args)) :
    NativeOk start (catching w m) s := by
  have hp : s.args.take start <+: s.args.take (start + 1) := List.take_prefix_take_left (Nat.le_succ _)
  simp only [NativeOk, Runs, catching] at h ⊢
  rcases hm : m s with ⟨e | o, s'⟩
  · rw [hm] at h
    obtain ⟨h1, h2, h3⟩ := h
    cases e with
    | panic p =>
      refine ⟨h2.trans (core_heap h2.inv (keeps_newError _ _ _)), hp.trans h3⟩
    | crash k => exact ⟨h1, h2, hp.trans h3⟩
    | exit k => exact ⟨h1, h2, hp.trans h3⟩
    | timeout => exact ⟨h1, h2, hp.trans h3⟩
  · rw [hm] at h
    obtain ⟨h1, ⟨v, hv⟩, h3⟩ := h
    simp only [hv]
    exact ⟨h1, by rw [h3]; exact hp⟩

theorem runs_program (hr : TaskOk r) {m p s} (hi : Inv s) (hp : ProgramOk p) :
    Runs (r (.program m p)) s
      (fun o s' => Core 0 s s' ∧ (∃ v, o.flow = .regular v) ∧ s'.args = s.args)
      (fun e s' => Tolerable e ∧ StackRel 0 s s' ∧ Rest s s' ∧ s'.shrunk = s.shrunk ∧ Inv s' ∧ s.args <+: s'.args) :=
  hr ⟨0, false, false⟩ (.program m p) s ⟨hi, hp⟩

theorem load_ok {w path pos start s} (hr : TaskOk r) (hi : Inv s) (hn : s.modules.lookup path = none) :
    Runs (loadModule w r path pos) s
      (fun _ s' => Core 0 s s' ∧ s'.args = s.args ∧ (∃ body, s'.trace = s.trace ++ .load path :: body ∧
        History (fun p => s.modules.lookup p) (fun p => s'.modules.lookup p) body) ∧
        s'.modules.length + loadCount s.trace + 1 ≤ s.modules.length + loadCount s'.trace ∧
        (s'.leaked = s.leaked ∨ s'.modules.length + loadCount s.trace + 1 < s.modules.length + loadCount s'.trace))
      (fun e s' => Tolerable e ∧ Core 0 s s' ∧ s.args.take start <+: s'.args) := by
  have h0 : At 0 s s := At.start hi (Nat.zero_le _)
  have st : ∀ {e s'}, StopRel 0 s e s' → Tolerable e ∧ Core 0 s s' ∧ s.args.take start <+: s'.args :=
    fun h => ⟨h.1, h.2.1, (take_prefix _ _).trans h.2.2⟩
  simp only [loadModule]
  refine runs_bind (runs_get ?_)
  refine runs_bind (runs_modify ?_)
  have h1 := h0.next (core_record hi (.load (f := fun p => s.modules.lookup p) hn)) rfl
  split
  · exact runs_panic (st (h1.stop (tolerable_panic _)))
  · split
    · exact runs_stop (st (h1.stop (tolerable_crash (by simp) (by simp))))
    · rename_i src _ a ha
      split
      · rename_i hok
        split
        · rename_i p hp
          have hw := source_written ha hok
          have hpo : ProgramOk p := translatesProgram_ok (analyze_translates _ hw p hp)
          refine runs_bind (runs_modify ?_)
          generalize hs2 : ({ s with trace := s.trace ++ [.load path], files := s.files ++ [path] } : RState) = s2
          have h2 : At 0 s s2 := by
            refine h1.next ⟨⟨0, by rw [← hs2]; rfl, by rw [← hs2]; rfl, by rw [← hs2]⟩,
              ⟨by rw [← hs2]; exact .refl _, fun _ _ h => by rw [← hs2]; exact h, ⟨[], by rw [← hs2]; simp, by rw [← hs2]; exact .nil _⟩, by rw [← hs2]; simp,
                by rw [← hs2], by rw [← hs2], by rw [← hs2]⟩, .inl (by rw [← hs2]), by rw [← hs2], by rw [← hs2]; exact h1.inv⟩ (by rw [← hs2])
          have ht2 : s2.trace = s.trace ++ [.load path] := by rw [← hs2]
          have hm2 : s2.modules.length = s.modules.length := by rw [← hs2]
          have hc2 : loadCount s2.trace = loadCount s.trace + 1 := by rw [ht2, loadCount_append]; rfl
          have fin : ∀ s3, StackRel 0 s2 s3 → Rest s2 s3 → s3.shrunk = s2.shrunk → Inv s3 → Core 0 s s3 := by
            intro s3 a1 a2 a3 a4
            refine ⟨h2.core.stack.trans a1, h2.core.rest.trans a2, .inr ?_, a3.trans h2.core.shrunk, a4⟩
            have := a2.counted
            omega
          refine runs_bind (runs_mono (runs_program hr h2.inv hpo) ?_ ?_)
          · rintro o s3 ⟨a1, ⟨v, hv⟩, a6⟩
            simp only [Out.result, hv]
            obtain ⟨body, hb, hh⟩ := a1.rest.trace
            refine runs_pure ⟨fin s3 a1.stack a1.rest a1.shrunk a1.inv, a6.trans h2.args, ⟨body, by rw [hb, ht2]; simp, ?_⟩, ?_, ?_⟩
            · rw [← hs2] at hh; exact hh
            · have := a1.rest.counted; omega
            · have hl2 : s2.leaked = s.leaked := by rw [← hs2]
              have := a1.quiet
              simp only [Quiet] at this
              omega
          · rintro e s3 ⟨t, a1, a2, a3, a4, a6⟩
            exact ⟨t, fin s3 a1 a2 a3 a4, (take_prefix _ _).trans (by rw [← h2.args]; exact a6)⟩
        · exact runs_panic (st (h1.stop (tolerable_panic _)))
        · exact runs_stop (st (h1.stop (tolerable_crash (by simp) (by simp))))
      · exact runs_panic (st (h1.stop (tolerable_panic _)))

theorem import_ok {w m args pos start s} (hr : TaskOk r) (hi : Inv s) : NativeOk start (importModule w r m args pos) s := by
  simp only [importModule]
  split
  · refine runs_bind (runs_get ?_)
    split
    · exact native_panic hi
    · split
      · rename_i path _ v hv
        refine runs_bind (runs_modify ?_)
        exact runs_pure ⟨core_record hi (.again (f := fun p => s.modules.lookup p) hv), take_prefix _ _⟩
      · rename_i path _ _ hn
        refine runs_bind (runs_mono (load_ok hr hi hn) ?_ (fun _ _ h => h))
        rintro v s1 ⟨c1, a1, ⟨body, hb, hh⟩, hc1, hc2⟩
        refine runs_bind (runs_modify (runs_bind (runs_modify ?_)))
        refine runs_pure ⟨⟨c1.stack, ⟨c1.rest.heap, ?_, ⟨.load path :: (body ++ [.imported path v]), ?_, ?_⟩, c1.rest.files, c1.rest.std,
          c1.rest.argv, ?_⟩, ?_, c1.shrunk, c1.inv⟩, ?_⟩
        · intro p u hp
          simp only [List.lookup_cons]
          split
          · rename_i he; simp only [beq_iff_eq] at he; subst he; rw [hn] at hp; cases hp
          · exact c1.rest.modules p u hp
        · simp [hb]
        · refine .first (f := fun p => s.modules.lookup p) hn hh (by simp) ?_
          intro q hq
          simp only [List.lookup_cons]
          split
          · rename_i he; simp only [beq_iff_eq] at he; exact absurd he hq
          · rfl
        · simp only [List.length_cons, loadCount_append]
          omega
        · simp only [Quiet, List.length_cons, loadCount_append]
          omega
        · simp only [a1]; exact take_prefix _ _
  · exact native_panic hi
  · exact native_panic hi

theorem native_ok {w n m name addr start pos s} (hr : TaskOk r) (hi : Inv s) (hs : start ≤ s.args.length) :
    NativeOk start (nativeCall w n r m name addr start pos) s := by
  simp only [nativeCall]
  refine runs_bind (runs_get ?_)
  split
  · split
    · rename_i f hf
      refine catching_ok (call_task hr hi ?_)
      have := congrArg List.length hf
      simp only [List.length_drop, List.length_singleton] at this
      omega
    · exact native_panic hi
    · exact native_panic hi
  · split
    · split
      · refine runs_bind (runs_mono (call_task hr hi hs) ?_ (fun _ _ h => h))
        rintro o s1 ⟨h1, ⟨v, hv⟩, h3⟩
        simp only [Out.result, hv]
        exact runs_pure ⟨h1, by rw [h3]; exact List.prefix_refl _⟩
      · exact native_stop hi (tolerable_crash (by simp) (by simp))
    · split
      · exact import_ok hr hi
      · split
        · exact join_ok hi
        · exact callLib_ok hi

theorem take_of_prefix {l l' : List α} {n : Nat} (h : l.take n <+: l') (hn : n ≤ l.length) : l'.take n = l.take n := by
  obtain ⟨t, rfl⟩ := h
  simp [List.length_take, Nat.min_eq_left hn]

theorem call_ok (w : World) (n : Nat) (hr : TaskOk r) {m obj f start pos s} (hi : Inv s) (hs : start ≤ s.args.length) :
    Runs (stepCall w n r m obj f start pos) s
      (fun o s' => Core 0 s s' ∧ (∃ v, o.flow = .regular v) ∧ s'.args = s.args.take start)
      (fun e s' => Tolerable e ∧ Core 0 s s' ∧ s.args.take start <+: s'.args) := by
  have h0 : ¬ s.args.length < start := by omega
  cases f with
  | hush a =>
    have := runs_hush w hr (obj := obj) (a := a) (start := start) (pos := pos) hi
    simp only [Runs, stepCall, if_neg h0]
    exact this
  | native name addr =>
    have := native_ok (w := w) (n := n) (m := m) (name := name) (addr := addr) (pos := pos) hr hi hs
    simp only [NativeOk, Runs] at this
    simp only [Runs, stepCall, if_neg h0, bind, M.andThen, finally_, pure, M.ret]
    rcases hm : nativeCall w n r m name addr start pos s with ⟨e | v, s'⟩
    · rw [hm] at this
      obtain ⟨h1, h2, h3⟩ := this
      refine ⟨h1, h2.args _, ?_⟩
      simp only [take_of_prefix h3 hs]
      exact List.prefix_refl _
    · rw [hm] at this
      obtain ⟨h2, h3⟩ := this
      exact ⟨h2.args _, ⟨_, rfl⟩, take_of_prefix h3 hs⟩

theorem program_ok (w : World) (hr : TaskOk r) {m p s} (hi : Inv s) (hp : ProgramOk p) :
    Runs (stepProgram w r m p) s
      (fun o s' => Core 0 s s' ∧ (∃ v, o.flow = .regular v) ∧ s'.args = s.args)
      (fun e s' => Tolerable e ∧ StackRel 0 s s' ∧ Rest s s' ∧ s'.shrunk = s.shrunk ∧ Inv s' ∧ s.args <+: s'.args) := by
  obtain ⟨hp0, hb⟩ := hp
  simp only [stepProgram]
  refine runs_bind (runs_extend ?_ ?_)
  · exact ⟨tolerable_panic _, .refl _ _, .refl _, rfl, hi, List.prefix_refl _⟩
  · generalize hs2 : ({ s with stack := List.replicate p.rootSlots (.regular .nil) ++ s.stack } : RState) = s2
    have hst : s2.stack = List.replicate p.rootSlots (.regular .nil) ++ s.stack := by rw [← hs2]
    have hi2 : Inv s2 := by rw [← hs2]; exact hi
    have hk2 : p.rootSlots ≤ s2.stack.length := by rw [hst]; simp
    have ha2 : s2.args = s.args := by rw [← hs2]
    have hl2 : s2.leaked = s.leaked := by rw [← hs2]
    have hsh2 : s2.shrunk = s.shrunk := by rw [← hs2]
    have hr2 : Rest s s2 := by
      rw [← hs2]
      exact ⟨.refl _, fun _ _ h => h, ⟨[], by simp, .nil _⟩, List.prefix_refl _, rfl, rfl, Nat.le_refl _⟩
    have h2 : At p.rootSlots s2 s2 := At.start hi2 hk2
    refine runs_bind (runs_get ?_)
    refine runs_bind (runs_store hp0 hk2 hi2 ?_)
    intro s3 c3 a3
    have h3 := h2.next c3 a3
    have hb4 := ev_toCore (ev_from h3 (ev_block (c := ⟨p.rootSlots, false, false⟩) (m := m) hr h3.inv h3.size' (tailPre_none _) hb))
    refine runs_bind ?_
    simp only [Runs] at hb4 ⊢
    rcases hm : r (.block m none p.statements) s3 with ⟨e | o, s4⟩
    · rw [hm] at hb4
      obtain ⟨t4, c4, a4⟩ := hb4
      refine ⟨t4, ?_, ?_, c4.shrunk.trans hsh2, c4.inv, by rw [← ha2]; exact a4⟩
      · obtain ⟨j, hl, hn, hd⟩ := c4.stack
        refine ⟨j + p.rootSlots, by simp only [hl, hl2]; omega, ?_, ?_⟩
        · simp only [hn, hst]; simp; omega
        · rw [show 0 + (j + p.rootSlots) = p.rootSlots + j by omega]
          simp only [hd, hst]; simp
      · have := hr2.trans c4.rest
        exact ⟨this.heap, this.modules, this.trace, this.files, this.std, this.argv, this.counted⟩
    · rw [hm] at hb4
      obtain ⟨c4, f4, a4⟩ := hb4
      simp only
      have : ∃ v, o.flow = .regular v := by
        cases ho : o.flow with
        | regular v => exact ⟨v, rfl⟩
        | return_ v => rw [ho] at f4; simp [FlowOk] at f4
        | break_ => rw [ho] at f4; simp [FlowOk] at f4
      obtain ⟨v, hv⟩ := this
      simp only [hv]
      obtain ⟨j, hl, hn, hd⟩ := c4.stack
      have : ¬ s4.stack.length < p.rootSlots := by omega
      simp only [bind, M.andThen, shrink, if_neg this, pure, M.ret]
      refine ⟨⟨?_, ?_, ?_, c4.shrunk.trans hsh2, c4.inv⟩, ⟨_, rfl⟩, a4.trans ha2⟩
      · refine ⟨j, by simp only [hl, hl2], ?_, ?_⟩
        · simp only [List.length_drop, hn, hst, List.length_append, List.length_replicate]; omega
        · simp only [List.drop_drop]
          rw [show p.rootSlots + (0 + j) = p.rootSlots + j by omega, hd, hst]; simp
      · have := hr2.trans c4.rest
        exact ⟨this.heap, this.modules, this.trace, this.files, this.std, this.argv, this.counted⟩
      · have := (Quiet.trans hr2 c4.rest (.inl hl2) c4.quiet)
        exact this

/-! ### All tasks -/

theorem step_ok (w : World) (n : Nat) (hr : TaskOk r) : TaskOk (step w n r) := by
  intro c t s hpre
  obtain ⟨hi, hpre⟩ := hpre
  cases t with
  | expr m tail e => exact expr_ok w n hr hi hpre.1 hpre.2.1 hpre.2.2
  | stmt m tail st => exact stmt_ok n hr hi hpre.1 hpre.2.1 hpre.2.2
  | items m es acc =>
    obtain ⟨hk, he⟩ := hpre
    have h0 := At.start hi hk
    refine ev_toCore ?_
    cases es with
    | nil =>
      simp only [step]
      refine ev_bind (runs_alloc ?_)
      exact ev_pure (h0.next (core_heap hi (keeps_newArray _ _)) rfl) trivial
    | cons e es =>
      simp only [ExprsOk] at he
      simp only [step]
      refine ev_part h0 (ev_expr hr hi hk (tailPre_none c) he.1) ?_
      intro v _ _ s1 h1
      exact ev_from h1 (ev_items hr h1.inv h1.size' he.2)
  | fields m fs acc =>
    obtain ⟨hk, he⟩ := hpre
    have h0 := At.start hi hk
    refine ev_toCore ?_
    cases fs with
    | nil =>
      simp only [step]
      refine ev_bind (runs_alloc ?_)
      exact ev_pure (h0.next (core_heap hi (keeps_newDict _ _)) rfl) trivial
    | cons q fs =>
      obtain ⟨k, e⟩ := q
      simp only [FieldsOk] at he
      simp only [step]
      refine ev_part h0 (ev_expr hr hi hk (tailPre_none c) he.1) ?_
      intro v _ _ s1 h1
      exact ev_from h1 (ev_fields hr h1.inv h1.size' he.2)
  | args m es start =>
    obtain ⟨hk, he, hs⟩ := hpre
    have h0 := At.start hi hk
    cases es with
    | nil =>
      simp only [step]
      exact runs_pure ⟨.refl hi, [], rfl, by simp⟩
    | cons e es =>
      simp only [ExprsOk] at he
      simp only [step]
      refine runs_bind (runs_mono (ev_toCore (ev_expr hr hi hk (tailPre_none c) he.1)) ?_ (fun _ _ h => h))
      rintro o s1 ⟨c1, f1, a1⟩
      have h1 := h0.next c1 a1
      split
      · rename_i v hv
        refine runs_bind (runs_modify ?_)
        have hc := c1.args (s1.args ++ [v])
        refine runs_mono (hr c (.args m es start) { s1 with args := s1.args ++ [v] }
          ⟨hc.inv, h1.size', he.2, by simp only [List.length_append, a1]; omega⟩) ?_ ?_
        · rintro o2 s2 ⟨c2, h2⟩
          refine ⟨hc.trans c2, ?_⟩
          revert h2
          split
          · rintro ⟨vs, hl, ha⟩
            exact ⟨v :: vs, by simp [hl], by simp [ha, a1]⟩
          · rintro ⟨hf, ha⟩
            refine ⟨hf, ?_⟩
            rw [ha]
            simp only [a1]
            rw [List.take_append_of_le_length hs]
        · rintro e2 s2 ⟨t2, c2, a2⟩
          refine ⟨t2, hc.trans c2, ?_⟩
          rw [← a1]
          exact (List.prefix_append _ _).trans a2
      · rename_i hv
        refine runs_bind (runs_modify (runs_pure ⟨c1.args _, ?_⟩))
        simp only [a1]
        exact ⟨f1, trivial⟩
  | block m tail b =>
    obtain ⟨hk, ht, hb⟩ := hpre
    have h0 := At.start hi hk
    match b, hb with
    | [], _ => exact ev_pure h0 trivial
    | [st], hb =>
      simp only [BlockOk] at hb
      simp only [step]
      exact ev_stmt hr hi hk ht hb.1
    | st :: st2 :: ss, hb =>
      rw [BlockOk] at hb
      simp only [step]
      refine ev_part h0 (ev_stmt hr hi hk (tailPre_none c) hb.1) ?_
      intro v _ _ s1 h1
      exact ev_from h1 (ev_block hr h1.inv h1.size' ht hb.2)
  | loop m e b =>
    obtain ⟨hk, he, hb⟩ := hpre
    have h0 := At.start hi hk
    refine ev_toCore ?_
    simp only [step]
    refine ev_part h0 (ev_expr hr hi hk (tailPre_none c) he) ?_
    intro v _ _ s1 h1
    cases v with
    | bool v =>
      cases v with
      | false => exact ev_pure h1 trivial
      | true =>
        refine ev_afterBody h1 ?_ (fun s2 h2 => ev_from h2 (ev_loop hr h2.inv h2.size' he hb))
        exact ev_block (c := { c with inLoop := true }) hr h1.inv h1.size' (tailPre_none _) hb
    | _ => exact ev_panic h1
  | iter m slot f pos b =>
    obtain ⟨hk, hsl, hb⟩ := hpre
    have h0 := At.start hi hk
    refine ev_toCore ?_
    simp only [step]
    refine ev_bind (runs_get ?_)
    refine ev_bind (runs_mono (call_task hr hi (Nat.le_refl _)) ?_ ?_)
    · rintro o s1 ⟨c1, ⟨v, hv⟩, a1⟩
      have h1 := h0.next (c1.weaken (Nat.zero_le _)) (by simpa using a1)
      simp only [Out.result, hv]
      refine ev_bind (runs_pure ?_)
      refine ev_reads h1 (fun e he => nextValue_tolerable he) ?_
      intro o2 _
      cases o2 with
      | none => exact ev_pure h1 trivial
      | some v2 =>
        refine ev_bind (runs_store hsl h1.size' h1.inv ?_)
        intro s2 c2 a2
        have h2 := h1.next c2 a2
        refine ev_afterBody h2 ?_ (fun s3 h3 => ev_from h3 (ev_iter hr h3.inv h3.size' hsl hb))
        exact ev_block (c := { c with inLoop := true }) hr h2.inv h2.size' (tailPre_none _) hb
    · rintro e s1 ⟨t1, c1, a1⟩
      exact ⟨t1, c1.weaken (Nat.zero_le _), by simpa using a1⟩
  | call m obj f start pos => exact call_ok w n hr hi hpre
  | program m p => exact program_ok w hr hi hpre

theorem run_zero_ok (w : World) : TaskOk (run w 0) := by
  intro c t s ⟨hi, hpre⟩
  have hc : ∀ k, Core k s s := fun k => .refl hi
  refine ⟨tolerable_timeout, ?_⟩
  cases t with
  | expr => exact ⟨.inl (hc _), List.prefix_refl _⟩
  | stmt => exact ⟨.inl (hc _), List.prefix_refl _⟩
  | block => exact ⟨.inl (hc _), List.prefix_refl _⟩
  | items => exact ⟨hc _, List.prefix_refl _⟩
  | fields => exact ⟨hc _, List.prefix_refl _⟩
  | loop => exact ⟨hc _, List.prefix_refl _⟩
  | iter => exact ⟨hc _, List.prefix_refl _⟩
  | args => exact ⟨hc _, List.prefix_refl _⟩
  | call => exact ⟨hc _, take_prefix _ _⟩
  | program => exact ⟨.refl _ _, .refl _, rfl, hi, List.prefix_refl _⟩

/-- Every task does what it should. -/
theorem run_ok (w : World) (n : Nat) : TaskOk (run w n) := by
  induction n with
  | zero => exact run_zero_ok w
  | succ n ih => exact step_ok w n ih

end Hush

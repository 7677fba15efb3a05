import Verif.Lemmas.VarOps

/-!
Expressions, statements and loops: the interpreter does what the reference semantics of variables says.
-/

namespace Hush
open Spec

/-! ### Rules -/

/-- In the middle of a task: `env` are the variables of the slots. -/
structure Mid (k : Nat) (env κ0 : List Nat) (s0 : RState) (σ0 : Vars.State) (κ : List Nat) (s : RState) (σ : Vars.State) : Prop where
  inside : At k s0 s
  moves : Moves κ0 env σ0 κ σ
  live : Live κ s σ
  window : Window κ s σ k env

/-- The end of a task with a value; after a tail call the slots are gone. -/
def Done (tail : Option Nat) (k : Nat) (env κ0 : List Nat) (σ0 : Vars.State) (s : RState) (σ : Vars.State) : Prop :=
  ∃ κ, Moves κ0 env σ0 κ σ ∧ Live κ s σ ∧ (tail = none → Window κ s σ k env)

/-- The end of a task that stopped. -/
def Halted (env κ0 : List Nat) (σ0 : Vars.State) (s : RState) (σ : Vars.State) : Prop :=
  ∃ κ, Moves κ0 env σ0 κ σ ∧ BRel κ s σ.base ∧ (σ.failed = true ↔ s.leaked ≠ 0)

/-- The end of a call that stopped. -/
def CallHalted (κ0 : List Nat) (σ0 : Vars.State) (s : RState) (σ : Vars.State) : Prop :=
  ∃ κ, Moves κ0 [] σ0 κ σ ∧ BRel κ s σ.base ∧ (σ.failed = true ↔ s.leaked ≠ 0) ∧ (σ.failed = false → σ.height = s.stack.length)

/-- The rest of a task. -/
def Evs (tail : Option Nat) (k : Nat) (env κ0 : List Nat) (σ0 : Vars.State) (m : M Out) (q : Vars.VM Out) (s : RState) (σ : Vars.State) :
    Prop :=
  Sim m q s σ (fun _ s' σ' => Done tail k env κ0 σ0 s' σ') (fun _ s' σ' => Halted env κ0 σ0 s' σ')

section
variable {tail : Option Nat} {k : Nat} {env κ0 κ : List Nat} {s0 s : RState} {σ0 σ : Vars.State}

theorem Mid.start (hi : Inv s) (hk : k ≤ s.stack.length) (hl : Live κ s σ) (hw : Window κ s σ k env) : Mid k env κ s σ κ s σ :=
  ⟨.start hi hk, .refl, hl, hw⟩

theorem Live.halt (h : Live κ s σ) : σ.failed = true ↔ s.leaked ≠ 0 := by rw [h.failed, h.leaked]; simp

theorem Mid.halted (h : Mid k env κ0 s0 σ0 κ s σ) : Halted env κ0 σ0 s σ := ⟨κ, h.moves, h.live.base, h.live.halt⟩

theorem Halted.after {s' : RState} {σ' : Vars.State} (h : Moves κ0 env σ0 κ σ) (h2 : Halted env κ σ s' σ') : Halted env κ0 σ0 s' σ' := by
  obtain ⟨κ', h3, h4, h5⟩ := h2
  exact ⟨κ', h.trans h3, h4, h5⟩

theorem Done.after {s' : RState} {σ' : Vars.State} (h : Moves κ0 env σ0 κ σ) (h2 : Done tail k env κ σ s' σ') :
    Done tail k env κ0 σ0 s' σ' := by
  obtain ⟨κ', h3, h4, h5⟩ := h2
  exact ⟨κ', h.trans h3, h4, h5⟩

theorem CallHalted.halted (h : CallHalted κ σ s σ0) : Halted env κ σ s σ0 := by
  obtain ⟨κ', h1, h2, h3, -⟩ := h
  exact ⟨κ', h1.weaken, h2, h3⟩

theorem Mid.next {s' : RState} {σ' : Vars.State} (h : Mid k env κ0 s0 σ0 κ s σ) (hd : Done none k env κ σ s' σ') (hc : Core k s s')
    (ha : s'.args = s.args) : ∃ κ', Mid k env κ0 s0 σ0 κ' s' σ' := by
  obtain ⟨κ', h1, h2, h3⟩ := hd
  exact ⟨κ', h.inside.next hc ha, h.moves.trans h1, h2, h3 rfl⟩

theorem evs_from {m q} (h : Mid k env κ0 s0 σ0 κ s σ) (he : Evs tail k env κ σ m q s σ) : Evs tail k env κ0 σ0 m q s σ :=
  sim_mono he (fun _ _ _ h' => h'.after h.moves) (fun _ _ _ h' => h'.after h.moves)

theorem evs_tail {m q} (he : Evs none k env κ0 σ0 m q s σ) : Evs tail k env κ0 σ0 m q s σ :=
  sim_mono he (fun _ _ _ ⟨κ', h1, h2, h3⟩ => ⟨κ', h1, h2, fun _ => h3 rfl⟩) (fun _ _ _ h => h)

theorem evs_pure {o : Out} (h : Mid k env κ0 s0 σ0 κ s σ) : Evs tail k env κ0 σ0 (pure o) (pure o) s σ :=
  sim_pure ⟨κ, h.moves, h.live, fun _ => h.window⟩

theorem evs_panic {kd p} (h : Mid k env κ0 s0 σ0 κ s σ) : Evs tail k env κ0 σ0 (M.panic kd p) (Vars.VM.panic kd p) s σ :=
  sim_panic h.halted

theorem evs_bind {m : M α} {q : Vars.VM α} {f : α → M Out} {g : α → Vars.VM Out}
    (h : Sim m q s σ (fun a s' σ' => Evs tail k env κ0 σ0 (f a) (g a) s' σ') (fun _ s' σ' => Halted env κ0 σ0 s' σ'))
    (hf : ∀ a, MLeaks (f a) := by leaks) : Evs tail k env κ0 σ0 (m >>= f) (q >>= g) s σ := sim_bind h hf

/-- The result with another position. -/
theorem evs_flow {m q pos obj} (h : Evs tail k env κ0 σ0 m q s σ) :
    Evs tail k env κ0 σ0 (m >>= fun o => pure ⟨o.flow, pos, obj⟩) (q >>= fun o => pure ⟨o.flow, pos, obj⟩) s σ :=
  sim_bind (sim_mono h (fun _ _ _ h => sim_pure h) (fun _ _ _ h => h))

/-- The evaluation of a part. -/
structure Part (k : Nat) (env κ : List Nat) (F : Flow → Prop) (m : M Out) (q : Vars.VM Out) (s : RState) (σ : Vars.State) : Prop where
  evs : Evs none k env κ σ m q s σ
  ev : Ev none k F s m s

theorem part_runs {F : Flow → Prop} {m q} (h : Mid k env κ0 s0 σ0 κ s σ) (hm : Part k env κ F m q s σ) :
    Sim m q s σ (fun _ s' σ' => ∃ κ', Mid k env κ0 s0 σ0 κ' s' σ') (fun _ s' σ' => Halted env κ0 σ0 s' σ') := by
  refine sim_mono (sim_runs hm.evs (ev_toCore hm.ev)) ?_ ?_
  · rintro o s' σ' ⟨h1, h2, h3, h4⟩
    exact h.next h1 h2 h4
  · rintro e s' σ' ⟨h1, -⟩
    exact h1.after h.moves

/-- Evaluate a part and continue if it gives a value. -/
theorem evs_part {F : Flow → Prop} {m q pos} {f : Value → Pos → Value → M Out} {g : Value → Pos → Value → Vars.VM Out}
    (h : Mid k env κ0 s0 σ0 κ s σ) (hm : Part k env κ F m q s σ)
    (hf : ∀ v vpos obj κ' s' σ', Mid k env κ0 s0 σ0 κ' s' σ' → Evs tail k env κ0 σ0 (f v vpos obj) (g v vpos obj) s' σ')
    (hl : ∀ v vpos obj, MLeaks (f v vpos obj) := by leaks) :
    Evs tail k env κ0 σ0 (m >>= fun o => o.regular pos f) (q >>= fun o => Vars.go o pos g) s σ := by
  refine evs_bind (sim_mono (part_runs h hm) ?_ (fun _ _ _ h => h)) (fun o => mleaks_regular hl)
  rintro o s' σ' ⟨κ', h'⟩
  simp only [Out.regular, Vars.go]
  cases o.flow with
  | regular v => exact hf _ _ _ _ _ _ h'
  | return_ v => exact evs_pure h'
  | break_ => exact evs_pure h'

/-- The body of a loop. -/
theorem evs_afterBody {F : Flow → Prop} {m q again again'} (h : Mid k env κ0 s0 σ0 κ s σ) (hm : Part k env κ F m q s σ)
    (ha : ∀ κ' s' σ', Mid k env κ0 s0 σ0 κ' s' σ' → Evs tail k env κ0 σ0 again again' s' σ') (hl : MLeaks again := by leaks) :
    Evs tail k env κ0 σ0 (m >>= fun o => afterBody o again) (q >>= fun o => Vars.afterBody o again') s σ := by
  refine evs_bind (sim_mono (part_runs h hm) ?_ (fun _ _ _ h => h)) (fun o => mleaks_afterBody hl)
  rintro o s' σ' ⟨κ', h'⟩
  simp only [afterBody, Vars.afterBody]
  cases o.flow with
  | regular v => exact ha _ _ _ h'
  | return_ v => exact evs_pure h'
  | break_ => exact evs_pure h'

theorem sim_get {f : RState → M β} {g : RState → Vars.VM β} {Q E} (h : Sim (f s) (g σ.base) s σ Q E) :
    Sim (M.get >>= f) (Vars.VM.other M.get >>= g) s σ Q E := h

/-- An operation that has nothing to do with variables. -/
theorem sim_plain' {m m' p : M α} {E'} (h : Mid k env κ0 s0 σ0 κ s σ) (hm : Plain p) (e1 : m s = p s) (e2 : m' σ.base = p σ.base)
    (hr : Runs m s (fun _ s' => At k s0 s') E') :
    Sim m (Vars.VM.other m') s σ (fun _ s' σ' => Mid k env κ0 s0 σ0 κ s' σ') (fun _ s' σ' => Halted env κ0 σ0 s' σ') := by
  obtain ⟨h1, h2, h3, h4, h5⟩ := hm κ s σ.base h.live.base
  simp only [Runs] at hr
  simp only [Sim, Vars.VM.other, e2]
  rw [← e1] at h1 h2 h4 h5
  have hlive : Live κ (m s).2 { σ with base := (p σ.base).2 } :=
    ⟨h2, h.live.failed, h5.trans h.live.leaked, by rw [h4]; exact h.live.height⟩
  have hmv : Moves κ [] σ κ { σ with base := (p σ.base).2 } :=
    ⟨List.prefix_refl _, fun _ h => .inl h, by simp only [h3]; exact Nat.le_refl _, by intro l _ _ _; simp only [h3]⟩
  cases hp : p σ.base with
  | mk x b =>
    rw [hp] at h1 hlive hmv
    cases x with
    | error e =>
      exact ⟨h1.symm, κ, h.moves.trans hmv.weaken, hlive.base, hlive.halt⟩
    | ok a =>
      refine ⟨h1.symm, ?_, h.moves.trans hmv.weaken, hlive, h.window.after hmv h4⟩
      rcases hs : m s with ⟨_ | _, s'⟩
      · rw [hs] at h1; cases h1
      · rw [hs] at hr; exact hr

theorem sim_plain {m : M α} {E'} (h : Mid k env κ0 s0 σ0 κ s σ) (hm : Plain m) (hr : Runs m s (fun _ s' => At k s0 s') E') :
    Sim m (Vars.VM.other m) s σ (fun _ s' σ' => Mid k env κ0 s0 σ0 κ s' σ') (fun _ s' σ' => Halted env κ0 σ0 s' σ') :=
  sim_plain' h hm rfl rfl hr

theorem evs_lift {x : Except Stop α} {f : α → M Out} {g : α → Vars.VM Out} (h : Mid k env κ0 s0 σ0 κ s σ)
    (hf : ∀ a, Evs tail k env κ0 σ0 (f a) (g a) s σ) : Evs tail k env κ0 σ0 (M.lift x >>= f) (Vars.VM.other (M.lift x) >>= g) s σ := by
  cases x with
  | ok a => exact hf a
  | error e => exact ⟨rfl, h.halted⟩

theorem evs_reads {x : Heap → Except Stop α} {f : α → M Out} {g : α → Vars.VM Out} (h : Mid k env κ0 s0 σ0 κ s σ)
    (hx : x σ.base.heap = x s.heap) (hf : ∀ a, Evs tail k env κ0 σ0 (f a) (g a) s σ) :
    Evs tail k env κ0 σ0 (M.reads x >>= f) (Vars.VM.other (M.reads x) >>= g) s σ := by
  have e1 : (M.reads x >>= f) s = (M.lift (x s.heap) >>= f) s := by
    simp only [bind, M.andThen, M.reads]
    cases x s.heap <;> rfl
  have e2 : (Vars.VM.other (M.reads x) >>= g) σ = (Vars.VM.other (M.lift (x s.heap)) >>= g) σ := by
    simp only [bind, Vars.VM.andThen, M.reads, Vars.VM.other, hx]
    cases x s.heap <;> rfl
  have := evs_lift (x := x s.heap) h hf
  simp only [Evs, Sim] at this ⊢
  rw [e1, e2]
  exact this

/-! ### Operations on variables -/

theorem evs_value {ix} {f : Value → M Out} {g : Value → Vars.VM Out} (h : Mid k env κ0 s0 σ0 κ s σ) (hx : ix < k)
    (hf : ∀ v, Evs tail k env κ0 σ0 (f v) (g v) s σ) : Evs tail k env κ0 σ0 (fetch ix >>= f) (Vars.value env ix >>= g) s σ := by
  obtain ⟨v, h1, h2⟩ := value_rel h.live h.window hx
  have e1 : (fetch ix >>= f) s = f v s := by simp only [bind, M.andThen, h1]
  have e2 : (Vars.value env ix >>= g) σ = g v σ := by simp only [bind, Vars.VM.andThen, h2]
  have := hf v
  simp only [Evs, Sim] at this ⊢
  rw [e1, e2]
  exact this

theorem evs_assign {ix v} {f : Unit → M Out} {g : Unit → Vars.VM Out} (h : Mid k env κ0 s0 σ0 κ s σ) (hx : ix < k)
    (hf : ∀ s' σ', Mid k env κ0 s0 σ0 κ s' σ' → Evs tail k env κ0 σ0 (f ()) (g ()) s' σ') :
    Evs tail k env κ0 σ0 (store ix v >>= f) (Vars.assign env ix v >>= g) s σ := by
  obtain ⟨s', σ', h1, h2, h3, h4, h5, -, -⟩ := assign_rel h.live h.window hx v
  have hr : Runs (store ix v) s (fun _ s' => At k s0 s') (fun _ _ => False) :=
    runs_store hx h.inside.size' h.inside.inv (fun s' hc ha => h.inside.next hc ha)
  simp only [Runs, h1] at hr
  have e1 : (store ix v >>= f) s = f () s' := by simp only [bind, M.andThen, h1]
  have e2 : (Vars.assign env ix v >>= g) σ = g () σ' := by simp only [bind, Vars.VM.andThen, h2]
  have := hf s' σ' ⟨hr, h.moves.trans h5, h3, h4⟩
  simp only [Evs, Sim] at this ⊢
  rw [e1, e2]
  exact this

/-- A function literal. -/
theorem evs_function {cs : List Prog.Capture} {params frame body md pos} (hl : Live κ s σ) (hw : Window κ s σ k env)
    (hc : ∀ c ∈ cs, c.from_ < k) :
    Evs none k env κ σ
      (do
        let context ← captureAll cs
        let f ← M.alloc (fun h => h.newClosure ⟨params, frame, body, context, md, pos⟩)
        pure (.value f pos) : M Out)
      (do
        let context ← Vars.captures env cs
        let f ← Vars.VM.other (M.alloc (fun h => h.newClosure ⟨params, frame, body, context, md, pos⟩))
        pure (.value f pos) : Vars.VM Out) s σ := by
  obtain ⟨l, s', κ', h1, h2, h3, h4, h5, h6⟩ := captures_rel hl hw hc
  obtain ⟨h7, h8⟩ := hrel_newClosure h4.base.heap (c := ⟨params, frame, body, l, md, pos⟩) h3
  simp only [Evs, Sim, bind, M.andThen, Vars.VM.andThen, h1, h2, Vars.VM.other, M.alloc]
  refine ⟨?_, κ', h6.right rfl, ⟨⟨h8, h4.base.args, h4.base.modules, h4.base.files, h4.base.trace, h4.base.std, h4.base.argv⟩, h4.failed,
    h4.leaked, h4.height⟩, fun _ => ⟨h5.len, h5.size, h5.regular, h5.closed, h5.apart⟩⟩
  simp only [pure, M.ret]
  rw [show (s'.heap.newClosure ⟨params, frame, body, l, md, pos⟩).1 = _ from h7.symm]
  rfl

/-! ### Recursive calls -/

/-- What holds after a task. -/
def TaskDone (c : Site) (t : Task) (env κ : List Nat) (σ : Vars.State) (s' : RState) (σ' : Vars.State) : Prop :=
  match t with
  | .expr _ tail _ | .stmt _ tail _ | .block _ tail _ => Done tail c.slots env κ σ s' σ'
  | .call .. | .program .. => ∃ κ', Moves κ [] σ κ' σ' ∧ Live κ' s' σ'
  | _ => Done none c.slots env κ σ s' σ'

/-- What holds after a task that stopped. -/
def TaskHalted (t : Task) (env κ : List Nat) (σ : Vars.State) (s' : RState) (σ' : Vars.State) : Prop :=
  match t with
  | .call .. | .program .. => CallHalted κ σ s' σ'
  | _ => Halted env κ σ s' σ'

/-- The slots of the running function are variables. -/
def TaskWindow (c : Site) (t : Task) (env κ : List Nat) (s : RState) (σ : Vars.State) : Prop :=
  match t with
  | .call .. | .program .. => True
  | _ => Window κ s σ c.slots env

/-- The interpreter does what the reference semantics says. -/
def SimOk (r : Task → M Out) (r' : Vars.Rec) : Prop := ∀ c t s σ κ env, Pre c t s → Live κ s σ → TaskWindow c t env κ s σ →
  Sim (r t) (r' env t) s σ (fun _ s' σ' => TaskDone c t env κ σ s' σ') (fun _ s' σ' => TaskHalted t env κ σ s' σ')

variable {r : Task → M Out} {r' : Vars.Rec}

theorem evs_expr (hs : SimOk r r') {c : Site} {m e} (h : Mid c.slots env κ0 s0 σ0 κ s σ) (ht : TailPre c tail)
    (he : Spec.ExprOk c e) : Evs tail c.slots env κ0 σ0 (r (.expr m tail e)) (r' env (.expr m tail e)) s σ :=
  evs_from h (hs c (.expr m tail e) s σ κ env ⟨h.inside.inv, h.inside.size', ht, he⟩ h.live h.window)

theorem part_expr (hs : SimOk r r') (hr : TaskOk r) {c : Site} {m e} (h : Mid c.slots env κ0 s0 σ0 κ s σ)
    (he : Spec.ExprOk c e) : Part c.slots env κ (FlowOk c) (r (.expr m none e)) (r' env (.expr m none e)) s σ :=
  ⟨hs c (.expr m none e) s σ κ env ⟨h.inside.inv, h.inside.size', tailPre_none c, he⟩ h.live h.window,
    ev_expr hr h.inside.inv h.inside.size' (tailPre_none c) he⟩

theorem part_stmt (hs : SimOk r r') (hr : TaskOk r) {c : Site} {m e} (h : Mid c.slots env κ0 s0 σ0 κ s σ)
    (he : StmtOk c e) : Part c.slots env κ (FlowOk c) (r (.stmt m none e)) (r' env (.stmt m none e)) s σ :=
  ⟨hs c (.stmt m none e) s σ κ env ⟨h.inside.inv, h.inside.size', tailPre_none c, he⟩ h.live h.window,
    ev_stmt hr h.inside.inv h.inside.size' (tailPre_none c) he⟩

theorem part_block (hs : SimOk r r') (hr : TaskOk r) {c : Site} {m e} (h : Mid c.slots env κ0 s0 σ0 κ s σ)
    (he : BlockOk c e) : Part c.slots env κ (FlowOk c) (r (.block m none e)) (r' env (.block m none e)) s σ :=
  ⟨hs c (.block m none e) s σ κ env ⟨h.inside.inv, h.inside.size', tailPre_none c, he⟩ h.live h.window,
    ev_block hr h.inside.inv h.inside.size' (tailPre_none c) he⟩

theorem sim_call (hs : SimOk r r') {env m obj f start pos} (hl : Live κ s σ) (hi : Inv s) (ha : start ≤ s.args.length) :
    Sim (r (.call m obj f start pos)) (r' env (.call m obj f start pos)) s σ
      (fun _ s' σ' => ∃ κ', Moves κ [] σ κ' σ' ∧ Live κ' s' σ') (fun _ s' σ' => CallHalted κ σ s' σ') :=
  hs ⟨0, false, false⟩ (.call m obj f start pos) s σ κ env ⟨hi, ha⟩ hl trivial

/-- If no slots leaked the stack is as before. -/
theorem core_same {s s' : RState} (h : StackRel 0 s s') (h1 : s.leaked = 0) (h2 : s'.leaked = 0) : s'.stack = s.stack := by
  obtain ⟨j, h3, h4, h5⟩ := h
  have : j = 0 := by omega
  subst this
  simpa using h5

/-! ### Commands -/

/-- What happens once the command is built. -/
def commandRest (w : World) (b : Prog.CommandBlock) (trace : List Event) (x : Except Stop ExBlock) : M Value := do
  let ex ← M.lift x
  record (.command b.kind ex)
  match b.kind with
  | .asynchronous =>
    let f ← M.alloc (fun h => h.newNative (bs "<command>.join") (.join (some trace.length)))
    M.alloc (fun h => h.newDict [(.string (bs "join"), f)])
  | kind => answer [] (w.command trace kind ex)

theorem sim_command {w b} (h : Mid k env κ0 s0 σ0 κ s σ) (hb : ∀ x ∈ blockSlots b, x < k) :
    Sim (evalCommand w b) (Vars.command w env b) s σ (fun _ s' σ' => Mid k env κ0 s0 σ0 κ s' σ')
      (fun _ s' σ' => Halted env κ0 σ0 s' σ') := by
  refine sim_plain' (p := commandRest w b s.trace (buildBlock (argEnv w s) b.head b.tail)) h ?_ rfl ?_ (runs_command h.inside hb)
  · refine plain_bind plain_lift fun ex => plain_bind plain_record fun _ => ?_
    cases b.kind with
    | asynchronous =>
      exact plain_bind (plain_alloc fun _ _ s => same_newNative s) fun _ => plain_alloc fun _ _ s => same_newDict s
    | _ => exact plain_answer
  · have e : buildBlock (Vars.argEnv w env σ.base) b.head b.tail = buildBlock (argEnv w s) b.head b.tail := by
      refine buildBlock_agree ⟨?_, h.live.base.heap.array, ?_, rfl⟩
      · intro x hx
        obtain ⟨sl, y, h1, h2, h3⟩ := fetch_eq h.live h.window (hb x hx)
        simp only [argEnv, Vars.argEnv, h1, h2, Option.map_some, h3]
      · simp only [argEnv, Vars.argEnv, h.live.base.trace]
    rw [← e, ← h.live.base.trace]
    rfl

/-! ### Expressions -/

theorem lit_sim (w : World) (hs : SimOk r r') {c : Site} {m l pos} (hi : Inv s) (hk : c.slots ≤ s.stack.length) (hl : Live κ s σ)
    (hw : Window κ s σ c.slots env) (he : LitOk c l) :
    Evs none c.slots env κ σ (stepLit w r m l pos) (Vars.literal w r' env m l pos) s σ := by
  have h0 := Mid.start hi hk hl hw
  cases l with
  | array es => simp only [LitOk] at he; exact evs_flow (hs c (.items m es []) s σ κ env ⟨hi, hk, he⟩ hl hw)
  | dict fs => simp only [LitOk] at he; exact evs_flow (hs c (.fields m fs []) s σ κ env ⟨hi, hk, he⟩ hl hw)
  | function n f b =>
    simp only [LitOk] at he
    exact evs_function hl hw he.1.source
  | nil | bool | int | float | byte | string | ident => exact evs_pure h0

theorem tailShrink_sim {c : Site} (hl : Live κ s σ) (hk : c.slots ≤ s.stack.length) (ht : TailPre c tail) {f : Unit → M Out}
    {g : Unit → Vars.VM Out} {Q E}
    (hf : ∀ s' σ', Live κ s' σ' → σ'.base = σ.base → s'.heap = s.heap → s'.args = s.args → (tail = none → s' = s ∧ σ' = σ) →
      Sim (f ()) (g ()) s' σ' Q E) : Sim (tailShrink tail >>= f) (Vars.release tail >>= g) s σ Q E := by
  cases tail with
  | none => exact hf s σ hl rfl rfl rfl (fun _ => ⟨rfl, rfl⟩)
  | some n =>
    have hn := ht n rfl
    subst hn
    have := hf { s with stack := s.stack.drop c.slots, shrunk := true } { σ with height := σ.height - c.slots }
      ⟨⟨hl.base.heap, hl.base.args, hl.base.modules, hl.base.files, hl.base.trace, hl.base.std, hl.base.argv⟩, hl.failed, hl.leaked,
        by simp [hl.height]⟩ rfl rfl rfl (by simp)
    have e1 : (tailShrink (some c.slots) >>= f) s = f () { s with stack := s.stack.drop c.slots, shrunk := true } := by
      simp only [bind, M.andThen, tailShrink, shrink, if_neg (show ¬ s.stack.length < c.slots by omega), M.modify]
    simp only [Sim] at this ⊢
    rw [e1]
    exact this

theorem expr_sim (w : World) (n : Nat) (hs : SimOk r r') (hr : TaskOk r) (hq : RecLeaks r) {c : Site} {m e} (hi : Inv s)
    (hk : c.slots ≤ s.stack.length) (hl : Live κ s σ) (hw : Window κ s σ c.slots env) (ht : TailPre c tail) (he : Spec.ExprOk c e) :
    Evs tail c.slots env κ σ (stepExpr w n r m tail e) (Vars.expr w n r' env m tail e) s σ := by
  have h0 := Mid.start hi hk hl hw
  cases e with
  | ident slot pos =>
    simp only [Spec.ExprOk] at he
    exact evs_value h0 he (fun v => evs_pure h0)
  | lit l pos =>
    simp only [Spec.ExprOk] at he
    exact evs_tail (lit_sim w hs hi hk hl hw he)
  | unary op e pos =>
    simp only [Spec.ExprOk] at he
    refine evs_part h0 (part_expr hs hr h0 he.2) ?_
    intro v vpos obj κ1 s1 σ1 h1
    exact evs_lift h1 fun f => evs_pure h1
  | binary l op rt pos =>
    simp only [Spec.ExprOk] at he
    refine evs_part h0 (part_expr hs hr h0 he.1) ?_
    intro v vpos obj κ1 s1 σ1 h1
    by_cases ho : op = .and ∨ op = .or
    · simp only [if_pos ho]
      refine evs_lift h1 fun o => ?_
      cases o with
      | some v => exact evs_pure h1
      | none =>
        refine evs_part h1 (part_expr hs hr h1 he.2) ?_
        intro v2 vpos2 obj2 κ2 s2 σ2 h2
        cases v2 with
        | bool b => exact evs_pure h2
        | _ => exact evs_panic h2
    · simp only [if_neg ho]
      refine evs_part h1 (part_expr hs hr h1 he.2) ?_
      intro v2 vpos2 obj2 κ2 s2 σ2 h2
      exact evs_reads h2 (by rw [h2.live.base.heap.strictValue]) fun a => evs_pure h2
  | if_ cd t f pos =>
    simp only [Spec.ExprOk] at he
    refine evs_part h0 (part_expr hs hr h0 he.1) ?_
    intro v vpos obj κ1 s1 σ1 h1
    cases v with
    | bool b =>
      refine evs_tail (evs_flow (evs_from h1 (part_block hs hr h1 ?_).evs))
      cases b
      · exact he.2.2
      · exact he.2.1
    | _ => exact evs_panic h1
  | access o f pos =>
    simp only [Spec.ExprOk] at he
    refine evs_part h0 (part_expr hs hr h0 he.1) ?_
    intro v vpos obj κ1 s1 σ1 h1
    refine evs_part h1 (part_expr hs hr h1 he.2) ?_
    intro v2 vpos2 obj2 κ2 s2 σ2 h2
    exact evs_reads h2 (by rw [h2.live.base.heap.accessValue]) fun a => evs_pure h2
  | call f es pos =>
    simp only [Spec.ExprOk] at he
    refine evs_part h0 (part_expr hs hr h0 he.1) ?_
    intro v vpos obj κ1 s1 σ1 h1
    cases v with
    | function fn =>
      refine sim_get ?_
      simp only [h1.live.base.args]
      refine evs_bind ?_
      refine sim_mono (sim_runs (hs c (.args m es s1.args.length) s1 σ1 κ1 env ⟨h1.inside.inv, h1.inside.size', he.2, Nat.le_refl _⟩
        h1.live h1.window) (args_task hr h1.inside.inv h1.inside.size' he.2)) ?_ ?_
      · rintro o s2 σ2 ⟨⟨κ2, m2, l2, w2⟩, c2, ⟨⟨v, hv⟩, vs, -, ha⟩ | ⟨hn, hf, ha⟩⟩
        · have w2 := w2 rfl
          simp only [Out.regular, Vars.go, hv]
          have hm2 := h1.moves.trans m2
          refine tailShrink_sim l2 (h1.inside.size'.trans c2.stack.length_le) ht ?_
          intro s3 σ3 l3 b3 hp3 a3 n3
          have hi3 : Inv s3 := by
            intro cl hcl; rw [hp3] at hcl; exact c2.inv cl hcl
          refine sim_bind (sim_mono (sim_runs (sim_call hs (env := []) l3 hi3 (start := s1.args.length) (by rw [a3, ha]; simp))
            (call_task hr hi3 (by rw [a3, ha]; simp))) ?_ ?_)
          · rintro o4 s4 σ4 ⟨⟨κ4, m4, l4⟩, c4, -⟩
            have m4' : Moves κ2 [] σ2 κ4 σ4 := m4.left (by rw [b3])
            refine sim_pure ⟨κ4, hm2.trans m4'.weaken, l4, ?_⟩
            intro hnone
            obtain ⟨rfl, rfl⟩ := n3 hnone
            exact w2.after m4' (core_same c4.stack l2.leaked l4.leaked)
          · rintro e s4 σ4 ⟨⟨κ4, m4, b4, f4, -⟩, -⟩
            have m4' : Moves κ2 [] σ2 κ4 σ4 := m4.left (by rw [b3])
            exact ⟨κ4, hm2.trans m4'.weaken, b4, f4⟩
        · have h2 : Mid c.slots env κ s σ κ2 s2 σ2 := ⟨h1.inside.next c2 ha, h1.moves.trans m2, l2, w2 rfl⟩
          simp only [Out.regular, Vars.go]
          cases hx : o.flow with
          | regular v => exact absurd hx (hn v)
          | return_ v => exact evs_pure h2
          | break_ => exact evs_pure h2
      · rintro e s2 σ2 ⟨hh, -⟩
        exact hh.after h1.moves
    | _ => exact evs_panic h1
  | command b pos =>
    simp only [Spec.ExprOk] at he
    exact evs_bind (sim_mono (sim_command h0 he) (fun _ _ _ h => evs_pure h) (fun _ _ _ h => h))

/-! ### Statements -/

theorem evs_assignValue {n obj op f fp v p o} (h : Mid k env κ0 s0 σ0 κ s σ) :
    Evs tail k env κ0 σ0
      (do
        let h ← M.reads (fun h => assignValue h n obj op f fp v p)
        M.modify (fun s => { s with heap := h })
        pure o : M Out)
      (do
        let h ← Vars.VM.other (M.reads (fun h => assignValue h n obj op f fp v p))
        Vars.VM.other (M.modify (fun s => { s with heap := h }))
        pure o : Vars.VM Out) s σ := by
  have hb := h.live.base
  have := same_assign hb.heap (n := n) (obj := obj) (op := op) (f := f) (fp := fp) (v := v) (p := p)
  simp only [Evs, Sim, bind, M.andThen, Vars.VM.andThen, Vars.VM.other, M.reads]
  cases hx : assignValue s.heap n obj op f fp v p with
  | error e =>
    rw [hx] at this
    simp only at this
    simp only [this]
    exact ⟨trivial, h.halted⟩
  | ok g =>
    rw [hx] at this
    obtain ⟨g', h1, h2⟩ := this
    simp only [h1, M.modify]
    have hmv : Moves κ [] σ κ { σ with base := { σ.base with heap := g' } } :=
      Moves.refl.right h2.cells'
    exact ⟨rfl, κ, h.moves.trans hmv.weaken, ⟨hb.heap' h2, h.live.failed, h.live.leaked, h.live.height⟩, fun _ => h.window.after hmv rfl⟩

theorem stmt_sim (n : Nat) (hs : SimOk r r') (hr : TaskOk r) (hq : RecLeaks r) {c : Site} {m st} (hi : Inv s)
    (hk : c.slots ≤ s.stack.length) (hl : Live κ s σ) (hw : Window κ s σ c.slots env) (ht : TailPre c tail) (he : StmtOk c st) :
    Evs tail c.slots env κ σ (stepStmt n r m tail st) (Vars.stmt n r' env m tail st) s σ := by
  have h0 := Mid.start hi hk hl hw
  cases st with
  | assign l rt =>
    simp only [StmtOk] at he
    have hlv := he.1
    cases l with
    | ident slot pos =>
      simp only [LvalueOk] at hlv
      refine evs_part h0 (part_expr hs hr h0 he.2) ?_
      intro v vpos obj κ1 s1 σ1 h1
      exact evs_assign h1 hlv fun s2 σ2 h2 => evs_pure h2
    | access o f pos =>
      simp only [LvalueOk] at hlv
      have lk : ∀ obj opos f fpos v, MLeaks (do
          let h ← M.reads (fun h => assignValue h n obj opos f fpos v pos)
          M.modify (fun s => { s with heap := h })
          pure (.value .nil noPos) : M Out) := by
        intro obj opos f fpos v
        refine mleaks_bind mleaks_reads fun h => mleaks_bind (mleaks_modify fun _ => rfl) fun _ => mleaks_pure
      refine evs_part h0 (part_expr hs hr h0 he.2) ?_ ?_
      · intro v vpos obj κ1 s1 σ1 h1
        refine evs_part h1 (part_expr hs hr h1 hlv.1) ?_ ?_
        · intro v2 vpos2 obj2 κ2 s2 σ2 h2
          refine evs_part h2 (part_expr hs hr h2 hlv.2) ?_ ?_
          · intro v3 vpos3 obj3 κ3 s3 σ3 h3
            exact evs_assignValue h3
          · intro _ _ _; exact lk _ _ _ _ _
        · intro _ _ _; exact mleaks_bind (hq _) fun o => mleaks_regular fun _ _ _ => lk _ _ _ _ _
      · intro _ _ _
        exact mleaks_bind (hq _) fun o => mleaks_regular fun _ _ _ => mleaks_bind (hq _) fun o => mleaks_regular fun _ _ _ => lk _ _ _ _ _
  | return_ e =>
    simp only [StmtOk] at he
    refine sim_bind (sim_mono (evs_expr hs h0 ht he.2) ?_ (fun _ _ _ h => h))
    intro o s1 σ1 h1
    cases o.flow with
    | regular v => exact sim_pure h1
    | return_ v => exact sim_pure h1
    | break_ => exact sim_pure h1
  | break_ => exact evs_pure h0
  | while_ e b =>
    simp only [StmtOk] at he
    exact evs_tail (hs c (.loop m e b) s σ κ env ⟨hi, hk, he⟩ hl hw)
  | for_ slot e b =>
    simp only [StmtOk] at he
    refine evs_part h0 (part_expr hs hr h0 he.2.1) ?_
    intro v vpos obj κ1 s1 σ1 h1
    cases v with
    | function f =>
      exact evs_tail (evs_from h1 (hs c (.iter m slot f vpos b) s1 σ1 κ1 env ⟨h1.inside.inv, h1.inside.size', he.1, he.2.2⟩ h1.live
        h1.window))
    | _ => exact evs_panic h1
  | expr e =>
    simp only [StmtOk] at he
    exact evs_expr hs h0 ht he

end

end Hush

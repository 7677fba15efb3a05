import Verif.Lemmas.VarEval

/-!
Calls, modules, and the whole interpreter: it does what the reference semantics of variables says.
-/

namespace Hush
open Spec

theorem sim_at {m m' : M α} {q q' : Vars.VM α} {s s' σ σ' Q E} (h1 : m s = m' s') (h2 : q σ = q' σ') (h : Sim m' q' s' σ' Q E) :
    Sim m q s σ Q E := by
  simp only [Sim] at h ⊢
  rw [h1, h2]
  exact h

/-- A call. -/
def Calls (κ : List Nat) (m : M α) (q : Vars.VM α) (s : RState) (σ : Vars.State) : Prop :=
  Sim m q s σ (fun _ s' σ' => ∃ κ', Moves κ [] σ κ' σ' ∧ Live κ' s' σ') (fun _ s' σ' => CallHalted κ σ s' σ')

section
variable {κ : List Nat} {s : RState} {σ : Vars.State} {r : Task → M Out} {r' : Vars.Rec}

theorem Live.callHalted (h : Live κ s σ) : CallHalted κ σ s σ := ⟨κ, .refl, h.base, h.halt, fun _ => h.height⟩

theorem calls_pure {a : α} (h : Live κ s σ) : Calls κ (pure a) (pure a) s σ := sim_pure ⟨κ, .refl, h⟩
theorem calls_panicking {k p} (h : Live κ s σ) : Calls κ (M.panic k p : M α) (Vars.VM.panic k p) s σ := sim_panic h.callHalted
theorem calls_crash {k} (h : Live κ s σ) : Calls κ (M.crash k : M α) (Vars.VM.crash k) s σ := sim_crash h.callHalted

theorem CallHalted.after {κ' s' σ' σ1} (h : CallHalted κ' σ' s' σ1) (hm : Moves κ [] σ κ' σ') : CallHalted κ σ s' σ1 := by
  obtain ⟨κ1, h1, h2⟩ := h
  exact ⟨κ1, hm.trans h1, h2⟩

theorem calls_after {κ' s' σ'} {m : M α} {q} (h : Calls κ' m q s' σ') (hm : Moves κ [] σ κ' σ') :
    Sim m q s' σ' (fun _ s1 σ1 => ∃ κ1, Moves κ [] σ κ1 σ1 ∧ Live κ1 s1 σ1) (fun _ s1 σ1 => CallHalted κ σ s1 σ1) :=
  sim_mono h (fun _ _ _ ⟨κ1, h1, h2⟩ => ⟨κ1, hm.trans h1, h2⟩) (fun _ _ _ h => h.after hm)

theorem calls_bind {m : M α} {q : Vars.VM α} {f : α → M β} {g : α → Vars.VM β} (h : Calls κ m q s σ)
    (hf : ∀ a κ' s' σ', Live κ' s' σ' → Calls κ' (f a) (g a) s' σ') (hl : ∀ a, MLeaks (f a) := by leaks) :
    Calls κ (m >>= f) (q >>= g) s σ := by
  refine sim_bind (sim_mono h ?_ (fun _ _ _ h => h)) hl
  rintro a s' σ' ⟨κ', h1, h2⟩
  exact calls_after (hf a κ' s' σ' h2) h1

theorem calls_plain {m : M α} (h : Live κ s σ) (hm : Plain m) : Calls κ m (Vars.VM.other m) s σ := by
  obtain ⟨h1, h2, h3, h4, h5⟩ := hm κ s σ.base h.base
  have hlive : Live κ (m s).2 { σ with base := (m σ.base).2 } :=
    ⟨h2, h.failed, h5.trans h.leaked, by rw [h4]; exact h.height⟩
  have hmv : Moves κ [] σ κ { σ with base := (m σ.base).2 } := Moves.refl.right h3
  simp only [Calls, Sim, Vars.VM.other]
  rcases hp : m σ.base with ⟨e | a, b⟩
  · rw [hp] at h1 hlive hmv
    exact ⟨h1.symm, κ, hmv, hlive.base, hlive.halt, fun _ => hlive.height⟩
  · rw [hp] at h1 hlive hmv
    exact ⟨h1.symm, κ, hmv, hlive⟩

theorem calls_result {o : Out} (h : Live κ s σ) : Calls κ o.result (Vars.result o) s σ := by
  simp only [Out.result, Vars.result]
  cases o.flow with
  | regular v => exact calls_pure h
  | _ => exact calls_crash h

theorem calls_call (hs : SimOk r r') {env m obj f start pos} (hl : Live κ s σ) (hi : Inv s) (ha : start ≤ s.args.length) :
    Calls κ (r (.call m obj f start pos)) (r' env (.call m obj f start pos)) s σ := sim_call hs hl hi ha

theorem calls_program (hs : SimOk r r') {env m p} (hl : Live κ s σ) (hi : Inv s) (hp : ProgramOk p) :
    Calls κ (r (.program m p)) (r' env (.program m p)) s σ :=
  hs ⟨0, false, false⟩ (.program m p) s σ κ env ⟨hi, hp⟩ hl trivial

/-! ### Native functions -/

theorem calls_catching {w : World} (hw : Vars.Blind w) {m : M Out} {q : Vars.VM Out} (h : Calls κ m q s σ) :
    Calls κ (catching w m) (Vars.catching w q) s σ := by
  simp only [Calls, Sim, catching, Vars.catching] at h ⊢
  rcases hq : q σ with _ | ⟨e | o, σ'⟩
  · rw [hq] at h
    simp only at h ⊢
    rcases hm : m s with ⟨e | o, s'⟩
    · rw [hm] at h
      cases e <;> exact h
    · rw [hm] at h
      dsimp only
      cases o.flow <;> exact h
  · rw [hq] at h
    simp only at h
    rcases hm : m s with ⟨e' | o, s'⟩
    · rw [hm] at h
      obtain ⟨h1, κ', h2, h3, h4, h5⟩ := h
      simp only [Except.error.injEq] at h1
      subst h1
      cases e' with
      | panic p =>
        simp only
        simp only at h3 h4 h5
        cases hf : σ'.failed with
        | true => simp only [if_true]; exact h4.1 hf
        | false =>
          simp only [Bool.false_eq_true, if_false]
          have hp : w.showPanic σ'.base.heap p = w.showPanic s'.heap p := by
            rw [h3.heap.eq_swap]
            refine (hw s'.heap σ'.base.heap.cells σ'.base.heap.closures ?_).1 _
            rw [h3.heap.closures, List.map_map]
            rfl
          rw [hp]
          obtain ⟨g1, g2⟩ := same_newError (d := bs "caught panic: " ++ w.showPanic s'.heap p) (v := .string (bs "panic")) h3.heap.same
          refine ⟨by rw [g1], κ', h2.right g2.cells', h3.heap' g2, rfl, ?_, h5 hf⟩
          by_contra hne
          have := h4.2 hne
          rw [hf] at this
          cases this
      | crash k => exact ⟨rfl, κ', h2, h3, h4, h5⟩
      | exit k => exact ⟨rfl, κ', h2, h3, h4, h5⟩
      | timeout => exact ⟨rfl, κ', h2, h3, h4, h5⟩
    · rw [hm] at h
      cases h.1
  · rw [hq] at h
    simp only at h
    rcases hm : m s with ⟨e' | o', s'⟩
    · rw [hm] at h
      cases h.1
    · rw [hm] at h
      obtain ⟨h1, κ', h2, h3⟩ := h
      simp only [Except.ok.injEq] at h1
      subst h1
      simp only
      cases o'.flow with
      | regular v => exact ⟨rfl, κ', h2, h3⟩
      | return_ v => exact ⟨rfl, κ', h2, h3.base, h3.halt, fun _ => h3.height⟩
      | break_ => exact ⟨rfl, κ', h2, h3.base, h3.halt, fun _ => h3.height⟩

theorem calls_get {f : RState → M β} {g : RState → Vars.VM β} (h : Calls κ (f s) (g σ.base) s σ) :
    Calls κ (M.get >>= f) (Vars.VM.other M.get >>= g) s σ := h

/-- A change of the state that has nothing to do with the stack and the heap. -/
theorem calls_modify {f : RState → RState} {g : Unit → M β} {g' : Unit → Vars.VM β} (h : Live κ s σ) (hp : Plain (M.modify f))
    (hf : Live κ (f s) { σ with base := f σ.base } → Calls κ (g ()) (g' ()) (f s) { σ with base := f σ.base }) :
    Calls κ (M.modify f >>= g) (Vars.VM.other (M.modify f) >>= g') s σ := by
  obtain ⟨-, h2, h3, h4, h5⟩ := hp κ s σ.base h.base
  refine calls_after (σ := σ) (s' := f s) (σ' := { σ with base := f σ.base }) (hf ⟨h2, h.failed, h5.trans h.leaked, ?_⟩) (Moves.refl.right h3)
  rw [show (f s).stack = s.stack from h4]
  exact h.height

theorem calls_load {w path pos} (hs : SimOk r r') (hl : Live κ s σ) (hi : Inv s) :
    Calls κ (loadModule w r path pos) (Vars.load w r' path pos) s σ := by
  simp only [loadModule, Vars.load]
  refine calls_get ?_
  simp only [hl.base.trace, hl.base.files]
  refine calls_modify hl plain_record ?_
  intro hl1
  cases w.readFile s.trace path with
  | error e => exact calls_panicking hl1
  | ok src =>
    simp only
    cases ha : syntaxAnalysis src with
    | none => exact calls_crash hl1
    | some a =>
      simp only
      by_cases hok : a.isOk
      · rw [if_pos hok, if_pos hok]
        cases hp : analyze a.ast with
        | ok p =>
          have hpo : ProgramOk p := translatesProgram_ok (analyze_translates _ (source_written ha hok) p hp)
          simp only
          refine calls_modify hl1 (plain_files (f := (· ++ [path]))) ?_
          intro hl2
          exact calls_bind (calls_program hs hl2 hi hpo) (fun o κ' s' σ' h => calls_result h)
        | errors e => exact calls_panicking hl1
        | crash => exact calls_crash hl1
      · rw [if_neg hok, if_neg hok]
        exact calls_panicking hl1

theorem calls_import {w m args pos} (hs : SimOk r r') (hl : Live κ s σ) (hi : Inv s) :
    Calls κ (importModule w r m args pos) (Vars.import_ w r' m args pos) s σ := by
  rcases args with _ | ⟨a, _ | ⟨b, l⟩⟩
  · exact calls_panicking hl
  · cases a with
    | string target =>
      simp only [importModule, Vars.import_]
      refine calls_get ?_
      simp only [hl.base.trace, hl.base.modules, RState.file, hl.base.files]
      cases w.resolve s.trace (s.files.getD m []) target with
      | error e => exact calls_panicking hl
      | ok path =>
        simp only
        cases s.modules.lookup path with
        | some v => exact calls_bind (calls_plain hl plain_record) (fun _ κ' s' σ' h => calls_pure h) (by leaks)
        | none =>
          simp only
          refine calls_bind (calls_load hs hl hi) (fun v κ' s' σ' h => ?_) (by leaks)
          exact calls_bind (calls_plain h (plain_modules (f := ((path, v) :: ·)))) (fun _ κ' s' σ' h =>
            calls_bind (calls_plain h plain_record) (fun _ κ' s' σ' h => calls_pure h) (by leaks)) (by leaks)
    | _ => exact calls_panicking hl
  · cases a <;> exact calls_panicking hl

theorem calls_native {w n m name addr start pos} (hw : Vars.Blind w) (hs : SimOk r r') (hl : Live κ s σ) (hi : Inv s)
    (ha : start ≤ s.args.length) : Calls κ (nativeCall w n r m name addr start pos) (Vars.native w n r' m name addr start pos) s σ := by
  simp only [nativeCall, Vars.native]
  refine calls_get ?_
  simp only [hl.base.args, hl.base.heap.native]
  by_cases h1 : name = bs "std.catch"
  · rw [if_pos h1, if_pos h1]
    rcases hf : s.args.drop start with _ | ⟨a, _ | ⟨b, l⟩⟩
    · exact calls_panicking hl
    · cases a with
      | function f =>
        refine calls_catching hw (calls_call hs hl hi ?_)
        have := congrArg List.length hf
        simp only [List.length_drop, List.length_singleton] at this
        omega
      | _ => exact calls_panicking hl
    · cases a <;> exact calls_panicking hl
  rw [if_neg h1, if_neg h1]
  by_cases h2 : name = bs "std.bind<impl>"
  · rw [if_pos h2, if_pos h2]
    cases s.heap.native addr with
    | bound obj f => exact calls_bind (calls_call hs hl hi ha) (fun o κ' s' σ' h => calls_result h)
    | _ => exact calls_crash hl
  rw [if_neg h2, if_neg h2]
  by_cases h3 : name = bs "std.import"
  · rw [if_pos h3, if_pos h3]
    exact calls_import hs hl hi
  rw [if_neg h3, if_neg h3]
  by_cases h4 : name = bs "<command>.join"
  · rw [if_pos h4, if_pos h4]
    exact calls_plain hl plain_join
  rw [if_neg h4, if_neg h4]
  exact calls_plain hl (plain_callLib hw)

theorem calls_finally {m : M α} {q : Vars.VM α} {start : Nat} (h : Calls κ m q s σ) :
    Calls κ (finally_ m (fun s => { s with args := s.args.take start })) (Vars.finally_ q (fun s => { s with args := s.args.take start }))
      s σ := by
  have hb : ∀ {κ' s'} {b : RState}, BRel κ' s' b → BRel κ' { s' with args := s'.args.take start } { b with args := b.args.take start } :=
    fun h => ⟨h.heap, congrArg (List.take start) h.args, h.modules, h.files, h.trace, h.std, h.argv⟩
  simp only [Calls, Sim, finally_, Vars.finally_] at h ⊢
  rcases hq : q σ with _ | ⟨e | o, σ'⟩
  · rw [hq] at h; exact h
  · rw [hq] at h
    obtain ⟨h1, κ', h2, h3, h4, h5⟩ := h
    exact ⟨h1, κ', h2.right rfl, hb h3, h4, h5⟩
  · rw [hq] at h
    obtain ⟨h1, κ', h2, h3⟩ := h
    exact ⟨h1, κ', h2.right rfl, hb h3.base, h3.failed, h3.leaked, h3.height⟩

/-! ### Functions -/

/-- The end of a call: the stack is as before. -/
theorem calls_restoring {m : M α} {q : Vars.VM α} (hl : Live κ s σ)
    (h : Sim m q s σ (fun _ s' σ' => ∃ κ', Moves κ [] σ κ' σ' ∧ BRel κ' s' σ'.base ∧ σ'.failed = false ∧ s'.leaked = 0)
      (fun _ s' σ' => Halted [] κ σ s' σ'))
    (hr : Runs m s (fun _ s' => StackRel 0 s s') (fun _ s' => StackRel 0 s s')) : Calls κ m (Vars.restoring q) s σ := by
  simp only [Calls, Sim, Vars.restoring, Runs] at h hr ⊢
  have hst : StackRel 0 s (m s).2 := by
    rcases hm : m s with ⟨_ | _, s'⟩ <;> rw [hm] at hr <;> exact hr
  rcases hq : q σ with _ | ⟨e | o, σ'⟩
  · rw [hq] at h; exact h
  · rw [hq] at h
    obtain ⟨h1, κ', h2, h3, h4⟩ := h
    refine ⟨h1, κ', h2.right rfl, h3, h4, ?_⟩
    intro hf
    have : (m s).2.leaked = 0 := by
      by_contra hne
      have := h4.2 hne
      simp only at hf
      rw [hf] at this
      cases this
    rw [core_same hst hl.leaked this]
    exact hl.height
  · rw [hq] at h
    obtain ⟨h1, κ', h2, h3, h4, h5⟩ := h
    exact ⟨h1, κ', h2.right rfl, h3, h4, h5, by rw [core_same hst hl.leaked h5]; exact hl.height⟩

/-- Nothing but the stack differs. -/
structure OffStack (s s' : RState) : Prop where
  heap : s'.heap = s.heap
  args : s'.args = s.args
  modules : s'.modules = s.modules
  files : s'.files = s.files
  trace : s'.trace = s.trace
  std : s'.std = s.std
  argv : s'.argv = s.argv
  leaked : s'.leaked = s.leaked

theorem OffStack.rel {s s' : RState} {b} (h : OffStack s s') (hb : BRel κ s b) : BRel κ s' b :=
  ⟨by rw [h.heap]; exact hb.heap, by rw [h.args]; exact hb.args, by rw [h.modules]; exact hb.modules, by rw [h.files]; exact hb.files,
    by rw [h.trace]; exact hb.trace, by rw [h.std]; exact hb.std, by rw [h.argv]; exact hb.argv⟩

theorem sim_withFrame {k : Nat} {m : M Out} {q : Vars.VM Out} {Q E} {P : Flow → Prop} (h : Sim m q { s with shrunk := false } σ Q E)
    (hk : k ≤ s.stack.length) (hb : Ev (some k) k P { s with shrunk := false } m { s with shrunk := false }) :
    Sim (withFrame k m) q s σ (fun a s' σ' => ∃ s1, OffStack s1 s' ∧ Q a s1 σ') (fun e s' σ' => ∃ s1, OffStack s1 s' ∧ E e s1 σ') := by
  have key : (withFrame k m s).1 = (m { s with shrunk := false }).1 ∧ OffStack (m { s with shrunk := false }).2 (withFrame k m s).2 := by
    have ht : TailRel (some k) k { s with shrunk := false } (m { s with shrunk := false }).2 := by
      simp only [Ev, Runs] at hb
      rcases hm : m { s with shrunk := false } with ⟨_ | _, s'⟩
      · rw [hm] at hb; exact hb.2.1
      · rw [hm] at hb; exact hb.1
    simp only [withFrame]
    rcases hm : m { s with shrunk := false } with ⟨x, s'⟩
    rw [hm] at ht
    simp only at ht ⊢
    rcases ht with h | ⟨-, h⟩
    · rw [if_neg (by rw [h.shrunk]; simp)]
      have := h.stack.length_le
      simp only at this
      simp only [shrink, if_neg (show ¬ s'.stack.length < k by omega)]
      exact ⟨trivial, rfl, rfl, rfl, rfl, rfl, rfl, rfl, rfl⟩
    · rw [if_pos h.shrunk]
      exact ⟨rfl, rfl, rfl, rfl, rfl, rfl, rfl, rfl, rfl⟩
  simp only [Sim] at h ⊢
  rcases hq : q σ with _ | ⟨e | o, σ'⟩
  · rw [hq] at h; simp only at h ⊢; rw [key.2.leaked]; exact h
  · rw [hq] at h
    exact ⟨key.1.trans h.1, _, key.2, h.2⟩
  · rw [hq] at h
    exact ⟨key.1.trans h.1, _, key.2, h.2⟩

theorem Live.unshrunk {b : Bool} (h : Live κ s σ) : Live κ { s with shrunk := b } σ :=
  ⟨⟨h.base.heap, h.base.args, h.base.modules, h.base.files, h.base.trace, h.base.std, h.base.argv⟩, h.failed, h.leaked, h.height⟩

theorem Window.unshrunk {b : Bool} {k env} (h : Window κ s σ k env) : Window κ { s with shrunk := b } σ k env :=
  ⟨h.len, h.size, h.regular, h.closed, h.apart⟩

theorem sim_body {w : World} (hs : SimOk r r') (hr : TaskOk r) (hl : Live κ s σ) (hi : Inv s) {obj c args pos} (hc : ClosureOk c)
    (hb : ∀ q ∈ c.context, q.1 < κ.length) :
    Sim (do
        if args.length ≠ c.params then M.panic (.invalidArgs args.length c.params) pos
        else do
          extend w c.frame.slots pos
          storeArgs 0 args
          placeAll c.context
          storeSelf obj c.frame.selfSlot
          let o ← withFrame c.frame.slots (r (.block c.module (some c.frame.slots) c.body))
          match o.flow with
          | .regular v => pure (.value v pos)
          | .return_ v => pure (.value v pos)
          | .break_ => M.crash .flow : M Out) (Vars.body w r' obj (ren κ c) args pos) s σ
      (fun _ s' σ' => ∃ κ', Moves κ [] σ κ' σ' ∧ BRel κ' s' σ'.base ∧ σ'.failed = false ∧ s'.leaked = 0)
      (fun _ s' σ' => Halted [] κ σ s' σ') := by
  simp only [Vars.body]
  by_cases hlen : args.length ≠ c.params
  · rw [if_pos hlen, if_pos (show args.length ≠ (ren κ c).params from hlen)]
    exact sim_panic ⟨κ, .refl, hl.base, hl.halt⟩
  · rw [if_neg hlen, if_neg (show ¬ args.length ≠ (ren κ c).params from hlen)]
    simp only [ne_eq, Decidable.not_not] at hlen
    simp only [ren]
    by_cases hlim : s.stack.length + c.frame.slots > w.limit
    · simp only [Sim, bind, M.andThen, Vars.VM.andThen, extend, Vars.enter, hl.height, if_pos hlim]
      exact ⟨trivial, κ, .refl, hl.base, hl.halt⟩
    · obtain ⟨σ2, e2, l2, w2, m2⟩ := enter_rel hl c.frame.slots
      have hfit := hc.fits
      obtain ⟨s3, σ3, e3, e3', l3, w3, m3⟩ := assignAll_rel (vs := args) (ix := 0) l2 w2 (by omega)
      obtain ⟨s4, e4, l4, w4, mem4⟩ := placeAll_rel l3 w3 (fun q hq => (hc.target q hq).2) hb
      obtain ⟨s5, σ5, e5, e5', l5, w5, m5⟩ := assignSelf_rel l4 w4 (fun ix hx => (hc.self_ ix hx).2) obj
      have e1 : ∀ f : Out → M Out, (do
          extend w c.frame.slots pos
          storeArgs 0 args
          placeAll c.context
          storeSelf obj c.frame.selfSlot
          let o ← withFrame c.frame.slots (r (.block c.module (some c.frame.slots) c.body))
          f o : M Out) s = ((withFrame c.frame.slots (r (.block c.module (some c.frame.slots) c.body))) >>= f) s5 := by
        intro f
        simp only [bind, M.andThen, extend, if_neg hlim, e3, e4, e5]
      have e1' : ∀ f : Out → Vars.VM Out, (do
          Vars.enter w c.frame.slots pos
          let own ← Vars.newVars c.frame.slots
          Vars.assignAll own 0 args
          Vars.assignSelf (Vars.withCaptured own (c.context.map (fun q => (κ.getD q.1 0, q.2)))) obj c.frame.selfSlot
          let o ← r' (Vars.withCaptured own (c.context.map (fun q => (κ.getD q.1 0, q.2)))) (.block c.module (some c.frame.slots) c.body)
          f o : Vars.VM Out) σ = ((r' (Vars.withCaptured (List.range' σ.base.heap.cells.length c.frame.slots)
            (c.context.map (fun q => (κ.getD q.1 0, q.2)))) (.block c.module (some c.frame.slots) c.body)) >>= f) σ5 := by
        intro f
        simp only [bind, Vars.VM.andThen, Vars.enter, hl.height, if_neg hlim]
        rw [← hl.height]
        simp only [e2, e3', e5']
      have hrun : Runs (do storeArgs 0 args; placeAll c.context; storeSelf obj c.frame.selfSlot : M Unit)
          { s with stack := List.replicate c.frame.slots (.regular .nil) ++ s.stack } (fun _ s' => Inv s') (fun _ _ => False) := by
        refine runs_bind (runs_storeArgs (k := c.frame.slots) (vs := args) (ix := 0)
          (s := { s with stack := List.replicate c.frame.slots (.regular .nil) ++ s.stack }) (by omega) (by simp) hi ?_)
        intro s3 c3 a3
        refine runs_bind (runs_placeAll (k := c.frame.slots) (fun q hq => (hc.target q hq).2)
          (Nat.le_trans (by simp) c3.stack.length_le) c3.inv ?_)
        intro s4 c4 a4
        refine runs_storeSelf (k := c.frame.slots) (fun ix hx => (hc.self_ ix hx).2)
          (Nat.le_trans (Nat.le_trans (by simp) c3.stack.length_le) c4.stack.length_le) c4.inv ?_
        intro s5 c5 _
        exact c5.inv
      simp only [Runs, bind, M.andThen, e3, e4, e5] at hrun
      refine sim_at (e1 _) (e1' _) ?_
      have hown : ∀ l ∈ List.range' σ.base.heap.cells.length c.frame.slots, l ∈ κ ∨ σ.base.heap.cells.length ≤ l := by
        intro l hm
        rw [List.mem_range'] at hm
        obtain ⟨i, -, rfl⟩ := hm
        exact .inr (by omega)
      have henv : ∀ l ∈ Vars.withCaptured (List.range' σ.base.heap.cells.length c.frame.slots) (c.context.map (fun q => (κ.getD q.1 0, q.2))),
          l ∈ κ ∨ σ.base.heap.cells.length ≤ l := by
        intro l hm
        rcases mem4 l hm with h | h
        · exact .inl h
        · exact hown l h
      have m35 : Moves κ [] σ κ σ5 := (m2.scope m3 hown).scope m5 henv
      have hsize := w5.size
      have hbody := sim_withFrame (k := c.frame.slots) (P := FlowOk ⟨c.frame.slots, true, false⟩)
        (hs ⟨c.frame.slots, true, false⟩ (.block c.module (some c.frame.slots) c.body) { s5 with shrunk := false } σ5 κ _
          ⟨hrun, hsize, by rintro n ⟨⟩; rfl, hc.body⟩ l5.unshrunk w5.unshrunk) hsize
        (ev_block (c := ⟨c.frame.slots, true, false⟩) hr (s := { s5 with shrunk := false }) hrun hsize (by rintro n ⟨⟩; rfl) hc.body)
      refine sim_bind (sim_mono hbody ?_ ?_)
      · rintro o s6 σ6 ⟨s1, off, κ6, m6, l6, -⟩
        have hfin : ∃ κ', Moves κ [] σ κ' σ6 ∧ BRel κ' s6 σ6.base ∧ σ6.failed = false ∧ s6.leaked = 0 :=
          ⟨κ6, m35.scope m6 henv, off.rel l6.base, l6.failed, off.leaked.trans l6.leaked⟩
        cases o.flow with
        | regular v => exact sim_pure hfin
        | return_ v => exact sim_pure hfin
        | break_ =>
          obtain ⟨κ', f1, f2, f3, f4⟩ := hfin
          exact sim_crash ⟨κ', f1, f2, by rw [f3, f4]; simp⟩
      · rintro e s6 σ6 ⟨s1, off, κ6, m6, b6, f6⟩
        exact ⟨κ6, m35.scope m6 henv, off.rel b6, by rw [off.leaked]; exact f6⟩

theorem call_sim {w : World} {n} (hw : Vars.Blind w) (hs : SimOk r r') (hr : TaskOk r) (hl : Live κ s σ) (hi : Inv s)
    {m obj f start pos} (ha : start ≤ s.args.length) :
    Calls κ (stepCall w n r m obj f start pos) (Vars.call w n r' m obj f start pos) s σ := by
  have h0 : ¬ s.args.length < start := by omega
  have h0' : ¬ σ.base.args.length < start := by rw [hl.base.args]; exact h0
  cases f with
  | hush a =>
    have hl1 : Live κ { s with args := s.args.take start } { σ with base := { σ.base with args := σ.base.args.take start } } :=
      ⟨⟨hl.base.heap, congrArg (List.take start) hl.base.args, hl.base.modules, hl.base.files, hl.base.trace, hl.base.std, hl.base.argv⟩,
        hl.failed, hl.leaked, hl.height⟩
    have hbody := sim_body (w := w) (obj := obj) (args := s.args.drop start) (pos := pos) hs hr hl1 (by exact hi) (hi.closure a)
      (hl.base.heap.closure_bound a)
    have hrun := runs_hush w hr (obj := obj) (a := a) (start := start) (pos := pos) hi
    have := calls_restoring hl1 hbody (runs_mono hrun (fun _ _ h => h.1.stack) (fun _ _ h => h.2.1.stack))
    have e2 : Vars.call w n r' m obj (.hush a) start pos σ =
        Vars.restoring (Vars.body w r' obj (ren κ (s.heap.closure a)) (s.args.drop start) pos)
          { σ with base := { σ.base with args := σ.base.args.take start } } := by
      simp only [Vars.call, if_neg h0', hl.base.heap.closure]
      rw [← hl.base.args]
      rfl
    refine sim_at ?_ e2 (calls_after this (Moves.refl.right rfl))
    simp only [stepCall, if_neg h0]
    rfl
  | native name addr =>
    refine sim_at (by simp only [stepCall, if_neg h0]; rfl) (by simp only [Vars.call, if_neg h0']; rfl) ?_
    exact calls_bind (calls_finally (calls_native hw hs hl hi ha)) (fun v κ' s' σ' h => calls_pure h)

theorem program_sim {w : World} (hs : SimOk r r') (hr : TaskOk r) (hl : Live κ s σ) (hi : Inv s) {m p} (hp : ProgramOk p) :
    Calls κ (stepProgram w r m p) (Vars.program w r' m p) s σ := by
  have hrun := program_ok w hr (m := m) hi hp
  obtain ⟨hp0, hpb⟩ := hp
  refine calls_restoring hl ?_ (runs_mono hrun (fun _ _ h => h.1.stack) (fun _ _ h => h.2.1))
  by_cases hlim : s.stack.length + p.rootSlots > w.limit
  · simp only [Sim, stepProgram, bind, M.andThen, Vars.VM.andThen, extend, Vars.enter, hl.height, if_pos hlim]
    exact ⟨trivial, κ, .refl, hl.base, hl.halt⟩
  · obtain ⟨σ2, e2, l2, w2, m2⟩ := enter_rel hl p.rootSlots
    obtain ⟨s3, σ3, e3, e3', l3, w3, m3, -⟩ := assign_rel l2 w2 hp0 s.std
    have hi3 : Inv s3 := by
      have : Runs (store 0 s.std) { s with stack := List.replicate p.rootSlots (.regular .nil) ++ s.stack } (fun _ s' => Inv s')
          (fun _ _ => False) := runs_store hp0 (by simp) hi (fun s' hc _ => hc.inv)
      simp only [Runs, e3] at this
      exact this
    have hstd : σ2.base.std = s.std := l2.base.std
    have hown : ∀ l ∈ List.range' σ.base.heap.cells.length p.rootSlots, l ∈ κ ∨ σ.base.heap.cells.length ≤ l := by
      intro l hm
      rw [List.mem_range'] at hm
      obtain ⟨i, -, rfl⟩ := hm
      exact .inr (by omega)
    have m23 : Moves κ [] σ κ σ3 := m2.scope m3 hown
    have hb := hs ⟨p.rootSlots, false, false⟩ (.block m none p.statements) s3 σ3 κ _ ⟨hi3, w3.size, tailPre_none _, hpb⟩ l3 w3
    have hev := ev_toCore (ev_block (c := ⟨p.rootSlots, false, false⟩) (m := m) hr hi3 w3.size (tailPre_none _) hpb)
    have hb := sim_runs hb hev
    simp only [Sim, stepProgram, bind, M.andThen, Vars.VM.andThen, extend, Vars.enter, hl.height, if_neg hlim, M.get, Vars.VM.other]
    rw [← hl.height]
    simp only [e2, e3, hstd, e3', Vars.failing]
    simp only [Sim] at hb
    rcases hx : r' (List.range' σ.base.heap.cells.length p.rootSlots) (.block m none p.statements) σ3 with _ | ⟨e | o, σ4⟩
    · rw [hx] at hb
      simp only at hb ⊢
      rcases hy : r (.block m none p.statements) s3 with ⟨e | o, s4⟩
      · rw [hy] at hb
        simp only at hb ⊢
        omega
      · rw [hy] at hb
        simp only at hb ⊢
        have : ∀ fl : Flow, MLeaks (match fl with
          | .regular v => do
            shrink p.rootSlots
            pure (.value v noPos)
          | _ => M.crash .flow : M Out) := by
          intro fl
          cases fl with
          | regular v => exact mleaks_bind mleaks_shrink fun _ => mleaks_pure
          | _ => exact mleaks_crash
        have := this o.flow s4
        exact fun h0 => hb (Nat.le_zero.1 (this.trans (Nat.le_of_eq h0)))
    · rw [hx] at hb
      obtain ⟨h1, ⟨κ4, h2, h3, h4⟩, -⟩ := hb
      rcases hy : r (.block m none p.statements) s3 with ⟨e' | o, s4⟩
      · rw [hy] at h1 h3
        simp only at h1 h3 ⊢
        refine ⟨h1, κ4, (m23.scope h2 hown).right rfl, ⟨h3.heap, h3.args, h3.modules, h3.files, h3.trace, h3.std, h3.argv⟩, ?_⟩
        simp only [true_iff]
        omega
      · rw [hy] at h1
        cases h1
    · rw [hx] at hb
      obtain ⟨h1, ⟨κ4, h2, h3, h4⟩, h5, h6, -⟩ := hb
      rcases hy : r (.block m none p.statements) s3 with ⟨e' | o', s4⟩
      · rw [hy] at h1
        cases h1
      · rw [hy] at h1 h3 h5
        simp only [Except.ok.injEq] at h1
        subst h1
        have h7 := w3.size.trans h5.stack.length_le
        simp only at h3 h7 ⊢
        cases ho : o'.flow with
        | regular v =>
          simp only [M.andThen, shrink, if_neg (show ¬ s4.stack.length < p.rootSlots by omega)]
          refine ⟨rfl, κ4, m23.scope h2 hown, ?_, h3.failed, h3.leaked⟩
          have := h3.base
          exact ⟨this.heap, this.args, this.modules, this.files, this.trace, this.std, this.argv⟩
        | return_ v => rw [ho] at h6; simp [FlowOk] at h6
        | break_ => rw [ho] at h6; simp [FlowOk] at h6

/-- The reference semantics has no outcome only if a module was loaded and not completed. -/
theorem program_none {w : World} (hs : SimOk r r') (hr : TaskOk r) (hl : Live κ s σ) (hi : Inv s) {m p} (hp : ProgramOk p)
    (h : Vars.program w r' m p σ = none) : (stepProgram w r m p s).2.modules.length + loadCount s.trace <
      s.modules.length + loadCount (stepProgram w r m p s).2.trace := by
  obtain ⟨hp0, hpb⟩ := hp
  by_cases hlim : s.stack.length + p.rootSlots > w.limit
  · simp only [Vars.program, Vars.restoring, bind, Vars.VM.andThen, Vars.enter, hl.height, if_pos hlim] at h
    cases h
  · obtain ⟨σ2, e2, l2, w2, m2⟩ := enter_rel hl p.rootSlots
    obtain ⟨s3, σ3, e3, e3', l3, w3, m3, -⟩ := assign_rel l2 w2 hp0 s.std
    have h3 : Inv s3 ∧ s3.trace = s.trace ∧ s3.modules = s.modules := by
      have : Runs (store 0 s.std) { s with stack := List.replicate p.rootSlots (.regular .nil) ++ s.stack }
          (fun _ s' => Inv s' ∧ s'.trace = s.trace ∧ s'.modules = s.modules) (fun _ _ => False) := by
        have h1 := runs_store (v := s.std) (Q := fun _ s' => Inv s') (E := fun _ _ => False) hp0
          (s := { s with stack := List.replicate p.rootSlots (.regular .nil) ++ s.stack }) (by simp) hi (fun s' hc _ => hc.inv)
        simp only [Runs, e3] at h1 ⊢
        refine ⟨h1, ?_⟩
        simp only [store] at e3
        split at e3 <;> cases e3 <;> exact ⟨rfl, rfl⟩
      simp only [Runs, e3] at this
      exact this
    obtain ⟨hi3, ht3, hm3⟩ := h3
    have hstd : σ2.base.std = s.std := l2.base.std
    have hb := hs ⟨p.rootSlots, false, false⟩ (.block m none p.statements) s3 σ3 κ _ ⟨hi3, w3.size, tailPre_none _, hpb⟩ l3 w3
    have hev := ev_toCore (ev_block (c := ⟨p.rootSlots, false, false⟩) (m := m) hr hi3 w3.size (tailPre_none _) hpb)
    simp only [Vars.program, Vars.restoring, bind, Vars.VM.andThen, Vars.enter, hl.height, if_neg hlim, Vars.VM.other, M.get] at h
    simp only [stepProgram, bind, M.andThen, extend, if_neg hlim, M.get]
    rw [← hl.height] at h
    simp only [e2, hstd, e3', Vars.failing] at h
    simp only [e3]
    simp only [Sim] at hb
    rcases hx : r' (List.range' σ.base.heap.cells.length p.rootSlots) (.block m none p.statements) σ3 with _ | ⟨e | o, σ4⟩
    · rw [hx] at hb
      have hq : Quiet s3 (r (.block m none p.statements) s3).2 := by
        simp only [Runs] at hev
        rcases hy : r (.block m none p.statements) s3 with ⟨e | o, s4⟩
        · rw [hy] at hev; exact hev.2.1.quiet
        · rw [hy] at hev; exact hev.1.quiet
      rcases hq with hq | hq
      · exact absurd (hq.trans l3.leaked) hb
      · rw [ht3, hm3] at hq
        rcases hy : r (.block m none p.statements) s3 with ⟨e | o, s4⟩
        · rw [hy] at hq; exact hq
        · rw [hy] at hq
          simp only at hq ⊢
          cases ho : o.flow with
          | regular v =>
            simp only [M.andThen, shrink]
            split <;> rename_i h
            · split at h <;> cases h; exact hq
            · split at h <;> cases h; exact hq
          | return_ v => exact hq
          | break_ => exact hq
    · rw [hx] at h; simp at h
    · rw [hx] at h
      cases ho : o.flow <;> simp [ho, pure, Vars.VM.ret, Vars.VM.crash, Vars.VM.stop] at h

/-! ### All tasks -/

theorem step_sim {w : World} (hw : Vars.Blind w) (n : Nat) (hs : SimOk r r') (hr : TaskOk r) (hq : RecLeaks r) :
    SimOk (step w n r) (Vars.step w n r') := by
  intro c t s σ κ env hpre hl hwin
  obtain ⟨hi, hpre⟩ := hpre
  cases t with
  | expr m tail e => exact expr_sim w n hs hr hq hi hpre.1 hl hwin hpre.2.1 hpre.2.2
  | stmt m tail st => exact stmt_sim n hs hr hq hi hpre.1 hl hwin hpre.2.1 hpre.2.2
  | items m es acc =>
    obtain ⟨hk, he⟩ := hpre
    have h0 := Mid.start hi hk hl hwin
    cases es with
    | nil =>
      exact evs_bind (sim_mono (sim_plain (E' := fun _ _ => False) h0 (plain_alloc fun _ _ s => same_newArray s)
        (runs_alloc (h0.inside.next (core_heap hi (keeps_newArray _ _)) rfl))) (fun _ _ _ h => evs_pure h) (fun _ _ _ h => h))
    | cons e es =>
      simp only [ExprsOk] at he
      refine evs_part h0 (part_expr hs hr h0 he.1) ?_
      intro v _ _ κ1 s1 σ1 h1
      exact evs_from h1 (hs c (.items m es (acc ++ [v])) s1 σ1 κ1 env ⟨h1.inside.inv, h1.inside.size', he.2⟩ h1.live h1.window)
  | fields m fs acc =>
    obtain ⟨hk, he⟩ := hpre
    have h0 := Mid.start hi hk hl hwin
    cases fs with
    | nil =>
      exact evs_bind (sim_mono (sim_plain (E' := fun _ _ => False) h0 (plain_alloc fun _ _ s => same_newDict s)
        (runs_alloc (h0.inside.next (core_heap hi (keeps_newDict _ _)) rfl))) (fun _ _ _ h => evs_pure h) (fun _ _ _ h => h))
    | cons q fs =>
      obtain ⟨key, e⟩ := q
      simp only [FieldsOk] at he
      refine evs_part h0 (part_expr hs hr h0 he.1) ?_
      intro v _ _ κ1 s1 σ1 h1
      exact evs_from h1 (hs c (.fields m fs _) s1 σ1 κ1 env ⟨h1.inside.inv, h1.inside.size', he.2⟩ h1.live h1.window)
  | args m es start =>
    obtain ⟨hk, he, hst⟩ := hpre
    have h0 := Mid.start hi hk hl hwin
    cases es with
    | nil => exact evs_pure h0
    | cons e es =>
      simp only [ExprsOk] at he
      have hargs : ∀ {κ1 s1 σ1} (f : List Value → List Value), Mid c.slots env κ s σ κ1 s1 σ1 →
          Live κ1 { s1 with args := f s1.args } { σ1 with base := { σ1.base with args := f σ1.base.args } } ∧
          Window κ1 { s1 with args := f s1.args } { σ1 with base := { σ1.base with args := f σ1.base.args } } c.slots env ∧
          Moves κ env σ κ1 { σ1 with base := { σ1.base with args := f σ1.base.args } } := by
        intro κ1 s1 σ1 f h1
        have hb := h1.live.base
        exact ⟨⟨⟨hb.heap, congrArg f hb.args, hb.modules, hb.files, hb.trace, hb.std, hb.argv⟩, h1.live.failed, h1.live.leaked,
          h1.live.height⟩, ⟨h1.window.len, h1.window.size, h1.window.regular, h1.window.closed, h1.window.apart⟩, h1.moves.right rfl⟩
      refine sim_bind (sim_mono (part_runs h0 (part_expr hs hr h0 he.1)) ?_ (fun _ _ _ h => h))
      rintro o s1 σ1 ⟨κ1, h1⟩
      cases o.flow with
      | regular v =>
        obtain ⟨l2, w2, m2⟩ := hargs (· ++ [v]) h1
        refine sim_mono (m := r (.args m es start)) (hs c (.args m es start) { s1 with args := s1.args ++ [v] } _ κ1 env
          ⟨h1.inside.inv, h1.inside.size', he.2, ?_⟩ l2 w2) ?_ ?_
        · simp only [List.length_append, h1.inside.args]; omega
        · intro _ _ _ h; exact h.after m2
        · intro _ _ _ h; exact h.after m2
      | return_ v =>
        obtain ⟨l2, w2, m2⟩ := hargs (List.take start) h1
        exact ⟨rfl, κ1, m2, l2, fun _ => w2⟩
      | break_ =>
        obtain ⟨l2, w2, m2⟩ := hargs (List.take start) h1
        exact ⟨rfl, κ1, m2, l2, fun _ => w2⟩
  | block m tail b =>
    obtain ⟨hk, ht, hb⟩ := hpre
    have h0 := Mid.start hi hk hl hwin
    match b, hb with
    | [], _ => exact evs_pure h0
    | [st], hb =>
      simp only [BlockOk] at hb
      exact hs c (.stmt m tail st) s σ κ env ⟨hi, hk, ht, hb.1⟩ hl hwin
    | st :: st2 :: ss, hb =>
      rw [BlockOk] at hb
      refine evs_part h0 (part_stmt hs hr h0 hb.1) ?_
      intro v _ _ κ1 s1 σ1 h1
      exact evs_from h1 (hs c (.block m tail (st2 :: ss)) s1 σ1 κ1 env ⟨h1.inside.inv, h1.inside.size', ht, hb.2⟩ h1.live h1.window)
  | loop m e b =>
    obtain ⟨hk, he, hb⟩ := hpre
    have h0 := Mid.start hi hk hl hwin
    refine evs_part h0 (part_expr hs hr h0 he) ?_
    intro v vpos _ κ1 s1 σ1 h1
    cases v with
    | bool bl =>
      cases bl with
      | true =>
        refine evs_afterBody h1 (part_block (c := { c with inLoop := true }) hs hr h1 hb) ?_
        intro κ2 s2 σ2 h2
        exact evs_from h2 (hs c (.loop m e b) s2 σ2 κ2 env ⟨h2.inside.inv, h2.inside.size', he, hb⟩ h2.live h2.window)
      | false => exact evs_pure h1
    | _ => exact evs_panic h1
  | iter m slot f pos b =>
    obtain ⟨hk, hsl, hb⟩ := hpre
    have h0 := Mid.start hi hk hl hwin
    refine sim_get ?_
    simp only [hl.base.args]
    refine evs_bind (sim_mono (sim_runs (sim_call hs hl hi (Nat.le_refl _)) (call_task hr hi (Nat.le_refl _))) ?_ ?_)
    · rintro o s1 σ1 ⟨⟨κ1, m1, l1⟩, c1, ⟨v, hv⟩, a1⟩
      have h1 : Mid c.slots env κ s σ κ1 s1 σ1 :=
        ⟨h0.inside.next (c1.weaken (Nat.zero_le _)) (by simpa using a1), m1.weaken, l1,
          Window.after hwin m1 (core_same c1.stack hl.leaked l1.leaked)⟩
      simp only [Out.result, Vars.result, hv]
      refine (?_ : Evs none c.slots env κ σ (M.reads (fun h => nextValue h n v pos) >>= _)
        (Vars.VM.other (M.reads (fun h => nextValue h n v pos)) >>= _) s1 σ1)
      refine evs_reads h1 (by rw [h1.live.base.heap.nextValue]) ?_
      intro ov
      cases ov with
      | none => exact evs_pure h1
      | some v' =>
        refine evs_assign h1 hsl ?_
        intro s2 σ2 h2
        refine evs_afterBody h2 (part_block (c := { c with inLoop := true }) hs hr h2 hb) ?_
        intro κ3 s3 σ3 h3
        exact evs_from h3 (hs c (.iter m slot f pos b) s3 σ3 κ3 env ⟨h3.inside.inv, h3.inside.size', hsl, hb⟩ h3.live h3.window)
    · rintro e s1 σ1 ⟨hh, -⟩
      exact hh.halted
  | call m obj f start pos => exact call_sim hw hs hr hl hi hpre
  | program m p => exact program_sim hs hr hl hi hpre

theorem run_sim {w : World} (hw : Vars.Blind w) : ∀ n, SimOk (run w n) (Vars.run w n)
  | 0 => by
    intro c t s σ κ env _ hl hwin
    refine sim_stop ?_
    cases t with
    | call | program => exact hl.callHalted
    | _ => exact ⟨κ, .refl, hl.base, hl.halt⟩
  | n + 1 => step_sim hw n (run_sim hw n) (run_ok w n) (mleaks_run w n)

end

end Hush

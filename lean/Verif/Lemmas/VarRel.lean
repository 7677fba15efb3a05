import Verif.Lemmas.VarHeap
import Verif.Lemmas.Leaks
import Verif.Lemmas.ArgsAgree
import Verif.Lemmas.InterpSafe

/-!
The relation between states of the interpreter and states of the reference semantics of variables, and the operations on
variables.
-/

namespace Hush
open Spec

/-- The states agree in everything but the stack and the places of variables. -/
structure BRel (κ : List Nat) (s b : RState) : Prop where
  heap : HRel κ s.heap b.heap
  args : b.args = s.args
  modules : b.modules = s.modules
  files : b.files = s.files
  trace : b.trace = s.trace
  std : b.std = s.std
  argv : b.argv = s.argv

/-- No module has failed, and the number of slots agrees. -/
structure Live (κ : List Nat) (s : RState) (σ : Vars.State) : Prop where
  base : BRel κ s σ.base
  failed : σ.failed = false
  leaked : s.leaked = 0
  height : σ.height = s.stack.length

/-- The topmost `k` slots are the variables `env`. -/
structure Window (κ : List Nat) (s : RState) (σ : Vars.State) (k : Nat) (env : List Nat) : Prop where
  len : env.length = k
  size : k ≤ s.stack.length
  regular : ∀ (i : Nat) v x, i < k → s.stack[i]? = some (.regular v) → env[i]? = some x →
    x ∉ κ ∧ σ.base.heap.cells[x]? = some v
  closed : ∀ (i c : Nat), i < k → s.stack[i]? = some (.closed c) → κ[c]? = env[i]?
  apart : ∀ (i j : Nat) v v', i < k → j < k → i ≠ j → s.stack[i]? = some (.regular v) → s.stack[j]? = some (.regular v') →
    env[i]? ≠ env[j]?

/-- Only new variables, those of `env` and captured ones are touched. -/
structure Moves (κ env : List Nat) (σ : Vars.State) (κ' : List Nat) (σ' : Vars.State) : Prop where
  pre : κ <+: κ'
  fresh : ∀ l ∈ κ', l ∈ κ ∨ l ∈ env ∨ σ.base.heap.cells.length ≤ l
  grow : σ.base.heap.cells.length ≤ σ'.base.heap.cells.length
  keep : ∀ (l : Nat), l < σ.base.heap.cells.length → l ∉ κ → l ∉ env → σ'.base.heap.cells[l]? = σ.base.heap.cells[l]?

theorem Moves.refl {κ env σ} : Moves κ env σ κ σ :=
  ⟨List.prefix_refl _, fun _ h => .inl h, Nat.le_refl _, fun _ _ _ _ => rfl⟩

/-- Nothing is touched. -/
theorem Moves.same {κ env} {σ σ' : Vars.State} (h : σ'.base.heap.cells = σ.base.heap.cells) : Moves κ env σ κ σ' :=
  ⟨List.prefix_refl _, fun _ h => .inl h, by rw [h], fun _ _ _ _ => by rw [h]⟩

theorem Moves.trans {κ env σ κ1 σ1 κ2 σ2} (h1 : Moves κ env σ κ1 σ1) (h2 : Moves κ1 env σ1 κ2 σ2) : Moves κ env σ κ2 σ2 := by
  refine ⟨h1.pre.trans h2.pre, ?_, h1.grow.trans h2.grow, ?_⟩
  · intro l hl
    rcases h2.fresh l hl with h | h | h
    · exact h1.fresh l h
    · exact .inr (.inl h)
    · exact .inr (.inr (h1.grow.trans h))
  · intro l hl hk he
    rw [h2.keep l (Nat.lt_of_lt_of_le hl h1.grow) ?_ he, h1.keep l hl hk he]
    intro h
    rcases h1.fresh l h with h | h | h
    · exact hk h
    · exact he h
    · omega

theorem Moves.weaken {κ env σ κ' σ'} (h : Moves κ [] σ κ' σ') : Moves κ env σ κ' σ' := by
  refine ⟨h.pre, ?_, h.grow, fun l h1 h2 _ => h.keep l h1 h2 (by simp)⟩
  intro l hl
  rcases h.fresh l hl with h | h | h
  · exact .inl h
  · simp at h
  · exact .inr (.inr h)

/-- The variables of a called function are its own. -/
theorem Moves.scope {κ env σ κ1 σ1 κ2 σ2} (h1 : Moves κ [] σ κ1 σ1) (h2 : Moves κ1 env σ1 κ2 σ2)
    (he : ∀ l ∈ env, l ∈ κ ∨ σ.base.heap.cells.length ≤ l) : Moves κ [] σ κ2 σ2 := by
  refine ⟨h1.pre.trans h2.pre, ?_, h1.grow.trans h2.grow, ?_⟩
  · intro l hl
    rcases h2.fresh l hl with h | h | h
    · exact h1.fresh l h
    · rcases he l h with h | h
      · exact .inl h
      · exact .inr (.inr h)
    · exact .inr (.inr (h1.grow.trans h))
  · intro l hl hk _
    rw [h2.keep l (Nat.lt_of_lt_of_le hl h1.grow) ?_ ?_, h1.keep l hl hk (by simp)]
    · intro h
      rcases h1.fresh l h with h | h | h
      · exact hk h
      · simp at h
      · omega
    · intro h
      rcases he l h with h | h
      · exact hk h
      · omega

theorem Moves.left {κ env σ σ1 κ' σ'} (h : Moves κ env σ κ' σ') (e : σ.base.heap.cells = σ1.base.heap.cells) : Moves κ env σ1 κ' σ' := by
  obtain ⟨h1, h2, h3, h4⟩ := h
  rw [e] at h2 h3
  refine ⟨h1, h2, h3, ?_⟩
  intro l; have := h4 l; rw [e] at this; exact this

theorem Moves.right {κ env σ κ' σ' σ1} (h : Moves κ env σ κ' σ') (e : σ1.base.heap.cells = σ'.base.heap.cells) : Moves κ env σ κ' σ1 := by
  obtain ⟨h1, h2, h3, h4⟩ := h
  refine ⟨h1, h2, by rw [e]; exact h3, ?_⟩
  intro l; rw [e]; exact h4 l

theorem Window.lt {κ s σ k env} (f : Window κ s σ k env) (b : BRel κ s σ.base) {i x : Nat} (hi : i < k) (hx : env[i]? = some x) :
    x < σ.base.heap.cells.length := by
  have h1 : s.stack[i]? = some (s.stack[i]'(Nat.lt_of_lt_of_le hi f.size)) :=
    List.getElem?_eq_getElem _
  cases hs : s.stack[i]'(Nat.lt_of_lt_of_le hi f.size) with
  | regular v =>
    rw [hs] at h1
    have := (f.regular i v x hi h1 hx).2
    exact (List.getElem?_eq_some_iff.1 this).1
  | closed c =>
    rw [hs] at h1
    have h2 := f.closed i c hi h1
    rw [hx] at h2
    have h3 := b.heap.cells c x h2
    have h4 : c < κ.length := (List.getElem?_eq_some_iff.1 h2).1
    rw [b.heap.len] at h4
    rw [List.getElem?_eq_getElem h4] at h3
    exact (List.getElem?_eq_some_iff.1 h3).1

/-- After a call the slots are still the same variables. -/
theorem Window.after {κ s σ k env κ' s' σ'} (f : Window κ s σ k env) (h : Moves κ [] σ κ' σ') (hs : s'.stack = s.stack) :
    Window κ' s' σ' k env := by
  refine ⟨f.len, by rw [hs]; exact f.size, ?_, ?_, ?_⟩
  · intro i v x hi h1 h2
    rw [hs] at h1
    obtain ⟨h3, h4⟩ := f.regular i v x hi h1 h2
    have h5 : x < σ.base.heap.cells.length := (List.getElem?_eq_some_iff.1 h4).1
    refine ⟨?_, ?_⟩
    · intro hx
      rcases h.fresh x hx with h | h | h
      · exact h3 h
      · simp at h
      · omega
    · rw [h.keep x h5 h3 (by simp), h4]
  · intro i c hi h1
    rw [hs] at h1
    have h2 := f.closed i c hi h1
    have h3 : env[i]? = some (env[i]'(by rw [f.len]; exact hi)) := List.getElem?_eq_getElem _
    rw [h3] at h2 ⊢
    obtain ⟨t, rfl⟩ := h.pre
    rw [List.getElem?_append_left (List.getElem?_eq_some_iff.1 h2).1]
    exact h2
  · rw [hs]; exact f.apart

/-! ### Computations -/

/-- The interpreter and the reference semantics end in the same way; if the latter has no result, some module failed. -/
def Sim (m : M α) (q : Vars.VM α) (s : RState) (σ : Vars.State) (Q : α → RState → Vars.State → Prop)
    (E : Stop → RState → Vars.State → Prop) : Prop :=
  match q σ with
  | none => (m s).2.leaked ≠ 0
  | some (.ok a, σ') => (m s).1 = .ok a ∧ Q a (m s).2 σ'
  | some (.error e, σ') => (m s).1 = .error e ∧ E e (m s).2 σ'

theorem sim_bind {m : M α} {q : Vars.VM α} {f : α → M β} {g : α → Vars.VM β} {s σ Q E}
    (h : Sim m q s σ (fun a s' σ' => Sim (f a) (g a) s' σ' Q E) E) (hf : ∀ a, MLeaks (f a) := by leaks) :
    Sim (m >>= f) (q >>= g) s σ Q E := by
  simp only [Sim, bind, M.andThen, Vars.VM.andThen] at h ⊢
  rcases hq : q σ with _ | ⟨_ | _, σ'⟩
  · rw [hq] at h
    simp only at h ⊢
    rcases hm : m s with ⟨_ | a, s'⟩
    · rw [hm] at h; exact h
    · rw [hm] at h
      have := hf a s'
      simp only at h ⊢
      omega
  · rw [hq] at h
    simp only at h ⊢
    rcases hm : m s with ⟨_ | a, s'⟩
    · rw [hm] at h; simpa using h
    · rw [hm] at h; simp at h
  · rw [hq] at h
    simp only at h ⊢
    rcases hm : m s with ⟨_ | a, s'⟩
    · rw [hm] at h; simp at h
    · rw [hm] at h
      obtain ⟨h1, h2⟩ := h
      simp only [Except.ok.injEq] at h1
      subst h1
      exact h2

theorem sim_mono {m : M α} {q : Vars.VM α} {s σ} {Q Q' : α → RState → Vars.State → Prop} {E E' : Stop → RState → Vars.State → Prop}
    (h : Sim m q s σ Q E) (hQ : ∀ a s' σ', Q a s' σ' → Q' a s' σ') (hE : ∀ e s' σ', E e s' σ' → E' e s' σ') :
    Sim m q s σ Q' E' := by
  simp only [Sim] at h ⊢
  rcases hq : q σ with _ | ⟨_ | _, σ'⟩
  · rw [hq] at h; exact h
  · rw [hq] at h; exact ⟨h.1, hE _ _ _ h.2⟩
  · rw [hq] at h; exact ⟨h.1, hQ _ _ _ h.2⟩

/-- What is known about the interpreter. -/
theorem sim_runs {m : M α} {q : Vars.VM α} {s σ} {Q : α → RState → Vars.State → Prop} {E : Stop → RState → Vars.State → Prop} {Q' E'}
    (h : Sim m q s σ Q E) (hr : Runs m s Q' E') :
    Sim m q s σ (fun a s' σ' => Q a s' σ' ∧ Q' a s') (fun e s' σ' => E e s' σ' ∧ E' e s') := by
  simp only [Sim, Runs] at h hr ⊢
  rcases hq : q σ with _ | ⟨_ | _, σ'⟩
  · rw [hq] at h; exact h
  · rw [hq] at h
    rcases hm : m s with ⟨_ | a, s'⟩
    · rw [hm] at h hr; obtain ⟨h1, h2⟩ := h; cases h1; exact ⟨rfl, h2, hr⟩
    · rw [hm] at h; simp at h
  · rw [hq] at h
    rcases hm : m s with ⟨_ | a, s'⟩
    · rw [hm] at h; simp at h
    · rw [hm] at h hr; obtain ⟨h1, h2⟩ := h; cases h1; exact ⟨rfl, h2, hr⟩

theorem sim_pure {a : α} {s σ} {Q : α → RState → Vars.State → Prop} {E} (h : Q a s σ) : Sim (pure a) (pure a) s σ Q E := ⟨rfl, h⟩
theorem sim_stop {e s σ} {Q : α → RState → Vars.State → Prop} {E : Stop → RState → Vars.State → Prop} (h : E e s σ) :
    Sim (M.stop e) (Vars.VM.stop e) s σ Q E := ⟨rfl, h⟩
theorem sim_panic {k p s σ} {Q : α → RState → Vars.State → Prop} {E : Stop → RState → Vars.State → Prop} (h : E (.panic ⟨k, p⟩) s σ) :
    Sim (M.panic k p) (Vars.VM.panic k p) s σ Q E := ⟨rfl, h⟩
theorem sim_crash {k s σ} {Q : α → RState → Vars.State → Prop} {E : Stop → RState → Vars.State → Prop} (h : E (.crash k) s σ) :
    Sim (M.crash k) (Vars.VM.crash k) s σ Q E := ⟨rfl, h⟩

/-! ### Operations that have nothing to do with variables -/

/-- The state with another base. -/
abbrev onBase (σ : Vars.State) (b : RState) : Vars.State := { σ with base := b }

/-- The operation does the same to both states; it does not touch variables and the stack. -/
def Plain (m : M α) : Prop := ∀ κ s b, BRel κ s b →
  (m b).1 = (m s).1 ∧ BRel κ (m s).2 (m b).2 ∧ (m b).2.heap.cells = b.heap.cells ∧ (m s).2.stack = s.stack ∧
    (m s).2.leaked = s.leaked

theorem plain_bind {m : M α} {f : α → M β} (hm : Plain m) (hf : ∀ a, Plain (f a)) : Plain (m >>= f) := by
  intro κ s b h
  obtain ⟨h1, h2, h3, h4, h5⟩ := hm κ s b h
  simp only [bind, M.andThen]
  rcases hs : m s with ⟨e | a, s'⟩
  · rcases hb : m b with ⟨e' | a', b'⟩
    · rw [hs, hb] at h1 h2; rw [hb] at h3; rw [hs] at h4 h5
      simp only at h1 h2 h3 h4 h5 ⊢
      cases h1
      exact ⟨rfl, h2, h3, h4, h5⟩
    · rw [hs, hb] at h1; cases h1
  · rcases hb : m b with ⟨e' | a', b'⟩
    · rw [hs, hb] at h1; cases h1
    · rw [hs, hb] at h1 h2; rw [hb] at h3; rw [hs] at h4 h5
      simp only at h1 h2 h3 h4 h5 ⊢
      cases h1
      obtain ⟨g1, g2, g3, g4, g5⟩ := hf a κ s' b' h2
      exact ⟨g1, g2, g3.trans h3, g4.trans h4, g5.trans h5⟩

theorem plain_pure {a : α} : Plain (pure a : M α) := fun _ _ _ h => ⟨rfl, h, rfl, rfl, rfl⟩
theorem plain_stop {e} : Plain (M.stop e : M α) := fun _ _ _ h => ⟨rfl, h, rfl, rfl, rfl⟩
theorem plain_lift {x : Except Stop α} : Plain (M.lift x) := by cases x <;> exact fun _ _ _ h => ⟨rfl, h, rfl, rfl, rfl⟩
theorem plain_reads {f : Heap → Except Stop α} (hf : ∀ κ h h', HRel κ h h' → f h' = f h) : Plain (M.reads f) :=
  fun _ _ _ h => ⟨hf _ _ _ h.heap, h, rfl, rfl, rfl⟩
theorem plain_record {e} : Plain (record e) :=
  fun _ _ _ h => ⟨rfl, ⟨h.heap, h.args, h.modules, h.files, congrArg (· ++ [e]) h.trace, h.std, h.argv⟩, rfl, rfl, rfl⟩
theorem plain_args {f : List Value → List Value} : Plain (M.modify (fun s => { s with args := f s.args })) :=
  fun _ _ _ h => ⟨rfl, ⟨h.heap, congrArg f h.args, h.modules, h.files, h.trace, h.std, h.argv⟩, rfl, rfl, rfl⟩
theorem plain_files {f : List Sym → List Sym} : Plain (M.modify (fun s => { s with files := f s.files })) :=
  fun _ _ _ h => ⟨rfl, ⟨h.heap, h.args, h.modules, congrArg f h.files, h.trace, h.std, h.argv⟩, rfl, rfl, rfl⟩
theorem plain_modules {f : List (Sym × Value) → List (Sym × Value)} : Plain (M.modify (fun s => { s with modules := f s.modules })) :=
  fun _ _ _ h => ⟨rfl, ⟨h.heap, h.args, congrArg f h.modules, h.files, h.trace, h.std, h.argv⟩, rfl, rfl, rfl⟩

theorem BRel.heap' {κ s b} {g g' : Heap} (h : BRel κ s b) (hg : SameSeen s.heap b.heap g g') :
    BRel κ { s with heap := g } { b with heap := g' } :=
  ⟨hg.rel h.heap, h.args, h.modules, h.files, h.trace, h.std, h.argv⟩

theorem plain_alloc {f : Heap → α × Heap} (hf : ∀ h h', SameSeen h h' h h' → (f h').1 = (f h).1 ∧ SameSeen h h' (f h).2 (f h').2) :
    Plain (M.alloc f) := by
  intro κ s b h
  obtain ⟨h1, h2⟩ := hf _ _ h.heap.same
  exact ⟨by simp only [M.alloc, h1], h.heap' h2, h2.cells', rfl, rfl⟩

theorem plain_answer {args r} : Plain (answer args r) := by
  cases r with
  | value t => exact plain_alloc fun _ _ s => same_build args s t
  | panic p => exact plain_stop
  | crash => exact plain_stop
  | exit c => exact plain_stop

theorem plain_join {w addr pos} : Plain (joinCommand w addr pos) := by
  intro κ s b h
  have hn := congrFun h.heap.native addr
  have key : ∀ (t : Nat), Plain (do
      M.modify (fun s => { s with heap := s.heap.setNative addr (.join none) })
      record (.join t)
      answer [] (w.joined s.trace t) : M Value) := by
    intro t
    refine plain_bind ?_ fun _ => plain_bind plain_record fun _ => plain_answer
    intro κ s b h
    have := same_setNative (d := addr) (v := .join none) h.heap.same
    exact ⟨rfl, h.heap' this, this.cells', rfl, rfl⟩
  have e : ∀ s : RState, joinCommand w addr pos s = (match s.heap.native addr with
    | .join (some t) => (do
        M.modify (fun s => { s with heap := s.heap.setNative addr (.join none) })
        record (.join t)
        answer [] (w.joined s.trace t) : M Value)
    | _ => M.panic .invalidJoin pos) s := fun _ => rfl
  rw [e s, e b, hn, h.trace]
  cases s.heap.native addr with
  | join o =>
    cases o with
    | some t => exact key t κ s b h
    | none => exact plain_stop κ s b h
  | _ => exact plain_stop κ s b h

theorem plain_callLib {w : World} (hw : Vars.Blind w) {n name addr args pos} : Plain (callLib w n name addr args pos) := by
  intro κ s b h
  have hl := libSame_call h.heap w ⟨n, addr, args, pos, s.argv⟩ name
  have ha : (⟨n, addr, args, pos, b.argv⟩ : LibCall) = ⟨n, addr, args, pos, s.argv⟩ := by rw [h.argv]
  simp only [callLib, ha]
  cases hx : Lib.call w name ⟨n, addr, args, pos, s.argv⟩ s.heap with
  | none =>
    rw [hx] at hl
    rw [show Lib.call w name ⟨n, addr, args, pos, s.argv⟩ b.heap = none from hl]
    have hnat : w.native s.trace name (s.heap.native addr) args b.heap = w.native s.trace name (s.heap.native addr) args s.heap := by
      rw [h.heap.eq_swap]
      refine (hw s.heap b.heap.cells b.heap.closures ?_).2 _ _ _ _
      rw [h.heap.closures, List.map_map]
      rfl
    simp only [h.trace, h.heap.native, hnat]
    exact plain_bind plain_record (fun _ => plain_answer) κ s b h
  | some x =>
    rw [hx] at hl
    cases x with
    | error e =>
      rw [show Lib.call w name ⟨n, addr, args, pos, s.argv⟩ b.heap = some (.error e) from hl]
      exact ⟨rfl, h, rfl, rfl, rfl⟩
    | ok p =>
      obtain ⟨v, g⟩ := p
      obtain ⟨g', h1, h2⟩ := hl
      rw [h1]
      exact ⟨rfl, h.heap' h2, h2.cells', rfl, rfl⟩

end Hush

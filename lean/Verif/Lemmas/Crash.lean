import Verif.Spec.Crash
import Verif.Lemmas.Joins
import Verif.Lemmas.AnalyzeMain

/-!
The origin of Rust panics.
-/

set_option linter.unusedTactic false
set_option linter.unreachableTactic false

namespace Hush
open Spec
variable {w : World}

/-! ### Computations with parts started by the interpreter -/

/-- A computation, given the interpreter `r` for the tasks it starts. If one of these tasks crashes the computation crashes, or
the task is not started; and if the computation crashes then because of a missing slot or an impossible flow, or because of
`R`, or because of a task it starts. -/
def Tame (R : CrashKind → Prop) (r : Task → M Out) (m : (Task → M Out) → M α) (s : RState) : Prop :=
  (∀ t' s', m (probed r t' s') s = m r s ∨ (m (probed r t' s') s).1 = .error (.crash .slot)) ∧
  (∀ k, (m r s).1 = .error (.crash k) → k = .slot ∨ k = .flow ∨ R k ∨
    ∃ t' s', (r t' s').1 = .error (.crash k) ∧ (m (probed r t' s') s).1 = .error (.crash .slot))

/-- The computation crashes only because of a missing slot or an impossible flow. -/
def Serene (m : M α) : Prop := ∀ s k, (m s).1 = .error (.crash k) → k = .slot ∨ k = .flow

variable {R : CrashKind → Prop} {r : Task → M Out}

theorem tame_rec {t s} : Tame R r (fun r => r t) s := by
  refine ⟨fun t' s' => ?_, fun k hk => .inr (.inr (.inr ⟨t, s, hk, ?_⟩))⟩
  · by_cases h : t = t' ∧ s = s'
    · right; simp [probed, h]
    · left; simp [probed, h]
  · simp [probed]

theorem tame_const {m : M α} {s} (h : ∀ k, (m s).1 = .error (.crash k) → k = .slot ∨ k = .flow ∨ R k) :
    Tame R r (fun _ => m) s :=
  ⟨fun _ _ => .inl rfl, fun k hk => by rcases h k hk with h | h | h <;> simp [h]⟩

theorem Serene.tame {m : M α} {s} (h : Serene m) : Tame R r (fun _ => m) s :=
  tame_const fun k hk => by rcases h s k hk with h | h <;> simp [h]

theorem tame_bind {m : (Task → M Out) → M α} {f : α → (Task → M Out) → M β} {s} (hm : Tame R r m s)
    (hf : ∀ a s1, m r s = (.ok a, s1) → Tame R r (f a) s1) : Tame R r (fun r => m r >>= fun a => f a r) s := by
  have slot : ∀ {r' : Task → M Out}, (m r' s).1 = .error (.crash .slot) → ((m r' >>= fun a => f a r') s).1 = .error (.crash .slot) := by
    intro r' h
    rcases hx : m r' s with ⟨e | a, s1⟩
    · rw [hx] at h; cases h; simp only [Bind.bind, M.andThen, hx]
    · rw [hx] at h; cases h
  refine ⟨fun t' s' => ?_, fun k hk => ?_⟩
  · rcases hm.1 t' s' with h | h
    · rcases hx : m r s with ⟨e | a, s1⟩
      · left; simp only [Bind.bind, M.andThen, h, hx]
      · simp only [Bind.bind, M.andThen, h, hx]
        exact (hf a s1 hx).1 t' s'
    · exact .inr (slot h)
  · rcases hx : m r s with ⟨e | a, s1⟩
    · simp only [Bind.bind, M.andThen, hx, Except.error.injEq] at hk
      subst hk
      rcases hm.2 k (by rw [hx]) with h | h | h | ⟨t', s', h1, h2⟩
      · exact .inl h
      · exact .inr (.inl h)
      · exact .inr (.inr (.inl h))
      · exact .inr (.inr (.inr ⟨t', s', h1, slot h2⟩))
    · have hk' : (f a r s1).1 = .error (.crash k) := by simpa only [Bind.bind, M.andThen, hx] using hk
      rcases (hf a s1 hx).2 k hk' with h | h | h | ⟨t', s', h1, h2⟩
      · exact .inl h
      · exact .inr (.inl h)
      · exact .inr (.inr (.inl h))
      · refine .inr (.inr (.inr ⟨t', s', h1, ?_⟩))
        rcases hm.1 t' s' with h | h
        · simp only [Bind.bind, M.andThen, h, hx]; exact h2
        · exact slot h

/-- Changing computations so that crashes stay. -/
theorem tame_map {m : (Task → M Out) → M α} {g : M α → M β} {s s0} (hg : ∀ m m' : M α, m s0 = m' s0 → g m s = g m' s)
    (h1 : ∀ m : M α, (m s0).1 = .error (.crash .slot) → (g m s).1 = .error (.crash .slot))
    (h2 : ∀ (m : M α) k, (g m s).1 = .error (.crash k) → k = .slot ∨ k = .flow ∨ (m s0).1 = .error (.crash k))
    (hm : Tame R r m s0) : Tame R r (fun r => g (m r)) s := by
  refine ⟨fun t' s' => ?_, fun k hk => ?_⟩
  · rcases hm.1 t' s' with h | h
    · exact .inl (hg _ _ h)
    · exact .inr (h1 _ h)
  · rcases h2 _ k hk with h | h | h
    · exact .inl h
    · exact .inr (.inl h)
    · rcases hm.2 k h with h | h | h | ⟨t', s', h3, h4⟩
      · exact .inl h
      · exact .inr (.inl h)
      · exact .inr (.inr (.inl h))
      · exact .inr (.inr (.inr ⟨t', s', h3, h1 _ h4⟩))

theorem serene_bind {m : M α} {f : α → M β} (hm : Serene m) (hf : ∀ a, Serene (f a)) : Serene (m >>= f) := by
  intro s k hk
  rcases hx : m s with ⟨e | a, s1⟩
  · simp only [Bind.bind, M.andThen, hx] at hk
    cases hk; exact hm s k (by rw [hx])
  · simp only [Bind.bind, M.andThen, hx] at hk
    exact hf a s1 k hk
theorem serene_pure {a : α} : Serene (pure a : M α) := by intro s k h; cases h
theorem serene_panic {k p} : Serene (M.panic k p : M α) := by intro s k h; cases h
theorem serene_flow : Serene (M.crash .flow : M α) := by intro s k h; cases h; exact .inr rfl
theorem serene_get : Serene M.get := by intro s k h; cases h
theorem serene_modify {f} : Serene (M.modify f) := by intro s k h; cases h
theorem serene_record {e} : Serene (record e) := serene_modify
theorem serene_alloc {f : Heap → α × Heap} : Serene (M.alloc f) := by
  intro s k h; simp only [M.alloc] at h; cases h
theorem serene_fetch {ix} : Serene (fetch ix) := by
  intro s k h; unfold fetch at h; split at h <;> cases h; exact .inl rfl
theorem serene_store {ix v} : Serene (store ix v) := by
  intro s k h; unfold store at h; split at h <;> cases h; exact .inl rfl
theorem serene_capture {ix} : Serene (capture ix) := by
  intro s k h; unfold capture at h; split at h <;> cases h; exact .inl rfl
theorem serene_place {ix c} : Serene (place ix c) := by
  intro s k h; unfold place at h; split at h <;> cases h; exact .inl rfl
theorem serene_extend {n pos} : Serene (extend w n pos) := by
  intro s k h; unfold extend at h; split at h <;> cases h
theorem serene_shrink {n} : Serene (shrink n) := by
  intro s k h; unfold shrink at h; split at h <;> cases h; exact .inl rfl
theorem serene_captureAll : ∀ {cs}, Serene (captureAll cs)
  | [] => serene_pure
  | _ :: _ => serene_bind serene_capture fun _ => serene_bind serene_captureAll fun _ => serene_pure
theorem serene_storeArgs : ∀ {ix vs}, Serene (storeArgs ix vs)
  | _, [] => serene_pure
  | _, _ :: _ => serene_bind serene_store fun _ => serene_storeArgs
theorem serene_placeAll : ∀ {l}, Serene (placeAll l)
  | [] => serene_pure
  | (_, _) :: _ => serene_bind serene_place fun _ => serene_placeAll
theorem serene_storeSelf {obj o} : Serene (storeSelf obj o) := by
  cases o with
  | none => exact serene_pure
  | some ix => exact serene_store
theorem serene_tailShrink {tail} : Serene (tailShrink tail) := by
  cases tail with
  | none => exact serene_pure
  | some n => exact serene_bind serene_shrink fun _ => serene_modify
theorem serene_result {o : Out} : Serene o.result := by
  rcases o with ⟨fl, p, obj⟩
  cases fl with
  | regular v => exact serene_pure
  | return_ v => exact serene_flow
  | break_ => exact serene_flow
theorem serene_lift {x : Except Stop α} (h : ∀ k, x ≠ .error (.crash k)) : Serene (M.lift x) := by
  intro s k hk
  cases x with
  | ok a => cases hk
  | error e => simp only [M.lift, M.stop, Except.error.injEq] at hk; subst hk; exact absurd rfl (h k)
theorem serene_reads {f : Heap → Except Stop α} (h : ∀ hp k, f hp ≠ .error (.crash k)) : Serene (M.reads f) := by
  intro s k hk; exact absurd hk (h _ _)

theorem shortCircuit_calm {op l p k} : shortCircuit op l p ≠ .error (.crash k) := by
  unfold shortCircuit; split
  · split <;> simp
  · simp
theorem deep_calm {o : Option α} {f : α → β} {k} : (M.deep o).map f ≠ .error (.crash k) := by
  cases o <;> simp [M.deep, Except.map]
theorem strictValue_calm {h n op pos l lp x rp k} : strictValue w h n op pos l lp x rp ≠ .error (.crash k) := by
  unfold strictValue
  split
  · unfold arithValue; split
    · split <;> simp
    all_goals simp
  · split
    · unfold ordValue; split <;> simp
    · split
      · exact deep_calm
      · split
        · exact deep_calm
        · unfold concatValue; split <;> simp
theorem orOutOfBounds_calm {o ix p k} : orOutOfBounds o ix p ≠ .error (.crash k) := by
  unfold orOutOfBounds; split <;> simp
theorem accessValue_calm {h n o op f fp k} : accessValue h n o op f fp ≠ .error (.crash k) := by
  unfold accessValue; split
  · split
    · simp
    · exact orOutOfBounds_calm
  all_goals first | exact orOutOfBounds_calm | simp
theorem nextValue_calm {h n v p k} : nextValue h n v p ≠ .error (.crash k) := by
  unfold nextValue; split
  · split
    case h_4 => split <;> simp
    all_goals simp
  · simp

theorem anyM_true {f : α → Option Bool} : ∀ {l : List α}, anyM f l = some true → ∃ x ∈ l, f x = some true
  | [], h => by cases h
  | x :: l, h => by
    simp only [anyM] at h
    split at h
    · cases h
    · exact ⟨x, by simp, by assumption⟩
    · obtain ⟨y, h1, h2⟩ := anyM_true h
      exact ⟨y, by simp [h1], h2⟩

theorem anyM_mem {f : α → Option Bool} {l : List α} (h : anyM f l = some true) : ∃ x ∈ l, f x = some true := anyM_true h

/-- What is borrowed is inside. -/
theorem touches_inside {h : Heap} {t : Nat ⊕ Nat} {x : Value} (hx : ∀ d, t = .inl d → x = .dict d) (hy : ∀ a, t = .inr a → x = .array a) :
    ∀ n v, touches h t n v = some true → Inside h x v := by
  intro n
  induction n with
  | zero => intro v hv; cases hv
  | succ n ih =>
    intro v hv
    simp only [touches] at hv
    split at hv
    · rename_i a
      split at hv
      · rw [hy a (by assumption)]; exact .self
      · obtain ⟨y, h1, h2⟩ := anyM_true hv
        exact .item h1 (ih y h2)
    · rename_i d
      split at hv
      · rw [hx d (by assumption)]; exact .self
      · obtain ⟨e, h1, h2⟩ := anyM_true hv
        split at h2
        · exact .value h1 (ih _ h2)
        · exact .key h1 (ih _ h2)
    · exact .context (ih _ hv)
    · cases hv

theorem touches_dict {h : Heap} {d n v} (ht : touches h (.inl d) n v = some true) : Inside h (.dict d) v :=
  touches_inside (by rintro _ ⟨⟩; rfl) (by rintro _ h; cases h) n v ht
theorem touches_array {h : Heap} {a n v} (ht : touches h (.inr a) n v = some true) : Inside h (.array a) v :=
  touches_inside (by rintro _ h; cases h) (by rintro _ ⟨⟩; rfl) n v ht

/-! ### Arguments -/

/-- The only crash is that of a missing slot. -/
def SlotOnly (x : Except Stop α) : Prop := ∀ k, x = .error (.crash k) → k = .slot

theorem slotOnly_ok {a : α} : SlotOnly (.ok a) := nofun
theorem slotOnly_panic {p} : SlotOnly (.error (.panic p) : Except Stop α) := nofun
theorem SlotOnly.map {x : Except Stop α} {f : α → β} (h : SlotOnly x) : SlotOnly (x.map f) := by
  cases x with
  | ok a => exact slotOnly_ok
  | error e => intro k hk; simp only [Except.map, Except.error.injEq] at hk; exact h k (by rw [hk])
theorem SlotOnly.error {x : Except Stop α} {e} (h : SlotOnly x) (he : x = .error e) : SlotOnly (.error e : Except Stop β) := by
  intro k hk; simp only [Except.error.injEq] at hk; exact h k (by rw [he, hk])
theorem slotOnly_get {env : ArgEnv} {ix} : SlotOnly (env.get ix) := by
  unfold ArgEnv.get; split
  · exact slotOnly_ok
  · intro k hk; cases hk; rfl
theorem slotOnly_basic {env v pos} : SlotOnly (buildBasicValue env v pos) := by
  unfold buildBasicValue; split <;> first | exact slotOnly_ok | exact slotOnly_panic
theorem slotOnly_collect {f : α → Except Stop β} (hf : ∀ x, SlotOnly (f x)) : ∀ l, SlotOnly (collect f l)
  | [] => slotOnly_ok
  | x :: l => by
    simp only [collect]
    split
    · exact (hf x).error (by assumption)
    · split
      · exact (slotOnly_collect hf l).error (by assumption)
      · exact slotOnly_ok
theorem slotOnly_unit {env u} : SlotOnly (buildUnit env u) := by
  cases u with
  | literal l => exact slotOnly_ok
  | dollar ix pos =>
    simp only [buildUnit]; split
    · exact slotOnly_get.error (by assumption)
    · exact slotOnly_basic
theorem slotOnly_part {env args p} : SlotOnly (addPart env args p) := by
  cases p with
  | unit u =>
    cases u with
    | literal l => exact slotOnly_ok
    | dollar ix pos =>
      simp only [addPart]; split
      · exact slotOnly_get.error (by assumption)
      · split
        · exact (slotOnly_collect (fun _ => slotOnly_basic) _).error (by assumption)
        · exact slotOnly_ok
      · split
        · exact slotOnly_basic.error (by assumption)
        · exact slotOnly_ok
  | collection items =>
    simp only [addPart]; split
    · exact (slotOnly_collect (fun _ => slotOnly_unit) _).error (by assumption)
    · exact slotOnly_ok
  | _ => exact slotOnly_ok
theorem slotOnly_parts {env} : ∀ {ps args}, SlotOnly (addParts env args ps)
  | [], _ => slotOnly_ok
  | p :: ps, args => by
    simp only [addParts]; split
    · exact slotOnly_part.error (by assumption)
    · exact slotOnly_parts
theorem slotOnly_argument {env a} : SlotOnly (buildArgument env a) := by
  unfold buildArgument; split
  · exact slotOnly_parts.error (by assumption)
  · exact slotOnly_ok
theorem slotOnly_single {env o a} : SlotOnly (buildSingle env o a) := by
  unfold buildSingle; split
  · exact slotOnly_argument.error (by assumption)
  · split
    · exact slotOnly_panic
    · split
      · exact slotOnly_ok
      · exact slotOnly_panic
theorem slotOnly_arguments {env l} : SlotOnly (buildArguments env l) := by
  unfold buildArguments; split
  · exact (slotOnly_collect (fun _ => slotOnly_argument) _).error (by assumption)
  · exact slotOnly_ok
theorem slotOnly_envItem {env i} : SlotOnly (buildEnvItem env i) := by
  unfold buildEnvItem; split
  · exact slotOnly_unit.error (by assumption)
  · split
    · exact slotOnly_single.error (by assumption)
    · exact slotOnly_ok
theorem slotOnly_redirection {env x} : SlotOnly (buildRedirection env x) := by
  cases x with
  | output source target =>
    refine SlotOnly.map ?_
    cases target with
    | fd n => exact slotOnly_ok
    | overwrite a => exact slotOnly_single.map
    | append a => exact slotOnly_single.map
  | input l source => exact slotOnly_single.map
theorem slotOnly_basicCommand {env c} : SlotOnly (buildBasicCommand env c) := by
  unfold buildBasicCommand; split
  · exact slotOnly_single.error (by assumption)
  · split
    · exact (slotOnly_collect (fun _ => slotOnly_envItem) _).error (by assumption)
    · split
      · exact slotOnly_arguments.error (by assumption)
      · split
        · exact (slotOnly_collect (fun _ => slotOnly_redirection) _).error (by assumption)
        · exact slotOnly_ok
theorem slotOnly_command {env c} : SlotOnly (buildCommand env c) := by
  cases c with
  | builtin p a ab pos => exact slotOnly_arguments.map
  | external h t =>
    simp only [buildCommand]; split
    · exact slotOnly_basicCommand.error (by assumption)
    · exact (slotOnly_collect (fun _ => slotOnly_basicCommand) _).map
theorem slotOnly_block {env h t} : SlotOnly (buildBlock env h t) := by
  unfold buildBlock; split
  · exact slotOnly_command.error (by assumption)
  · exact (slotOnly_collect (fun _ => slotOnly_command) _).map

/-! ### Library functions -/

theorem isI64_false {i : Int} (h : ¬ isI64 i = true) : Overflows i := by
  simp only [isI64, decide_eq_true_eq] at h
  unfold Overflows; omega

theorem arith_crash {i k} (h : w.arith i = .error (.crash k)) : Overflows i ∧ w.checks = true ∧ k = .arith := by
  simp only [World.arith] at h
  split at h
  · cases h
  · split at h
    · cases h; exact ⟨isI64_false (by assumption), by assumption, rfl⟩
    · cases h

/-- The result is not a crash. -/
def NoCrash (x : LibRes) : Prop := ∀ k, x ≠ some (.error (.crash k))

theorem noCrash_sort {c : LibCall} {h : Heap} {k} (hk : Lib.sort w c h = some (.error (.crash k))) :
    k = .borrow ∧ ∃ a v, c.args = [.array a] ∧ 1 < (h.array a).length ∧ v ∈ h.array a ∧ Inside h (.array a) v := by
  unfold Lib.sort at hk
  split at hk
  · rename_i a ha
    split at hk
    · cases hk
    · rename_i cyc hc
      split at hk
      · rename_i hb
        cases hk
        simp only [Bool.and_eq_true, decide_eq_true_eq] at hb
        obtain ⟨rfl, hl⟩ := hb
        obtain ⟨v, h1, h2⟩ := anyM_true hc
        exact ⟨rfl, a, v, ha, hl, h1, touches_array h2⟩
      · split at hk <;> cases hk
  · cases hk
  · cases hk

theorem noCrash_range {c : LibCall} {h : Heap} {k} (hk : Lib.rangeImpl w c h = some (.error (.crash k))) :
    k = .arith ∧ c.args = [] ∧ ∃ a b d, h.native c.addr = .intRange a b d ∧ (0 < d ∧ a < b ∨ d ≤ 0 ∧ b < a) ∧ Overflows (a + d) ∧ w.checks = true := by
  unfold Lib.rangeImpl at hk
  split at hk
  · cases hk
  · rename_i ha
    have ha : c.args = [] := by simpa using ha
    split at hk
    · rename_i a b d hn
      by_cases hd : (if 0 < d then b ≤ a else a ≤ b)
      · rw [if_pos hd] at hk; cases hk
      · rw [if_neg hd] at hk
        split at hk
        · rename_i e he
          cases hk
          obtain ⟨h1, h2, h3⟩ := arith_crash he
          refine ⟨h3, ha, a, b, d, hn, ?_, h1, h2⟩
          split at hd
          · exact .inl ⟨by assumption, by omega⟩
          · exact .inr ⟨by omega, by omega⟩
        · cases hk
    · rename_i a b d hn
      by_cases hd : (if floatCmp d 0 = .gt then floatCmp a b ≠ .lt else floatCmp a b ≠ .gt)
      · rw [if_pos hd] at hk; cases hk
      · rw [if_neg hd] at hk; cases hk
    · cases hk

theorem noCrash_substr {c : LibCall} {h : Heap} {k} (hk : Lib.substr w c h = some (.error (.crash k))) :
    k = .arith ∧ w.checks = true ∧ ∃ t i n, c.args = [.string t, .int i, .int n] ∧ (i < 0 ∨ n < 0 ∨ 18446744073709551616 ≤ i + n) := by
  unfold Lib.substr at hk
  split at hk
  · rename_i t i n ha
    simp only [Lib.substrOf] at hk
    split at hk
    · rename_i hc
      simp only [Bool.and_eq_true, decide_eq_true_eq, ge_iff_le] at hc
      cases hk
      refine ⟨rfl, hc.2, t, i, n, ha, ?_⟩
      have := hc.1
      simp only [Lib.asUsize] at this
      omega
    · cases hk
  all_goals cases hk

theorem noCrash_export {c : LibCall} {h : Heap} {k} (hk : Lib.export_ w c h = some (.error (.crash k))) :
    k = .native ∧ ∃ v, c.args = [.string [], .string v] ∧ (0 : UInt8) ∉ v := by
  unfold Lib.export_ at hk
  split at hk
  · rename_i t v ha
    split at hk
    · cases hk
    · split at hk
      · cases hk
      · rename_i hv
        split at hk
        · rename_i ht
          cases hk
          have ht : t = [] := by simpa using ht
          exact ⟨rfl, v, by rw [ha, ht], by simpa using hv⟩
        · cases hk
  all_goals cases hk

theorem noCrash_randint {c : LibCall} {h : Heap} {k} (hk : Lib.randint w c h = some (.error (.crash k))) :
    k = .native ∧ ∃ a b, c.args = [.int a, .int b] ∧ b < a := by
  unfold Lib.randint at hk
  split at hk
  · rename_i a b ha
    split at hk
    · cases hk; exact ⟨rfl, a, b, ha, by assumption⟩
    · cases hk
  all_goals cases hk

theorem assoc_mem {α β : Type} [BEq α] [LawfulBEq α] {x : α} {y : β} : ∀ {l : List (α × β)}, l.lookup x = some y → (x, y) ∈ l
  | [], h => by cases h
  | (a, b) :: l, h => by
    rw [List.lookup_cons] at h
    split at h
    · rename_i hq
      simp only [beq_iff_eq] at hq
      cases h; subst hq
      simp
    · exact List.mem_cons_of_mem _ (assoc_mem h)

theorem call_aborts {name : Bytes} {n addr pos argv m} {s : RState} {args k}
    (hk : Lib.call w name ⟨n, addr, args, pos, argv⟩ s.heap = some (.error (.crash k))) : Aborts w m s name addr args k := by
  simp only [Lib.call] at hk
  split at hk
  · rename_i f hf
    have hm := assoc_mem hf
    have h0 : ∀ q ∈ Lib.table, ∀ k, q.2 w ⟨n, addr, args, pos, argv⟩ s.heap = some (.error (.crash k)) → Aborts w m s q.1 addr args k := by
      simp only [Lib.table, List.forall_mem_cons, List.not_mem_nil, false_imp_iff, implies_true, and_true]
      repeat' apply And.intro
      all_goals intro k hk
      all_goals first
        | (obtain ⟨rfl, a, v, rfl, h1, h2, h3⟩ := noCrash_sort hk; exact .sort h1 h2 h3)
        | (obtain ⟨rfl, rfl, a, b, d, h1, h2, h3, h4⟩ := noCrash_range hk; exact .range h1 h2 h3 h4)
        | (obtain ⟨rfl, h1, t, i, n, rfl, h2⟩ := noCrash_substr hk; exact .substr h2 h1)
        | (obtain ⟨rfl, v, rfl, h⟩ := noCrash_export hk; exact .export h)
        | (obtain ⟨rfl, a, b, rfl, h⟩ := noCrash_randint hk; exact .randint h)
        | (exfalso
           simp only [Lib.assert, Lib.args, Lib.bind, Lib.bytes, Lib.contains, Lib.error, Lib.exit, Lib.hasError, Lib.hexEncodeFun, Lib.hexDecodeFun,
             Lib.b64EncodeFun, Lib.b64DecodeFun, Lib.int, Lib.isEmpty, Lib.iter, Lib.iterImpl, Lib.len, Lib.panic, Lib.pop, Lib.push, Lib.range,
             Lib.replace, Lib.split, Lib.toStringFun, Lib.type, Lib.typecheck, Lib.tryTypecheck, Lib.trim, Lib.jsonEncode,
             Lib.jsonDecode, Lib.float, Lib.text1, Lib.regexReplace, Lib.noArgs, Lib.randseed, Lib.sleep, Lib.read] at hk
           repeat' split at hk
           all_goals first | (cases hk; done) | (simp at hk; done))
    exact h0 _ hm k hk
  · cases hk

end Hush

import Verif.Lemmas.InterpMono
import Verif.Spec.Evaluation

/-!
Outcomes for all large enough budgets.
-/

namespace Hush
open Spec

/-- A family of computations, growing with the budget. -/
def Mono (m : Nat → M α) : Prop := ∀ n n', n ≤ n' → MLe (m n) (m n')

/-- The outcome for all large enough budgets. -/
def Lim (m : Nat → M α) (s : RState) (r : Except Stop α) (s' : RState) : Prop :=
  r ≠ .error .timeout ∧ ∃ N, ∀ n, N ≤ n → m n s = (r, s')

theorem Mono.const (m : M α) : Mono (fun _ => m) := fun _ _ _ => .refl _

theorem Mono.run (w : World) (t : Task) : Mono (fun n => run w n t) := fun _ _ h => runTask_mono w h t

theorem Mono.bind {m : Nat → M α} {f : Nat → α → M β} (hm : Mono m) (hf : ∀ a, Mono (fun n => f n a)) :
    Mono (fun n => m n >>= f n) := fun n n' h => mle_bind (hm n n' h) (fun a => hf a n n' h)

theorem Mono.step (w : World) (t : Task) : Mono (fun n => step w n (Hush.run w n) t) :=
  fun _ _ h => step_mono w h (fun t => runTask_mono w h t) t

theorem Mono.regular (o : Out) (pos : Pos) {k : Nat → Value → Pos → Value → M Out} (h : ∀ v p x, Mono (fun n => k n v p x)) :
    Mono (fun n => o.regular pos (k n)) := fun n n' hn => mle_regular o pos (fun v p x => h v p x n n' hn)

theorem Mono.reads {f : Nat → Heap → Except Stop α} (h : ∀ n n', n ≤ n' → ∀ x, ELe (f n x) (f n' x)) :
    Mono (fun n => M.reads (f n)) := fun n n' hn => mle_reads (h n n' hn)

theorem Mono.lim {m : Nat → M α} (hm : Mono m) {n : Nat} {s r s'} (h : m n s = (r, s')) (hr : r ≠ .error .timeout) :
    Lim m s r s' := by
  refine ⟨hr, n, fun k hk => ?_⟩
  rcases hm n k hk s with h1 | h1
  · rw [h] at h1; exact absurd h1 hr
  · rw [← h1, h]

theorem Lim.unique {m : Nat → M α} {s r1 s1 r2 s2} (h1 : Lim m s r1 s1) (h2 : Lim m s r2 s2) : r1 = r2 ∧ s1 = s2 := by
  obtain ⟨_, N1, h1⟩ := h1
  obtain ⟨_, N2, h2⟩ := h2
  have := h1 (max N1 N2) (Nat.le_max_left ..)
  rw [h2 (max N1 N2) (Nat.le_max_right ..)] at this
  cases this
  exact ⟨rfl, rfl⟩

theorem lim_const {m : M α} {s r s'} : Lim (fun _ => m) s r s' ↔ r ≠ .error .timeout ∧ m s = (r, s') :=
  ⟨fun ⟨h, N, hN⟩ => ⟨h, hN N (Nat.le_refl _)⟩, fun ⟨h, hm⟩ => ⟨h, 0, fun _ _ => hm⟩⟩

theorem lim_pure {a : α} {s r s'} : Lim (fun _ => (pure a : M α)) s r s' ↔ r = .ok a ∧ s' = s := by
  rw [lim_const]
  show _ ∧ ((Except.ok a, s) : Except Stop α × RState) = (r, s') ↔ _
  constructor
  · rintro ⟨_, h⟩; cases h; exact ⟨rfl, rfl⟩
  · rintro ⟨rfl, rfl⟩; exact ⟨nofun, rfl⟩

theorem lim_stop {e : Stop} {s r s'} : Lim (fun _ => (M.stop e : M α)) s r s' ↔ e ≠ .timeout ∧ r = .error e ∧ s' = s := by
  rw [lim_const]
  show _ ∧ ((Except.error e, s) : Except Stop α × RState) = (r, s') ↔ _
  constructor
  · rintro ⟨h1, h⟩; cases h; exact ⟨fun h => h1 (by rw [h]), rfl, rfl⟩
  · rintro ⟨h, rfl, rfl⟩; exact ⟨fun h' => h (by cases h'; rfl), rfl⟩

theorem lim_panic {k : PanicKind} {pos : Pos} {s r s'} :
    Lim (fun _ => (M.panic k pos : M α)) s r s' ↔ r = .error (.panic ⟨k, pos⟩) ∧ s' = s := by
  rw [show (fun _ : Nat => (M.panic k pos : M α)) = fun _ => M.stop (.panic ⟨k, pos⟩) from rfl, lim_stop]
  exact ⟨fun h => h.2, fun h => ⟨nofun, h⟩⟩

theorem lim_crash {k : CrashKind} {s r s'} :
    Lim (fun _ => (M.crash k : M α)) s r s' ↔ r = .error (.crash k) ∧ s' = s := by
  rw [show (fun _ : Nat => (M.crash k : M α)) = fun _ => M.stop (.crash k) from rfl, lim_stop]
  exact ⟨fun h => h.2, fun h => ⟨nofun, h⟩⟩

theorem lim_bind {m : Nat → M α} {f : Nat → α → M β} (hm : Mono m) (hf : ∀ a, Mono (fun n => f n a)) {s r s'} :
    Lim (fun n => m n >>= f n) s r s' ↔
      (∃ a s1, Lim m s (.ok a) s1 ∧ Lim (fun n => f n a) s1 r s') ∨ (∃ e, r = .error e ∧ Lim m s (.error e) s') := by
  constructor
  · rintro ⟨hr, N, hN⟩
    have h := hN N (Nat.le_refl _)
    simp only [Bind.bind, M.andThen] at h
    rcases hm' : m N s with ⟨e | a, s1⟩
    · rw [hm'] at h
      cases h
      exact .inr ⟨e, rfl, hm.lim hm' (fun h => hr (by cases h; rfl))⟩
    · rw [hm'] at h
      exact .inl ⟨a, s1, hm.lim hm' (fun h => by cases h), (hf a).lim h hr⟩
  · rintro (⟨a, s1, ⟨_, N1, h1⟩, ⟨hr, N2, h2⟩⟩ | ⟨e, rfl, ⟨hr, N, hN⟩⟩)
    · refine ⟨hr, max N1 N2, fun n hn => ?_⟩
      simp only [Bind.bind, M.andThen]
      rw [h1 n (by omega)]
      exact h2 n (by omega)
    · refine ⟨fun h => hr (by cases h; rfl), N, fun n hn => ?_⟩
      simp only [Bind.bind, M.andThen]
      rw [hN n hn]

theorem lim_get_bind {f : Nat → RState → M β} {s r s'} :
    Lim (fun n => (M.get : M RState) >>= f n) s r s' ↔ Lim (fun n => f n s) s r s' := Iff.rfl

theorem lim_modify_bind {g : RState → RState} {f : Nat → Unit → M β} {s r s'} :
    Lim (fun n => M.modify g >>= f n) s r s' ↔ Lim (fun n => f n ()) (g s) r s' := Iff.rfl

theorem ends_iff_run {w : World} {t : Task} {s r s'} : Ends w t s r s' ↔ Lim (fun n => run w n t) s r s' :=
  ⟨fun ⟨hr, _, hn⟩ => (Mono.run w t).lim hn hr, fun ⟨hr, N, hN⟩ => ⟨hr, N, hN N (Nat.le_refl _)⟩⟩

theorem ends_iff {w : World} {t : Task} {s r s'} : Ends w t s r s' ↔ Lim (fun n => step w n (run w n) t) s r s' := by
  constructor
  · rintro ⟨hr, n, hn⟩
    cases n with
    | zero => cases hn; exact absurd rfl hr
    | succ n => exact (Mono.step w t).lim hn hr
  · rintro ⟨hr, N, hN⟩
    exact ⟨hr, N + 1, hN N (Nat.le_refl _)⟩

theorem Ends.unique {w : World} {t : Task} {s r1 s1 r2 s2} (h1 : Ends w t s r1 s1) (h2 : Ends w t s r2 s2) : r1 = r2 ∧ s1 = s2 :=
  (ends_iff_run.1 h1).unique (ends_iff_run.1 h2)

/-- A task of which the first part is another task. -/
theorem lim_task {w : World} {t : Task} {f : Nat → Out → M β} (hf : ∀ a, Mono (fun n => f n a)) {s r s'} :
    Lim (fun n => run w n t >>= f n) s r s' ↔
      (∃ o s1, Ends w t s (.ok o) s1 ∧ Lim (fun n => f n o) s1 r s') ∨ (∃ e, r = .error e ∧ Ends w t s (.error e) s') := by
  rw [lim_bind (Mono.run w t) hf]
  simp only [ends_iff_run]

/-- The same, continuing only with a value. -/
theorem lim_value {w : World} {t : Task} {pos : Pos} {k : Nat → Value → Pos → Value → M Out}
    (hk : ∀ v p x, Mono (fun n => k n v p x)) {s r s'} :
    Lim (fun n => run w n t >>= fun o => o.regular pos (k n)) s r s' ↔
      (∃ v p x s1, Ends w t s (.ok ⟨.regular v, p, x⟩) s1 ∧ Lim (fun n => k n v p x) s1 r s') ∨
      (∃ r', r = passed pos r' ∧ Leaving r' ∧ Ends w t s r' s') := by
  rw [lim_task (fun o => Mono.regular o pos hk)]
  constructor
  · rintro (⟨⟨f, p, x⟩, s1, h1, h2⟩ | ⟨e, rfl, h⟩)
    · cases f with
      | regular v => exact .inl ⟨v, p, x, s1, h1, h2⟩
      | return_ v =>
        rw [show (fun n => Out.regular ⟨.return_ v, p, x⟩ pos (k n)) = fun _ => pure ⟨.return_ v, pos, .nil⟩ from rfl, lim_pure] at h2
        obtain ⟨rfl, rfl⟩ := h2
        exact .inr ⟨.ok _, rfl, (fun _ _ _ h => by cases h), h1⟩
      | break_ =>
        rw [show (fun n => Out.regular ⟨.break_, p, x⟩ pos (k n)) = fun _ => pure ⟨.break_, pos, .nil⟩ from rfl, lim_pure] at h2
        obtain ⟨rfl, rfl⟩ := h2
        exact .inr ⟨.ok _, rfl, (fun _ _ _ h => by cases h), h1⟩
    · exact .inr ⟨.error e, rfl, nofun, h⟩
  · rintro (⟨v, p, x, s1, h1, h2⟩ | ⟨r', rfl, hr', h⟩)
    · exact .inl ⟨_, s1, h1, h2⟩
    · cases r' with
      | error e => exact .inr ⟨e, rfl, h⟩
      | ok o =>
        refine .inl ⟨o, s', h, ?_⟩
        rcases o with ⟨f, p, x⟩
        cases f with
        | regular v => exact absurd rfl (hr' v p x)
        | return_ v => exact lim_pure.2 ⟨rfl, rfl⟩
        | break_ => exact lim_pure.2 ⟨rfl, rfl⟩

theorem leaving_error (e : Stop) : Leaving (.error e) := fun _ _ _ h => by cases h

theorem mono_unary (w : World) (op : UnOp) (pos : Pos) : ∀ (v : Value) (p : Pos) (_ : Value), Mono (fun _ => (do
      let f ← M.lift (unaryValue w op v p)
      pure ⟨f, pos, .nil⟩ : M Out)) := fun _ _ _ => .const _

end Hush

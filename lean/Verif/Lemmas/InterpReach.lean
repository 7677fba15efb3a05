import Verif.Spec.Execution
import Verif.Lemmas.InterpSafe

/-!
Whatever is performed in the execution of an accepted source may be performed.
-/

namespace Hush
open Spec

theorem taskOk_probed {r t s} (hr : TaskOk r) (h : ∀ c, ¬ Pre c t s) : TaskOk (probed r t s) := by
  intro c t' s' hp
  simp only [Runs, probed]
  rw [if_neg]
  · exact hr c t' s' hp
  · rintro ⟨rfl, rfl⟩; exact h c hp

theorem starts_pre {w n t s t' s' c} (hp : Pre c t s) (h : Starts w n t s t' s') : ∃ c', Pre c' t' s' := by
  by_contra hc
  have hc' : ∀ c, ¬ Pre c t' s' := fun c hp => hc ⟨c, hp⟩
  have := step_ok w n (taskOk_probed (run_ok w n) hc') c t s hp
  simp only [Runs] at this
  rcases hm : step w n (probed (run w n) t' s') t s with ⟨e | o, s1⟩
  · simp only [Starts, hm] at h
    rw [hm] at this
    cases h
    exact this.1.1 rfl
  · simp only [Starts, hm] at h; cases h

theorem reaches_pre {w n t s k t' s'} (h : Reaches w n t s k t' s') : ∀ {c}, Pre c t s → ∃ c', Pre c' t' s' := by
  induction h with
  | self => exact fun hp => ⟨_, hp⟩
  | sub h1 _ ih => exact fun hp => let ⟨_, hp'⟩ := starts_pre hp h1; ih hp'

theorem init_inv (argv file) : Inv (RState.init argv file) := by
  intro c hc
  simp only [RState.init, Heap.empty] at hc
  cases hc

theorem accepts_ok {src p} (h : Accepts src p) : ProgramOk p := by
  obtain ⟨a, h1, h2, h3⟩ := h
  exact translatesProgram_ok (analyze_translates _ (source_written h1 h2) p h3)

theorem program_pre {src p argv file c} (h : Accepts src p) : Pre c (.program 0 p) (RState.init argv file) :=
  ⟨init_inv _ _, accepts_ok h⟩

theorem performed_pre {w src k t s} (h : Performed w src k t s) : ∃ c, Pre c t s := by
  obtain ⟨p, argv, file, n, h1, h2⟩ := h
  exact reaches_pre h2 (c := ⟨0, false, false⟩) (program_pre h1)

/-- What is known about every task performed. -/
theorem performed_runs {w src k t s} (h : Performed w src k t s) :
    ∃ c, Pre c t s ∧ Runs (run w k t) s (Post c t s) (Stopped c t s) :=
  let ⟨c, hc⟩ := performed_pre h
  ⟨c, hc, run_ok w k c t s hc⟩

/-- Everything that tasks leave alone. -/
theorem post_rest {c t s o s'} (h : Post c t s o s') : Rest s s' ∧ Inv s' := by
  have tl : ∀ {tail k}, TailRel tail k s s' → Rest s s' ∧ Inv s' := by
    rintro tail k (h | ⟨_, h⟩)
    · exact ⟨h.rest, h.inv⟩
    · exact ⟨h.rest, h.inv⟩
  cases t with
  | expr => exact tl h.1
  | stmt => exact tl h.1
  | block => exact tl h.1
  | items => exact ⟨h.1.rest, h.1.inv⟩
  | fields => exact ⟨h.1.rest, h.1.inv⟩
  | loop => exact ⟨h.1.rest, h.1.inv⟩
  | iter => exact ⟨h.1.rest, h.1.inv⟩
  | args => exact ⟨h.1.rest, h.1.inv⟩
  | call => exact ⟨h.1.rest, h.1.inv⟩
  | program => exact ⟨h.1.rest, h.1.inv⟩

theorem stopped_rest {c t s o s'} (h : Stopped c t s o s') : Rest s s' ∧ Inv s' := by
  have tl : ∀ {tail k}, TailRel tail k s s' → Rest s s' ∧ Inv s' := by
    rintro tail k (h | ⟨_, h⟩)
    · exact ⟨h.rest, h.inv⟩
    · exact ⟨h.rest, h.inv⟩
  have h := h.2
  cases t with
  | expr => exact tl h.1
  | stmt => exact tl h.1
  | block => exact tl h.1
  | items => exact ⟨h.1.rest, h.1.inv⟩
  | fields => exact ⟨h.1.rest, h.1.inv⟩
  | loop => exact ⟨h.1.rest, h.1.inv⟩
  | iter => exact ⟨h.1.rest, h.1.inv⟩
  | args => exact ⟨h.1.rest, h.1.inv⟩
  | call => exact ⟨h.1.rest, h.1.inv⟩
  | program => exact ⟨h.2.1, h.2.2.2.1⟩

theorem runs_rest {w k t s c} (hp : Pre c t s) : Rest s (run w k t s).2 ∧ Inv (run w k t s).2 := by
  have h := run_ok w k c t s hp
  simp only [Runs] at h
  rcases hm : run w k t s with ⟨e | o, s'⟩
  · rw [hm] at h; exact stopped_rest h
  · rw [hm] at h; exact post_rest h

/-! ### Some tasks that are started -/

theorem probed_self {r t s} : probed r t s t s = (.error (.crash .slot), s) := by simp [probed]

theorem probed_task {r t s t' s'} (h : t' ≠ t) : probed r t s t' s' = r t' s' := by simp [probed, h]

theorem starts_program {w n m p s s1 s2} (h1 : extend w p.rootSlots noPos s = (.ok (), s1)) (h2 : store 0 s1.std s1 = (.ok (), s2)) :
    Starts w n (.program m p) s (.block m none p.statements) s2 := by
  simp only [Starts, step, stepProgram, bind, M.andThen, h1, M.get, h2, probed_self]

theorem starts_last {w n m tail st s} : Starts w n (.block m tail [st]) s (.stmt m tail st) s := by
  simp only [Starts, step, probed_self]

theorem starts_head {w n m tail st st2 ss s} : Starts w n (.block m tail (st :: st2 :: ss)) s (.stmt m none st) s := by
  simp only [Starts, step, bind, M.andThen, probed_self]

theorem starts_rest {w n m tail st st2 ss s o v s1} (h : run w n (.stmt m none st) s = (.ok o, s1)) (ho : o.flow = .regular v) :
    Starts w n (.block m tail (st :: st2 :: ss)) s (.block m tail (st2 :: ss)) s1 := by
  simp only [Starts, step, bind, M.andThen]
  rw [probed_task (by simp), h]
  simp only [Out.regular, ho, probed_self]

theorem starts_stmtExpr {w n m tail e s} : Starts w n (.stmt m tail (.expr e)) s (.expr m tail e) s := by
  simp only [Starts, step, stepStmt, probed_self]

theorem starts_call {w n m tail f args pos s o fn s1 o2 v2 s2 s3} (h1 : run w n (.expr m none f) s = (.ok o, s1))
    (ho : o.flow = .regular (.function fn)) (h2 : run w n (.args m args s1.args.length) s1 = (.ok o2, s2))
    (ho2 : o2.flow = .regular v2) (h3 : tailShrink tail s2 = (.ok (), s3)) :
    Starts w n (.expr m tail (.call f args pos)) s (.call m o.obj fn s1.args.length pos) s3 := by
  simp only [Starts, step, stepExpr, bind, M.andThen]
  rw [probed_task (by simp), h1]
  simp only [Out.regular, ho, M.get, M.andThen]
  rw [probed_task (by simp), h2]
  simp only [ho2, M.andThen, h3, probed_self]

end Hush

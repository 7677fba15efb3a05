import Verif.Lemmas.InterpLib

/-!
Slots that failed modules left on the stack stay there, whatever is executed.
-/

namespace Hush

/-- The computation does not remove leaked slots. -/
def MLeaks (m : M α) : Prop := ∀ s, s.leaked ≤ (m s).2.leaked

theorem mleaks_bind {m : M α} {f : α → M β} (hm : MLeaks m) (hf : ∀ a, MLeaks (f a)) : MLeaks (m >>= f) := by
  intro s
  have h1 := hm s
  simp only [Bind.bind, M.andThen]
  rcases he : m s with ⟨_ | a, s'⟩
  · rw [he] at h1; exact h1
  · rw [he] at h1; exact h1.trans (hf a s')

theorem mleaks_pure {a : α} : MLeaks (pure a : M α) := fun _ => Nat.le_refl _
theorem mleaks_stop {e} : MLeaks (M.stop e : M α) := fun _ => Nat.le_refl _
theorem mleaks_panic {k p} : MLeaks (M.panic k p : M α) := mleaks_stop
theorem mleaks_crash {k} : MLeaks (M.crash k : M α) := mleaks_stop
theorem mleaks_get : MLeaks M.get := fun _ => Nat.le_refl _
theorem mleaks_lift {x : Except Stop α} : MLeaks (M.lift x) := by cases x <;> exact fun _ => Nat.le_refl _
theorem mleaks_reads {f : Heap → Except Stop α} : MLeaks (M.reads f) := fun _ => Nat.le_refl _
theorem mleaks_modify {f : RState → RState} (h : ∀ s, (f s).leaked = s.leaked) : MLeaks (M.modify f) := by
  intro s; show s.leaked ≤ (f s).leaked; rw [h s]
theorem mleaks_record {e} : MLeaks (record e) := mleaks_modify fun _ => rfl

theorem mleaks_newArray {vs : Heap → List Value} : MLeaks (M.alloc fun h => h.newArray (vs h)) := fun _ => Nat.le_refl _
theorem mleaks_newDict {vs} : MLeaks (M.alloc fun h => h.newDict vs) := fun _ => Nat.le_refl _
theorem mleaks_newNative {name st} : MLeaks (M.alloc fun h => h.newNative name st) :=
  fun _ => Nat.le_refl _
theorem mleaks_newClosure {k} : MLeaks (M.alloc fun h => h.newClosure k) := fun _ => Nat.le_refl _

theorem mleaks_fetch {ix} : MLeaks (fetch ix) := by intro s; unfold fetch; split <;> exact Nat.le_refl _
theorem mleaks_store {ix v} : MLeaks (store ix v) := by
  intro s; unfold store; split
  · exact Nat.le_refl _
  · exact Nat.le_refl _
  · exact Nat.le_refl _
theorem mleaks_capture {ix} : MLeaks (capture ix) := by
  intro s; unfold capture; split
  · exact Nat.le_refl _
  · exact Nat.le_refl _
  · exact Nat.le_refl _
theorem mleaks_place {ix c} : MLeaks (place ix c) := by intro s; unfold place; split <;> exact Nat.le_refl _
theorem mleaks_extend {w n pos} : MLeaks (extend w n pos) := by intro s; unfold extend; split <;> exact Nat.le_refl _
theorem mleaks_shrink {n} : MLeaks (shrink n) := by intro s; unfold shrink; split <;> exact Nat.le_refl _

theorem mleaks_captureAll : ∀ {cs}, MLeaks (captureAll cs)
  | [] => mleaks_pure
  | _ :: _ => mleaks_bind mleaks_capture fun _ => mleaks_bind mleaks_captureAll fun _ => mleaks_pure
theorem mleaks_storeArgs : ∀ {ix vs}, MLeaks (storeArgs ix vs)
  | _, [] => mleaks_pure
  | _, _ :: _ => mleaks_bind mleaks_store fun _ => mleaks_storeArgs
theorem mleaks_placeAll : ∀ {l}, MLeaks (placeAll l)
  | [] => mleaks_pure
  | (_, _) :: _ => mleaks_bind mleaks_place fun _ => mleaks_placeAll
theorem mleaks_storeSelf {obj o} : MLeaks (storeSelf obj o) := by
  cases o with
  | none => exact mleaks_pure
  | some ix => exact mleaks_store
theorem mleaks_tailShrink {tail} : MLeaks (tailShrink tail) := by
  cases tail with
  | none => exact mleaks_pure
  | some n => exact mleaks_bind mleaks_shrink fun _ => mleaks_modify fun _ => rfl
theorem mleaks_answer {args x} : MLeaks (answer args x) := by
  cases x with
  | value t => exact fun _ => Nat.le_refl _
  | panic p => exact mleaks_stop
  | crash => exact mleaks_crash
  | exit k => exact mleaks_stop

theorem mleaks_regular {o : Out} {pos} {k : Value → Pos → Value → M Out} (h : ∀ v p obj, MLeaks (k v p obj)) : MLeaks (o.regular pos k) := by
  rcases o with ⟨fl, p, obj⟩
  cases fl with
  | regular v => exact h v p obj
  | return_ v => exact mleaks_pure
  | break_ => exact mleaks_pure
theorem mleaks_result {o : Out} : MLeaks o.result := by
  rcases o with ⟨fl, p, obj⟩
  cases fl with
  | regular v => exact mleaks_pure
  | return_ v => exact mleaks_crash
  | break_ => exact mleaks_crash

theorem mleaks_catching {w : World} {m : M Out} (h : MLeaks m) : MLeaks (catching w m) := by
  intro s
  have h1 := h s
  unfold catching
  rcases he : m s with ⟨e | o, s'⟩
  · rw [he] at h1
    cases e with
    | _ => exact h1
  · rw [he] at h1
    dsimp only
    split <;> exact h1

theorem mleaks_callLib {w : World} {n name addr args pos} : MLeaks (callLib w n name addr args pos) := by
  intro s
  unfold callLib
  split
  · exact Nat.le_refl _
  · exact Nat.le_refl _
  · exact mleaks_bind mleaks_record (fun _ => mleaks_answer) s

theorem mleaks_finally {m : M α} {f : RState → RState} (hm : MLeaks m) (h : ∀ s, (f s).leaked = s.leaked) : MLeaks (finally_ m f) := by
  intro s
  have h1 := hm s
  unfold finally_
  rcases he : m s with ⟨x, s'⟩
  rw [he] at h1
  dsimp only
  rw [h s']
  exact h1

theorem mleaks_withFrame {n} {m : M Out} (h : MLeaks m) : MLeaks (withFrame n m) := by
  intro s
  have h1 := h { s with shrunk := false }
  unfold withFrame
  rcases he : m { s with shrunk := false } with ⟨x, s'⟩
  rw [he] at h1
  dsimp only
  split
  · exact h1
  · have h2 := mleaks_shrink (n := n) s'
    rcases he2 : shrink n s' with ⟨_ | _, s''⟩
    · rw [he2] at h2; exact h1.trans h2
    · rw [he2] at h2; exact h1.trans h2

theorem mleaks_afterBody {o : Out} {m : M Out} (h : MLeaks m) : MLeaks (afterBody o m) := by
  rcases o with ⟨fl, p, x⟩
  cases fl with
  | regular v => exact h
  | return_ v => exact mleaks_pure
  | break_ => exact mleaks_pure

/-- All recursive calls do not remove leaked slots. -/
def RecLeaks (rec : Task → M Out) : Prop := ∀ t, MLeaks (rec t)

/-- Proves that a computation does not remove leaked slots. -/
macro "leaks" : tactic => `(tactic| repeat' (first
  | exact mleaks_pure | exact mleaks_stop | exact mleaks_panic | exact mleaks_crash | exact mleaks_get | exact mleaks_lift
  | exact mleaks_reads | exact mleaks_record | exact mleaks_newArray | exact mleaks_newDict | exact mleaks_newNative
  | exact mleaks_newClosure | exact mleaks_fetch | exact mleaks_store | exact mleaks_capture | exact mleaks_place
  | exact mleaks_extend | exact mleaks_shrink | exact mleaks_captureAll | exact mleaks_storeArgs | exact mleaks_placeAll
  | exact mleaks_storeSelf | exact mleaks_tailShrink | exact mleaks_answer | exact mleaks_result | exact mleaks_callLib
  | exact (by assumption : RecLeaks _) _
  | exact mleaks_modify (fun _ => rfl)
  | apply mleaks_regular | apply mleaks_catching | apply mleaks_withFrame | apply mleaks_afterBody
  | (refine mleaks_bind ?_ ?_) | split | (intro _)))

theorem mleaks_evalCommand {w : World} {b} : MLeaks (evalCommand w b) := by unfold evalCommand; leaks
theorem mleaks_loadModule {w : World} {rec path pos} (hr : RecLeaks rec) : MLeaks (loadModule w rec path pos) := by
  unfold loadModule; leaks
theorem mleaks_importModule {w : World} {rec m args pos} (hr : RecLeaks rec) : MLeaks (importModule w rec m args pos) := by
  have := @mleaks_loadModule w rec
  unfold importModule
  split
  · refine mleaks_bind mleaks_get fun s => ?_
    split
    · exact mleaks_panic
    · split
      · leaks
      · exact mleaks_bind (mleaks_loadModule hr) (by leaks)
  · exact mleaks_panic
  · exact mleaks_panic
theorem mleaks_joinCommand {w : World} {addr pos} : MLeaks (joinCommand w addr pos) := by
  unfold joinCommand
  refine mleaks_bind mleaks_get fun s => ?_
  split
  · refine mleaks_bind ?_ (by leaks)
    exact fun _ => Nat.le_refl _
  · exact mleaks_panic
theorem mleaks_nativeCall {w : World} {n rec m name addr start pos} (hr : RecLeaks rec) : MLeaks (nativeCall w n rec m name addr start pos) := by
  unfold nativeCall
  refine mleaks_bind mleaks_get fun s => ?_
  dsimp only
  split
  · leaks
  · split
    · leaks
    · split
      · exact mleaks_importModule hr
      · split
        · exact mleaks_joinCommand
        · exact mleaks_callLib
theorem mleaks_stepCall {w : World} {n rec m obj f start pos} (hr : RecLeaks rec) : MLeaks (stepCall w n rec m obj f start pos) := by
  intro s
  unfold stepCall
  split
  · exact Nat.le_refl _
  · split
    · refine (?_ : MLeaks _) s
      leaks
    · refine (?_ : MLeaks _) s
      refine mleaks_bind (mleaks_finally (mleaks_nativeCall hr) fun _ => rfl) (by leaks)
theorem mleaks_stepProgram {w : World} {rec m p} (hr : RecLeaks rec) : MLeaks (stepProgram w rec m p) := by
  unfold stepProgram
  refine mleaks_bind mleaks_extend fun _ => mleaks_bind mleaks_get fun s => mleaks_bind mleaks_store fun _ => mleaks_bind ?_ (by leaks)
  intro s
  have h1 := hr (.block m none p.statements) s
  dsimp only
  rcases he : rec (.block m none p.statements) s with ⟨_ | _, s'⟩
  · rw [he] at h1; exact h1.trans (Nat.le_add_right _ _)
  · rw [he] at h1; exact h1
theorem mleaks_stepLit {w : World} {rec m l pos} (hr : RecLeaks rec) : MLeaks (stepLit w rec m l pos) := by unfold stepLit; leaks
theorem mleaks_stepExpr {w : World} {n rec m tail e} (hr : RecLeaks rec) : MLeaks (stepExpr w n rec m tail e) := by
  unfold stepExpr
  split
  · leaks
  · exact mleaks_stepLit hr
  · leaks
  · leaks
  · leaks
  · leaks
  · leaks
  · exact mleaks_bind mleaks_evalCommand (by leaks)
theorem mleaks_stepStmt {n rec m tail st} (hr : RecLeaks rec) : MLeaks (stepStmt n rec m tail st) := by
  cases st with
  | assign l e =>
    refine mleaks_bind (hr _) fun o => mleaks_regular fun v _ _ => ?_
    cases l with
    | ident slot pos => leaks
    | access a b pos =>
      refine mleaks_bind (hr _) fun o => mleaks_regular fun obj opos _ => mleaks_bind (hr _) fun o => mleaks_regular fun f fpos _ => ?_
      intro s
      simp only [Bind.bind, M.andThen, M.reads]
      cases hx : assignValue s.heap n obj opos f fpos v pos with
      | error e => exact Nat.le_refl _
      | ok h' => exact Nat.le_refl _
  | return_ e => unfold stepStmt; leaks
  | break_ => unfold stepStmt; leaks
  | while_ c b => unfold stepStmt; leaks
  | for_ slot e b => unfold stepStmt; leaks
  | expr e => unfold stepStmt; leaks
theorem mleaks_step {w : World} {n rec} (hr : RecLeaks rec) : RecLeaks (step w n rec) := by
  intro t
  unfold step
  split
  · exact mleaks_stepExpr hr
  · leaks
  · leaks
  · leaks
  · leaks
  · leaks
  · leaks
  · exact mleaks_stepStmt hr
  · leaks
  · leaks
  · leaks
  · leaks
  · leaks
  · exact mleaks_stepCall hr
  · exact mleaks_stepProgram hr
theorem mleaks_run (w : World) : ∀ n, RecLeaks (run w n)
  | 0 => fun _ => mleaks_stop
  | n + 1 => mleaks_step (mleaks_run w n)

end Hush

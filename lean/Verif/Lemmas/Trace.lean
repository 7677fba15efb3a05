import Verif.Lemmas.InterpLib

/-!
What is recorded of the outside only grows, and consists of events that are allowed.
-/

namespace Hush

/-- There are further events, and they are such. -/
def Told (P : Event → Prop) (t t' : List Event) : Prop := ∃ es, t' = t ++ es ∧ ∀ e ∈ es, P e

theorem Told.refl {P : Event → Prop} (t : List Event) : Told P t t := ⟨[], by simp, nofun⟩
theorem Told.trans {P : Event → Prop} {a b c : List Event} (h1 : Told P a b) (h2 : Told P b c) : Told P a c := by
  obtain ⟨x, rfl, hx⟩ := h1
  obtain ⟨y, rfl, hy⟩ := h2
  exact ⟨x ++ y, by simp, fun e he => (List.mem_append.1 he).elim (hx e) (hy e)⟩

/-- All events are such, and calls of library functions if they are answered by the world. -/
structure Allowed (w : World) (P : Event → Prop) : Prop where
  load : ∀ p, P (.load p)
  imported : ∀ p v, P (.imported p v)
  join : ∀ t, P (.join t)
  command : ∀ k b, P (.command k b)
  native : ∀ name c h, Lib.call w name c h = none → P (.native name c.args)

variable {P : Event → Prop}

/-- The computation only adds such events. -/
def MTells (P : Event → Prop) (m : M α) : Prop := ∀ s, Told P s.trace (m s).2.trace

theorem mtells_bind {m : M α} {f : α → M β} (hm : MTells P m) (hf : ∀ a, MTells P (f a)) : MTells P (m >>= f) := by
  intro s
  have h1 := hm s
  simp only [Bind.bind, M.andThen]
  rcases he : m s with ⟨_ | a, s'⟩
  · rw [he] at h1; exact h1
  · rw [he] at h1; exact h1.trans (hf a s')

theorem mtells_pure {a : α} : MTells P (pure a : M α) := fun _ => .refl _
theorem mtells_stop {e} : MTells P (M.stop e : M α) := fun _ => .refl _
theorem mtells_panic {k p} : MTells P (M.panic k p : M α) := mtells_stop
theorem mtells_crash {k} : MTells P (M.crash k : M α) := mtells_stop
theorem mtells_get : MTells P M.get := fun _ => .refl _
theorem mtells_lift {x : Except Stop α} : MTells P (M.lift x) := by cases x <;> exact fun _ => .refl _
theorem mtells_reads {f : Heap → Except Stop α} : MTells P (M.reads f) := fun _ => .refl _
theorem mtells_modify {f : RState → RState} (h : ∀ s, (f s).trace = s.trace) : MTells P (M.modify f) := by
  intro s; show Told P s.trace (f s).trace; rw [h s]; exact .refl _
theorem mtells_record {e} (h : P e) : MTells P (record e) := fun _ => ⟨[e], rfl, by simpa using h⟩

theorem mtells_newArray {vs : Heap → List Value} : MTells P (M.alloc fun h => h.newArray (vs h)) := fun _ => .refl _
theorem mtells_newDict {vs} : MTells P (M.alloc fun h => h.newDict vs) := fun _ => .refl _
theorem mtells_newNative {name st} : MTells P (M.alloc fun h => h.newNative name st) :=
  fun _ => .refl _
theorem mtells_newClosure {k} : MTells P (M.alloc fun h => h.newClosure k) := fun _ => .refl _

theorem mtells_fetch {ix} : MTells P (fetch ix) := by intro s; unfold fetch; split <;> exact .refl _
theorem mtells_store {ix v} : MTells P (store ix v) := by
  intro s; unfold store; split
  · exact .refl _
  · exact .refl _
  · exact .refl _
theorem mtells_capture {ix} : MTells P (capture ix) := by
  intro s; unfold capture; split
  · exact .refl _
  · exact .refl _
  · exact .refl _
theorem mtells_place {ix c} : MTells P (place ix c) := by intro s; unfold place; split <;> exact .refl _
theorem mtells_extend {w n pos} : MTells P (extend w n pos) := by intro s; unfold extend; split <;> exact .refl _
theorem mtells_shrink {n} : MTells P (shrink n) := by intro s; unfold shrink; split <;> exact .refl _

theorem mtells_captureAll : ∀ {cs}, MTells P (captureAll cs)
  | [] => mtells_pure
  | _ :: _ => mtells_bind mtells_capture fun _ => mtells_bind mtells_captureAll fun _ => mtells_pure
theorem mtells_storeArgs : ∀ {ix vs}, MTells P (storeArgs ix vs)
  | _, [] => mtells_pure
  | _, _ :: _ => mtells_bind mtells_store fun _ => mtells_storeArgs
theorem mtells_placeAll : ∀ {l}, MTells P (placeAll l)
  | [] => mtells_pure
  | (_, _) :: _ => mtells_bind mtells_place fun _ => mtells_placeAll
theorem mtells_storeSelf {obj o} : MTells P (storeSelf obj o) := by
  cases o with
  | none => exact mtells_pure
  | some ix => exact mtells_store
theorem mtells_tailShrink {tail} : MTells P (tailShrink tail) := by
  cases tail with
  | none => exact mtells_pure
  | some n => exact mtells_bind mtells_shrink fun _ => mtells_modify fun _ => rfl
theorem mtells_answer {args x} : MTells P (answer args x) := by
  cases x with
  | value t => exact fun _ => .refl _
  | panic p => exact mtells_stop
  | crash => exact mtells_crash
  | exit k => exact mtells_stop

theorem mtells_regular {o : Out} {pos} {k : Value → Pos → Value → M Out} (h : ∀ v p obj, MTells P (k v p obj)) : MTells P (o.regular pos k) := by
  rcases o with ⟨fl, p, obj⟩
  cases fl with
  | regular v => exact h v p obj
  | return_ v => exact mtells_pure
  | break_ => exact mtells_pure
theorem mtells_result {o : Out} : MTells P o.result := by
  rcases o with ⟨fl, p, obj⟩
  cases fl with
  | regular v => exact mtells_pure
  | return_ v => exact mtells_crash
  | break_ => exact mtells_crash

theorem mtells_catching {w : World} {m : M Out} (h : MTells P m) : MTells P (catching w m) := by
  intro s
  have h1 := h s
  unfold catching
  rcases he : m s with ⟨e | o, s'⟩
  · rw [he] at h1
    cases e with
    | panic p => exact h1
    | _ => exact h1
  · rw [he] at h1
    dsimp only
    split <;> exact h1

theorem mtells_callLib {w : World} (hP : Allowed w P) {n name addr args pos} : MTells P (callLib w n name addr args pos) := by
  intro s
  unfold callLib
  split
  · exact .refl _
  · exact .refl _
  · rename_i hn
    exact mtells_bind (mtells_record (hP.native _ _ _ hn)) (fun _ => mtells_answer) s

theorem mtells_finally {m : M α} {f : RState → RState} (hm : MTells P m) (h : ∀ s, (f s).trace = s.trace) : MTells P (finally_ m f) := by
  intro s
  have h1 := hm s
  unfold finally_
  rcases he : m s with ⟨x, s'⟩
  rw [he] at h1
  dsimp only
  rw [h s']
  exact h1

theorem mtells_withFrame {n} {m : M Out} (h : MTells P m) : MTells P (withFrame n m) := by
  intro s
  have h1 := h { s with shrunk := false }
  unfold withFrame
  rcases he : m { s with shrunk := false } with ⟨x, s'⟩
  rw [he] at h1
  dsimp only
  split
  · exact h1
  · have h2 := mtells_shrink (P := P) (n := n) s'
    rcases he2 : shrink n s' with ⟨_ | _, s''⟩
    · rw [he2] at h2; exact h1.trans h2
    · rw [he2] at h2; exact h1.trans h2

theorem mtells_afterBody {o : Out} {m : M Out} (h : MTells P m) : MTells P (afterBody o m) := by
  rcases o with ⟨fl, p, x⟩
  cases fl with
  | regular v => exact h
  | return_ v => exact mtells_pure
  | break_ => exact mtells_pure

/-- All recursive calls only add objects. -/
def RecTells (P : Event → Prop) (rec : Task → M Out) : Prop := ∀ t, MTells P (rec t)

/-- Proves that a computation only adds objects. -/
macro "tell" : tactic => `(tactic| repeat' (first
  | exact mtells_pure | exact mtells_stop | exact mtells_panic | exact mtells_crash | exact mtells_get | exact mtells_lift
  | exact mtells_reads | exact mtells_record (Allowed.load (by assumption) _) | exact mtells_record (Allowed.imported (by assumption) _ _) | exact mtells_record (Allowed.join (by assumption) _) | exact mtells_record (Allowed.command (by assumption) _ _)
  | exact mtells_newArray | exact mtells_newDict | exact mtells_newNative
  | exact mtells_newClosure | exact mtells_fetch | exact mtells_store | exact mtells_capture | exact mtells_place
  | exact mtells_extend | exact mtells_shrink | exact mtells_captureAll | exact mtells_storeArgs | exact mtells_placeAll
  | exact mtells_storeSelf | exact mtells_tailShrink | exact mtells_answer | exact mtells_result | exact mtells_callLib (by assumption) hP
  | exact (by assumption : RecTells _ _) _
  | exact mtells_modify (fun _ => rfl)
  | apply mtells_regular | apply mtells_catching | apply mtells_withFrame | apply mtells_afterBody
  | (refine mtells_bind ?_ ?_) | split | (intro _)))

theorem mtells_evalCommand {w : World} (hP : Allowed w P) {b} : MTells P (evalCommand w b) := by unfold evalCommand; tell
theorem mtells_loadModule {w : World} (hP : Allowed w P) {rec path pos} (hr : RecTells P rec) : MTells P (loadModule w rec path pos) := by
  unfold loadModule; tell
theorem mtells_importModule {w : World} (hP : Allowed w P) {rec m args pos} (hr : RecTells P rec) : MTells P (importModule w rec m args pos) := by
  unfold importModule
  split
  · refine mtells_bind mtells_get fun s => ?_
    split
    · exact mtells_panic
    · split
      · tell
      · exact mtells_bind (mtells_loadModule hP hr) (by tell)
  · exact mtells_panic
  · exact mtells_panic
theorem mtells_joinCommand {w : World} (hP : Allowed w P) {addr pos} : MTells P (joinCommand w addr pos) := by
  unfold joinCommand
  refine mtells_bind mtells_get fun s => ?_
  split
  · refine mtells_bind ?_ (by tell)
    exact fun _ => .refl _
  · exact mtells_panic
theorem mtells_nativeCall {w : World} (hP : Allowed w P) {n rec m name addr start pos} (hr : RecTells P rec) : MTells P (nativeCall w n rec m name addr start pos) := by
  unfold nativeCall
  refine mtells_bind mtells_get fun s => ?_
  dsimp only
  split
  · tell
  · split
    · tell
    · split
      · exact mtells_importModule hP hr
      · split
        · exact mtells_joinCommand hP
        · exact mtells_callLib hP
theorem mtells_stepCall {w : World} (hP : Allowed w P) {n rec m obj f start pos} (hr : RecTells P rec) : MTells P (stepCall w n rec m obj f start pos) := by
  intro s
  unfold stepCall
  split
  · exact .refl _
  · split
    · refine (?_ : MTells P _) s
      tell
    · refine (?_ : MTells P _) s
      refine mtells_bind (mtells_finally (mtells_nativeCall hP hr) fun _ => rfl) (by tell)
theorem mtells_stepProgram {w : World} {rec m p} (hr : RecTells P rec) : MTells P (stepProgram w rec m p) := by
  unfold stepProgram
  refine mtells_bind mtells_extend fun _ => mtells_bind mtells_get fun s => mtells_bind mtells_store fun _ => mtells_bind ?_ (by tell)
  intro s
  have h1 := hr (.block m none p.statements) s
  dsimp only
  rcases he : rec (.block m none p.statements) s with ⟨_ | _, s'⟩
  · rw [he] at h1; exact h1
  · rw [he] at h1; exact h1
theorem mtells_stepLit {w : World} {rec m l pos} (hr : RecTells P rec) : MTells P (stepLit w rec m l pos) := by unfold stepLit; tell
theorem mtells_stepExpr {w : World} (hP : Allowed w P) {n rec m tail e} (hr : RecTells P rec) : MTells P (stepExpr w n rec m tail e) := by
  unfold stepExpr
  split
  · tell
  · exact mtells_stepLit hr
  · tell
  · tell
  · tell
  · tell
  · tell
  · exact mtells_bind (mtells_evalCommand hP) (by tell)
theorem mtells_stepStmt {n rec m tail st} (hr : RecTells P rec) : MTells P (stepStmt n rec m tail st) := by
  cases st with
  | assign l e =>
    refine mtells_bind (hr _) fun o => mtells_regular fun v _ _ => ?_
    cases l with
    | ident slot pos => tell
    | access a b pos =>
      refine mtells_bind (hr _) fun o => mtells_regular fun obj opos _ => mtells_bind (hr _) fun o => mtells_regular fun f fpos _ => ?_
      intro s
      simp only [Bind.bind, M.andThen, M.reads]
      cases hx : assignValue s.heap n obj opos f fpos v pos with
      | error e => exact .refl _
      | ok h' => exact .refl _
  | return_ e => unfold stepStmt; tell
  | break_ => unfold stepStmt; tell
  | while_ c b => unfold stepStmt; tell
  | for_ slot e b => unfold stepStmt; tell
  | expr e => unfold stepStmt; tell
theorem mtells_step {w : World} (hP : Allowed w P) {n rec} (hr : RecTells P rec) : RecTells P (step w n rec) := by
  intro t
  unfold step
  split
  · exact mtells_stepExpr hP hr
  · tell
  · tell
  · tell
  · tell
  · tell
  · tell
  · exact mtells_stepStmt hr
  · tell
  · tell
  · tell
  · tell
  · tell
  · exact mtells_stepCall hP hr
  · exact mtells_stepProgram hr
theorem mtells_run {w : World} (hP : Allowed w P) : ∀ n, RecTells P (run w n)
  | 0 => fun _ => mtells_stop
  | n + 1 => mtells_step hP (mtells_run hP n)

end Hush

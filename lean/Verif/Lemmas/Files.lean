import Verif.Lemmas.InterpLib
import Verif.Lemmas.InterpReach

/-!
The files of the modules: what holds of them is kept, and two ways to perform the tasks that agree on the states for which it holds
agree altogether.
-/

namespace Hush
open Spec

variable {Q : List Sym → Prop}

/-- The computations agree where the files are such, and the files are such then. -/
def MPair (Q : List Sym → Prop) (m m' : M α) : Prop := ∀ s, Q s.files → m s = m' s ∧ Q (m s).2.files

theorem mpair_bind {m m' : M α} {f f' : α → M β} (hm : MPair Q m m') (hf : ∀ a, MPair Q (f a) (f' a)) : MPair Q (m >>= f) (m' >>= f') := by
  intro s hs
  have h1 := hm s hs
  simp only [Bind.bind, M.andThen]
  rw [← h1.1]
  rcases he : m s with ⟨_ | a, s'⟩
  · rw [he] at h1; exact ⟨rfl, h1.2⟩
  · rw [he] at h1; exact hf a s' h1.2

theorem mpair_same {m : M α} (h : ∀ s, (m s).2.files = s.files) : MPair Q m m := fun s hs => ⟨rfl, by rw [h s]; exact hs⟩
theorem mpair_pure {a : α} : MPair Q (pure a : M α) (pure a) := mpair_same fun _ => rfl
theorem mpair_stop {e} : MPair Q (M.stop e : M α) (M.stop e) := mpair_same fun _ => rfl
theorem mpair_panic {k p} : MPair Q (M.panic k p : M α) (M.panic k p) := mpair_stop
theorem mpair_crash {k} : MPair Q (M.crash k : M α) (M.crash k) := mpair_stop
theorem mpair_get : MPair Q M.get M.get := mpair_same fun _ => rfl
theorem mpair_lift {x : Except Stop α} : MPair Q (M.lift x) (M.lift x) := mpair_same (by cases x <;> exact fun _ => rfl)
theorem mpair_reads {f : Heap → Except Stop α} : MPair Q (M.reads f) (M.reads f) := mpair_same fun _ => rfl
theorem mpair_modify {f : RState → RState} (h : ∀ s, (f s).files = s.files) : MPair Q (M.modify f) (M.modify f) := mpair_same h
theorem mpair_record {e} : MPair Q (record e) (record e) := mpair_same fun _ => rfl

theorem mpair_newArray {vs : Heap → List Value} : MPair Q (M.alloc fun h => h.newArray (vs h)) (M.alloc fun h => h.newArray (vs h)) :=
  mpair_same fun _ => rfl
theorem mpair_newDict {vs} : MPair Q (M.alloc fun h => h.newDict vs) (M.alloc fun h => h.newDict vs) := mpair_same fun _ => rfl
theorem mpair_newNative {name st} : MPair Q (M.alloc fun h => h.newNative name st) (M.alloc fun h => h.newNative name st) :=
  mpair_same fun _ => rfl
theorem mpair_newClosure {k} : MPair Q (M.alloc fun h => h.newClosure k) (M.alloc fun h => h.newClosure k) := mpair_same fun _ => rfl

theorem mpair_fetch {ix} : MPair Q (fetch ix) (fetch ix) := mpair_same (by intro s; unfold fetch; split <;> rfl)
theorem mpair_store {ix v} : MPair Q (store ix v) (store ix v) := mpair_same (by intro s; unfold store; split <;> rfl)
theorem mpair_capture {ix} : MPair Q (capture ix) (capture ix) := mpair_same (by intro s; unfold capture; split <;> rfl)
theorem mpair_place {ix c} : MPair Q (place ix c) (place ix c) := mpair_same (by intro s; unfold place; split <;> rfl)
theorem mpair_extend {w n pos} : MPair Q (extend w n pos) (extend w n pos) := mpair_same (by intro s; unfold extend; split <;> rfl)
theorem shrink_files {n} (s) : (shrink n s).2.files = s.files := by unfold shrink; split <;> rfl
theorem mpair_shrink {n} : MPair Q (shrink n) (shrink n) := mpair_same shrink_files

theorem mpair_captureAll : ∀ {cs}, MPair Q (captureAll cs) (captureAll cs)
  | [] => mpair_pure
  | _ :: _ => mpair_bind mpair_capture fun _ => mpair_bind mpair_captureAll fun _ => mpair_pure
theorem mpair_storeArgs : ∀ {ix vs}, MPair Q (storeArgs ix vs) (storeArgs ix vs)
  | _, [] => mpair_pure
  | _, _ :: _ => mpair_bind mpair_store fun _ => mpair_storeArgs
theorem mpair_placeAll : ∀ {l}, MPair Q (placeAll l) (placeAll l)
  | [] => mpair_pure
  | (_, _) :: _ => mpair_bind mpair_place fun _ => mpair_placeAll
theorem mpair_storeSelf {obj o} : MPair Q (storeSelf obj o) (storeSelf obj o) := by
  cases o with
  | none => exact mpair_pure
  | some ix => exact mpair_store
theorem mpair_tailShrink {tail} : MPair Q (tailShrink tail) (tailShrink tail) := by
  cases tail with
  | none => exact mpair_pure
  | some n => exact mpair_bind mpair_shrink fun _ => mpair_modify fun _ => rfl
theorem mpair_answer {args x} : MPair Q (answer args x) (answer args x) := by
  cases x with
  | value t => exact mpair_same fun _ => rfl
  | panic p => exact mpair_stop
  | crash => exact mpair_crash
  | exit k => exact mpair_stop

theorem mpair_regular {o : Out} {pos} {k k' : Value → Pos → Value → M Out} (h : ∀ v p obj, MPair Q (k v p obj) (k' v p obj)) :
    MPair Q (o.regular pos k) (o.regular pos k') := by
  rcases o with ⟨fl, p, obj⟩
  cases fl with
  | regular v => exact h v p obj
  | return_ v => exact mpair_pure
  | break_ => exact mpair_pure
theorem mpair_result {o : Out} : MPair Q o.result o.result := by
  rcases o with ⟨fl, p, obj⟩
  cases fl with
  | regular v => exact mpair_pure
  | return_ v => exact mpair_crash
  | break_ => exact mpair_crash

theorem mpair_catching {w : World} {m m' : M Out} (h : MPair Q m m') : MPair Q (catching w m) (catching w m') := by
  intro s hs
  have h1 := h s hs
  unfold catching
  rw [← h1.1]
  refine ⟨rfl, ?_⟩
  rcases he : m s with ⟨e | o, s'⟩
  · rw [he] at h1
    cases e with
    | panic p => exact h1.2
    | _ => exact h1.2
  · rw [he] at h1
    dsimp only
    split <;> exact h1.2

theorem mpair_callLib {w : World} {n name addr args pos} : MPair Q (callLib w n name addr args pos) (callLib w n name addr args pos) := by
  intro s hs
  refine ⟨rfl, ?_⟩
  unfold callLib
  split
  · exact hs
  · exact hs
  · exact (mpair_bind (Q := Q) mpair_record (fun _ => mpair_answer) s hs).2

theorem mpair_finally {m m' : M α} {f : RState → RState} (hm : MPair Q m m') (h : ∀ s, (f s).files = s.files) :
    MPair Q (finally_ m f) (finally_ m' f) := by
  intro s hs
  have h1 := hm s hs
  unfold finally_
  rw [← h1.1]
  refine ⟨rfl, ?_⟩
  rcases he : m s with ⟨x, s'⟩
  rw [he] at h1
  dsimp only
  rw [h s']
  exact h1.2

theorem mpair_withFrame {n} {m m' : M Out} (h : MPair Q m m') : MPair Q (withFrame n m) (withFrame n m') := by
  intro s hs
  have h1 := h { s with shrunk := false } hs
  unfold withFrame
  rw [← h1.1]
  refine ⟨rfl, ?_⟩
  rcases he : m { s with shrunk := false } with ⟨x, s'⟩
  rw [he] at h1
  dsimp only
  split
  · exact h1.2
  · have h2 := (mpair_shrink (Q := Q) (n := n) s' h1.2).2
    rcases he2 : shrink n s' with ⟨_ | _, s''⟩
    · rw [he2] at h2; exact h2
    · rw [he2] at h2; exact h2

theorem mpair_afterBody {o : Out} {m m' : M Out} (h : MPair Q m m') : MPair Q (afterBody o m) (afterBody o m') := by
  rcases o with ⟨fl, p, x⟩
  cases fl with
  | regular v => exact h
  | return_ v => exact mpair_pure
  | break_ => exact mpair_pure

/-- The same for all tasks. -/
def RecPair (Q : List Sym → Prop) (rec rec' : Task → M Out) : Prop := ∀ t, MPair Q (rec t) (rec' t)

/-- What the world may answer to imports keeps the files as they should be. -/
def Resolves (w : World) (Q : List Sym → Prop) : Prop := ∀ evs cur t p fs, w.resolve evs cur t = .ok p → Q fs → Q (fs ++ [p])

/-- Proves that two computations agree. -/
macro "pairs" : tactic => `(tactic| repeat' (first
  | exact mpair_pure | exact mpair_stop | exact mpair_panic | exact mpair_crash | exact mpair_get | exact mpair_lift
  | exact mpair_reads | exact mpair_record
  | exact mpair_newArray | exact mpair_newDict | exact mpair_newNative
  | exact mpair_newClosure | exact mpair_fetch | exact mpair_store | exact mpair_capture | exact mpair_place
  | exact mpair_extend | exact mpair_shrink | exact mpair_captureAll | exact mpair_storeArgs | exact mpair_placeAll
  | exact mpair_storeSelf | exact mpair_tailShrink | exact mpair_answer | exact mpair_result | exact mpair_callLib
  | exact (by assumption : RecPair _ _ _) _
  | exact mpair_modify (fun _ => rfl)
  | apply mpair_regular | apply mpair_catching | apply mpair_withFrame | apply mpair_afterBody
  | (refine mpair_bind ?_ ?_) | split | (intro _)))

theorem mpair_evalCommand {w : World} {b} : MPair Q (evalCommand w b) (evalCommand w b) := by unfold evalCommand; pairs
theorem mpair_loadModule {w : World} {rec rec' path pos} (hq : ∀ fs, Q fs → Q (fs ++ [path])) (hr : RecPair Q rec rec') :
    MPair Q (loadModule w rec path pos) (loadModule w rec' path pos) := by
  unfold loadModule
  refine mpair_bind mpair_get fun s => mpair_bind mpair_record fun _ => ?_
  split
  · exact mpair_panic
  · split
    · exact mpair_crash
    · split
      · split
        · refine mpair_bind (fun s hs => ⟨rfl, hq _ hs⟩) (by pairs)
        · exact mpair_panic
        · exact mpair_crash
      · exact mpair_panic
theorem mpair_importModule {w : World} (hw : Resolves w Q) {rec rec' m args pos} (hr : RecPair Q rec rec') :
    MPair Q (importModule w rec m args pos) (importModule w rec' m args pos) := by
  unfold importModule
  split
  · refine mpair_bind mpair_get fun s => ?_
    split
    · exact mpair_panic
    · rename_i hp
      split
      · pairs
      · exact mpair_bind (mpair_loadModule (fun fs => hw _ _ _ _ _ hp) hr) (by pairs)
  · exact mpair_panic
  · exact mpair_panic
theorem mpair_joinCommand {w : World} {addr pos} : MPair Q (joinCommand w addr pos) (joinCommand w addr pos) := by
  unfold joinCommand
  refine mpair_bind mpair_get fun s => ?_
  split
  · refine mpair_bind ?_ (by pairs)
    exact mpair_same fun _ => rfl
  · exact mpair_panic
theorem mpair_nativeCall {w : World} (hw : Resolves w Q) {n rec rec' m name addr start pos} (hr : RecPair Q rec rec') :
    MPair Q (nativeCall w n rec m name addr start pos) (nativeCall w n rec' m name addr start pos) := by
  unfold nativeCall
  refine mpair_bind mpair_get fun s => ?_
  dsimp only
  split
  · pairs
  · split
    · pairs
    · split
      · exact mpair_importModule hw hr
      · split
        · exact mpair_joinCommand
        · exact mpair_callLib
theorem mpair_stepCall {w : World} (hw : Resolves w Q) {n rec rec' m obj f start pos} (hr : RecPair Q rec rec') :
    MPair Q (stepCall w n rec m obj f start pos) (stepCall w n rec' m obj f start pos) := by
  intro s hs
  unfold stepCall
  split
  · exact ⟨rfl, hs⟩
  · split
    · dsimp only
      refine (?_ : MPair Q _ _) s hs
      pairs
    · refine (?_ : MPair Q _ _) s hs
      refine mpair_bind (mpair_finally (mpair_nativeCall hw hr) fun _ => rfl) (by pairs)
theorem mpair_stepProgram {w : World} {rec rec' m p} (hr : RecPair Q rec rec') : MPair Q (stepProgram w rec m p) (stepProgram w rec' m p) := by
  unfold stepProgram
  refine mpair_bind mpair_extend fun _ => mpair_bind mpair_get fun s => mpair_bind mpair_store fun _ => mpair_bind ?_ (by pairs)
  intro s hs
  have h1 := hr (.block m none p.statements) s hs
  dsimp only
  rw [← h1.1]
  refine ⟨rfl, ?_⟩
  rcases he : rec (.block m none p.statements) s with ⟨_ | _, s'⟩
  · rw [he] at h1; exact h1.2
  · rw [he] at h1; exact h1.2
theorem mpair_stepLit {w : World} {rec rec' m l pos} (hr : RecPair Q rec rec') : MPair Q (stepLit w rec m l pos) (stepLit w rec' m l pos) := by
  unfold stepLit; pairs
theorem mpair_stepExpr {w : World} {n rec rec' m tail e} (hr : RecPair Q rec rec') :
    MPair Q (stepExpr w n rec m tail e) (stepExpr w n rec' m tail e) := by
  unfold stepExpr
  split
  · pairs
  · exact mpair_stepLit hr
  · pairs
  · pairs
  · pairs
  · pairs
  · pairs
  · exact mpair_bind mpair_evalCommand (by pairs)
theorem mpair_stepStmt {n rec rec' m tail st} (hr : RecPair Q rec rec') : MPair Q (stepStmt n rec m tail st) (stepStmt n rec' m tail st) := by
  cases st with
  | assign l e =>
    refine mpair_bind (hr _) fun o => mpair_regular fun v _ _ => ?_
    cases l with
    | ident slot pos => pairs
    | access a b pos =>
      refine mpair_bind (hr _) fun o => mpair_regular fun obj opos _ => mpair_bind (hr _) fun o => mpair_regular fun f fpos _ => ?_
      refine mpair_same fun s => ?_
      simp only [Bind.bind, M.andThen, M.reads]
      cases hx : assignValue s.heap n obj opos f fpos v pos with
      | error e => rfl
      | ok h' => rfl
  | return_ e => unfold stepStmt; pairs
  | break_ => unfold stepStmt; pairs
  | while_ c b => unfold stepStmt; pairs
  | for_ slot e b => unfold stepStmt; pairs
  | expr e => unfold stepStmt; pairs
theorem mpair_step {w : World} (hw : Resolves w Q) {n rec rec'} (hr : RecPair Q rec rec') : RecPair Q (step w n rec) (step w n rec') := by
  intro t
  unfold step
  split
  · exact mpair_stepExpr hr
  · pairs
  · pairs
  · pairs
  · pairs
  · pairs
  · pairs
  · exact mpair_stepStmt hr
  · pairs
  · pairs
  · pairs
  · pairs
  · pairs
  · exact mpair_stepCall hw hr
  · exact mpair_stepProgram hr
theorem mpair_run {w : World} (hw : Resolves w Q) : ∀ n, RecPair Q (run w n) (run w n)
  | 0 => fun _ => mpair_stop
  | n + 1 => mpair_step hw (mpair_run hw n)

/-- The files are as they should be whenever a task is started. -/
theorem starts_files {w n t s t' s' c} (hw : Resolves w Q) (hp : Pre c t s) (hs : Q s.files) (h : Starts w n t s t' s') : Q s'.files := by
  by_contra hc
  have hr : RecPair Q (run w n) (probed (run w n) t' s') := by
    intro t1 s1 h1
    have hne : ¬(t1 = t' ∧ s1 = s') := by rintro ⟨_, rfl⟩; exact hc h1
    simp only [probed, if_neg hne]
    exact ⟨trivial, (mpair_run hw n t1 s1 h1).2⟩
  have h2 := (mpair_step hw hr (n := n) t s hs).1
  have h3 := step_ok w n (run_ok w n) c t s hp
  simp only [Starts, ← h2] at h
  simp only [Runs] at h3
  rcases hm : step w n (run w n) t s with ⟨e | o, s1⟩
  · rw [hm] at h h3
    cases h
    exact h3.1.1 rfl
  · rw [hm] at h; cases h

theorem reaches_files {w n t s k t' s'} (hw : Resolves w Q) (h : Reaches w n t s k t' s') : ∀ {c}, Pre c t s → Q s.files → Q s'.files := by
  induction h with
  | self => exact fun _ hs => hs
  | sub h1 _ ih => exact fun hp hs => let ⟨_, hp'⟩ := starts_pre hp h1; ih hp' (starts_files hw hp hs h1)

end Hush

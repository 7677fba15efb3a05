import Verif.Lemmas.InterpLib

/-!
Memory only grows, whatever is executed.
-/

namespace Hush

/-- There are at least as many objects. -/
structure Sizes (h h' : Heap) : Prop where
  arrays : h.arrays.length ≤ h'.arrays.length
  dicts : h.dicts.length ≤ h'.dicts.length
  natives : h.natives.length ≤ h'.natives.length

theorem Sizes.refl (h : Heap) : Sizes h h := ⟨Nat.le_refl _, Nat.le_refl _, Nat.le_refl _⟩
theorem Sizes.trans {a b c : Heap} (h1 : Sizes a b) (h2 : Sizes b c) : Sizes a c :=
  ⟨h1.1.trans h2.1, h1.2.trans h2.2, h1.3.trans h2.3⟩

theorem HeapGrows.sizes {h h' : Heap} (g : HeapGrows h h') : Sizes h h' := ⟨g.arrays, g.dicts, g.natives⟩

/-- The computation only adds objects. -/
def MGrows (m : M α) : Prop := ∀ s, Sizes s.heap (m s).2.heap

theorem mgrows_bind {m : M α} {f : α → M β} (hm : MGrows m) (hf : ∀ a, MGrows (f a)) : MGrows (m >>= f) := by
  intro s
  have h1 := hm s
  simp only [Bind.bind, M.andThen]
  rcases he : m s with ⟨_ | a, s'⟩
  · rw [he] at h1; exact h1
  · rw [he] at h1; exact h1.trans (hf a s')

theorem mgrows_pure {a : α} : MGrows (pure a : M α) := fun _ => .refl _
theorem mgrows_stop {e} : MGrows (M.stop e : M α) := fun _ => .refl _
theorem mgrows_panic {k p} : MGrows (M.panic k p : M α) := mgrows_stop
theorem mgrows_crash {k} : MGrows (M.crash k : M α) := mgrows_stop
theorem mgrows_get : MGrows M.get := fun _ => .refl _
theorem mgrows_lift {x : Except Stop α} : MGrows (M.lift x) := by cases x <;> exact fun _ => .refl _
theorem mgrows_reads {f : Heap → Except Stop α} : MGrows (M.reads f) := fun _ => .refl _
theorem mgrows_modify {f : RState → RState} (h : ∀ s, (f s).heap = s.heap) : MGrows (M.modify f) := by
  intro s; show Sizes s.heap (f s).heap; rw [h s]; exact .refl _
theorem mgrows_record {e} : MGrows (record e) := mgrows_modify fun _ => rfl

theorem mgrows_newArray {vs : Heap → List Value} : MGrows (M.alloc fun h => h.newArray (vs h)) := fun s => (keeps_newArray s.heap _).grows.sizes
theorem mgrows_newDict {vs} : MGrows (M.alloc fun h => h.newDict vs) := fun s => (keeps_newDict s.heap _).grows.sizes
theorem mgrows_newNative {name st} : MGrows (M.alloc fun h => h.newNative name st) :=
  fun s => (grows_newNative s.heap name st).sizes
theorem mgrows_newClosure {k} : MGrows (M.alloc fun h => h.newClosure k) := fun _ => ⟨Nat.le_refl _, Nat.le_refl _, Nat.le_refl _⟩

theorem mgrows_fetch {ix} : MGrows (fetch ix) := by intro s; unfold fetch; split <;> exact .refl _
theorem mgrows_store {ix v} : MGrows (store ix v) := by
  intro s; unfold store; split
  · exact .refl _
  · exact ⟨Nat.le_refl _, Nat.le_refl _, Nat.le_refl _⟩
  · exact .refl _
theorem mgrows_capture {ix} : MGrows (capture ix) := by
  intro s; unfold capture; split
  · exact ⟨Nat.le_refl _, Nat.le_refl _, Nat.le_refl _⟩
  · exact .refl _
  · exact .refl _
theorem mgrows_place {ix c} : MGrows (place ix c) := by intro s; unfold place; split <;> exact .refl _
theorem mgrows_extend {w n pos} : MGrows (extend w n pos) := by intro s; unfold extend; split <;> exact .refl _
theorem mgrows_shrink {n} : MGrows (shrink n) := by intro s; unfold shrink; split <;> exact .refl _

theorem mgrows_captureAll : ∀ {cs}, MGrows (captureAll cs)
  | [] => mgrows_pure
  | _ :: _ => mgrows_bind mgrows_capture fun _ => mgrows_bind mgrows_captureAll fun _ => mgrows_pure
theorem mgrows_storeArgs : ∀ {ix vs}, MGrows (storeArgs ix vs)
  | _, [] => mgrows_pure
  | _, _ :: _ => mgrows_bind mgrows_store fun _ => mgrows_storeArgs
theorem mgrows_placeAll : ∀ {l}, MGrows (placeAll l)
  | [] => mgrows_pure
  | (_, _) :: _ => mgrows_bind mgrows_place fun _ => mgrows_placeAll
theorem mgrows_storeSelf {obj o} : MGrows (storeSelf obj o) := by
  cases o with
  | none => exact mgrows_pure
  | some ix => exact mgrows_store
theorem mgrows_tailShrink {tail} : MGrows (tailShrink tail) := by
  cases tail with
  | none => exact mgrows_pure
  | some n => exact mgrows_bind mgrows_shrink fun _ => mgrows_modify fun _ => rfl
theorem mgrows_answer {args x} : MGrows (answer args x) := by
  cases x with
  | value t => exact fun s => (keeps_build args s.heap t).grows.sizes
  | panic p => exact mgrows_stop
  | crash => exact mgrows_crash
  | exit k => exact mgrows_stop

theorem mgrows_regular {o : Out} {pos} {k : Value → Pos → Value → M Out} (h : ∀ v p obj, MGrows (k v p obj)) : MGrows (o.regular pos k) := by
  rcases o with ⟨fl, p, obj⟩
  cases fl with
  | regular v => exact h v p obj
  | return_ v => exact mgrows_pure
  | break_ => exact mgrows_pure
theorem mgrows_result {o : Out} : MGrows o.result := by
  rcases o with ⟨fl, p, obj⟩
  cases fl with
  | regular v => exact mgrows_pure
  | return_ v => exact mgrows_crash
  | break_ => exact mgrows_crash

theorem mgrows_catching {w : World} {m : M Out} (h : MGrows m) : MGrows (catching w m) := by
  intro s
  have h1 := h s
  unfold catching
  rcases he : m s with ⟨e | o, s'⟩
  · rw [he] at h1
    cases e with
    | panic p => exact h1.trans (keeps_newError s'.heap (bs "caught panic: " ++ w.showPanic s'.heap p) _).grows.sizes
    | _ => exact h1
  · rw [he] at h1
    dsimp only
    split <;> exact h1

theorem mgrows_callLib {w : World} {n name addr args pos} : MGrows (callLib w n name addr args pos) := by
  intro s
  have h1 := (libOk_call w name ⟨n, addr, args, pos, s.argv⟩ s.heap).1
  unfold callLib
  split
  · rename_i v h he
    exact (h1 v h he).grows.sizes
  · exact .refl _
  · exact mgrows_bind mgrows_record (fun _ => mgrows_answer) s

theorem mgrows_finally {m : M α} {f : RState → RState} (hm : MGrows m) (h : ∀ s, (f s).heap = s.heap) : MGrows (finally_ m f) := by
  intro s
  have h1 := hm s
  unfold finally_
  rcases he : m s with ⟨x, s'⟩
  rw [he] at h1
  dsimp only
  rw [h s']
  exact h1

theorem mgrows_withFrame {n} {m : M Out} (h : MGrows m) : MGrows (withFrame n m) := by
  intro s
  have h1 := h { s with shrunk := false }
  unfold withFrame
  rcases he : m { s with shrunk := false } with ⟨x, s'⟩
  rw [he] at h1
  dsimp only
  split
  · exact h1
  · have h2 := mgrows_shrink (n := n) s'
    rcases he2 : shrink n s' with ⟨_ | _, s''⟩
    · rw [he2] at h2; exact h1.trans h2
    · rw [he2] at h2; exact h1.trans h2

theorem mgrows_afterBody {o : Out} {m : M Out} (h : MGrows m) : MGrows (afterBody o m) := by
  rcases o with ⟨fl, p, x⟩
  cases fl with
  | regular v => exact h
  | return_ v => exact mgrows_pure
  | break_ => exact mgrows_pure

/-- All recursive calls only add objects. -/
def RecGrows (rec : Task → M Out) : Prop := ∀ t, MGrows (rec t)

/-- Proves that a computation only adds objects. -/
macro "grow" : tactic => `(tactic| repeat' (first
  | exact mgrows_pure | exact mgrows_stop | exact mgrows_panic | exact mgrows_crash | exact mgrows_get | exact mgrows_lift
  | exact mgrows_reads | exact mgrows_record | exact mgrows_newArray | exact mgrows_newDict | exact mgrows_newNative
  | exact mgrows_newClosure | exact mgrows_fetch | exact mgrows_store | exact mgrows_capture | exact mgrows_place
  | exact mgrows_extend | exact mgrows_shrink | exact mgrows_captureAll | exact mgrows_storeArgs | exact mgrows_placeAll
  | exact mgrows_storeSelf | exact mgrows_tailShrink | exact mgrows_answer | exact mgrows_result | exact mgrows_callLib
  | exact (by assumption : RecGrows _) _
  | exact mgrows_modify (fun _ => rfl)
  | apply mgrows_regular | apply mgrows_catching | apply mgrows_withFrame | apply mgrows_afterBody
  | (refine mgrows_bind ?_ ?_) | split | (intro _)))

theorem mgrows_evalCommand {w : World} {b} : MGrows (evalCommand w b) := by unfold evalCommand; grow
theorem mgrows_loadModule {w : World} {rec path pos} (hr : RecGrows rec) : MGrows (loadModule w rec path pos) := by
  unfold loadModule; grow
theorem mgrows_importModule {w : World} {rec m args pos} (hr : RecGrows rec) : MGrows (importModule w rec m args pos) := by
  have := @mgrows_loadModule w rec
  unfold importModule
  split
  · refine mgrows_bind mgrows_get fun s => ?_
    split
    · exact mgrows_panic
    · split
      · grow
      · exact mgrows_bind (mgrows_loadModule hr) (by grow)
  · exact mgrows_panic
  · exact mgrows_panic
theorem mgrows_joinCommand {w : World} {addr pos} : MGrows (joinCommand w addr pos) := by
  unfold joinCommand
  refine mgrows_bind mgrows_get fun s => ?_
  split
  · refine mgrows_bind ?_ (by grow)
    exact fun s => (grows_setNative s.heap _ _).sizes
  · exact mgrows_panic
theorem mgrows_nativeCall {w : World} {n rec m name addr start pos} (hr : RecGrows rec) : MGrows (nativeCall w n rec m name addr start pos) := by
  unfold nativeCall
  refine mgrows_bind mgrows_get fun s => ?_
  dsimp only
  split
  · grow
  · split
    · grow
    · split
      · exact mgrows_importModule hr
      · split
        · exact mgrows_joinCommand
        · exact mgrows_callLib
theorem mgrows_stepCall {w : World} {n rec m obj f start pos} (hr : RecGrows rec) : MGrows (stepCall w n rec m obj f start pos) := by
  intro s
  unfold stepCall
  split
  · exact .refl _
  · split
    · refine (?_ : MGrows _) s
      grow
    · refine (?_ : MGrows _) s
      refine mgrows_bind (mgrows_finally (mgrows_nativeCall hr) fun _ => rfl) (by grow)
theorem mgrows_stepProgram {w : World} {rec m p} (hr : RecGrows rec) : MGrows (stepProgram w rec m p) := by
  unfold stepProgram
  refine mgrows_bind mgrows_extend fun _ => mgrows_bind mgrows_get fun s => mgrows_bind mgrows_store fun _ => mgrows_bind ?_ (by grow)
  intro s
  have h1 := hr (.block m none p.statements) s
  dsimp only
  rcases he : rec (.block m none p.statements) s with ⟨_ | _, s'⟩
  · rw [he] at h1; exact h1
  · rw [he] at h1; exact h1
theorem mgrows_stepLit {w : World} {rec m l pos} (hr : RecGrows rec) : MGrows (stepLit w rec m l pos) := by unfold stepLit; grow
theorem mgrows_stepExpr {w : World} {n rec m tail e} (hr : RecGrows rec) : MGrows (stepExpr w n rec m tail e) := by
  unfold stepExpr
  split
  · grow
  · exact mgrows_stepLit hr
  · grow
  · grow
  · grow
  · grow
  · grow
  · exact mgrows_bind mgrows_evalCommand (by grow)
theorem mgrows_stepStmt {n rec m tail st} (hr : RecGrows rec) : MGrows (stepStmt n rec m tail st) := by
  cases st with
  | assign l e =>
    refine mgrows_bind (hr _) fun o => mgrows_regular fun v _ _ => ?_
    cases l with
    | ident slot pos => grow
    | access a b pos =>
      refine mgrows_bind (hr _) fun o => mgrows_regular fun obj opos _ => mgrows_bind (hr _) fun o => mgrows_regular fun f fpos _ => ?_
      intro s
      simp only [Bind.bind, M.andThen, M.reads]
      cases hx : assignValue s.heap n obj opos f fpos v pos with
      | error e => exact .refl _
      | ok h' => exact (assignValue_keeps hx).grows.sizes
  | return_ e => unfold stepStmt; grow
  | break_ => unfold stepStmt; grow
  | while_ c b => unfold stepStmt; grow
  | for_ slot e b => unfold stepStmt; grow
  | expr e => unfold stepStmt; grow
theorem mgrows_step {w : World} {n rec} (hr : RecGrows rec) : RecGrows (step w n rec) := by
  intro t
  unfold step
  split
  · exact mgrows_stepExpr hr
  · grow
  · grow
  · grow
  · grow
  · grow
  · grow
  · exact mgrows_stepStmt hr
  · grow
  · grow
  · grow
  · grow
  · grow
  · exact mgrows_stepCall hr
  · exact mgrows_stepProgram hr
theorem mgrows_run (w : World) : ∀ n, RecGrows (run w n)
  | 0 => fun _ => mgrows_stop
  | n + 1 => mgrows_step (mgrows_run w n)

end Hush

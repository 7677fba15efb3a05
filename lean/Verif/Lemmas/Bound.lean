import Verif.Lemmas.Joins

/-!
The stack never has more slots than allowed.
-/

namespace Hush
variable {w : World}

/-- The stack is not larger than allowed. -/
def Fits (w : World) (s : RState) : Prop := s.stack.length ≤ w.limit

/-- The computation keeps the stack within its bound. -/
def Low (w : World) (m : M α) : Prop := ∀ s, Fits w s → Fits w (m s).2

theorem Low.agree {m : M α} (h : Low w m) : Agree (Fits w) m m := fun s hs => ⟨rfl, h s hs⟩

theorem held_bind {m : M α} {f : α → M β} (hm : Low w m) (hf : ∀ a, Low w (f a)) : Low w (m >>= f) := by
  intro s hs
  have h1 := hm s hs
  simp only [Bind.bind, M.andThen]
  rcases he : m s with ⟨_ | a, s'⟩
  · rw [he] at h1; exact h1
  · rw [he] at h1; exact hf a s' h1
theorem held_pure {a : α} : Low w (pure a : M α) := fun _ h => h
theorem held_stop {e} : Low w (M.stop e : M α) := fun _ h => h
theorem held_panic {k p} : Low w (M.panic k p : M α) := held_stop
theorem held_crash {k} : Low w (M.crash k : M α) := held_stop
theorem held_get : Low w M.get := fun _ h => h
theorem held_lift {x : Except Stop α} : Low w (M.lift x) := by cases x <;> exact fun _ h => h
theorem held_reads {f : Heap → Except Stop α} : Low w (M.reads f) := fun _ h => h
theorem held_modify {f : RState → RState} (h : ∀ s, (f s).stack = s.stack) : Low w (M.modify f) := by
  intro s hs; show (f s).stack.length ≤ _; rw [h]; exact hs
theorem held_record {e : Event} : Low w (record e) := fun _ h => h
theorem held_alloc {f : Heap → α × Heap} : Low w (M.alloc f) := fun _ h => h
theorem held_newArray {vs : Heap → List Value} : Low w (M.alloc fun h => h.newArray (vs h)) := held_alloc
theorem held_newDict {vs} : Low w (M.alloc fun h => h.newDict vs) := held_alloc
theorem held_newNative {name st} : Low w (M.alloc fun h => h.newNative name st) := held_alloc
theorem held_newClosure {k} : Low w (M.alloc fun h => h.newClosure k) := held_alloc
theorem held_fetch {ix} : Low w (fetch ix) := by intro s h; unfold fetch; split <;> exact h
theorem held_store {ix v} : Low w (store ix v) := by
  intro s h; unfold store; split
  · simpa [Fits] using h
  · exact h
  · exact h
theorem held_capture {ix} : Low w (capture ix) := by
  intro s h; unfold capture; split
  · simpa [Fits] using h
  · exact h
  · exact h
theorem held_place {ix c} : Low w (place ix c) := by
  intro s h; unfold place; split
  · simpa [Fits] using h
  · exact h
theorem held_extend {n pos} : Low w (extend w n pos) := by
  intro s h; unfold extend; split
  · exact h
  · rename_i hx
    simp only [Fits, List.length_append, List.length_replicate]
    omega
theorem held_shrink {n} : Low w (shrink n) := by
  intro s h; unfold shrink; split
  · exact h
  · simp only [Fits, List.length_drop]
    have : s.stack.length ≤ w.limit := h
    omega
theorem held_captureAll : ∀ {cs}, Low w (captureAll cs)
  | [] => held_pure
  | _ :: _ => held_bind held_capture fun _ => held_bind held_captureAll fun _ => held_pure
theorem held_storeArgs : ∀ {ix vs}, Low w (storeArgs ix vs)
  | _, [] => held_pure
  | _, _ :: _ => held_bind held_store fun _ => held_storeArgs
theorem held_placeAll : ∀ {l}, Low w (placeAll l)
  | [] => held_pure
  | (_, _) :: _ => held_bind held_place fun _ => held_placeAll
theorem held_storeSelf {obj o} : Low w (storeSelf obj o) := by
  cases o with
  | none => exact held_pure
  | some ix => exact held_store
theorem held_tailShrink {tail} : Low w (tailShrink tail) := by
  cases tail with
  | none => exact held_pure
  | some n => exact held_bind held_shrink fun _ => held_modify fun _ => rfl
theorem held_answer {args x} : Low w (answer args x) := by
  cases x with
  | value t => exact held_alloc
  | panic p => exact held_stop
  | crash => exact held_crash
  | exit k => exact held_stop
theorem held_result {o : Out} : Low w o.result := by
  rcases o with ⟨fl, p, obj⟩
  cases fl with
  | regular v => exact held_pure
  | return_ v => exact held_crash
  | break_ => exact held_crash
theorem held_callLib {n name addr args pos} : Low w (callLib w n name addr args pos) := by
  intro s h
  unfold callLib
  split
  · exact h
  · exact h
  · exact held_bind held_record (fun _ => held_answer) s h

theorem low_regular {o : Out} {pos} {k k' : Value → Pos → Value → M Out} (h : ∀ v p obj, Agree (Fits w) (k v p obj) (k' v p obj)) :
    Agree (Fits w) (o.regular pos k) (o.regular pos k') := by
  rcases o with ⟨fl, p, obj⟩
  cases fl with
  | regular v => exact h v p obj
  | return_ v => exact held_pure.agree
  | break_ => exact held_pure.agree

theorem low_catching {m m' : M Out} (h : Agree (Fits w) m m') : Agree (Fits w) (catching w m) (catching w m') := by
  intro s hs
  obtain ⟨h1, h2⟩ := h s hs
  unfold catching
  rw [h1]
  refine ⟨rfl, ?_⟩
  rcases he : m s with ⟨e | o, s'⟩
  · rw [he] at h2
    cases e with
    | panic p =>
      exact h2
    | _ => exact h2
  · rw [he] at h2
    dsimp only
    split <;> exact h2

theorem low_finally {m m' : M α} {f : RState → RState} (hm : Agree (Fits w) m m') (h : ∀ s, (f s).stack = s.stack) :
    Agree (Fits w) (finally_ m f) (finally_ m' f) := by
  intro s hs
  obtain ⟨e1, e2⟩ := hm s hs
  unfold finally_
  rw [e1]
  refine ⟨rfl, ?_⟩
  show (f (m s).2).stack.length ≤ _
  rw [h]; exact e2

theorem low_withFrame {n} {m m' : M Out} (h : Agree (Fits w) m m') : Agree (Fits w) (withFrame n m) (withFrame n m') := by
  intro s hs
  obtain ⟨h1, h2⟩ := h { s with shrunk := false } hs
  unfold withFrame
  rw [h1]
  refine ⟨rfl, ?_⟩
  rcases he : m { s with shrunk := false } with ⟨x, s'⟩
  rw [he] at h2
  dsimp only
  split
  · exact h2
  · have h3 := held_shrink (n := n) s' h2
    rcases he2 : shrink n s' with ⟨_ | _, s''⟩
    · rw [he2] at h3; exact h3
    · rw [he2] at h3; exact h3

theorem low_afterBody {o : Out} {m m' : M Out} (h : Agree (Fits w) m m') : Agree (Fits w) (afterBody o m) (afterBody o m') := by
  rcases o with ⟨fl, p, x⟩
  cases fl with
  | regular v => exact h
  | return_ v => exact held_pure.agree
  | break_ => exact held_pure.agree

theorem fits_same {s s' : RState} (hs : Fits w s) (h : s'.stack = s.stack) : Fits w s' := by unfold Fits; rw [h]; exact hs
theorem fits_init (w : World) (argv file) : Fits w (RState.init argv file) := Nat.zero_le _

attribute [local irreducible] Fits

/-- Proves that computations agree. -/
macro "low" : tactic => `(tactic| repeat' (first
  | exact (by assumption : RecAgree _ _ _) _
  | exact Low.agree held_pure | exact Low.agree held_stop
  | exact Low.agree held_panic | exact Low.agree held_crash
  | exact Low.agree held_get | exact Low.agree held_lift
  | exact Low.agree held_reads | exact Low.agree held_record
  | exact Low.agree held_newArray | exact Low.agree held_newDict
  | exact Low.agree held_newNative | exact Low.agree held_newClosure | exact Low.agree held_fetch
  | exact Low.agree held_store | exact Low.agree held_capture
  | exact Low.agree held_place | exact Low.agree held_extend
  | exact Low.agree held_shrink | exact Low.agree held_captureAll
  | exact Low.agree held_storeArgs | exact Low.agree held_placeAll
  | exact Low.agree held_storeSelf | exact Low.agree held_tailShrink
  | exact Low.agree held_answer | exact Low.agree held_result
  | exact Low.agree held_callLib
  | exact Low.agree (held_modify fun _ => rfl)
  | refine low_regular ?_ | refine low_catching ?_
  | refine low_withFrame ?_ | refine low_afterBody ?_
  | (refine agree_bind ?_ ?_) | split | (intro _)))

theorem low_evalCommand {b} : Agree (Fits w) (evalCommand w b) (evalCommand w b) := by
  unfold evalCommand; low

theorem low_loadModule {r r' path pos} (hr : RecAgree (Fits w) r r') : Agree (Fits w) (loadModule w r path pos) (loadModule w r' path pos) := by
  unfold loadModule
  refine agree_bind (held_get.agree) fun s => agree_bind held_record.agree fun _ => ?_
  cases w.readFile s.trace path with
  | error e => low
  | ok src =>
    dsimp only
    cases syntaxAnalysis src with
    | none => low
    | some a =>
      dsimp only
      by_cases ha : a.isOk = true
      · rw [if_pos ha, if_pos ha]
        cases analyze a.ast <;> low
      · rw [if_neg ha, if_neg ha]; low
theorem low_importModule {r r' m args pos} (hr : RecAgree (Fits w) r r') :
    Agree (Fits w) (importModule w r m args pos) (importModule w r' m args pos) := by
  unfold importModule
  rcases args with _ | ⟨v, _ | _⟩
  · low
  · cases v with
    | string target =>
      refine agree_bind (held_get.agree) fun s => ?_
      cases w.resolve s.trace (s.file m) target with
      | error e => low
      | ok path =>
        dsimp only
        cases s.modules.lookup path with
        | some v => low
        | none => exact agree_bind (low_loadModule hr) (by low)
    | _ => exact held_panic.agree
  · cases v <;> exact held_panic.agree
theorem low_joinCommand {addr pos} : Agree (Fits w) (joinCommand w addr pos) (joinCommand w addr pos) := by
  unfold joinCommand; low

theorem low_nativeCall {n r r' m name addr start pos} (hr : RecAgree (Fits w) r r') :
    Agree (Fits w) (nativeCall w n r m name addr start pos) (nativeCall w n r' m name addr start pos) := by
  unfold nativeCall
  refine agree_bind (held_get.agree) fun s => ?_
  dsimp only
  by_cases h1 : name = bs "std.catch"
  · rw [if_pos h1, if_pos h1]
    rcases s.args.drop start with _ | ⟨v, _ | _⟩
    · low
    · cases v <;> low
    · low
  · rw [if_neg h1, if_neg h1]
    by_cases h2 : name = bs "std.bind<impl>"
    · rw [if_pos h2, if_pos h2]
      cases s.heap.native addr <;> low
    · rw [if_neg h2, if_neg h2]
      by_cases h3 : name = bs "std.import"
      · rw [if_pos h3, if_pos h3]
        exact low_importModule hr
      · rw [if_neg h3, if_neg h3]
        by_cases h4 : name = bs "<command>.join"
        · rw [if_pos h4]; exact low_joinCommand
        · rw [if_neg h4]; low
theorem low_stepCall {n r r' m obj f start pos} (hr : RecAgree (Fits w) r r') :
    Agree (Fits w) (stepCall w n r m obj f start pos) (stepCall w n r' m obj f start pos) := by
  intro s hs
  unfold stepCall
  by_cases h : s.args.length < start
  · rw [if_pos h, if_pos h]; exact ⟨rfl, hs⟩
  · rw [if_neg h, if_neg h]
    cases f with
    | hush a =>
      dsimp only
      refine (?_ : Agree (Fits w) _ _) s hs
      refine agree_bind (by low) fun _ => ?_
      by_cases hl : (s.args.drop start).length ≠ (s.heap.closure a).params
      · rw [if_pos hl, if_pos hl]; low
      · rw [if_neg hl, if_neg hl]; low
    | native name addr =>
      dsimp only
      refine (?_ : Agree (Fits w) _ _) s hs
      exact agree_bind (low_finally (low_nativeCall hr) fun _ => rfl) (by low)
theorem low_stepProgram {r r' m p} (hr : RecAgree (Fits w) r r') : Agree (Fits w) (stepProgram w r m p) (stepProgram w r' m p) := by
  unfold stepProgram
  refine agree_bind (by low) fun _ => agree_bind (by low) fun s => agree_bind (by low) fun _ => agree_bind ?_ (by low)
  intro s hs
  obtain ⟨h1, h2⟩ := hr (.block m none p.statements) s hs
  beta_reduce
  rw [h1]
  refine ⟨rfl, ?_⟩
  rcases he : r (.block m none p.statements) s with ⟨_ | _, s'⟩
  · rw [he] at h2; exact fits_same h2 rfl
  · rw [he] at h2; exact h2
theorem low_stepLit {r r' m l pos} (hr : RecAgree (Fits w) r r') : Agree (Fits w) (stepLit w r m l pos) (stepLit w r' m l pos) := by
  cases l <;> simp only [stepLit] <;> low
theorem low_stepExpr {n r r' m tail e} (hr : RecAgree (Fits w) r r') :
    Agree (Fits w) (stepExpr w n r m tail e) (stepExpr w n r' m tail e) := by
  cases e with
  | ident slot pos => simp only [stepExpr]; low
  | lit l pos => exact low_stepLit hr
  | unary op e pos => simp only [stepExpr]; low
  | binary l op x pos =>
    simp only [stepExpr]
    refine agree_bind (hr _) fun o => low_regular fun v vpos _ => ?_
    by_cases ho : op = .and ∨ op = .or
    · rw [if_pos ho, if_pos ho]
      refine agree_bind (by low) fun y => ?_
      cases y with
      | some v => low
      | none =>
        refine agree_bind (hr _) fun o => low_regular fun v vpos _ => ?_
        cases v <;> first | exact held_panic.agree | exact held_pure.agree
    · rw [if_neg ho, if_neg ho]; low
  | if_ c t e pos =>
    simp only [stepExpr]
    refine agree_bind (hr _) fun o => low_regular fun v vpos _ => ?_
    cases v with
    | bool b => low
    | _ => exact held_panic.agree
  | access obj field pos => simp only [stepExpr]; low
  | call f args pos =>
    simp only [stepExpr]
    refine agree_bind (hr _) fun o => low_regular fun v vpos _ => ?_
    cases v with
    | function f => low
    | _ => exact held_panic.agree
  | command b pos => exact agree_bind (low_evalCommand) (by low)
theorem low_stepStmt {n r r' m tail st} (hr : RecAgree (Fits w) r r') : Agree (Fits w) (stepStmt n r m tail st) (stepStmt n r' m tail st) := by
  cases st with
  | assign l e =>
    refine agree_bind (hr _) fun o => low_regular fun v _ _ => ?_
    cases l with
    | ident slot pos => low
    | access a b pos =>
      refine agree_bind (hr _) fun o => low_regular fun obj opos _ => agree_bind (hr _) fun o => low_regular fun f fpos _ => ?_
      refine Low.agree fun s hs => ?_
      simp only [Bind.bind, M.andThen, M.reads]
      cases hx : assignValue s.heap n obj opos f fpos v pos with
      | error e => exact hs
      | ok h' => exact fits_same hs rfl
  | return_ e =>
    refine agree_bind (hr _) fun o => ?_
    rcases o with ⟨fl, p, obj⟩
    cases fl <;> exact held_pure.agree
  | break_ => exact held_pure.agree
  | while_ c b => exact hr _
  | for_ slot e b =>
    refine agree_bind (hr _) fun o => low_regular fun v vpos _ => ?_
    cases v with
    | function f => exact hr _
    | _ => exact held_panic.agree
  | expr e => exact hr _
theorem low_step {n r r'} (hr : RecAgree (Fits w) r r') : RecAgree (Fits w) (step w n r) (step w n r') := by
  intro t
  cases t with
  | expr m tail e => exact low_stepExpr hr
  | items m es acc => cases es <;> (simp only [step]; low)
  | fields m es acc =>
    rcases es with _ | ⟨⟨k, e⟩, es⟩ <;> (simp only [step]; low)
  | args m es start =>
    cases es with
    | nil => exact held_pure.agree
    | cons e es =>
      refine agree_bind (hr _) fun o => ?_
      rcases o with ⟨fl, p, obj⟩
      cases fl with
      | regular v => exact agree_bind (by low) fun _ => hr _
      | _ => exact agree_bind (by low) fun _ => held_pure.agree
  | stmt m tail s => exact low_stepStmt hr
  | block m tail ss =>
    rcases ss with _ | ⟨s, _ | ⟨s', ss⟩⟩
    · exact held_pure.agree
    · exact hr _
    · exact agree_bind (hr _) fun o => low_regular fun _ _ _ => hr _
  | loop m c b =>
    refine agree_bind (hr _) fun o => low_regular fun v vpos _ => ?_
    cases v with
    | bool b => cases b with
      | true => exact agree_bind (hr _) fun o => low_afterBody (hr _)
      | false => exact held_pure.agree
    | _ => exact held_panic.agree
  | iter m slot f pos b =>
    refine agree_bind (held_get.agree) fun s => agree_bind (hr _) fun o => agree_bind (held_result.agree) fun v =>
      agree_bind (held_reads.agree) fun y => ?_
    cases y with
    | none => exact held_pure.agree
    | some v => exact agree_bind (held_store.agree) fun _ => agree_bind (hr _) fun o => low_afterBody (hr _)
  | call m obj f start pos => exact low_stepCall hr
  | program m p => exact low_stepProgram hr

/-- Every task keeps the stack within its bound. -/
theorem fits_run (w : World) : ∀ (n : Nat) (t : Task) (s : RState), Fits w s → Fits w (run w n t s).2 := by
  have key : ∀ n, RecAgree (Fits w) (run w n) (run w n) := by
    intro n
    induction n with
    | zero => exact fun _ => held_stop.agree
    | succ n ih => exact low_step ih
  exact fun n t s hs => (key n t s hs).2

open Spec in
theorem fits_starts {n t s t' s' c} (hp : Pre c t s) (h : Starts w n t s t' s') (hs : Fits w s) : Fits w s' := by
  by_contra hn
  have hr : RecAgree (Fits w) (run w n) (probed (run w n) t' s') := by
    intro t1 s1 h1
    refine ⟨?_, fits_run w n t1 s1 h1⟩
    simp only [probed]
    rw [if_neg]
    rintro ⟨-, rfl⟩
    exact hn h1
  have h2 := (low_step (w := w) (n := n) hr t s hs).1
  simp only [Starts, h2] at h
  have := run_ok w (n + 1) c t s hp
  simp only [Runs, run] at this
  rcases hm : step w n (run w n) t s with ⟨e | o, s1⟩
  · simp only [hm] at h
    rw [hm] at this
    cases h
    exact this.1.1 rfl
  · simp only [hm] at h; cases h

open Spec in
theorem fits_reaches {n t s k t' s' c} (h : Reaches w n t s k t' s') : Pre c t s → Fits w s → Fits w s' := by
  intro hp
  induction h generalizing c with
  | self => exact id
  | sub h1 _ ih =>
    intro hs
    obtain ⟨c', hp'⟩ := starts_pre hp h1
    exact ih hp' (fits_starts hp h1 hs)

open Spec in
theorem performed_fits {w src k t s} (h : Performed w src k t s) : Fits w s := by
  obtain ⟨p, argv, file, n, h1, h2⟩ := h
  exact fits_reaches h2 (c := ⟨0, false, false⟩) (program_pre h1) (fits_init _ _ _)

end Hush

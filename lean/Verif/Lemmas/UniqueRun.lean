import Verif.Lemmas.Unique
import Verif.Lemmas.Joins

/-!
No dict gets a second entry for a key, whatever is executed.
-/

namespace Hush
open Spec
variable {w : World}

/-- Memory has no repeated keys. -/
def Uniq (s : RState) : Prop := UniqueKeys s.heap

/-- The computation does not repeat keys. -/
def Spaced (m : M α) : Prop := ∀ s, Uniq s → Uniq (m s).2

theorem Spaced.agree {m : M α} (h : Spaced m) : Agree Uniq m m := fun s hs => ⟨rfl, h s hs⟩

theorem uniq_same {s s' : RState} (hs : Uniq s) (h : s'.heap.dicts = s.heap.dicts) : Uniq s' := unique_same hs h

theorem spaced_bind {m : M α} {f : α → M β} (hm : Spaced m) (hf : ∀ a, Spaced (f a)) : Spaced (m >>= f) := by
  intro s hs
  have h1 := hm s hs
  simp only [Bind.bind, M.andThen]
  rcases he : m s with ⟨_ | a, s'⟩
  · rw [he] at h1; exact h1
  · rw [he] at h1; exact hf a s' h1
theorem spaced_pure {a : α} : Spaced (pure a : M α) := fun _ h => h
theorem spaced_stop {e} : Spaced (M.stop e : M α) := fun _ h => h
theorem spaced_panic {k p} : Spaced (M.panic k p : M α) := spaced_stop
theorem spaced_crash {k} : Spaced (M.crash k : M α) := spaced_stop
theorem spaced_get : Spaced M.get := fun _ h => h
theorem spaced_lift {x : Except Stop α} : Spaced (M.lift x) := by cases x <;> exact fun _ h => h
theorem spaced_reads {f : Heap → Except Stop α} : Spaced (M.reads f) := fun _ h => h
theorem spaced_modify {f : RState → RState} (h : ∀ s, (f s).heap.dicts = s.heap.dicts) : Spaced (M.modify f) := by
  intro s hs; exact uniq_same hs (h s)
theorem spaced_record {e : Event} : Spaced (record e) := fun _ h => h
theorem spaced_newArray {vs : Heap → List Value} : Spaced (M.alloc fun h => h.newArray (vs h)) := fun _ hs => uniq_same hs rfl
theorem spaced_newDict {es} (he : NoRepeat es) : Spaced (M.alloc fun h => h.newDict es) := fun _ hs => unique_newDict hs he
theorem spaced_newNative {name st} : Spaced (M.alloc fun h => h.newNative name st) := fun _ hs => uniq_same hs rfl
theorem spaced_newClosure {k} : Spaced (M.alloc fun h => h.newClosure k) := fun _ hs => uniq_same hs rfl
theorem spaced_fetch {ix} : Spaced (fetch ix) := by intro s h; unfold fetch; split <;> exact h
theorem spaced_store {ix v} : Spaced (store ix v) := by
  intro s h; unfold store; split
  · exact h
  · exact uniq_same h rfl
  · exact h
theorem spaced_capture {ix} : Spaced (capture ix) := by
  intro s h; unfold capture; split
  · exact uniq_same h rfl
  · exact h
  · exact h
theorem spaced_place {ix c} : Spaced (place ix c) := by intro s h; unfold place; split <;> exact h
theorem spaced_extend {n pos} : Spaced (extend w n pos) := by intro s h; unfold extend; split <;> exact h
theorem spaced_shrink {n} : Spaced (shrink n) := by intro s h; unfold shrink; split <;> exact h
theorem spaced_captureAll : ∀ {cs}, Spaced (captureAll cs)
  | [] => spaced_pure
  | _ :: _ => spaced_bind spaced_capture fun _ => spaced_bind spaced_captureAll fun _ => spaced_pure
theorem spaced_storeArgs : ∀ {ix vs}, Spaced (storeArgs ix vs)
  | _, [] => spaced_pure
  | _, _ :: _ => spaced_bind spaced_store fun _ => spaced_storeArgs
theorem spaced_placeAll : ∀ {l}, Spaced (placeAll l)
  | [] => spaced_pure
  | (_, _) :: _ => spaced_bind spaced_place fun _ => spaced_placeAll
theorem spaced_storeSelf {obj o} : Spaced (storeSelf obj o) := by
  cases o with
  | none => exact spaced_pure
  | some ix => exact spaced_store
theorem spaced_tailShrink {tail} : Spaced (tailShrink tail) := by
  cases tail with
  | none => exact spaced_pure
  | some n => exact spaced_bind spaced_shrink fun _ => spaced_modify fun _ => rfl
theorem spaced_answer {args x} (hx : ∀ t, x = .value t → DistinctTree t) : Spaced (answer args x) := by
  cases x with
  | value t => exact fun s hs => unique_build args s.heap t (hx t rfl) hs
  | panic p => exact spaced_stop
  | crash => exact spaced_crash
  | exit k => exact spaced_stop
theorem spaced_result {o : Out} : Spaced o.result := by
  rcases o with ⟨fl, p, obj⟩
  cases fl with
  | regular v => exact spaced_pure
  | return_ v => exact spaced_crash
  | break_ => exact spaced_crash
theorem spaced_callLib (hw : DistinctReplies w) {n name addr args pos} : Spaced (callLib w n name addr args pos) := by
  intro s h
  have h1 := libUnique_call w name ⟨n, addr, args, pos, s.argv⟩ s.heap h
  unfold callLib
  split
  · rename_i v h' he
    exact h1 v h' he
  · exact h
  · exact spaced_bind spaced_record (fun _ => spaced_answer fun t => hw.native _ _ _ _ _ t) s h

/-- The entries collected so far of a dict literal do not repeat a key. -/
def KeysOnce : Task → Prop
  | .fields _ _ acc => NoRepeat acc
  | _ => True

/-- All recursive calls agree. -/
def RecSpaced (r r' : Task → M Out) : Prop := ∀ t, KeysOnce t → Agree Uniq (r t) (r' t)

theorem apt_regular {o : Out} {pos} {k k' : Value → Pos → Value → M Out} (h : ∀ v p obj, Agree Uniq (k v p obj) (k' v p obj)) :
    Agree Uniq (o.regular pos k) (o.regular pos k') := by
  rcases o with ⟨fl, p, obj⟩
  cases fl with
  | regular v => exact h v p obj
  | return_ v => exact spaced_pure.agree
  | break_ => exact spaced_pure.agree

theorem apt_catching {m m' : M Out} (h : Agree Uniq m m') : Agree Uniq (catching w m) (catching w m') := by
  intro s hs
  obtain ⟨h1, h2⟩ := h s hs
  unfold catching
  rw [h1]
  refine ⟨rfl, ?_⟩
  rcases he : m s with ⟨e | o, s'⟩
  · rw [he] at h2
    cases e with
    | panic p =>
      exact h2
    | _ => exact h2
  · rw [he] at h2
    dsimp only
    split <;> exact h2

theorem apt_finally {m m' : M α} {f : RState → RState} (hm : Agree Uniq m m') (h : ∀ s, (f s).heap = s.heap) :
    Agree Uniq (finally_ m f) (finally_ m' f) := by
  intro s hs
  obtain ⟨e1, e2⟩ := hm s hs
  unfold finally_
  rw [e1]
  refine ⟨rfl, ?_⟩
  show UniqueKeys (f (m s).2).heap
  rw [h]; exact e2

theorem apt_withFrame {n} {m m' : M Out} (h : Agree Uniq m m') : Agree Uniq (withFrame n m) (withFrame n m') := by
  intro s hs
  obtain ⟨h1, h2⟩ := h { s with shrunk := false } hs
  unfold withFrame
  rw [h1]
  refine ⟨rfl, ?_⟩
  rcases he : m { s with shrunk := false } with ⟨x, s'⟩
  rw [he] at h2
  dsimp only
  split
  · exact h2
  · have h3 := spaced_shrink (n := n) s' h2
    rcases he2 : shrink n s' with ⟨_ | _, s''⟩
    · rw [he2] at h3; exact h3
    · rw [he2] at h3; exact h3

theorem apt_afterBody {o : Out} {m m' : M Out} (h : Agree Uniq m m') : Agree Uniq (afterBody o m) (afterBody o m') := by
  rcases o with ⟨fl, p, x⟩
  cases fl with
  | regular v => exact h
  | return_ v => exact spaced_pure.agree
  | break_ => exact spaced_pure.agree

theorem uniq_init (argv file) : Uniq (RState.init argv file) := by
  unfold Uniq
  rw [uniqueKeys_iff]
  intro es hes
  refine noRepeat_keys ?_
  have key : ∀ es ∈ (RState.init [] []).heap.dicts, (es.map (·.1)).Nodup := by decide +kernel
  exact key es hes

theorem uniq_assigned {s : RState} {h' n obj opos f fpos v pos} (hs : Uniq s) (hx : assignValue s.heap n obj opos f fpos v pos = .ok h') :
    Uniq { s with heap := h' } := unique_assignValue hx hs

attribute [local irreducible] Uniq

/-- Proves that computations agree. -/
macro "apt" : tactic => `(tactic| repeat' (first
  | exact (by assumption : RecSpaced _ _) _ trivial
  | exact (by assumption : RecSpaced _ _) (.fields _ _ _) List.Pairwise.nil
  | exact (by assumption : RecSpaced _ _) (.fields _ _ _) (noRepeat_fieldInsert (by assumption))
  | exact Spaced.agree spaced_pure | exact Spaced.agree spaced_stop
  | exact Spaced.agree spaced_panic | exact Spaced.agree spaced_crash
  | exact Spaced.agree spaced_get | exact Spaced.agree spaced_lift
  | exact Spaced.agree spaced_reads | exact Spaced.agree spaced_record
  | exact Spaced.agree spaced_newArray 
  | exact Spaced.agree spaced_newNative | exact Spaced.agree spaced_newClosure | exact Spaced.agree spaced_fetch
  | exact Spaced.agree spaced_store | exact Spaced.agree spaced_capture
  | exact Spaced.agree spaced_place | exact Spaced.agree spaced_extend
  | exact Spaced.agree spaced_shrink | exact Spaced.agree spaced_captureAll
  | exact Spaced.agree spaced_storeArgs | exact Spaced.agree spaced_placeAll
  | exact Spaced.agree spaced_storeSelf | exact Spaced.agree spaced_tailShrink
  | exact Spaced.agree spaced_result
  | exact Spaced.agree (spaced_callLib (by assumption))
  | exact Spaced.agree (spaced_newDict (noRepeat_keys (by simp)))
  | exact Spaced.agree (spaced_newDict (by assumption))
  | exact Spaced.agree (spaced_answer (fun t => (by assumption : DistinctReplies _).command _ _ _ t))
  | exact Spaced.agree (spaced_answer (fun t => (by assumption : DistinctReplies _).joined _ _ t))
  | exact Spaced.agree (spaced_modify fun _ => rfl)
  | refine apt_regular ?_ | refine apt_catching ?_
  | refine apt_withFrame ?_ | refine apt_afterBody ?_
  | (refine agree_bind ?_ ?_) | split | (intro _)))

theorem apt_evalCommand (hw : DistinctReplies w) {b} : Agree Uniq (evalCommand w b) (evalCommand w b) := by
  unfold evalCommand; apt

theorem apt_loadModule {r r' path pos} (hr : RecSpaced r r') : Agree Uniq (loadModule w r path pos) (loadModule w r' path pos) := by
  unfold loadModule
  refine agree_bind (spaced_get.agree) fun s => agree_bind spaced_record.agree fun _ => ?_
  cases w.readFile s.trace path with
  | error e => apt
  | ok src =>
    dsimp only
    cases syntaxAnalysis src with
    | none => apt
    | some a =>
      dsimp only
      by_cases ha : a.isOk = true
      · rw [if_pos ha, if_pos ha]
        cases analyze a.ast <;> apt
      · rw [if_neg ha, if_neg ha]; apt
theorem apt_importModule {r r' m args pos} (hr : RecSpaced r r') :
    Agree Uniq (importModule w r m args pos) (importModule w r' m args pos) := by
  unfold importModule
  rcases args with _ | ⟨v, _ | _⟩
  · apt
  · cases v with
    | string target =>
      refine agree_bind (spaced_get.agree) fun s => ?_
      cases w.resolve s.trace (s.file m) target with
      | error e => apt
      | ok path =>
        dsimp only
        cases s.modules.lookup path with
        | some v => apt
        | none => exact agree_bind (apt_loadModule hr) (by apt)
    | _ => exact spaced_panic.agree
  · cases v <;> exact spaced_panic.agree
theorem apt_joinCommand (hw : DistinctReplies w) {addr pos} : Agree Uniq (joinCommand w addr pos) (joinCommand w addr pos) := by
  unfold joinCommand; apt

theorem apt_nativeCall (hw : DistinctReplies w) {n r r' m name addr start pos} (hr : RecSpaced r r') :
    Agree Uniq (nativeCall w n r m name addr start pos) (nativeCall w n r' m name addr start pos) := by
  unfold nativeCall
  refine agree_bind (spaced_get.agree) fun s => ?_
  dsimp only
  by_cases h1 : name = bs "std.catch"
  · rw [if_pos h1, if_pos h1]
    rcases s.args.drop start with _ | ⟨v, _ | _⟩
    · apt
    · cases v <;> apt
    · apt
  · rw [if_neg h1, if_neg h1]
    by_cases h2 : name = bs "std.bind<impl>"
    · rw [if_pos h2, if_pos h2]
      cases s.heap.native addr <;> apt
    · rw [if_neg h2, if_neg h2]
      by_cases h3 : name = bs "std.import"
      · rw [if_pos h3, if_pos h3]
        exact apt_importModule hr
      · rw [if_neg h3, if_neg h3]
        by_cases h4 : name = bs "<command>.join"
        · rw [if_pos h4]; exact apt_joinCommand hw
        · rw [if_neg h4]; apt
theorem apt_stepCall (hw : DistinctReplies w) {n r r' m obj f start pos} (hr : RecSpaced r r') :
    Agree Uniq (stepCall w n r m obj f start pos) (stepCall w n r' m obj f start pos) := by
  intro s hs
  unfold stepCall
  by_cases h : s.args.length < start
  · rw [if_pos h, if_pos h]; exact ⟨rfl, hs⟩
  · rw [if_neg h, if_neg h]
    cases f with
    | hush a =>
      dsimp only
      refine (?_ : Agree Uniq _ _) s hs
      refine agree_bind (by apt) fun _ => ?_
      by_cases hl : (s.args.drop start).length ≠ (s.heap.closure a).params
      · rw [if_pos hl, if_pos hl]; apt
      · rw [if_neg hl, if_neg hl]; apt
    | native name addr =>
      dsimp only
      refine (?_ : Agree Uniq _ _) s hs
      exact agree_bind (apt_finally (apt_nativeCall hw hr) fun _ => rfl) (by apt)
theorem apt_stepProgram {r r' m p} (hr : RecSpaced r r') : Agree Uniq (stepProgram w r m p) (stepProgram w r' m p) := by
  unfold stepProgram
  refine agree_bind (by apt) fun _ => agree_bind (by apt) fun s => agree_bind (by apt) fun _ => agree_bind ?_ (by apt)
  intro s hs
  obtain ⟨h1, h2⟩ := hr (.block m none p.statements) trivial s hs
  beta_reduce
  rw [h1]
  refine ⟨rfl, ?_⟩
  rcases he : r (.block m none p.statements) s with ⟨_ | _, s'⟩
  · rw [he] at h2; exact uniq_same h2 rfl
  · rw [he] at h2; exact h2
theorem apt_stepLit {r r' m l pos} (hr : RecSpaced r r') : Agree Uniq (stepLit w r m l pos) (stepLit w r' m l pos) := by
  cases l <;> simp only [stepLit] <;> apt
theorem apt_stepExpr (hw : DistinctReplies w) {n r r' m tail e} (hr : RecSpaced r r') :
    Agree Uniq (stepExpr w n r m tail e) (stepExpr w n r' m tail e) := by
  cases e with
  | ident slot pos => simp only [stepExpr]; apt
  | lit l pos => exact apt_stepLit hr
  | unary op e pos => simp only [stepExpr]; apt
  | binary l op x pos =>
    simp only [stepExpr]
    refine agree_bind (hr _ trivial) fun o => apt_regular fun v vpos _ => ?_
    by_cases ho : op = .and ∨ op = .or
    · rw [if_pos ho, if_pos ho]
      refine agree_bind (by apt) fun y => ?_
      cases y with
      | some v => apt
      | none =>
        refine agree_bind (hr _ trivial) fun o => apt_regular fun v vpos _ => ?_
        cases v <;> first | exact spaced_panic.agree | exact spaced_pure.agree
    · rw [if_neg ho, if_neg ho]; apt
  | if_ c t e pos =>
    simp only [stepExpr]
    refine agree_bind (hr _ trivial) fun o => apt_regular fun v vpos _ => ?_
    cases v with
    | bool b => apt
    | _ => exact spaced_panic.agree
  | access obj field pos => simp only [stepExpr]; apt
  | call f args pos =>
    simp only [stepExpr]
    refine agree_bind (hr _ trivial) fun o => apt_regular fun v vpos _ => ?_
    cases v with
    | function f => apt
    | _ => exact spaced_panic.agree
  | command b pos => exact agree_bind (apt_evalCommand hw) (by apt)
theorem apt_stepStmt {n r r' m tail st} (hr : RecSpaced r r') : Agree Uniq (stepStmt n r m tail st) (stepStmt n r' m tail st) := by
  cases st with
  | assign l e =>
    refine agree_bind (hr _ trivial) fun o => apt_regular fun v _ _ => ?_
    cases l with
    | ident slot pos => apt
    | access a b pos =>
      refine agree_bind (hr _ trivial) fun o => apt_regular fun obj opos _ => agree_bind (hr _ trivial) fun o => apt_regular fun f fpos _ => ?_
      refine Spaced.agree fun s hs => ?_
      simp only [Bind.bind, M.andThen, M.reads]
      cases hx : assignValue s.heap n obj opos f fpos v pos with
      | error e => exact hs
      | ok h' => exact uniq_assigned hs hx
  | return_ e =>
    refine agree_bind (hr _ trivial) fun o => ?_
    rcases o with ⟨fl, p, obj⟩
    cases fl <;> exact spaced_pure.agree
  | break_ => exact spaced_pure.agree
  | while_ c b => exact hr _ trivial
  | for_ slot e b =>
    refine agree_bind (hr _ trivial) fun o => apt_regular fun v vpos _ => ?_
    cases v with
    | function f => exact hr _ trivial
    | _ => exact spaced_panic.agree
  | expr e => exact hr _ trivial
theorem apt_step (hw : DistinctReplies w) {n r r'} (hr : RecSpaced r r') : RecSpaced (step w n r) (step w n r') := by
  intro t ht
  cases t with
  | expr m tail e => exact apt_stepExpr hw hr
  | items m es acc => cases es <;> (simp only [step]; apt)
  | fields m es acc =>
    rcases es with _ | ⟨⟨k, e⟩, es⟩ <;> (simp only [step]; apt)
  | args m es start =>
    cases es with
    | nil => exact spaced_pure.agree
    | cons e es =>
      refine agree_bind (hr _ trivial) fun o => ?_
      rcases o with ⟨fl, p, obj⟩
      cases fl with
      | regular v => exact agree_bind (by apt) fun _ => hr _ trivial
      | _ => exact agree_bind (by apt) fun _ => spaced_pure.agree
  | stmt m tail s => exact apt_stepStmt hr
  | block m tail ss =>
    rcases ss with _ | ⟨s, _ | ⟨s', ss⟩⟩
    · exact spaced_pure.agree
    · exact hr _ trivial
    · exact agree_bind (hr _ trivial) fun o => apt_regular fun _ _ _ => hr _ trivial
  | loop m c b =>
    refine agree_bind (hr _ trivial) fun o => apt_regular fun v vpos _ => ?_
    cases v with
    | bool b => cases b with
      | true => exact agree_bind (hr _ trivial) fun o => apt_afterBody (hr _ trivial)
      | false => exact spaced_pure.agree
    | _ => exact spaced_panic.agree
  | iter m slot f pos b =>
    refine agree_bind (spaced_get.agree) fun s => agree_bind (hr _ trivial) fun o => agree_bind (spaced_result.agree) fun v =>
      agree_bind (spaced_reads.agree) fun y => ?_
    cases y with
    | none => exact spaced_pure.agree
    | some v => exact agree_bind (spaced_store.agree) fun _ => agree_bind (hr _ trivial) fun o => apt_afterBody (hr _ trivial)
  | call m obj f start pos => exact apt_stepCall hw hr
  | program m p => exact apt_stepProgram hr

/-- Every task keeps keys apart. -/
theorem uniq_run (hw : DistinctReplies w) : ∀ (n : Nat) (t : Task) (s : RState), KeysOnce t → Uniq s → Uniq (run w n t s).2 := by
  have key : ∀ n, RecSpaced (run w n) (run w n) := by
    intro n
    induction n with
    | zero => exact fun _ _ => spaced_stop.agree
    | succ n ih => exact apt_step hw ih
  exact fun n t s ht hs => (key n t ht s hs).2

theorem uniq_starts (hw : DistinctReplies w) {n t s t' s' c} (hp : Pre c t s) (h : Starts w n t s t' s') (ht : KeysOnce t) (hs : Uniq s) : KeysOnce t' ∧ Uniq s' := by
  by_contra hn
  have hr : RecSpaced (run w n) (probed (run w n) t' s') := by
    intro t1 h0 s1 h1
    refine ⟨?_, uniq_run hw n t1 s1 h0 h1⟩
    simp only [probed]
    rw [if_neg]
    rintro ⟨rfl, rfl⟩
    exact hn ⟨h0, h1⟩
  have h2 := (apt_step hw (n := n) hr t ht s hs).1
  simp only [Starts, h2] at h
  have := run_ok w (n + 1) c t s hp
  simp only [Runs, run] at this
  rcases hm : step w n (run w n) t s with ⟨e | o, s1⟩
  · simp only [hm] at h
    rw [hm] at this
    cases h
    exact this.1.1 rfl
  · simp only [hm] at h; cases h

theorem uniq_reaches (hw : DistinctReplies w) {n t s k t' s' c} (h : Reaches w n t s k t' s') : Pre c t s → KeysOnce t → Uniq s → KeysOnce t' ∧ Uniq s' := by
  intro hp
  induction h generalizing c with
  | self => exact fun h1 h2 => ⟨h1, h2⟩
  | sub h1 _ ih =>
    intro ht hs
    obtain ⟨c', hp'⟩ := starts_pre hp h1
    obtain ⟨h2, h3⟩ := uniq_starts hw hp h1 ht hs
    exact ih hp' h2 h3

theorem performed_uniq (hw : DistinctReplies w) {src k t s} (h : Performed w src k t s) : KeysOnce t ∧ Uniq s := by
  obtain ⟨p, argv, file, n, h1, h2⟩ := h
  exact uniq_reaches hw h2 (c := ⟨0, false, false⟩) (program_pre h1) trivial (uniq_init _ _)

end Hush

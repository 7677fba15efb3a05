import Verif.Lemmas.PlacesEval

/-!
Where an execution panics.
-/

namespace Hush
open Spec
variable {w : World} {src : Bytes} {tr tr' : List Event}

theorem somewhere_mono (h : tr <+: tr') (p : Pos) (hp : Somewhere w src tr p) : Somewhere w src tr' p := by
  obtain ⟨text, ht, hm⟩ := hp
  refine ⟨text, ?_, hm⟩
  obtain ⟨r, rfl⟩ := h
  cases ht with
  | script => exact .script
  | module h1 h2 => exact .module (by rw [h1, List.append_assoc, List.cons_append]) h2

theorem outside_mono (h : tr <+: tr') {p : Panic} (hp : FromOutside w tr p) : FromOutside w tr' p := by
  obtain ⟨r, rfl⟩ := h
  obtain ⟨pre, e, post, rfl, ha⟩ := hp
  exact ⟨pre, e, post ++ r, by rw [List.append_assoc, List.cons_append], ha⟩

variable (w src) in
/-- Where a panic may be. -/
def Placed (tr : List Event) (p : Panic) : Prop := Somewhere w src tr p.pos ∨ FromOutside w tr p ∨ p = ⟨.stackOverflow, noPos⟩

theorem placed_mono (h : tr <+: tr') {p : Panic} (hp : Placed w src tr p) : Placed w src tr' p := by
  rcases hp with hp | hp | hp
  · exact .inl (somewhere_mono h _ hp)
  · exact .inr (.inl (outside_mono h hp))
  · exact .inr (.inr hp)

variable (w src) in
/-- The functions in memory are code of the texts, and so are the commands executed. -/
structure Coded (s : RState) : Prop where
  funs : ∀ c ∈ s.heap.closures, InStmts (Somewhere w src s.trace) c.body
  commands : ∀ k b, .command k b ∈ s.trace → ∀ p ∈ blockMarks b, Somewhere w src s.trace p

variable (w src) in
/-- From states that are reached after some trace: memory stays code, the result is fine, and a panic is at a place. -/
def Places (tr : List Event) (Q : List Event → α → Prop) (m : M α) : Prop := ∀ s, tr <+: s.trace → Coded w src s →
  s.trace <+: (m s).2.trace ∧ Coded w src (m s).2 ∧ (∀ a, (m s).1 = .ok a → Q (m s).2.trace a) ∧
    ∀ p, (m s).1 = .error (.panic p) → Placed w src (m s).2.trace p

theorem places_bind {Q : List Event → α → Prop} {R : List Event → β → Prop} {m : M α} {f : α → M β} (hm : Places w src tr Q m)
    (hf : ∀ tr' a, tr <+: tr' → Q tr' a → Places w src tr' R (f a)) : Places w src tr R (m >>= f) := by
  intro s hs hc
  obtain ⟨h1, h2, h3, h4⟩ := hm s hs hc
  simp only [Bind.bind, M.andThen]
  rcases he : m s with ⟨e | a, s'⟩
  · rw [he] at h1 h2 h4
    exact ⟨h1, h2, fun _ h => (by cases h), fun p h => h4 p (by simpa using h)⟩
  · rw [he] at h1 h2 h3
    obtain ⟨g1, g2, g3, g4⟩ := hf s'.trace a (hs.trans h1) (h3 a rfl) s' (List.prefix_refl _) h2
    exact ⟨h1.trans g1, g2, g3, g4⟩

theorem places_mono {Q : List Event → α → Prop} {m : M α} (h : tr <+: tr') (hm : Places w src tr Q m) : Places w src tr' Q m :=
  fun s hs hc => hm s (h.trans hs) hc

theorem places_weaken {Q R : List Event → α → Prop} {m : M α} (hm : Places w src tr Q m) (h : ∀ tr' a, tr <+: tr' → Q tr' a → R tr' a) : Places w src tr R m :=
  fun s hs hc =>
    have h' := hm s hs hc
    ⟨h'.1, h'.2.1, fun a ha => h _ a (hs.trans h'.1) (h'.2.2.1 a ha), h'.2.2.2⟩

theorem places_pure {Q : List Event → α → Prop} {a : α} (h : ∀ tr', tr <+: tr' → Q tr' a) : Places w src tr Q (pure a : M α) :=
  fun s hs hc => ⟨List.prefix_refl _, hc, fun b hb => (by cases hb; exact h _ hs), fun p hp => by cases hp⟩
theorem places_stop {Q : List Event → α → Prop} {e} (h : ∀ p, e ≠ .panic p) : Places w src tr Q (M.stop e : M α) :=
  fun s hs hc => ⟨List.prefix_refl _, hc, fun b hb => (by cases hb), fun p hp => by cases hp; exact absurd rfl (h p)⟩
theorem places_crash {Q : List Event → α → Prop} {k} : Places w src tr Q (M.crash k : M α) := places_stop nofun
theorem places_panic {Q : List Event → α → Prop} {k p} (h : Somewhere w src tr p) : Places w src tr Q (M.panic k p : M α) :=
  fun s hs hc => ⟨List.prefix_refl _, hc, fun b hb => (by cases hb), fun p hp => by cases hp; exact .inl (somewhere_mono hs _ h)⟩
theorem places_lift {R : α → Prop} {x : Except Stop α} (h : PinsTo (Somewhere w src tr) R x) : Places w src tr (fun _ => R) (M.lift x) := by
  cases x with
  | ok a => exact places_pure fun _ _ => h.1 a rfl
  | error e => exact fun s hs hc => ⟨List.prefix_refl _, hc, fun b hb => (by cases hb), fun p hp => by
      cases hp; exact .inl (somewhere_mono hs _ (h.2 p rfl))⟩
theorem places_reads {R : α → Prop} {f : Heap → Except Stop α} (h : ∀ h, PinsTo (Somewhere w src tr) R (f h)) : Places w src tr (fun _ => R) (M.reads f) :=
  fun s hs hc => ⟨List.prefix_refl _, hc, fun a ha => (h s.heap).1 a ha, fun p hp => .inl (somewhere_mono hs _ ((h s.heap).2 p hp))⟩
theorem places_get : Places w src tr (fun _ _ => True) M.get :=
  fun s hs hc => ⟨List.prefix_refl _, hc, fun _ _ => trivial, fun p hp => by cases hp⟩

theorem coded_same {s s' : RState} (hc : Coded w src s) (h1 : s'.heap.closures = s.heap.closures) (h2 : s'.trace = s.trace) : Coded w src s' :=
  ⟨by rw [h1, h2]; exact hc.funs, by rw [h2]; exact hc.commands⟩

/-- Neither functions nor the trace change, and there is no panic. -/
theorem places_quiet {m : M α} (h1 : ∀ s, (m s).2.heap.closures = s.heap.closures) (h2 : ∀ s, (m s).2.trace = s.trace)
    (h3 : ∀ s p, (m s).1 ≠ .error (.panic p)) : Places w src tr (fun _ _ => True) m :=
  fun s hs hc => ⟨by rw [h2]; exact List.prefix_refl _, coded_same hc (h1 s) (h2 s), fun _ _ => trivial, fun p hp => absurd hp (h3 s p)⟩

theorem places_modify {f : RState → RState} (h1 : ∀ s, (f s).heap.closures = s.heap.closures) (h2 : ∀ s, (f s).trace = s.trace) :
    Places w src tr (fun _ _ => True) (M.modify f) := places_quiet h1 h2 fun _ _ h => by cases h
theorem places_alloc {f : Heap → α × Heap} (h : ∀ h, (f h).2.closures = h.closures) : Places w src tr (fun _ _ => True) (M.alloc f) :=
  places_quiet (fun s => h s.heap) (fun _ => rfl) fun _ _ h => by cases h

theorem coded_extend {s : RState} {e : Event} (hc : Coded w src s) (he : ∀ k b, e = .command k b → ∀ p ∈ blockMarks b, Somewhere w src s.trace p) :
    Coded w src { s with trace := s.trace ++ [e] } := by
  have hp : s.trace <+: s.trace ++ [e] := List.prefix_append _ _
  refine ⟨fun c h => inStmts_mono (somewhere_mono hp) (hc.funs c h), fun k b hm p hp' => ?_⟩
  simp only [List.mem_append, List.mem_singleton] at hm
  rcases hm with hm | hm
  · exact somewhere_mono hp _ (hc.commands k b hm p hp')
  · exact somewhere_mono hp _ (he k b hm.symm p hp')

theorem places_record {e : Event} (he : ∀ k b, e = .command k b → ∀ p ∈ blockMarks b, Somewhere w src tr p) :
    Places w src tr (fun _ _ => True) (record e) :=
  fun s hs hc => ⟨List.prefix_append _ _, coded_extend hc fun k b h p hp => somewhere_mono hs _ (he k b h p hp), fun _ _ => trivial, fun p hp => by cases hp⟩

theorem places_fetch {ix} : Places w src tr (fun _ _ => True) (fetch ix) := by
  apply places_quiet <;> intro s <;> unfold fetch <;> split <;> first | rfl | nofun
theorem places_store {ix v} : Places w src tr (fun _ _ => True) (store ix v) := by
  apply places_quiet <;> intro s <;> unfold store <;> split <;> first | rfl | nofun
theorem places_capture {ix} : Places w src tr (fun _ _ => True) (capture ix) := by
  apply places_quiet <;> intro s <;> unfold capture <;> split <;> first | rfl | nofun
theorem places_place {ix c} : Places w src tr (fun _ _ => True) (place ix c) := by
  apply places_quiet <;> intro s <;> unfold place <;> split <;> first | rfl | nofun
theorem places_shrink {n} : Places w src tr (fun _ _ => True) (shrink n) := by
  apply places_quiet <;> intro s <;> unfold shrink <;> split <;> first | rfl | nofun
theorem places_extend {n p} (h : Somewhere w src tr p ∨ p = noPos) : Places w src tr (fun _ _ => True) (extend w n p) := by
  intro s hs hc
  unfold extend
  split
  · refine ⟨List.prefix_refl _, hc, fun _ _ => trivial, fun q hq => ?_⟩
    cases hq
    rcases h with h | rfl
    · exact .inl (somewhere_mono hs _ h)
    · exact .inr (.inr rfl)
  · exact ⟨List.prefix_refl _, coded_same hc rfl rfl, fun _ _ => trivial, fun q hq => by cases hq⟩
theorem places_then {m : M α} {f : α → M β} {R : List Event → β → Prop} (hm : Places w src tr (fun _ _ => True) m)
    (hf : ∀ tr' a, tr <+: tr' → Places w src tr' R (f a)) : Places w src tr R (m >>= f) := places_bind hm fun tr' a h _ => hf tr' a h
theorem places_true {a : α} : Places w src tr (fun _ _ => True) (pure a : M α) := places_pure fun _ _ => trivial
theorem places_captureAll : ∀ {tr cs}, Places w src tr (fun _ _ => True) (captureAll cs)
  | _, [] => places_true
  | _, _ :: _ => places_then places_capture fun _ _ _ => places_then places_captureAll fun _ _ _ => places_true
theorem places_storeArgs : ∀ {tr ix vs}, Places w src tr (fun _ _ => True) (storeArgs ix vs)
  | _, _, [] => places_true
  | _, _, _ :: _ => places_then places_store fun _ _ _ => places_storeArgs
theorem places_placeAll : ∀ {tr l}, Places w src tr (fun _ _ => True) (placeAll l)
  | _, [] => places_true
  | _, (_, _) :: _ => places_then places_place fun _ _ _ => places_placeAll
theorem places_storeSelf {obj o} : Places w src tr (fun _ _ => True) (storeSelf obj o) := by
  cases o with
  | none => exact places_true
  | some ix => exact places_store
theorem places_tailShrink {tail} : Places w src tr (fun _ _ => True) (tailShrink tail) := by
  cases tail with
  | none => exact places_true
  | some n => exact places_then places_shrink fun _ _ _ => places_modify (fun _ => rfl) fun _ => rfl
theorem places_result {o : Out} : Places w src tr (fun _ _ => True) o.result := by
  rcases o with ⟨fl, p, obj⟩
  cases fl with
  | regular v => exact places_true
  | return_ v => exact places_crash
  | break_ => exact places_crash

theorem places_closure {c : Closure} (h : InStmts (Somewhere w src tr) c.body) : Places w src tr (fun _ _ => True) (M.alloc fun h => h.newClosure c) := by
  refine fun s hs hc => ⟨List.prefix_refl _, ⟨fun c' hm => ?_, hc.commands⟩, fun _ _ => trivial, fun p hp => by cases hp⟩
  simp only [M.alloc, Heap.newClosure, List.mem_append, List.mem_singleton] at hm
  rcases hm with hm | rfl
  · exact hc.funs c' hm
  · exact inStmts_mono (somewhere_mono hs) h

/-- Asking the outside. -/
theorem places_ask {s : RState} {e : Event} {args x} (hc : Coded w src s)
    (he : ∀ k b, e = .command k b → ∀ p ∈ blockMarks b, Somewhere w src s.trace p) (hx : ∀ p, x = .panic p → Answers w s.trace e p) {s' : RState}
    (h1 : s'.heap.closures = s.heap.closures) (h2 : s'.trace = s.trace ++ [e]) :
    s.trace <+: ((answer args x) s').2.trace ∧ Coded w src ((answer args x) s').2 ∧
      ∀ p, ((answer args x) s').1 = .error (.panic p) → Placed w src ((answer args x) s').2.trace p := by
  have hp : s.trace <+: s.trace ++ [e] := List.prefix_append _ _
  have hc' : Coded w src s' := coded_same (coded_extend hc he) h1 h2
  rw [← h2] at hp
  cases x with
  | value t => exact ⟨hp, coded_same hc' (keeps_build args s'.heap t).closures rfl, fun p hp => by cases hp⟩
  | panic p =>
    refine ⟨hp, hc', fun q hq => ?_⟩
    cases hq
    exact .inr (.inl ⟨s.trace, e, [], h2, hx p rfl⟩)
  | crash => exact ⟨hp, hc', fun p hp => by cases hp⟩
  | exit k => exact ⟨hp, hc', fun p hp => by cases hp⟩

theorem places_callLib {n name addr args pos} (h : Somewhere w src tr pos) : Places w src tr (fun _ _ => True) (callLib w n name addr args pos) := by
  intro s hs hc
  have h1 := libOk_call w name ⟨n, addr, args, pos, s.argv⟩ s.heap
  have h2 := libHere_call w name ⟨n, addr, args, pos, s.argv⟩ s.heap
  unfold callLib
  split
  · rename_i v h' he
    rw [he] at h1
    exact ⟨List.prefix_refl _, coded_same hc (h1.1 v h' rfl).closures rfl, fun _ _ => trivial, fun p hp => by cases hp⟩
  · rename_i e he
    refine ⟨List.prefix_refl _, hc, fun _ _ => trivial, fun p hp => .inl ?_⟩
    cases hp
    rw [h2 p he]
    exact somewhere_mono hs _ h
  · obtain ⟨g1, g2, g3⟩ := places_ask (w := w) (src := src) (args := args) (x := w.native s.trace name (s.heap.native addr) args s.heap)
      (s := s) (e := .native name args) hc (by simp) (fun p hp => .native hp) (s' := { s with trace := s.trace ++ [.native name args] }) rfl rfl
    exact ⟨g1, g2, fun _ _ => trivial, g3⟩

theorem places_joinCommand {addr pos} (h : Somewhere w src tr pos) : Places w src tr (fun _ _ => True) (joinCommand w addr pos) := by
  intro s hs hc
  have h0 : ∀ t, s.heap.native addr = .join (some t) → joinCommand w addr pos s =
      answer [] (w.joined s.trace t) { s with heap := s.heap.setNative addr (.join none), trace := s.trace ++ [.join t] } := by
    intro t ht
    unfold joinCommand
    simp only [Bind.bind, M.andThen, M.get, ht, M.modify, record]
  have h1 : (∀ t, s.heap.native addr ≠ .join (some t)) → joinCommand w addr pos s = (M.panic .invalidJoin pos : M Value) s := by
    intro ht
    unfold joinCommand
    simp only [Bind.bind, M.andThen, M.get]
  by_cases hx : ∃ t, s.heap.native addr = .join (some t)
  · obtain ⟨t, ht⟩ := hx
    rw [h0 t ht]
    obtain ⟨g1, g2, g3⟩ := places_ask (w := w) (src := src) (args := []) (x := w.joined s.trace t)
      (s := s) (e := .join t) hc (by simp) (fun p hp => .join hp)
      (s' := { s with heap := s.heap.setNative addr (.join none), trace := s.trace ++ [.join t] }) rfl rfl
    exact ⟨g1, g2, fun _ _ => trivial, g3⟩
  · rw [h1 fun t ht => hx ⟨t, ht⟩]
    exact places_panic (α := Value) (Q := fun _ _ => True) h s hs hc

theorem places_evalCommand {b} (h : InProgBlock (Somewhere w src tr) b) : Places w src tr (fun _ _ => True) (evalCommand w b) := by
  intro s hs hc
  have h1 := pins_block (env := argEnv w s) h
  unfold evalCommand
  simp only [Bind.bind, M.andThen, M.get]
  cases hb : buildBlock (argEnv w s) b.head b.tail with
  | error e =>
    refine ⟨List.prefix_refl _, hc, fun _ _ => trivial, fun p hp => .inl ?_⟩
    cases hp
    exact somewhere_mono hs _ (h1.2 p hb)
  | ok ex =>
    have h2 : ∀ k b', Event.command b.kind ex = .command k b' → ∀ p ∈ blockMarks b', Somewhere w src s.trace p := by
      intro k b' he p hp
      cases he
      exact somewhere_mono hs _ (h1.1 ex hb p hp)
    simp only [M.lift, M.ret, record, M.modify]
    generalize b.kind = kd at h2 ⊢
    cases kd with
    | asynchronous =>
      simp only [M.andThen, M.alloc]
      exact ⟨List.prefix_append _ _, coded_same (coded_extend hc h2) rfl rfl, fun _ _ => trivial, fun p hp => by cases hp⟩
    | _ =>
      obtain ⟨g1, g2, g3⟩ := places_ask (w := w) (src := src) (args := []) (x := w.command s.trace _ ex)
        (s := s) (e := .command _ ex) hc h2 (fun p hp => .command hp) (s' := { s with trace := s.trace ++ [.command _ ex] }) rfl rfl
      exact ⟨g1, g2, fun _ _ => trivial, g3⟩

/-! ### Tasks -/

variable (w src) in
/-- The code of the task is code of the texts. -/
def TaskIn (tr : List Event) : Task → Prop
  | .expr _ _ e => InExpr (Somewhere w src tr) e
  | .items _ es _ => InExprs (Somewhere w src tr) es
  | .fields _ fs _ => InFields (Somewhere w src tr) fs
  | .args _ es _ => InExprs (Somewhere w src tr) es
  | .stmt _ _ s => InStmt (Somewhere w src tr) s
  | .block _ _ b => InStmts (Somewhere w src tr) b
  | .loop _ c b => InExpr (Somewhere w src tr) c ∧ InStmts (Somewhere w src tr) b
  | .iter _ _ _ p b => Somewhere w src tr p ∧ InStmts (Somewhere w src tr) b
  | .call _ _ _ _ p => Somewhere w src tr p
  | .program _ p => InStmts (Somewhere w src tr) p.statements

variable (w src) in
/-- The position of the value of an expression is a place. -/
def TaskOut : Task → List Event → Out → Prop
  | .expr _ _ _, tr, o => Somewhere w src tr o.pos
  | _, _, _ => True

variable (w src) in
/-- All recursive calls are fine. -/
def RecPlaces (r : Task → M Out) : Prop := ∀ tr t, TaskIn w src tr t → Places w src tr (TaskOut w src t) (r t)

theorem places_regular {Q : List Event → Out → Prop} {o : Out} {pos} {k : Value → Pos → Value → M Out} (ho : Somewhere w src tr o.pos)
    (hq : ∀ tr' f, tr <+: tr' → Q tr' ⟨f, pos, .nil⟩) (hk : ∀ v p obj, Somewhere w src tr p → Places w src tr Q (k v p obj)) :
    Places w src tr Q (o.regular pos k) := by
  rcases o with ⟨fl, p, obj⟩
  cases fl with
  | regular v => exact hk v p obj ho
  | return_ v => exact places_pure fun tr' h => hq tr' _ h
  | break_ => exact places_pure fun tr' h => hq tr' _ h
theorem places_skip {Q : List Event → Out → Prop} {o : Out} {pos} {k : Value → Pos → Value → M Out}
    (hq : ∀ tr' f, tr <+: tr' → Q tr' ⟨f, pos, .nil⟩) (hk : ∀ v p obj, Places w src tr Q (k v p obj)) :
    Places w src tr Q (o.regular pos k) := by
  rcases o with ⟨fl, p, obj⟩
  cases fl with
  | regular v => exact hk v p obj
  | return_ v => exact places_pure fun tr' h => hq tr' _ h
  | break_ => exact places_pure fun tr' h => hq tr' _ h

theorem places_catching {Q} {m : M Out} (hm : Places w src tr Q m) : Places w src tr (fun _ _ => True) (catching w m) := by
  intro s hs hc
  obtain ⟨h1, h2, h3, h4⟩ := hm s hs hc
  unfold catching
  rcases he : m s with ⟨e | o, s'⟩
  · rw [he] at h1 h2
    cases e with
    | panic p => exact ⟨h1, coded_same h2 rfl rfl, fun _ _ => trivial, fun q hq => by cases hq⟩
    | _ => exact ⟨h1, h2, fun _ _ => trivial, fun q hq => by cases hq⟩
  · rw [he] at h1 h2
    dsimp only
    split
    · exact ⟨h1, h2, fun _ _ => trivial, fun q hq => by cases hq⟩
    · exact ⟨h1, h2, fun _ _ => trivial, fun q hq => by cases hq⟩

theorem places_finally {Q : List Event → α → Prop} {m : M α} {f : RState → RState} (hm : Places w src tr Q m)
    (h1 : ∀ s, (f s).heap = s.heap) (h2 : ∀ s, (f s).trace = s.trace) : Places w src tr Q (finally_ m f) := by
  intro s hs hc
  obtain ⟨g1, g2, g3, g4⟩ := hm s hs hc
  unfold finally_
  dsimp only
  rw [h2]
  exact ⟨g1, coded_same g2 (by rw [h1]) (h2 _), g3, g4⟩

theorem places_withFrame {Q : List Event → Out → Prop} {n} {m : M Out} (hm : Places w src tr Q m) : Places w src tr Q (withFrame n m) := by
  intro s hs hc
  obtain ⟨h1, h2, h3, h4⟩ := hm { s with shrunk := false } hs (coded_same hc rfl rfl)
  unfold withFrame
  rcases he : m { s with shrunk := false } with ⟨x, s'⟩
  rw [he] at h1 h2 h3 h4
  dsimp only
  split
  · exact ⟨h1, coded_same h2 rfl rfl, h3, h4⟩
  · obtain ⟨g1, g2, g3, g4⟩ := places_shrink (w := w) (src := src) (n := n) s' (List.prefix_refl _) h2
    have g5 : (shrink n s').2.trace = s'.trace := by unfold shrink; split <;> rfl
    rcases he2 : shrink n s' with ⟨e | _, s''⟩
    · rw [he2] at g2 g5
      have he : e = .crash .slot := by
        unfold shrink at he2
        split at he2 <;> cases he2
        rfl
      subst he
      refine ⟨by dsimp only; rw [g5]; exact h1, coded_same g2 rfl rfl, ?_, ?_⟩
      · dsimp only
        split <;> (intro a ha; cases ha)
      · dsimp only
        split <;> (intro a ha; cases ha)
    · rw [he2] at g2 g5
      dsimp only at g5 ⊢
      rw [g5]
      exact ⟨h1, coded_same g2 rfl g5.symm, h3, h4⟩

theorem places_afterBody {Q : List Event → Out → Prop} {o : Out} {m : M Out} (hm : Places w src tr Q m) (h : ∀ o tr', Q tr' o) :
    Places w src tr Q (afterBody o m) := by
  rcases o with ⟨fl, p, x⟩
  cases fl with
  | regular v => exact hm
  | return_ v => exact places_pure fun _ _ => h _ _
  | break_ => exact places_pure fun _ _ => h _ _

theorem places_loadModule {r path pos} (hr : RecPlaces w src r) (h : Somewhere w src tr pos) :
    Places w src tr (fun _ _ => True) (loadModule w r path pos) := by
  intro s hs hc
  have hp : s.trace <+: s.trace ++ [.load path] := List.prefix_append _ _
  have hc' : Coded w src { s with trace := s.trace ++ [.load path] } := coded_extend hc (by simp)
  suffices hk : Places w src (s.trace ++ [.load path]) (fun _ _ => True) (match w.readFile s.trace path with
      | .error e => M.panic (.io e) pos
      | .ok src =>
        match syntaxAnalysis src with
        | none => M.crash .todo
        | some a =>
          if a.isOk then
            match analyze a.ast with
            | .ok p => do
              M.modify (fun s => { s with files := s.files ++ [path] })
              let o ← r (.program s.files.length p)
              o.result
            | .errors _ => M.panic (.importFailed path) pos
            | .crash => M.crash .todo
          else M.panic (.importFailed path) pos : M Value) by
    have h1 := hk { s with trace := s.trace ++ [.load path] } (List.prefix_refl _) hc'
    exact ⟨hp.trans h1.1, h1.2⟩
  have h' := somewhere_mono (hs.trans hp) _ h
  cases hf : w.readFile s.trace path with
  | error e => exact places_panic h'
  | ok text =>
    dsimp only
    cases ha : syntaxAnalysis text with
    | none => exact places_crash
    | some a =>
      dsimp only
      by_cases hk : a.isOk = true
      · rw [if_pos hk]
        cases hz : analyze a.ast with
        | ok p =>
          dsimp only
          refine places_then (places_modify (fun _ => rfl) fun _ => rfl) fun tr' _ ht => ?_
          have ht' : InStmts (Somewhere w src tr') p.statements :=
            inStmts_mono (fun q hq => somewhere_mono ht q ⟨text, .module rfl hf, hq⟩) (accepts_places ⟨a, ha, hk, hz⟩)
          exact places_bind (hr tr' (.program _ p) ht') fun _ _ _ _ => places_result
        | errors es => exact places_panic h'
        | crash => exact places_crash
      · rw [if_neg hk]; exact places_panic h'

theorem places_importModule {r m args pos} (hr : RecPlaces w src r) (h : Somewhere w src tr pos) :
    Places w src tr (fun _ _ => True) (importModule w r m args pos) := by
  unfold importModule
  rcases args with _ | ⟨v, _ | _⟩
  · exact places_panic h
  · cases v with
    | string target =>
      refine places_then places_get fun tr' s ht => ?_
      have h' := somewhere_mono ht _ h
      cases w.resolve s.trace (s.file m) target with
      | error e => exact places_panic h'
      | ok path =>
        dsimp only
        cases s.modules.lookup path with
        | some v => exact places_then (places_record (by simp)) fun _ _ _ => places_true
        | none =>
          exact places_then (places_loadModule hr h') fun _ _ _ => places_then (places_modify (fun _ => rfl) fun _ => rfl) fun _ _ _ =>
            places_then (places_record (by simp)) fun _ _ _ => places_true
    | _ => exact places_panic h
  · cases v <;> exact places_panic h

theorem places_nativeCall {n r m name addr start pos} (hr : RecPlaces w src r) (h : Somewhere w src tr pos) :
    Places w src tr (fun _ _ => True) (nativeCall w n r m name addr start pos) := by
  unfold nativeCall
  refine places_then places_get fun tr' s ht => ?_
  have h' := somewhere_mono ht _ h
  dsimp only
  by_cases h1 : name = bs "std.catch"
  · rw [if_pos h1]
    rcases s.args.drop start with _ | ⟨v, _ | _⟩
    · exact places_panic h'
    · cases v with
      | function f => exact places_catching (hr tr' (.call _ _ _ _ _) h')
      | _ => exact places_panic h'
    · cases v <;> exact places_panic h'
  · rw [if_neg h1]
    by_cases h2 : name = bs "std.bind<impl>"
    · rw [if_pos h2]
      cases s.heap.native addr with
      | bound obj f => exact places_bind (hr tr' (.call _ _ _ _ _) h') fun _ _ _ _ => places_result
      | _ => exact places_crash
    · rw [if_neg h2]
      by_cases h3 : name = bs "std.import"
      · rw [if_pos h3]; exact places_importModule hr h'
      · rw [if_neg h3]
        by_cases h4 : name = bs "<command>.join"
        · rw [if_pos h4]; exact places_joinCommand h'
        · rw [if_neg h4]; exact places_callLib h'

theorem closure_in {s : RState} (hc : Coded w src s) (a : Nat) : InStmts (Somewhere w src s.trace) (s.heap.closure a).body := by
  simp only [Heap.closure, List.getD_eq_getElem?_getD]
  cases hx : s.heap.closures[a]? with
  | none => exact (by simp only [InStmts] : InStmts _ [])
  | some c => exact hc.funs c (List.mem_of_getElem? hx)

theorem places_stepCall {n r m obj f start pos} (hr : RecPlaces w src r) (h : Somewhere w src tr pos) :
    Places w src tr (fun _ _ => True) (stepCall w n r m obj f start pos) := by
  intro s hs hc
  unfold stepCall
  by_cases hl : s.args.length < start
  · rw [if_pos hl]
    exact ⟨List.prefix_refl _, hc, fun _ _ => trivial, fun p hp => by cases hp⟩
  · rw [if_neg hl]
    have h' := somewhere_mono hs _ h
    cases f with
    | hush a =>
      have hb := closure_in hc a
      dsimp only
      refine (?_ : Places w src s.trace (fun _ _ => True) _) s (List.prefix_refl _) hc
      refine places_then (places_modify (fun _ => rfl) fun _ => rfl) fun tr' _ ht => ?_
      have h' := somewhere_mono ht _ h'
      by_cases hn : (s.args.drop start).length ≠ (s.heap.closure a).params
      · rw [if_pos hn]; exact places_panic h'
      · rw [if_neg hn]
        refine places_then (places_extend (.inl h')) fun tr1 _ t1 => places_then places_storeArgs fun tr2 _ t2 =>
          places_then places_placeAll fun tr3 _ t3 => places_then places_storeSelf fun tr4 _ t4 => ?_
        have hb' := inStmts_mono (somewhere_mono ((((ht.trans t1).trans t2).trans t3).trans t4)) hb
        refine places_bind (places_withFrame (hr tr4 (.block _ _ _) hb')) fun tr5 o t5 _ => ?_
        rcases o with ⟨fl, p, ob⟩
        cases fl with
        | break_ => exact places_crash
        | _ => exact places_true
    | native name addr =>
      dsimp only
      refine (?_ : Places w src s.trace (fun _ _ => True) _) s (List.prefix_refl _) hc
      exact places_then (places_finally (places_nativeCall hr h') (fun _ => rfl) fun _ => rfl) fun _ _ _ => places_true

theorem places_stepProgram {r m} {p : Program} (hr : RecPlaces w src r) (h : InStmts (Somewhere w src tr) p.statements) :
    Places w src tr (fun _ _ => True) (stepProgram w r m p) := by
  unfold stepProgram
  refine places_then (places_extend (.inr rfl)) fun tr1 _ t1 => places_then places_get fun tr2 s t2 => places_then places_store fun tr3 _ t3 => ?_
  refine places_bind (Q := fun _ _ => True) ?_ fun tr4 o t4 _ => ?_
  · intro s hs hc
    obtain ⟨h1, h2, h3, h4⟩ := hr tr3 (.block m none p.statements) (inStmts_mono (somewhere_mono ((t1.trans t2).trans t3)) h) s hs hc
    beta_reduce
    rcases he : r (.block m none p.statements) s with ⟨e | o, s'⟩
    · rw [he] at h1 h2 h4
      exact ⟨h1, coded_same h2 rfl rfl, fun _ _ => trivial, fun q hq => h4 q (by simpa using hq)⟩
    · rw [he] at h1 h2 h4
      exact ⟨h1, h2, fun _ _ => trivial, fun q hq => by cases hq⟩
  · rcases o with ⟨fl, p, ob⟩
    cases fl with
    | regular v => exact places_then places_shrink fun _ _ _ => places_true
    | _ => exact places_crash

theorem places_stepLit {r m l pos} (hr : RecPlaces w src r) (h : Somewhere w src tr pos) (hl : InLit (Somewhere w src tr) l) :
    Places w src tr (fun tr o => Somewhere w src tr o.pos) (stepLit w r m l pos) := by
  have hv : ∀ {tr' v}, tr <+: tr' → Places w src tr' (fun tr o => Somewhere w src tr o.pos) (pure (Out.value v pos) : M Out) :=
    fun ht => places_pure fun _ h' => somewhere_mono (ht.trans h') _ h
  cases l with
  | array es =>
    simp only [InLit] at hl
    exact places_bind (hr tr (.items m es []) hl) fun tr' o ht _ => places_pure fun _ h' => somewhere_mono (ht.trans h') _ h
  | dict fs =>
    simp only [InLit] at hl
    exact places_bind (hr tr (.fields m fs []) hl) fun tr' o ht _ => places_pure fun _ h' => somewhere_mono (ht.trans h') _ h
  | function params frame body =>
    simp only [InLit] at hl
    simp only [stepLit]
    exact places_then places_captureAll fun tr1 _ t1 => places_then (places_closure (inStmts_mono (somewhere_mono t1) hl)) fun tr2 _ t2 =>
      places_pure fun _ h' => somewhere_mono ((t1.trans t2).trans h') _ h
  | _ => exact hv (List.prefix_refl _)

theorem places_stepExpr {n r m tail e} (hr : RecPlaces w src r) (h : InExpr (Somewhere w src tr) e) :
    Places w src tr (fun tr o => Somewhere w src tr o.pos) (stepExpr w n r m tail e) := by
  cases e with
  | ident slot pos =>
    simp only [InExpr] at h
    exact places_then places_fetch fun _ _ ht => places_pure fun _ h' => somewhere_mono (ht.trans h') _ h
  | lit l pos =>
    simp only [InExpr] at h
    exact places_stepLit hr h.1 h.2
  | unary op e pos =>
    simp only [InExpr] at h
    refine places_bind (hr tr (.expr m none e) h.2) fun tr1 o t1 ho => places_regular ho (fun _ _ h' => somewhere_mono (t1.trans h') _ h.1) fun v vp _ hp => ?_
    exact places_then (places_lift (pins_unary hp)) fun _ _ t2 => places_pure fun _ h' => somewhere_mono ((t1.trans t2).trans h') _ h.1
  | binary l op x pos =>
    simp only [InExpr] at h
    obtain ⟨h1, h2, h3⟩ := h
    simp only [stepExpr]
    refine places_bind (hr tr (.expr m none l) h2) fun tr1 o t1 ho => places_regular ho (fun _ _ h' => somewhere_mono (t1.trans h') _ h1) fun v vp _ hp => ?_
    by_cases hop : op = .and ∨ op = .or
    · rw [if_pos hop]
      refine places_then (places_lift (pins_short hp)) fun tr2 y t2 => ?_
      cases y with
      | some v => exact places_pure fun _ h' => somewhere_mono ((t1.trans t2).trans h') _ h1
      | none =>
        refine places_bind (hr tr2 (.expr m none x) (inExpr_mono (somewhere_mono (t1.trans t2)) h3)) fun tr3 o t3 ho =>
          places_regular ho (fun _ _ h' => somewhere_mono (((t1.trans t2).trans t3).trans h') _ h1) fun v vp _ hp => ?_
        cases v with
        | bool b => exact places_pure fun _ h' => somewhere_mono (((t1.trans t2).trans t3).trans h') _ h1
        | _ => exact places_panic hp
    · rw [if_neg hop]
      refine places_bind (hr tr1 (.expr m none x) (inExpr_mono (somewhere_mono t1) h3)) fun tr2 o t2 ho =>
        places_regular ho (fun _ _ h' => somewhere_mono ((t1.trans t2).trans h') _ h1) fun v' vp' _ hp' => ?_
      exact places_then (places_reads fun _ => pins_strict (somewhere_mono (t1.trans t2) _ h1) (somewhere_mono t2 _ hp) hp') fun _ _ t3 =>
        places_pure fun _ h' => somewhere_mono (((t1.trans t2).trans t3).trans h') _ h1
  | if_ c t e pos =>
    simp only [InExpr] at h
    obtain ⟨h1, h2, h3, h4⟩ := h
    simp only [stepExpr]
    refine places_bind (hr tr (.expr m none c) h2) fun tr1 o t1 ho => places_regular ho (fun _ _ h' => somewhere_mono (t1.trans h') _ h1) fun v vp _ hp => ?_
    cases v with
    | bool b =>
      refine places_bind (hr tr1 (.block m none (if b then t else e)) ?_) fun tr2 o t2 _ => places_pure fun _ h' => somewhere_mono ((t1.trans t2).trans h') _ h1
      show InStmts _ _
      split
      · exact inStmts_mono (somewhere_mono t1) h3
      · exact inStmts_mono (somewhere_mono t1) h4
    | _ => exact places_panic hp
  | access obj field pos =>
    simp only [InExpr] at h
    obtain ⟨h1, h2, h3⟩ := h
    simp only [stepExpr]
    refine places_bind (hr tr (.expr m none obj) h2) fun tr1 o t1 ho => places_regular ho (fun _ _ h' => somewhere_mono (t1.trans h') _ h1) fun v vp _ hp => ?_
    refine places_bind (hr tr1 (.expr m none field) (inExpr_mono (somewhere_mono t1) h3)) fun tr2 o t2 ho =>
      places_regular ho (fun _ _ h' => somewhere_mono ((t1.trans t2).trans h') _ h1) fun v' vp' _ hp' => ?_
    exact places_then (places_reads fun _ => pins_access (somewhere_mono t2 _ hp) hp') fun _ _ t3 =>
        places_pure fun _ h' => somewhere_mono (((t1.trans t2).trans t3).trans h') _ h1
  | call f args pos =>
    simp only [InExpr] at h
    obtain ⟨h1, h2, h3⟩ := h
    simp only [stepExpr]
    refine places_bind (hr tr (.expr m none f) h2) fun tr1 o t1 ho => places_regular ho (fun _ _ h' => somewhere_mono (t1.trans h') _ h1) fun v vp _ hp => ?_
    cases v with
    | function f =>
      refine places_then places_get fun tr2 s t2 => ?_
      refine places_bind (hr tr2 (.args m args _) (inExprs_mono (somewhere_mono (t1.trans t2)) h3)) fun tr3 o t3 _ =>
        places_skip (fun _ _ h' => somewhere_mono (((t1.trans t2).trans t3).trans h') _ h1) fun _ _ _ => ?_
      refine places_then places_tailShrink fun tr4 _ t4 => ?_
      exact places_bind (hr tr4 (.call _ _ _ _ pos) (somewhere_mono (((t1.trans t2).trans t3).trans t4) _ h1)) fun tr5 _ t5 _ =>
        places_pure fun _ h' => somewhere_mono (((((t1.trans t2).trans t3).trans t4).trans t5).trans h') _ h1
    | _ => exact places_panic hp
  | command b pos =>
    simp only [InExpr] at h
    exact places_then (places_evalCommand h.2) fun _ _ ht => places_pure fun _ h' => somewhere_mono (ht.trans h') _ h.1

theorem places_stepStmt {n r m tail st} (hr : RecPlaces w src r) (h : InStmt (Somewhere w src tr) st) :
    Places w src tr (fun _ _ => True) (stepStmt n r m tail st) := by
  cases st with
  | assign l e =>
    simp only [InStmt] at h
    refine places_bind (hr tr (.expr m none e) h.2) fun tr1 o t1 ho => places_regular ho (fun _ _ _ => trivial) fun v _ _ _ => ?_
    cases l with
    | ident slot pos => exact places_then places_store fun _ _ _ => places_true
    | access a b pos =>
      simp only [InLvalue] at h
      obtain ⟨⟨h1, h2, h3⟩, -⟩ := h
      refine places_bind (hr tr1 (.expr m none a) (inExpr_mono (somewhere_mono t1) h2)) fun tr2 o t2 ho => places_regular ho (fun _ _ _ => trivial) fun obj op _ hop => ?_
      refine places_bind (hr tr2 (.expr m none b) (inExpr_mono (somewhere_mono (t1.trans t2)) h3)) fun tr3 o t3 ho =>
        places_regular ho (fun _ _ _ => trivial) fun f fp _ hfp => ?_
      intro s hs hc
      have hx := pins_assign (h := s.heap) (n := n) (o := obj) (f := f) (v := v) (somewhere_mono t3 _ hop) hfp (somewhere_mono ((t1.trans t2).trans t3) _ h1)
      simp only [Bind.bind, M.andThen, M.reads]
      cases hy : assignValue s.heap n obj op f fp v pos with
      | error e =>
        refine ⟨List.prefix_refl _, hc, fun _ _ => trivial, fun p hp => ?_⟩
        cases hp
        exact .inl (somewhere_mono hs _ (hx.2 p hy))
      | ok h' => exact ⟨List.prefix_refl _, coded_same hc (hx.1 h' hy) rfl, fun _ _ => trivial, fun p hp => by cases hp⟩
  | return_ e =>
    simp only [InStmt] at h
    refine places_bind (hr tr (.expr m tail e) h) fun tr1 o t1 ho => ?_
    rcases o with ⟨fl, p, obj⟩
    cases fl <;> exact places_true
  | break_ => exact places_true
  | while_ c b =>
    simp only [InStmt] at h
    exact hr tr (.loop m c b) h
  | for_ slot e b =>
    simp only [InStmt] at h
    refine places_bind (hr tr (.expr m none e) h.1) fun tr1 o t1 ho => places_regular ho (fun _ _ _ => trivial) fun v vp _ hp => ?_
    cases v with
    | function f => exact hr tr1 (.iter m slot f vp b) ⟨hp, inStmts_mono (somewhere_mono t1) h.2⟩
    | _ => exact places_panic hp
  | expr e =>
    simp only [InStmt] at h
    exact places_weaken (hr tr (.expr m tail e) h) fun _ _ _ _ => trivial

theorem places_step {n r} (hr : RecPlaces w src r) : RecPlaces w src (step w n r) := by
  intro tr t h
  cases t with
  | expr m tail e => exact places_stepExpr hr h
  | items m es acc =>
    cases es with
    | nil => exact places_then (places_alloc fun _ => rfl) fun _ _ _ => places_true
    | cons e es =>
      simp only [TaskIn, InExprs] at h
      exact places_bind (hr tr (.expr m none e) h.1) fun tr1 o t1 ho => places_skip (fun _ _ _ => trivial) fun v _ _ =>
        hr tr1 (.items m es _) (inExprs_mono (somewhere_mono t1) h.2)
  | fields m es acc =>
    rcases es with _ | ⟨⟨k, e⟩, es⟩
    · exact places_then (places_alloc fun _ => rfl) fun _ _ _ => places_true
    · simp only [TaskIn, InFields] at h
      exact places_bind (hr tr (.expr m none e) h.1) fun tr1 o t1 ho => places_skip (fun _ _ _ => trivial) fun v _ _ =>
        hr tr1 (.fields m es _) (inFields_mono (somewhere_mono t1) h.2)
  | args m es start =>
    cases es with
    | nil => exact places_true
    | cons e es =>
      simp only [TaskIn, InExprs] at h
      refine places_bind (hr tr (.expr m none e) h.1) fun tr1 o t1 ho => ?_
      rcases o with ⟨fl, p, obj⟩
      cases fl with
      | regular v =>
        exact places_then (places_modify (fun _ => rfl) fun _ => rfl) fun tr2 _ t2 => hr tr2 (.args m es _) (inExprs_mono (somewhere_mono (t1.trans t2)) h.2)
      | _ => exact places_then (places_modify (fun _ => rfl) fun _ => rfl) fun _ _ _ => places_true
  | stmt m tail s => exact places_stepStmt hr h
  | block m tail ss =>
    rcases ss with _ | ⟨s, _ | ⟨s', ss⟩⟩
    · exact places_true
    · simp only [TaskIn, InStmts] at h
      exact places_weaken (hr tr (.stmt m tail s) h.1) fun _ _ _ _ => trivial
    · simp only [TaskIn] at h
      rw [InStmts] at h
      exact places_bind (hr tr (.stmt m none s) h.1) fun tr1 o t1 ho => places_skip (fun _ _ _ => trivial) fun v _ _ =>
        hr tr1 (.block m tail (s' :: ss)) (inStmts_mono (somewhere_mono t1) h.2)
  | loop m c b =>
    refine places_bind (hr tr (.expr m none c) h.1) fun tr1 o t1 ho => places_regular ho (fun _ _ _ => trivial) fun v vp _ hp => ?_
    cases v with
    | bool x => cases x with
      | true =>
        exact places_bind (hr tr1 (.block m none b) (inStmts_mono (somewhere_mono t1) h.2)) fun tr2 o t2 _ =>
          places_afterBody (hr tr2 (.loop m c b) ⟨inExpr_mono (somewhere_mono (t1.trans t2)) h.1, inStmts_mono (somewhere_mono (t1.trans t2)) h.2⟩)
            fun _ _ => trivial
      | false => exact places_true
    | _ => exact places_panic hp
  | iter m slot f pos b =>
    refine places_then places_get fun tr1 s t1 => places_bind (hr tr1 (.call m .nil f _ pos) (somewhere_mono t1 _ h.1)) fun tr2 o t2 _ =>
      places_then places_result fun tr3 v t3 => places_then (places_reads fun _ => pins_next (somewhere_mono ((t1.trans t2).trans t3) _ h.1)) fun tr4 y t4 => ?_
    have h4 := ((t1.trans t2).trans t3).trans t4
    cases y with
    | none => exact places_true
    | some v =>
      exact places_then places_store fun tr5 _ t5 => places_bind (hr tr5 (.block m none b) (inStmts_mono (somewhere_mono (h4.trans t5)) h.2)) fun tr6 o t6 _ =>
        places_afterBody (hr tr6 (.iter m slot f pos b) ⟨somewhere_mono ((h4.trans t5).trans t6) _ h.1, inStmts_mono (somewhere_mono ((h4.trans t5).trans t6)) h.2⟩)
            fun _ _ => trivial
  | call m obj f start pos => exact places_stepCall hr h
  | program m p => exact places_stepProgram hr h

theorem places_run : ∀ (n : Nat), RecPlaces w src (run w n)
  | 0 => fun _ _ _ => places_stop nofun
  | n + 1 => places_step (places_run n)

theorem coded_init (argv file) : Coded w src (RState.init argv file) := ⟨nofun, nofun⟩

/-- An execution of a script. -/
theorem program_places {p : Program} (h : Accepts src p) (n argv file) :
    Coded w src (runProgram w n p argv file).2 ∧
      ∀ q, (runProgram w n p argv file).1 = .error (.panic q) → Placed w src (runProgram w n p argv file).2.trace q := by
  have h1 := places_run (w := w) (src := src) n [] (.program 0 p) (inStmts_mono (fun q hq => ⟨src, .script, hq⟩) (accepts_places h))
    (RState.init argv file) List.nil_prefix (coded_init argv file)
  exact ⟨h1.2.1, h1.2.2.2⟩

end Hush

import Verif.Lemmas.Grow
import Verif.Lemmas.InterpReach

/-!
Properties of the handles of asynchronous commands and of the events, which hold throughout an execution.
-/

namespace Hush

/-- The handles of asynchronous commands are as before, and no event is a join. -/
structure Calm (s s' : RState) : Prop where
  joins : ∀ (a : Nat) (j : Option Nat), s'.heap.natives[a]? = some (.join j) ↔ s.heap.natives[a]? = some (.join j)
  trace : ∃ evs : List Event, s'.trace = s.trace ++ evs ∧ ∀ t, .join t ∉ evs
  argv : s'.argv = s.argv
  std : s'.std = s.std

/-- What all actions of the interpreter preserve. -/
structure Stable (P : RState → Prop) : Prop where
  calm : ∀ {s s'}, P s → Calm s s' → P s'
  spawn : ∀ {s s' b}, P s → s'.heap.natives = s.heap.natives ++ [.join (some s.trace.length)] →
    s'.trace = s.trace ++ [.command .asynchronous b] → s'.argv = s.argv → s'.std = s.std → P s'
  join : ∀ {s s' : RState} {a t : Nat}, P s → s.heap.natives[a]? = some (.join (some t)) →
    s'.heap.natives = s.heap.natives.set a (.join none) → s'.trace = s.trace ++ [.join t] →
    s'.argv = s.argv → s'.std = s.std → P s'

theorem Calm.of (s s' : RState) (h1 : s'.heap.natives = s.heap.natives) (h2 : s'.trace = s.trace)
    (h3 : s'.argv = s.argv := by rfl) (h4 : s'.std = s.std := by rfl) : Calm s s' :=
  ⟨fun _ _ => by rw [h1], ⟨[], by simp [h2], by simp⟩, h3, h4⟩

theorem Calm.keeps {s s' : RState} (h1 : HeapKeeps s.heap s'.heap) (h2 : s'.trace = s.trace)
    (h3 : s'.argv = s.argv := by rfl) (h4 : s'.std = s.std := by rfl) : Calm s s' :=
  ⟨h1.joins, ⟨[], by simp [h2], by simp⟩, h3, h4⟩

theorem Calm.trans {a b c : RState} (h1 : Calm a b) (h2 : Calm b c) : Calm a c := by
  obtain ⟨e1, p1, q1⟩ := h1.trace
  obtain ⟨e2, p2, q2⟩ := h2.trace
  exact ⟨fun x j => (h2.joins x j).trans (h1.joins x j), ⟨e1 ++ e2, by rw [p2, p1, List.append_assoc], fun t => by simp [q1 t, q2 t]⟩,
    h2.argv.trans h1.argv, h2.std.trans h1.std⟩

section
variable {P : RState → Prop}

/-- On states with `P`, the computations agree and preserve `P`. -/
def Agree (P : RState → Prop) (m m' : M α) : Prop := ∀ s, P s → m' s = m s ∧ P (m s).2

theorem agree_bind {m m' : M α} {f f' : α → M β} (hm : Agree P m m') (hf : ∀ a, Agree P (f a) (f' a)) :
    Agree P (m >>= f) (m' >>= f') := by
  intro s hs
  obtain ⟨h1, h2⟩ := hm s hs
  simp only [Bind.bind, M.andThen, h1]
  rcases he : m s with ⟨_ | a, s'⟩
  · rw [he] at h2; exact ⟨rfl, h2⟩
  · rw [he] at h2; exact hf a s' h2

/-- The computation changes handles and events in no way. -/
def Keeping (m : M α) : Prop := ∀ s, Calm s (m s).2

theorem Keeping.agree (hP : Stable P) {m : M α} (h : Keeping m) : Agree P m m := fun s hs => ⟨rfl, hP.calm hs (h s)⟩

theorem Calm.refl (s : RState) : Calm s s := .of s s rfl rfl

theorem keeping_bind {m : M α} {f : α → M β} (hm : Keeping m) (hf : ∀ a, Keeping (f a)) : Keeping (m >>= f) := by
  intro s
  have h1 := hm s
  simp only [Bind.bind, M.andThen]
  rcases he : m s with ⟨_ | a, s'⟩
  · rw [he] at h1; exact h1
  · rw [he] at h1; exact h1.trans (hf a s')
theorem keeping_pure {a : α} : Keeping (pure a : M α) := fun _ => .refl _
theorem keeping_stop {e} : Keeping (M.stop e : M α) := fun _ => .refl _
theorem keeping_panic {k p} : Keeping (M.panic k p : M α) := keeping_stop
theorem keeping_crash {k} : Keeping (M.crash k : M α) := keeping_stop
theorem keeping_get : Keeping M.get := fun _ => .refl _
theorem keeping_lift {x : Except Stop α} : Keeping (M.lift x) := by cases x <;> exact fun _ => .refl _
theorem keeping_reads {f : Heap → Except Stop α} : Keeping (M.reads f) := fun _ => .refl _
theorem keeping_modify {f : RState → RState} (h1 : ∀ s, (f s).heap = s.heap) (h2 : ∀ s, (f s).trace = s.trace)
    (h3 : ∀ s, (f s).argv = s.argv := by exact fun _ => rfl) (h4 : ∀ s, (f s).std = s.std := by exact fun _ => rfl) : Keeping (M.modify f) := by
  intro s; exact .of s (f s) (by rw [h1]) (h2 s) (h3 s) (h4 s)
theorem keeping_record {e : Event} (h : ∀ t, e ≠ .join t) : Keeping (record e) := fun _ =>
  ⟨fun _ _ => .rfl, ⟨[e], rfl, fun t ht => h t (List.mem_singleton.1 ht).symm⟩, rfl, rfl⟩
theorem keeping_newArray {vs : Heap → List Value} : Keeping (M.alloc fun h => h.newArray (vs h)) :=
  fun _ => .keeps (keeps_newArray _ _) rfl
theorem keeping_newDict {vs} : Keeping (M.alloc fun h => h.newDict vs) := fun _ => .keeps (keeps_newDict _ _) rfl
theorem keeping_newClosure {k} : Keeping (M.alloc fun h => h.newClosure k) := fun _ => .of _ _ rfl rfl
theorem keeping_fetch {ix} : Keeping (fetch ix) := by intro s; unfold fetch; split <;> exact .refl _
theorem keeping_store {ix v} : Keeping (store ix v) := by intro s; unfold store; split <;> exact .of _ _ rfl rfl
theorem keeping_capture {ix} : Keeping (capture ix) := by intro s; unfold capture; split <;> exact .of _ _ rfl rfl
theorem keeping_place {ix c} : Keeping (place ix c) := by intro s; unfold place; split <;> exact .of _ _ rfl rfl
theorem keeping_extend {w n pos} : Keeping (extend w n pos) := by intro s; unfold extend; split <;> exact .of _ _ rfl rfl
theorem keeping_shrink {n} : Keeping (shrink n) := by intro s; unfold shrink; split <;> exact .of _ _ rfl rfl
theorem keeping_captureAll : ∀ {cs}, Keeping (captureAll cs)
  | [] => keeping_pure
  | _ :: _ => keeping_bind keeping_capture fun _ => keeping_bind keeping_captureAll fun _ => keeping_pure
theorem keeping_storeArgs : ∀ {ix vs}, Keeping (storeArgs ix vs)
  | _, [] => keeping_pure
  | _, _ :: _ => keeping_bind keeping_store fun _ => keeping_storeArgs
theorem keeping_placeAll : ∀ {l}, Keeping (placeAll l)
  | [] => keeping_pure
  | (_, _) :: _ => keeping_bind keeping_place fun _ => keeping_placeAll
theorem keeping_storeSelf {obj o} : Keeping (storeSelf obj o) := by
  cases o with
  | none => exact keeping_pure
  | some ix => exact keeping_store
theorem keeping_tailShrink {tail} : Keeping (tailShrink tail) := by
  cases tail with
  | none => exact keeping_pure
  | some n => exact keeping_bind keeping_shrink fun _ => keeping_modify (fun _ => rfl) fun _ => rfl
theorem keeping_answer {args x} : Keeping (answer args x) := by
  cases x with
  | value t => exact fun s => .keeps (keeps_build args s.heap t) rfl
  | panic p => exact keeping_stop
  | crash => exact keeping_crash
  | exit k => exact keeping_stop
theorem keeping_result {o : Out} : Keeping o.result := by
  rcases o with ⟨fl, p, obj⟩
  cases fl with
  | regular v => exact keeping_pure
  | return_ v => exact keeping_crash
  | break_ => exact keeping_crash
theorem keeping_callLib {w : World} {n name addr args pos} : Keeping (callLib w n name addr args pos) := by
  intro s
  have h1 := (libOk_call w name ⟨n, addr, args, pos, s.argv⟩ s.heap).1
  unfold callLib
  split
  · rename_i v h he
    exact .keeps (h1 v h he) rfl
  · exact .refl _
  · exact keeping_bind (keeping_record (by simp)) (fun _ => keeping_answer) s

variable (hP : Stable P)
include hP

theorem agree_regular {o : Out} {pos} {k k' : Value → Pos → Value → M Out} (h : ∀ v p obj, Agree P (k v p obj) (k' v p obj)) :
    Agree P (o.regular pos k) (o.regular pos k') := by
  rcases o with ⟨fl, p, obj⟩
  cases fl with
  | regular v => exact h v p obj
  | return_ v => exact keeping_pure.agree hP
  | break_ => exact keeping_pure.agree hP

theorem agree_catching {w : World} {m m' : M Out} (h : Agree P m m') : Agree P (catching w m) (catching w m') := by
  intro s hs
  obtain ⟨h1, h2⟩ := h s hs
  unfold catching
  rw [h1]
  refine ⟨rfl, ?_⟩
  rcases he : m s with ⟨e | o, s'⟩
  · rw [he] at h2
    cases e with
    | panic p =>
      exact hP.calm h2 (.keeps (keeps_newError s'.heap (bs "caught panic: " ++ w.showPanic s'.heap p) (.string (bs "panic"))) rfl)
    | _ => exact h2
  · rw [he] at h2
    dsimp only
    split <;> exact h2

theorem agree_finally {m m' : M α} {f : RState → RState} (hm : Agree P m m') (h1 : ∀ s, (f s).heap = s.heap)
    (h2 : ∀ s, (f s).trace = s.trace)
    (h3 : ∀ s, (f s).argv = s.argv := by exact fun _ => rfl) (h4 : ∀ s, (f s).std = s.std := by exact fun _ => rfl) : Agree P (finally_ m f) (finally_ m' f) := by
  intro s hs
  obtain ⟨e1, e2⟩ := hm s hs
  unfold finally_
  rw [e1]
  exact ⟨rfl, hP.calm e2 (.of _ _ (by rw [h1]) (h2 _) (h3 _) (h4 _))⟩

theorem agree_withFrame {n} {m m' : M Out} (h : Agree P m m') : Agree P (withFrame n m) (withFrame n m') := by
  intro s hs
  obtain ⟨h1, h2⟩ := h { s with shrunk := false } (hP.calm hs (.of _ _ rfl rfl))
  unfold withFrame
  rw [h1]
  refine ⟨rfl, ?_⟩
  rcases he : m { s with shrunk := false } with ⟨x, s'⟩
  rw [he] at h2
  dsimp only
  split
  · exact hP.calm h2 (.of _ _ rfl rfl)
  · have h3 := keeping_shrink (n := n) s'
    rcases he2 : shrink n s' with ⟨_ | _, s''⟩
    · rw [he2] at h3; exact hP.calm h2 (h3.trans (.of _ _ rfl rfl))
    · rw [he2] at h3; exact hP.calm h2 (h3.trans (.of _ _ rfl rfl))

theorem agree_afterBody {o : Out} {m m' : M Out} (h : Agree P m m') : Agree P (afterBody o m) (afterBody o m') := by
  rcases o with ⟨fl, p, x⟩
  cases fl with
  | regular v => exact h
  | return_ v => exact keeping_pure.agree hP
  | break_ => exact keeping_pure.agree hP

/-- All recursive calls agree. -/
def RecAgree (P : RState → Prop) (r r' : Task → M Out) : Prop := ∀ t, Agree P (r t) (r' t)

/-- Proves that computations agree. -/
macro "agree" : tactic => `(tactic| repeat' (first
  | exact (by assumption : RecAgree _ _ _) _
  | exact Keeping.agree (by assumption) keeping_pure | exact Keeping.agree (by assumption) keeping_stop
  | exact Keeping.agree (by assumption) keeping_panic | exact Keeping.agree (by assumption) keeping_crash
  | exact Keeping.agree (by assumption) keeping_get | exact Keeping.agree (by assumption) keeping_lift
  | exact Keeping.agree (by assumption) keeping_reads | exact Keeping.agree (by assumption) (keeping_record (by simp))
  | exact Keeping.agree (by assumption) keeping_newArray | exact Keeping.agree (by assumption) keeping_newDict
  | exact Keeping.agree (by assumption) keeping_newClosure | exact Keeping.agree (by assumption) keeping_fetch
  | exact Keeping.agree (by assumption) keeping_store | exact Keeping.agree (by assumption) keeping_capture
  | exact Keeping.agree (by assumption) keeping_place | exact Keeping.agree (by assumption) keeping_extend
  | exact Keeping.agree (by assumption) keeping_shrink | exact Keeping.agree (by assumption) keeping_captureAll
  | exact Keeping.agree (by assumption) keeping_storeArgs | exact Keeping.agree (by assumption) keeping_placeAll
  | exact Keeping.agree (by assumption) keeping_storeSelf | exact Keeping.agree (by assumption) keeping_tailShrink
  | exact Keeping.agree (by assumption) keeping_answer | exact Keeping.agree (by assumption) keeping_result
  | exact Keeping.agree (by assumption) keeping_callLib
  | exact Keeping.agree (by assumption) (keeping_modify (fun _ => rfl) (fun _ => rfl))
  | refine agree_regular (by assumption) ?_ | refine agree_catching (by assumption) ?_
  | refine agree_withFrame (by assumption) ?_ | refine agree_afterBody (by assumption) ?_
  | (refine agree_bind ?_ ?_) | split | (intro _)))

theorem agree_evalCommand {w : World} {b} : Agree P (evalCommand w b) (evalCommand w b) := by
  intro s hs
  refine ⟨rfl, ?_⟩
  unfold evalCommand
  simp only [Bind.bind, M.andThen, M.get]
  cases hb : buildBlock (argEnv w s) b.head b.tail with
  | error e => exact hs
  | ok ex =>
    simp only [M.lift]
    cases hk : b.kind with
    | asynchronous => exact hP.spawn hs rfl rfl rfl rfl
    | _ =>
      refine hP.calm hs (Calm.trans (b := { s with trace := s.trace ++ [.command b.kind ex] }) ?_ ?_)
      · exact ⟨fun _ _ => .rfl, ⟨[_], rfl, by simp⟩, rfl, rfl⟩
      · have h1 := @keeping_answer [] (w.command s.trace b.kind ex) { s with trace := s.trace ++ [.command b.kind ex] }
        rw [hk] at h1 ⊢
        exact h1

theorem agree_loadModule {w : World} {r r' path pos} (hr : RecAgree P r r') : Agree P (loadModule w r path pos) (loadModule w r' path pos) := by
  unfold loadModule
  refine agree_bind (keeping_get.agree hP) fun s => agree_bind ((keeping_record (by simp)).agree hP) fun _ => ?_
  cases w.readFile s.trace path with
  | error e => agree
  | ok src =>
    dsimp only
    cases syntaxAnalysis src with
    | none => agree
    | some a =>
      dsimp only
      by_cases ha : a.isOk = true
      · rw [if_pos ha, if_pos ha]
        cases analyze a.ast <;> agree
      · rw [if_neg ha, if_neg ha]; agree
theorem agree_importModule {w : World} {r r' m args pos} (hr : RecAgree P r r') :
    Agree P (importModule w r m args pos) (importModule w r' m args pos) := by
  unfold importModule
  rcases args with _ | ⟨v, _ | _⟩
  · agree
  · cases v with
    | string target =>
      refine agree_bind (keeping_get.agree hP) fun s => ?_
      cases w.resolve s.trace (s.file m) target with
      | error e => agree
      | ok path =>
        dsimp only
        cases s.modules.lookup path with
        | some v => agree
        | none => exact agree_bind (agree_loadModule hP hr) (by agree)
    | _ => exact keeping_panic.agree hP
  · cases v <;> exact keeping_panic.agree hP
theorem agree_joinCommand {w : World} {addr pos} : Agree P (joinCommand w addr pos) (joinCommand w addr pos) := by
  intro s hs
  refine ⟨rfl, ?_⟩
  simp only [joinCommand, Bind.bind, M.andThen, M.get]
  cases hn : s.heap.native addr with
  | join j =>
    cases j with
    | none => exact hs
    | some t =>
      have hn' : s.heap.natives[addr]? = some (.join (some t)) := by
        simp only [Heap.native, List.getD_eq_getElem?_getD] at hn
        cases hx : s.heap.natives[addr]? with
        | none => rw [hx] at hn; cases hn
        | some y => rw [hx] at hn; exact congrArg some hn
      have h1 : P { s with heap := s.heap.setNative addr (.join none), trace := s.trace ++ [.join t] } := hP.join hs hn' rfl rfl rfl rfl
      exact hP.calm h1 (@keeping_answer [] (w.joined s.trace t) _)
  | _ => exact hs
theorem agree_nativeCall {w : World} {n r r' m name addr start pos} (hr : RecAgree P r r') :
    Agree P (nativeCall w n r m name addr start pos) (nativeCall w n r' m name addr start pos) := by
  unfold nativeCall
  refine agree_bind (keeping_get.agree hP) fun s => ?_
  dsimp only
  by_cases h1 : name = bs "std.catch"
  · rw [if_pos h1, if_pos h1]
    rcases s.args.drop start with _ | ⟨v, _ | _⟩
    · agree
    · cases v <;> agree
    · agree
  · rw [if_neg h1, if_neg h1]
    by_cases h2 : name = bs "std.bind<impl>"
    · rw [if_pos h2, if_pos h2]
      cases s.heap.native addr <;> agree
    · rw [if_neg h2, if_neg h2]
      by_cases h3 : name = bs "std.import"
      · rw [if_pos h3, if_pos h3]
        exact agree_importModule hP hr
      · rw [if_neg h3, if_neg h3]
        by_cases h4 : name = bs "<command>.join"
        · rw [if_pos h4]; exact agree_joinCommand hP
        · rw [if_neg h4]; agree
theorem agree_stepCall {w : World} {n r r' m obj f start pos} (hr : RecAgree P r r') :
    Agree P (stepCall w n r m obj f start pos) (stepCall w n r' m obj f start pos) := by
  intro s hs
  unfold stepCall
  by_cases h : s.args.length < start
  · rw [if_pos h, if_pos h]; exact ⟨rfl, hs⟩
  · rw [if_neg h, if_neg h]
    cases f with
    | hush a =>
      dsimp only
      refine (?_ : Agree P _ _) s hs
      refine agree_bind (by agree) fun _ => ?_
      by_cases hl : (s.args.drop start).length ≠ (s.heap.closure a).params
      · rw [if_pos hl, if_pos hl]; agree
      · rw [if_neg hl, if_neg hl]; agree
    | native name addr =>
      dsimp only
      refine (?_ : Agree P _ _) s hs
      exact agree_bind (agree_finally hP (agree_nativeCall hP hr) (fun _ => rfl) fun _ => rfl) (by agree)
theorem agree_stepProgram {w : World} {r r' m p} (hr : RecAgree P r r') : Agree P (stepProgram w r m p) (stepProgram w r' m p) := by
  unfold stepProgram
  refine agree_bind (by agree) fun _ => agree_bind (by agree) fun s => agree_bind (by agree) fun _ => agree_bind ?_ (by agree)
  intro s hs
  obtain ⟨h1, h2⟩ := hr (.block m none p.statements) s hs
  beta_reduce
  rw [h1]
  refine ⟨rfl, ?_⟩
  rcases he : r (.block m none p.statements) s with ⟨_ | _, s'⟩
  · rw [he] at h2; exact hP.calm h2 (.of _ _ rfl rfl)
  · rw [he] at h2; exact h2
theorem agree_stepLit {w : World} {r r' m l pos} (hr : RecAgree P r r') : Agree P (stepLit w r m l pos) (stepLit w r' m l pos) := by
  cases l <;> simp only [stepLit] <;> agree
theorem agree_stepExpr {w : World} {n r r' m tail e} (hr : RecAgree P r r') :
    Agree P (stepExpr w n r m tail e) (stepExpr w n r' m tail e) := by
  cases e with
  | ident slot pos => simp only [stepExpr]; agree
  | lit l pos => exact agree_stepLit hP hr
  | unary op e pos => simp only [stepExpr]; agree
  | binary l op x pos =>
    simp only [stepExpr]
    refine agree_bind (hr _) fun o => agree_regular hP fun v vpos _ => ?_
    by_cases ho : op = .and ∨ op = .or
    · rw [if_pos ho, if_pos ho]
      refine agree_bind (by agree) fun y => ?_
      cases y with
      | some v => agree
      | none =>
        refine agree_bind (hr _) fun o => agree_regular hP fun v vpos _ => ?_
        cases v <;> first | exact keeping_panic.agree hP | exact keeping_pure.agree hP
    · rw [if_neg ho, if_neg ho]; agree
  | if_ c t e pos =>
    simp only [stepExpr]
    refine agree_bind (hr _) fun o => agree_regular hP fun v vpos _ => ?_
    cases v with
    | bool b => agree
    | _ => exact keeping_panic.agree hP
  | access obj field pos => simp only [stepExpr]; agree
  | call f args pos =>
    simp only [stepExpr]
    refine agree_bind (hr _) fun o => agree_regular hP fun v vpos _ => ?_
    cases v with
    | function f => agree
    | _ => exact keeping_panic.agree hP
  | command b pos => exact agree_bind (agree_evalCommand hP) (by agree)
theorem agree_stepStmt {n r r' m tail st} (hr : RecAgree P r r') : Agree P (stepStmt n r m tail st) (stepStmt n r' m tail st) := by
  cases st with
  | assign l e =>
    refine agree_bind (hr _) fun o => agree_regular hP fun v _ _ => ?_
    cases l with
    | ident slot pos => agree
    | access a b pos =>
      refine agree_bind (hr _) fun o => agree_regular hP fun obj opos _ => agree_bind (hr _) fun o => agree_regular hP fun f fpos _ => ?_
      refine Keeping.agree hP fun s => ?_
      simp only [Bind.bind, M.andThen, M.reads]
      cases hx : assignValue s.heap n obj opos f fpos v pos with
      | error e => exact .refl _
      | ok h' => exact .keeps (assignValue_keeps hx) rfl
  | return_ e =>
    refine agree_bind (hr _) fun o => ?_
    rcases o with ⟨fl, p, obj⟩
    cases fl <;> exact keeping_pure.agree hP
  | break_ => exact keeping_pure.agree hP
  | while_ c b => exact hr _
  | for_ slot e b =>
    refine agree_bind (hr _) fun o => agree_regular hP fun v vpos _ => ?_
    cases v with
    | function f => exact hr _
    | _ => exact keeping_panic.agree hP
  | expr e => exact hr _
theorem agree_step {w : World} {n r r'} (hr : RecAgree P r r') : RecAgree P (step w n r) (step w n r') := by
  intro t
  cases t with
  | expr m tail e => exact agree_stepExpr hP hr
  | items m es acc => cases es <;> (simp only [step]; agree)
  | fields m es acc =>
    rcases es with _ | ⟨⟨k, e⟩, es⟩ <;> (simp only [step]; agree)
  | args m es start =>
    cases es with
    | nil => exact keeping_pure.agree hP
    | cons e es =>
      refine agree_bind (hr _) fun o => ?_
      rcases o with ⟨fl, p, obj⟩
      cases fl with
      | regular v => exact agree_bind (by agree) fun _ => hr _
      | _ => exact agree_bind (by agree) fun _ => keeping_pure.agree hP
  | stmt m tail s => exact agree_stepStmt hP hr
  | block m tail ss =>
    rcases ss with _ | ⟨s, _ | ⟨s', ss⟩⟩
    · exact keeping_pure.agree hP
    · exact hr _
    · exact agree_bind (hr _) fun o => agree_regular hP fun _ _ _ => hr _
  | loop m c b =>
    refine agree_bind (hr _) fun o => agree_regular hP fun v vpos _ => ?_
    cases v with
    | bool b => cases b with
      | true => exact agree_bind (hr _) fun o => agree_afterBody hP (hr _)
      | false => exact keeping_pure.agree hP
    | _ => exact keeping_panic.agree hP
  | iter m slot f pos b =>
    refine agree_bind (keeping_get.agree hP) fun s => agree_bind (hr _) fun o => agree_bind (keeping_result.agree hP) fun v =>
      agree_bind (keeping_reads.agree hP) fun y => ?_
    cases y with
    | none => exact keeping_pure.agree hP
    | some v => exact agree_bind (keeping_store.agree hP) fun _ => agree_bind (hr _) fun o => agree_afterBody hP (hr _)
  | call m obj f start pos => exact agree_stepCall hP hr
  | program m p => exact agree_stepProgram hP hr

/-- Every task preserves what is stable. -/
theorem stable_run (w : World) : ∀ (n : Nat) (t : Task) (s : RState), P s → P (run w n t s).2 := by
  have key : ∀ n, RecAgree P (run w n) (run w n) := by
    intro n
    induction n with
    | zero => exact fun _ => keeping_stop.agree hP
    | succ n ih => exact agree_step hP ih
  exact fun n t s hs => (key n t s hs).2

open Spec in
/-- What is stable holds whenever a task is started. -/
theorem stable_starts {w : World} {n t s t' s' c} (hp : Pre c t s) (h : Starts w n t s t' s') (hs : P s) : P s' := by
  by_contra hn
  have hr : RecAgree P (run w n) (probed (run w n) t' s') := by
    intro t1 s1 h1
    refine ⟨?_, stable_run hP w n t1 s1 h1⟩
    simp only [probed]
    rw [if_neg]
    rintro ⟨-, rfl⟩
    exact hn h1
  have h2 := (agree_step hP (w := w) (n := n) hr t s hs).1
  simp only [Starts, h2] at h
  have := run_ok w (n + 1) c t s hp
  simp only [Runs, run] at this
  rcases hm : step w n (run w n) t s with ⟨e | o, s1⟩
  · simp only [hm] at h
    rw [hm] at this
    cases h
    exact this.1.1 rfl
  · simp only [hm] at h; cases h

open Spec in
theorem stable_reaches {w : World} {n t s k t' s' c} (h : Reaches w n t s k t' s') : Pre c t s → P s → P s' := by
  intro hp
  induction h generalizing c with
  | self => exact id
  | sub h1 _ ih =>
    intro hs
    obtain ⟨c', hp'⟩ := starts_pre hp h1
    exact ih hp' (stable_starts hP hp h1 hs)

end

/-! ### Handles -/

/-- An open handle belongs to one asynchronous command, which was not joined; no command is joined twice, nor before it is
started. -/
structure Handles (s : RState) : Prop where
  opened : ∀ (a t : Nat), s.heap.natives[a]? = some (.join (some t)) →
    (∃ b, s.trace[t]? = some (.command .asynchronous b)) ∧ .join t ∉ s.trace ∧
      ∀ a' : Nat, s.heap.natives[a']? = some (.join (some t)) → a' = a
  once : ∀ t, s.trace.count (.join t) ≤ 1
  after : ∀ (i t : Nat), s.trace[i]? = some (.join t) → t < i ∧ ∃ b, s.trace[t]? = some (.command .asynchronous b)

theorem lt_of_getElem?_some {l : List α} {i : Nat} {x : α} (h : l[i]? = some x) : i < l.length := by
  rcases List.getElem?_eq_some_iff.1 h with ⟨h, _⟩; exact h

theorem getElem?_snoc {l : List α} {x y : α} {i : Nat} (h : (l ++ [x])[i]? = some y) :
    l[i]? = some y ∨ (i = l.length ∧ x = y) := by
  have hl := lt_of_getElem?_some h
  simp only [List.length_append, List.length_singleton] at hl
  by_cases hi : i < l.length
  · exact .inl (by rw [← h, List.getElem?_append_left hi])
  · have : i = l.length := by omega
    subst this
    rw [List.getElem?_append_right (Nat.le_refl _)] at h
    simp at h
    exact .inr ⟨rfl, h⟩

theorem stable_handles : Stable Handles where
  calm := by
    rintro s s' hs ⟨hj, ⟨evs, he, hn⟩, -, -⟩
    refine ⟨fun a t h => ?_, fun t => ?_, fun i t h => ?_⟩
    · obtain ⟨⟨b, h1⟩, h2, h3⟩ := hs.opened a t ((hj a _).1 h)
      refine ⟨⟨b, ?_⟩, ?_, fun a' h' => h3 a' ((hj a' _).1 h')⟩
      · rw [he, List.getElem?_append_left (lt_of_getElem?_some h1)]; exact h1
      · rw [he]; simp [h2, hn t]
    · rw [he, List.count_append, List.count_eq_zero.2 (hn t)]; exact hs.once t
    · rw [he] at h
      rw [List.getElem?_append] at h
      split at h
      · obtain ⟨h1, b, h2⟩ := hs.after i t h
        exact ⟨h1, b, by rw [he, List.getElem?_append_left (lt_of_getElem?_some h2)]; exact h2⟩
      · exact absurd (List.mem_of_getElem? h) (hn t)
  spawn := by
    intro s s' b hs hh he _ _
    refine ⟨fun a t h => ?_, fun t => ?_, fun i t h => ?_⟩
    · rw [hh] at h
      rcases getElem?_snoc h with h | ⟨hx, h'⟩
      · obtain ⟨⟨b', h1⟩, h2, h3⟩ := hs.opened a t h
        have hl := lt_of_getElem?_some h1
        refine ⟨⟨b', ?_⟩, ?_, fun a' h' => ?_⟩
        · rw [he, List.getElem?_append_left hl]; exact h1
        · rw [he]; simp [h2]
        · rw [hh] at h'
          rcases getElem?_snoc h' with h' | ⟨-, h''⟩
          · exact h3 a' h'
          · simp at h''; omega
      · simp only [NState.join.injEq, Option.some.injEq] at h'
        subst h' hx
        refine ⟨⟨b, by rw [he]; simp⟩, ?_, fun a' h' => ?_⟩
        · rw [he]
          simp only [List.mem_append, List.mem_singleton, reduceCtorEq, or_false]
          intro hm
          obtain ⟨i, hi⟩ := List.getElem?_of_mem hm
          have := lt_of_getElem?_some hi
          have := (hs.after i _ hi).1
          omega
        · rw [hh] at h'
          rcases getElem?_snoc h' with h' | ⟨h', -⟩
          · obtain ⟨⟨b', h1⟩, -⟩ := hs.opened a' _ h'
            have := lt_of_getElem?_some h1
            omega
          · exact h'
    · rw [he, List.count_append, List.count_eq_zero.2 (show Event.join t ∉ [Event.command .asynchronous b] by simp)]; exact hs.once t
    · rw [he] at h
      rcases getElem?_snoc h with h | ⟨-, h⟩
      · obtain ⟨h1, b, h2⟩ := hs.after i t h
        exact ⟨h1, b, by rw [he, List.getElem?_append_left (lt_of_getElem?_some h2)]; exact h2⟩
      · cases h
  join := by
    intro s s' a t hs ha hh he _ _
    obtain ⟨⟨b, h1⟩, h2, h3⟩ := hs.opened a t ha
    have set : ∀ (a' t' : Nat), s'.heap.natives[a']? = some (.join (some t')) → a' ≠ a ∧ s.heap.natives[a']? = some (.join (some t')) := by
      intro a' t' h
      rw [hh, List.getElem?_set] at h
      split at h
      · split at h
        · simp at h
        · cases h
      · rename_i hx; exact ⟨fun hx' => hx hx'.symm, h⟩
    refine ⟨fun a' t' h => ?_, fun t' => ?_, fun i t' h => ?_⟩
    · obtain ⟨hne, h⟩ := set a' t' h
      obtain ⟨⟨b', g1⟩, g2, g3⟩ := hs.opened a' t' h
      refine ⟨⟨b', ?_⟩, ?_, fun a'' h'' => g3 a'' (set a'' t' h'').2⟩
      · rw [he, List.getElem?_append_left (lt_of_getElem?_some g1)]; exact g1
      · rw [he]
        simp only [List.mem_append, List.mem_singleton, Event.join.injEq, not_or]
        refine ⟨g2, ?_⟩
        rintro rfl
        exact hne (h3 a' h)
    · rw [he, List.count_append]
      by_cases ht : t' = t
      · subst ht
        rw [List.count_eq_zero.2 h2]; simp
      · rw [List.count_eq_zero.2 (show Event.join t' ∉ [Event.join t] by simp [ht])]; exact hs.once t'
    · rw [he] at h
      rcases getElem?_snoc h with h | ⟨hi, h⟩
      · obtain ⟨h1, b, h2⟩ := hs.after i t' h
        exact ⟨h1, b, by rw [he, List.getElem?_append_left (lt_of_getElem?_some h2)]; exact h2⟩
      · cases h
        have := lt_of_getElem?_some h1
        exact ⟨by omega, b, by rw [he, List.getElem?_append_left this]; exact h1⟩

/-- The handle `a` of the command `t` is open and the command was not joined, or it is used up and the command was joined. -/
def Life (a t : Nat) (s : RState) : Prop :=
  Handles s ∧ ((s.heap.natives[a]? = some (.join (some t)) ∧ .join t ∉ s.trace) ∨
    (s.heap.natives[a]? = some (.join none) ∧ .join t ∈ s.trace))

theorem stable_life (a t : Nat) : Stable (Life a t) where
  calm := by
    rintro s s' ⟨hs, h⟩ hc
    refine ⟨stable_handles.calm hs hc, ?_⟩
    obtain ⟨hj, ⟨evs, he, hn⟩, -, -⟩ := hc
    rw [he]
    rcases h with ⟨h1, h2⟩ | ⟨h1, h2⟩
    · exact .inl ⟨(hj _ _).2 h1, by simp [h2, hn t]⟩
    · exact .inr ⟨(hj _ _).2 h1, by simp [h2]⟩
  spawn := by
    rintro s s' b ⟨hs, h⟩ hh he h3 h4
    refine ⟨stable_handles.spawn hs hh he h3 h4, ?_⟩
    rw [he, hh]
    rcases h with ⟨h1, h2⟩ | ⟨h1, h2⟩
    · exact .inl ⟨by rw [List.getElem?_append_left (lt_of_getElem?_some h1)]; exact h1, by simp [h2]⟩
    · exact .inr ⟨by rw [List.getElem?_append_left (lt_of_getElem?_some h1)]; exact h1, by simp [h2]⟩
  join := by
    rintro s s' a' t' ⟨hs, h⟩ ha hh he h3 h4
    refine ⟨stable_handles.join hs ha hh he h3 h4, ?_⟩
    rw [he, hh]
    rcases h with ⟨h1, h2⟩ | ⟨h1, h2⟩
    · by_cases hx : a' = a
      · subst hx
        rw [ha] at h1
        simp only [Option.some.injEq, NState.join.injEq] at h1
        subst h1
        exact .inr ⟨List.getElem?_set_self (lt_of_getElem?_some ha), by simp⟩
      · refine .inl ⟨by rw [List.getElem?_set_ne hx]; exact h1, ?_⟩
        simp only [List.mem_append, List.mem_singleton, Event.join.injEq, not_or]
        refine ⟨h2, ?_⟩
        rintro rfl
        exact hx ((hs.opened a t h1).2.2 a' ha)
    · refine .inr ⟨?_, by simp [h2]⟩
      by_cases hx : a' = a
      · subst hx; rw [ha] at h1; simp at h1
      · rw [List.getElem?_set_ne hx]; exact h1

theorem handles_init (argv file) : Handles (RState.init argv file) := by
  refine ⟨fun a t h => ?_, fun t => by simp [RState.init], fun i t h => by simp [RState.init] at h⟩
  have : (RState.init argv file).heap.natives = [.none] := rfl
  rw [this] at h
  cases a <;> simp at h

open Spec in
theorem performed_handles {w src k t s} (h : Performed w src k t s) : Handles s := by
  obtain ⟨p, argv, file, n, h1, h2⟩ := h
  exact stable_reaches stable_handles h2 (c := ⟨0, false, false⟩) (program_pre h1) (handles_init _ _)

/-- The arguments of the script and `std` stay what they are. -/
def Given (s : RState) : Prop := s.argv = .array 0 ∧ s.std = (RState.init [] []).std

theorem stable_given : Stable Given where
  calm := fun h hc => ⟨hc.argv.trans h.1, hc.std.trans h.2⟩
  spawn := fun h _ _ h3 h4 => ⟨h3.trans h.1, h4.trans h.2⟩
  join := fun h _ _ _ h3 h4 => ⟨h3.trans h.1, h4.trans h.2⟩

open Spec in
theorem performed_given {w src k t s} (h : Performed w src k t s) : Given s := by
  obtain ⟨p, argv, file, n, h1, h2⟩ := h
  exact stable_reaches stable_given h2 (c := ⟨0, false, false⟩) (program_pre h1) ⟨rfl, rfl⟩

end Hush

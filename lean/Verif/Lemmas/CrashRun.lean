import Verif.Lemmas.Crash
import Verif.Lemmas.InterpReach

/-!
The origin of Rust panics: the interpreter.
-/

namespace Hush
open Spec
variable {w : World} {R : CrashKind → Prop} {r : Task → M Out}

theorem tame_regular {o : Out} {pos s} {k : Value → Pos → Value → (Task → M Out) → M Out}
    (h : ∀ v, o.flow = .regular v → Tame R r (k v o.pos o.obj) s) : Tame R r (fun r => o.regular pos fun v p obj => k v p obj r) s := by
  rcases o with ⟨fl, p, obj⟩
  cases fl with
  | regular v => exact h v rfl
  | return_ v => exact serene_pure.tame
  | break_ => exact serene_pure.tame

theorem tame_afterBody {o : Out} {s} {m : (Task → M Out) → M Out} (h : Tame R r m s) : Tame R r (fun r => afterBody o (m r)) s := by
  rcases o with ⟨fl, p, obj⟩
  cases fl with
  | regular v => exact h
  | return_ v => exact serene_pure.tame
  | break_ => exact serene_pure.tame

theorem tame_catching {m : (Task → M Out) → M Out} {s} (h : Tame R r m s) : Tame R r (fun r => catching w (m r)) s := by
  refine tame_map (g := catching w) ?_ ?_ ?_ h
  · intro m m' h; unfold catching; rw [h]
  · intro m h
    rcases hx : m s with ⟨e | a, s1⟩ <;> rw [hx] at h <;> cases h
    unfold catching; rw [hx]
  · intro m k h
    rcases hx : m s with ⟨e | a, s1⟩
    · cases e with
      | panic p => simp only [catching, hx] at h; cases h
      | crash k' => simp only [catching, hx] at h; cases h; exact .inr (.inr rfl)
      | exit c => simp only [catching, hx] at h; cases h
      | timeout => simp only [catching, hx] at h; cases h
    · simp only [catching, hx] at h
      split at h
      · cases h
      · cases h; exact .inr (.inl rfl)

theorem tame_finally {m : (Task → M Out) → M α} {s} {f : RState → RState} (h : Tame R r m s) : Tame R r (fun r => finally_ (m r) f) s := by
  refine tame_map (g := fun m => finally_ m f) ?_ ?_ ?_ h
  · intro m m' h; simp only [finally_, h]
  · intro m h; exact h
  · intro m k h; exact .inr (.inr h)

theorem tame_withFrame {m : (Task → M Out) → M Out} {s n} (h : Tame R r m { s with shrunk := false }) :
    Tame R r (fun r => withFrame n (m r)) s := by
  have hs : ∀ s1 e s2, shrink n s1 = (.error e, s2) → e = .crash .slot := by
    intro s1 e s2 h
    unfold shrink at h; split at h <;> cases h; rfl
  refine tame_map (g := fun m => withFrame n m) (s0 := { s with shrunk := false }) ?_ ?_ ?_ h
  · intro m m' h; simp only [withFrame, h]
  · intro m h
    rcases hx : m { s with shrunk := false } with ⟨e | a, s1⟩ <;> rw [hx] at h <;> cases h
    simp only [withFrame, hx]
    split
    · rfl
    · rcases hy : shrink n s1 with ⟨e | a, s2⟩
      · rw [hs _ _ _ hy]
      · rfl
  · intro m k h
    rcases hx : m { s with shrunk := false } with ⟨x, s1⟩
    simp only [withFrame, hx] at h
    split at h
    · exact .inr (.inr h)
    · rcases hy : shrink n s1 with ⟨e | a, s2⟩
      · simp only [hy, hs _ _ _ hy] at h
        split at h
        · cases h
        · cases h; exact .inl rfl
      · simp only [hy] at h
        exact .inr (.inr h)

/-- Closes goals about computations that start no task. -/
macro "serene" : tactic => `(tactic| repeat' (first
  | exact serene_pure | exact serene_panic | exact serene_flow | exact serene_get | exact serene_modify | exact serene_record
  | exact serene_alloc | exact serene_fetch | exact serene_store | exact serene_capture | exact serene_place | exact serene_extend
  | exact serene_shrink | exact serene_captureAll | exact serene_storeArgs | exact serene_placeAll | exact serene_storeSelf
  | exact serene_tailShrink | exact serene_result
  | exact serene_lift fun _ => shortCircuit_calm
  | exact serene_reads fun _ _ => strictValue_calm
  | exact serene_reads fun _ _ => accessValue_calm
  | exact serene_reads fun _ _ => nextValue_calm
  | (refine serene_bind ?_ fun _ => ?_)))

/-- Closes goals about computations that only crash because of their tasks. -/
macro "tame" : tactic => `(tactic| repeat' (first
  | exact tame_rec
  | (refine Serene.tame ?_; serene; done)
  | (refine tame_bind ?_ fun _ _ _ => ?_)
  | (refine tame_regular fun _ _ => ?_)
  | refine tame_afterBody ?_
  | refine tame_withFrame ?_))

theorem tame_answer {args x s} (h : x = .crash → R .native) : Tame R r (fun _ => answer args x) s := by
  refine tame_const fun k hk => ?_
  cases x with
  | value t => simp only [answer, M.alloc] at hk; cases hk
  | panic p => cases hk
  | crash => cases hk; exact .inr (.inr (h rfl))
  | exit c => cases hk

theorem get_ok {s s1 a : RState} (h : M.get s = (.ok a, s1)) : a = s ∧ s1 = s := by
  cases h; exact ⟨rfl, rfl⟩

theorem tame_evalCommand {b s} (h : ∀ ex, buildBlock (argEnv w s) b.head b.tail = .ok ex → b.kind ≠ .asynchronous →
    w.command s.trace b.kind ex = .crash → R .native) : Tame R r (fun _ => evalCommand w b) s := by
  unfold evalCommand
  refine tame_bind (serene_get.tame) fun a s1 h1 => ?_
  obtain ⟨rfl, rfl⟩ := get_ok h1
  refine tame_bind (tame_const ?_) fun ex s2 h2 => ?_
  · intro k hk
    cases hx : buildBlock (argEnv w s1) b.head b.tail with
    | ok ex => rw [hx] at hk; cases hk
    | error e => rw [hx] at hk; cases hk; exact .inl (slotOnly_block _ hx)
  · have hx : buildBlock (argEnv w s1) b.head b.tail = .ok ex := by
      cases hx : buildBlock (argEnv w s1) b.head b.tail with
      | ok ex' => rw [hx] at h2; cases h2; rfl
      | error e => rw [hx] at h2; cases h2
    refine tame_bind (serene_record.tame) fun _ s3 _ => ?_
    have hh := h ex hx
    revert hh
    cases b.kind with
    | asynchronous => intro _; tame
    | capture => intro hh; exact tame_answer fun h' => hh (by simp) h'
    | synchronous => intro hh; exact tame_answer fun h' => hh (by simp) h'

theorem tame_loadModule {path pos s} (h : ∀ src, w.readFile s.trace path = .ok src → syntaxAnalysis src = none → R .todo) :
    Tame R r (fun r => loadModule w r path pos) s := by
  unfold loadModule
  refine tame_bind (serene_get.tame) fun a s1 h1 => ?_
  obtain ⟨rfl, rfl⟩ := get_ok h1
  refine tame_bind (serene_record.tame) fun _ s2 _ => ?_
  cases hr : w.readFile s1.trace path with
  | error e => exact serene_panic.tame
  | ok src =>
    dsimp only
    cases hs : syntaxAnalysis src with
    | none => exact tame_const fun k hk => by cases hk; exact .inr (.inr (h src hr hs))
    | some x =>
      dsimp only
      by_cases ha : x.isOk = true
      · simp only [if_pos ha]
        cases hy : analyze x.ast with
        | ok p => tame
        | errors es => exact serene_panic.tame
        | crash => exact absurd hy (analyze_no_crash _)
      · simp only [if_neg ha]; exact serene_panic.tame

theorem tame_importModule {m args pos s} (h : ∀ target path src, args = [.string target] → w.resolve s.trace (s.file m) target = .ok path →
    s.modules.lookup path = none → w.readFile s.trace path = .ok src → syntaxAnalysis src = none → R .todo) :
    Tame R r (fun r => importModule w r m args pos) s := by
  unfold importModule
  rcases args with _ | ⟨v, _ | _⟩
  · exact serene_panic.tame
  · cases v with
    | string target =>
      refine tame_bind (serene_get.tame) fun a s1 h1 => ?_
      obtain ⟨rfl, rfl⟩ := get_ok h1
      cases hr : w.resolve s1.trace (s1.file m) target with
      | error e => exact serene_panic.tame
      | ok path =>
        dsimp only
        cases hl : s1.modules.lookup path with
        | some v => tame
        | none => exact tame_bind (tame_loadModule fun src h1 h2 => h target path src rfl hr hl h1 h2) fun _ _ _ => by tame
    | _ => exact serene_panic.tame
  · cases v <;> exact serene_panic.tame

theorem tame_joinCommand {addr pos s} (h : ∀ t, s.heap.native addr = .join (some t) → w.joined s.trace t = .crash → R .native) :
    Tame R r (fun _ => joinCommand w addr pos) s := by
  unfold joinCommand
  refine tame_bind (serene_get.tame) fun a s1 h1 => ?_
  obtain ⟨rfl, rfl⟩ := get_ok h1
  cases hn : s1.heap.native addr with
  | join j =>
    cases j with
    | none => exact serene_panic.tame
    | some t =>
      exact tame_bind serene_modify.tame fun _ _ _ => tame_bind serene_record.tame fun _ _ _ => tame_answer (h t hn)
  | _ => exact serene_panic.tame

theorem tame_callLib {n m name addr args pos s} (h : ∀ k, Aborts w m s name addr args k → R k) :
    Tame R r (fun _ => callLib w n name addr args pos) s := by
  refine tame_const fun k hk => ?_
  unfold callLib at hk
  split at hk
  · cases hk
  · rename_i e he
    cases hk
    exact .inr (.inr (h k (call_aborts he)))
  · refine .inr (.inr ?_)
    simp only [Bind.bind, M.andThen, record, M.modify] at hk
    cases hx : w.native s.trace name (s.heap.native addr) args s.heap with
    | value t => rw [hx] at hk; simp only [answer, M.alloc] at hk; cases hk
    | panic p => rw [hx] at hk; cases hk
    | crash => rw [hx] at hk; cases hk; exact h _ (.other hx)
    | exit c => rw [hx] at hk; cases hk

theorem tame_nativeCall {n m name addr start pos s} (h : ∀ k, Aborts w m s name addr (s.args.drop start) k → R k) :
    Tame R r (fun r => nativeCall w n r m name addr start pos) s := by
  unfold nativeCall
  refine tame_bind (serene_get.tame) fun a s1 h1 => ?_
  obtain ⟨rfl, rfl⟩ := get_ok h1
  dsimp only
  by_cases h1 : name = bs "std.catch"
  · simp only [if_pos h1]
    rcases s1.args.drop start with _ | ⟨v, _ | _⟩
    · exact serene_panic.tame
    · cases v with
      | function f => exact tame_catching tame_rec
      | _ => exact serene_panic.tame
    · cases v <;> exact serene_panic.tame
  · simp only [if_neg h1]
    by_cases h2 : name = bs "std.bind<impl>"
    · simp only [if_pos h2]
      subst h2
      cases hn : s1.heap.native addr with
      | bound obj f => tame
      | _ => exact tame_const fun k hk => by cases hk; exact .inr (.inr (h _ (.bound (by rw [hn]; simp))))
    · simp only [if_neg h2]
      by_cases h3 : name = bs "std.import"
      · simp only [if_pos h3]
        subst h3
        refine tame_importModule fun target path src h1 h2 h3 h4 h5 => h _ ?_
        rw [h1]; exact .import h2 h3 h4 h5
      · simp only [if_neg h3]
        by_cases h4 : name = bs "<command>.join"
        · simp only [if_pos h4]
          subst h4
          exact tame_joinCommand fun t h1 h2 => h _ (.join h1 h2)
        · simp only [if_neg h4]
          exact tame_callLib h

theorem tame_stepCall {n m obj f start pos s} (h : ∀ name addr k, f = .native name addr → Aborts w m s name addr (s.args.drop start) k → R k) :
    Tame R r (fun r => stepCall w n r m obj f start pos) s := by
  by_cases hl : s.args.length < start
  · have e : ∀ r' : Task → M Out, stepCall w n r' m obj f start pos s = (.error (.crash .slot), s) := by
      intro r'; unfold stepCall; rw [if_pos hl]
    refine ⟨fun _ _ => .inl ((e _).trans (e _).symm), fun k hk => ?_⟩
    have hk := (congrArg Prod.fst (e r)).symm.trans hk
    cases hk; exact .inl rfl
  · cases f with
    | hush a =>
      have h : Tame R r (fun r : Task → M Out => (do
        M.modify (fun s => { s with args := s.args.take start })
        if (s.args.drop start).length ≠ (s.heap.closure a).params then
          M.panic (.invalidArgs (s.args.drop start).length (s.heap.closure a).params) pos
        else do
          extend w (s.heap.closure a).frame.slots pos
          storeArgs 0 (s.args.drop start)
          placeAll (s.heap.closure a).context
          storeSelf obj (s.heap.closure a).frame.selfSlot
          let o ← withFrame (s.heap.closure a).frame.slots (r (.block (s.heap.closure a).module (some (s.heap.closure a).frame.slots) (s.heap.closure a).body))
          match o.flow with
          | .regular v => pure (.value v pos)
          | .return_ v => pure (.value v pos)
          | .break_ => M.crash .flow : M Out)) s := by
        refine tame_bind serene_modify.tame fun _ _ _ => ?_
        by_cases hl : (s.args.drop start).length ≠ (s.heap.closure a).params
        · simp only [if_pos hl]; exact serene_panic.tame
        · simp only [if_neg hl]
          refine tame_bind serene_extend.tame fun _ _ _ => tame_bind serene_storeArgs.tame fun _ _ _ =>
            tame_bind serene_placeAll.tame fun _ _ _ => tame_bind serene_storeSelf.tame fun _ _ _ =>
            tame_bind (tame_withFrame tame_rec) fun o _ _ => ?_
          rcases o with ⟨fl, p, x⟩
          cases fl with
          | regular v => exact serene_pure.tame
          | return_ v => exact serene_pure.tame
          | break_ => exact serene_flow.tame
      unfold Tame at h ⊢
      simp only [stepCall, if_neg hl]
      exact h
    | native name addr =>
      have h : Tame R r (fun r : Task → M Out => (do
        let v ← finally_ (nativeCall w n r m name addr start pos) (fun s => { s with args := s.args.take start })
        pure (.value v pos) : M Out)) s :=
        tame_bind (tame_finally (tame_nativeCall fun k hk => h name addr k rfl hk)) fun _ _ _ => serene_pure.tame
      unfold Tame at h ⊢
      simp only [stepCall, if_neg hl]
      exact h

theorem tame_stepProgram {m p s} : Tame R r (fun r => stepProgram w r m p) s := by
  unfold stepProgram
  refine tame_bind serene_extend.tame fun _ _ _ => tame_bind serene_get.tame fun s _ _ => tame_bind serene_store.tame fun _ s1 _ =>
    tame_bind ?_ fun o _ _ => ?_
  · refine tame_map (m := fun r => r (.block m none p.statements)) (s0 := s1) (g := fun m s => match m s with
      | (.ok o, s) => (.ok o, s)
      | (.error e, s) => (.error e, { s with leaked := s.leaked + p.rootSlots })) ?_ ?_ ?_ tame_rec
    · intro m m' h; simp only [h]
    · intro m h
      rcases hx : m s1 with ⟨e | a, s2⟩ <;> rw [hx] at h <;> cases h
      rfl
    · intro m k h
      rcases hx : m s1 with ⟨e | a, s2⟩
      · simp only [hx] at h; exact .inr (.inr h)
      · simp only [hx] at h; cases h
  · rcases o with ⟨fl, q, x⟩
    cases fl with
    | regular v => tame
    | return_ v => exact serene_flow.tame
    | break_ => exact serene_flow.tame

theorem tame_stepLit {m l pos s} : Tame R r (fun r => stepLit w r m l pos) s := by
  cases l <;> simp only [stepLit] <;> tame

theorem flow_out {o : Out} {v : Value} (h : o.flow = .regular v) : o = ⟨.regular v, o.pos, o.obj⟩ := by
  rcases o with ⟨_, _, _⟩; cases h; rfl

theorem run_yields {n m e s o s1 v} (h : run w n (.expr m none e) s = (.ok o, s1)) (hv : o.flow = .regular v) :
    Yields w m e s v o.pos o.obj s1 := by
  rw [flow_out hv] at h
  exact ⟨by simp, n, h⟩

theorem tame_stepExpr {n n' m tail e s} : Tame (Raises w (.expr m tail e) s) (run w n) (fun r => stepExpr w n' r m tail e) s := by
  cases e with
  | ident slot pos => simp only [stepExpr]; tame
  | lit l pos => exact tame_stepLit
  | unary op e pos =>
    simp only [stepExpr]
    refine tame_bind tame_rec fun o s1 h1 => tame_regular fun v hv => tame_bind ?_ fun _ _ _ => serene_pure.tame
    refine tame_const fun k hk => ?_
    have hu : unaryValue w op v o.pos = .error (.crash k) := by
      cases hx : unaryValue w op v o.pos with
      | ok f => rw [hx] at hk; cases hk
      | error e => rw [hx] at hk; cases hk; rfl
    have hy := run_yields h1 hv
    cases op with
    | minus =>
      cases v with
      | int i =>
        simp only [unaryValue] at hu
        cases hx : w.arith (-i) with
        | ok j => rw [hx] at hu; cases hu
        | error e =>
          rw [hx] at hu
          cases hu
          obtain ⟨h2, h3, rfl⟩ := arith_crash hx
          exact .inr (.inr (.negation hy h2 h3))
      | _ => simp only [unaryValue] at hu; cases hu
    | not => cases v <;> (simp only [unaryValue] at hu; cases hu)
    | try_ => cases v <;> (simp only [unaryValue] at hu; cases hu)
  | binary l op x pos =>
    simp only [stepExpr]
    refine tame_bind tame_rec fun o _ _ => tame_regular fun v _ => ?_
    by_cases ho : op = .and ∨ op = .or
    · simp only [if_pos ho]
      refine tame_bind (Serene.tame (by serene)) fun y _ _ => ?_
      cases y with
      | some v => exact serene_pure.tame
      | none =>
        refine tame_bind tame_rec fun o _ _ => tame_regular fun v _ => ?_
        cases v <;> first | exact serene_panic.tame | exact serene_pure.tame
    · simp only [if_neg ho]; tame
  | if_ c t e pos =>
    simp only [stepExpr]
    refine tame_bind tame_rec fun o _ _ => tame_regular fun v _ => ?_
    cases v with
    | bool b => tame
    | _ => exact serene_panic.tame
  | access obj field pos => simp only [stepExpr]; tame
  | call f args pos =>
    simp only [stepExpr]
    refine tame_bind tame_rec fun o _ _ => tame_regular fun v _ => ?_
    cases v with
    | function f => tame
    | _ => exact serene_panic.tame
  | command b pos =>
    simp only [stepExpr]
    exact tame_bind (tame_evalCommand fun ex h1 h2 h3 => .command h1 h2 h3) fun _ _ _ => serene_pure.tame

theorem assign_crash {h : Heap} {n obj opos f fpos v pos k} (hx : assignValue h n obj opos f fpos v pos = .error (.crash k)) :
    k = .borrow ∧ ∃ d, obj = .dict d ∧ Inside h (.dict d) f := by
  unfold assignValue at hx
  split at hx
  · rename_i d
    split at hx
    · cases hx
    · cases hx; exact ⟨rfl, d, rfl, touches_dict (by assumption)⟩
    · split at hx <;> cases hx
  · split at hx
    · cases hx
    · split at hx <;> cases hx
  all_goals cases hx

theorem tame_stepStmt {n n' m tail st s} : Tame (Raises w (.stmt m tail st) s) (run w n) (fun r => stepStmt n' r m tail st) s := by
  cases st with
  | assign l e =>
    simp only [stepStmt]
    refine tame_bind tame_rec fun o s1 h1 => tame_regular fun v hv => ?_
    cases l with
    | ident slot pos => tame
    | access a b pos =>
      refine tame_bind tame_rec fun o2 s2 h2 => tame_regular fun obj ho => tame_bind tame_rec fun o3 s3 h3 =>
        tame_regular fun f hf => tame_bind ?_ fun _ _ _ => by tame
      refine tame_const fun k hk => ?_
      obtain ⟨rfl, d, rfl, hi⟩ := assign_crash hk
      exact .inr (.inr (.ownKey (run_yields h1 hv) (run_yields h2 ho) (run_yields h3 hf) hi))
  | return_ e =>
    simp only [stepStmt]
    refine tame_bind tame_rec fun o _ _ => ?_
    rcases o with ⟨fl, p, obj⟩
    cases fl <;> exact serene_pure.tame
  | break_ => exact serene_pure.tame
  | while_ c b => exact tame_rec
  | for_ slot e b =>
    simp only [stepStmt]
    refine tame_bind tame_rec fun o _ _ => tame_regular fun v _ => ?_
    cases v with
    | function f => exact tame_rec
    | _ => exact serene_panic.tame
  | expr e => exact tame_rec

theorem tame_step {n n' t s} : Tame (Raises w t s) (run w n) (fun r => step w n' r t) s := by
  cases t with
  | expr m tail e => exact tame_stepExpr
  | items m es acc => cases es <;> (simp only [step]; tame)
  | fields m es acc =>
    rcases es with _ | ⟨⟨k, e⟩, es⟩ <;> (simp only [step]; tame)
  | args m es start =>
    cases es with
    | nil => exact serene_pure.tame
    | cons e es =>
      simp only [step]
      refine tame_bind tame_rec fun o _ _ => ?_
      rcases o with ⟨fl, p, obj⟩
      cases fl with
      | regular v => exact tame_bind serene_modify.tame fun _ _ _ => tame_rec
      | _ => exact tame_bind serene_modify.tame fun _ _ _ => serene_pure.tame
  | stmt m tail s => exact tame_stepStmt
  | block m tail ss =>
    rcases ss with _ | ⟨s, _ | ⟨s', ss⟩⟩
    · exact serene_pure.tame
    · exact tame_rec
    · simp only [step]; tame
  | loop m c b =>
    simp only [step]
    refine tame_bind tame_rec fun o _ _ => tame_regular fun v _ => ?_
    cases v with
    | bool b => cases b with
      | true => tame
      | false => exact serene_pure.tame
    | _ => exact serene_panic.tame
  | iter m slot f pos b =>
    simp only [step]
    refine tame_bind serene_get.tame fun s _ _ => tame_bind tame_rec fun o _ _ => tame_bind serene_result.tame fun v _ _ =>
      tame_bind (Serene.tame (by serene)) fun y _ _ => ?_
    cases y with
    | none => exact serene_pure.tame
    | some v => tame
  | call m obj f start pos => exact tame_stepCall fun name addr k h1 h2 => by subst h1; exact .call h2
  | program m p => exact tame_stepProgram

/-- If a task crashes, then because of itself or because of a task it starts. -/
theorem crash_source : ∀ {n t s c k}, Pre c t s → (run w n t s).1 = .error (.crash k) →
    ∃ j t' s', Reaches w n t s j t' s' ∧ Raises w t' s' k := by
  intro n
  induction n with
  | zero => intro t s c k _ h; cases h
  | succ n ih =>
    intro t s c k hp h
    have hs := tame_step (w := w) (n := n) (n' := n) (t := t) (s := s)
    have ho := run_ok w (n + 1) c t s hp
    simp only [Runs] at ho
    have ht : Tolerable (.crash k) := by
      rcases hm : run w (n + 1) t s with ⟨e | o, s1⟩
      · rw [hm] at ho h
        cases h
        exact ho.1
      · rw [hm] at h; cases h
    rcases hs.2 k h with h1 | h1 | h1 | ⟨t', s', h1, h2⟩
    · exact absurd (by rw [h1]) ht.1
    · exact absurd (by rw [h1]) ht.2
    · exact ⟨n + 1, t, s, .self _ _ _, h1⟩
    · obtain ⟨c', hp'⟩ := starts_pre hp h2
      obtain ⟨j, t'', s'', h3, h4⟩ := ih hp' h1
      exact ⟨j, t'', s'', .sub h2 h3, h4⟩

end Hush

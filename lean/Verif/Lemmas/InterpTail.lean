import Verif.Spec.Tail
import Verif.Lemmas.InterpRules
import Verif.Lemmas.InterpParts
import Verif.Lemmas.InterpReach

/-!
Tail calls.
-/

namespace Hush
open Hush.Spec

/-- What `withFrame` does at the end. -/
def closed (k : Nat) (b : Bool) (r : Except Stop Out) (s1 : RState) : Except Stop Out × RState :=
  if s1.shrunk then (r, { s1 with shrunk := b })
  else
    match shrink k s1 with
    | (.ok _, s2) => (r, { s2 with shrunk := b })
    | (.error e, s2) => (match r with | .error .timeout => r | _ => .error e, { s2 with shrunk := b })

theorem withFrame_closed (k : Nat) (m : M Out) (s : RState) :
    withFrame k m s = closed k s.shrunk (m { s with shrunk := false }).1 (m { s with shrunk := false }).2 := rfl

theorem closed_timeout (k b s1) : (closed k b (.error .timeout) s1).1 = .error .timeout := by
  unfold closed
  split
  · rfl
  · split <;> rfl

theorem lim_withFrame {w : World} {k : Nat} {t : Task} {s r s'} :
    Lim (fun n => withFrame k (run w n t)) s r s' ↔
      ∃ r1 s1, Ends w t { s with shrunk := false } r1 s1 ∧ closed k s.shrunk r1 s1 = (r, s') := by
  constructor
  · rintro ⟨hr, N, hN⟩
    refine ⟨(run w N t { s with shrunk := false }).1, (run w N t { s with shrunk := false }).2, ⟨?_, N, rfl⟩, ?_⟩
    · intro h
      have := hN N (Nat.le_refl _)
      simp only [withFrame_closed, h] at this
      have h2 := closed_timeout k s.shrunk (run w N t { s with shrunk := false }).2
      rw [this] at h2
      exact hr h2
    · have := hN N (Nat.le_refl _)
      simpa only [withFrame_closed] using this
  · rintro ⟨r1, s1, h, hc⟩
    obtain ⟨hr, N, hN⟩ := ends_iff_run.1 h
    refine ⟨?_, N, fun n hn => ?_⟩
    · rintro rfl
      unfold closed at hc
      split at hc
      · cases hc; exact hr rfl
      · split at hc
        · cases hc; exact hr rfl
        · rename_i e s2 he
          simp only [shrink] at he
          split at he
          · cases he
            split at hc
            · exact hr rfl
            · cases hc
          · cases he
    · simp only [withFrame_closed]
      have := hN n hn
      dsimp only at this
      rw [this]
      exact hc

/-- The state with the new frame. -/
def framed (k start : Nat) (s : RState) : RState :=
  { s with args := s.args.take start, stack := List.replicate k (.regular .nil) ++ s.stack }

theorem begins_runs {w : World} {obj a start pos s} {E : Stop → RState → Prop} (hi : Inv s)
    (h2 : (s.args.drop start).length = (s.heap.closure a).params)
    (hE : s.stack.length + (s.heap.closure a).frame.slots ≤ w.limit ∨ E (.panic ⟨.stackOverflow, pos⟩) (cut start s)) :
    Runs (do
      extend w (s.heap.closure a).frame.slots pos
      storeArgs 0 (s.args.drop start)
      placeAll (s.heap.closure a).context
      storeSelf obj (s.heap.closure a).frame.selfSlot : M Unit) (cut start s)
      (fun _ s4 => Core (s.heap.closure a).frame.slots (framed (s.heap.closure a).frame.slots start s) s4 ∧
        s4.args = s.args.take start) E := by
  have hc := hi.closure a
  revert hc h2 hE
  generalize s.heap.closure a = c
  intro hlen hE hc
  have hx : ∀ {Q : Unit → RState → Prop}, Q () { cut start s with
      stack := List.replicate c.frame.slots (.regular .nil) ++ (cut start s).stack } → Runs (extend w c.frame.slots pos) (cut start s) Q E := by
    intro Q hq
    rcases hE with h | h
    · simp only [Runs, extend]
      rw [if_neg (by simp only [cut]; omega)]
      exact hq
    · exact runs_extend h hq
  refine runs_bind (hx ?_)
  generalize hs2 : ({ cut start s with stack := List.replicate c.frame.slots (.regular .nil) ++ (cut start s).stack } : RState) = s2
  have hs2' : s2 = framed c.frame.slots start s := hs2.symm
  have hi2 : Inv s2 := by rw [hs2']; exact hi
  have hk2 : c.frame.slots ≤ s2.stack.length := by rw [hs2']; simp [framed]
  have ha2 : s2.args = s.args.take start := by rw [hs2']; rfl
  rw [← hs2']
  have h2 : At c.frame.slots s2 s2 := At.start hi2 hk2
  refine runs_bind (runs_storeArgs (k := c.frame.slots) ?_ hk2 hi2 ?_)
  · rw [hlen]; have := hc.fits; omega
  intro s3 c3 a3
  have h3 := h2.next c3 a3
  refine runs_bind (runs_placeAll (k := c.frame.slots) (fun q hq => (hc.target q hq).2) h3.size' h3.inv ?_)
  intro s4 c4 a4
  have h4 := h3.next c4 a4
  refine runs_storeSelf (k := c.frame.slots) (fun ix hx => (hc.self_ ix hx).2) h4.size' h4.inv ?_
  intro s5 c5 a5
  have h5 := h4.next c5 a5
  exact ⟨h5.core, by rw [h5.args, ha2]⟩

theorem begins_core {w : World} {obj a start pos s s4} (hi : Inv s)
    (h2 : (s.args.drop start).length = (s.heap.closure a).params)
    (h3 : (do
      extend w (s.heap.closure a).frame.slots pos
      storeArgs 0 (s.args.drop start)
      placeAll (s.heap.closure a).context
      storeSelf obj (s.heap.closure a).frame.selfSlot : M Unit) (cut start s) = (.ok (), s4)) :
    Core (s.heap.closure a).frame.slots (framed (s.heap.closure a).frame.slots start s) s4 ∧ s4.args = s.args.take start := by
  have key := begins_runs (w := w) (obj := obj) (pos := pos) (E := fun _ _ => True) hi h2 (.inr trivial)
  simp only [Runs, h3] at key
  exact key

theorem begins_of_room {w : World} {obj a start pos s} (hi : Inv s)
    (h2 : (s.args.drop start).length = (s.heap.closure a).params)
    (h3 : s.stack.length + (s.heap.closure a).frame.slots ≤ w.limit) : ∃ s4, (do
      extend w (s.heap.closure a).frame.slots pos
      storeArgs 0 (s.args.drop start)
      placeAll (s.heap.closure a).context
      storeSelf obj (s.heap.closure a).frame.selfSlot : M Unit) (cut start s) = (.ok (), s4) := by
  have key := begins_runs (w := w) (obj := obj) (pos := pos) (E := fun _ _ => False) hi h2 (.inl h3)
  simp only [Runs] at key
  split at key
  · rename_i u s' h
    exact ⟨s', h⟩
  · exact key.elim

/-- The value of a call. -/
def finishCall (pos : Pos) (o : Out) : M Out :=
  match o.flow with
  | .regular v => pure (.value v pos)
  | .return_ v => pure (.value v pos)
  | .break_ => M.crash .flow

/-- The outcome of a call as that of the body. -/
theorem ends_begins {w : World} {m obj a start pos s s0 r s'} (hi : Inv s) (hb : Begins w obj a start pos s s0) :
    Ends w (.call m obj (.hush a) start pos) s r s' ↔
      Lim (fun n => withFrame (s.heap.closure a).frame.slots (run w n (bodyOf s.heap a)) >>= finishCall pos) { s0 with shrunk := s.shrunk } r s' := by
  obtain ⟨h1, h2, s4, h3, rfl⟩ := hb
  obtain ⟨hc, -⟩ := begins_core hi h2 h3
  have hsh : s4.shrunk = s.shrunk := hc.shrunk
  rw [ends_iff]
  have hpre : ∀ {f : M Out}, (do
      extend w (s.heap.closure a).frame.slots pos
      storeArgs 0 (s.args.drop start)
      placeAll (s.heap.closure a).context
      storeSelf obj (s.heap.closure a).frame.selfSlot
      f : M Out) (cut start s) = f s4 := by
    intro f
    simp only [Bind.bind, M.andThen] at h3 ⊢
    revert h3
    generalize extend w (s.heap.closure a).frame.slots pos (cut start s) = x1
    rcases x1 with ⟨_ | _, y1⟩
    · intro h; cases h
    · dsimp only
      generalize storeArgs 0 (s.args.drop start) y1 = x2
      rcases x2 with ⟨_ | _, y2⟩
      · intro h; cases h
      · dsimp only
        generalize placeAll (s.heap.closure a).context y2 = x3
        rcases x3 with ⟨_ | _, y3⟩
        · intro h; cases h
        · dsimp only
          intro h
          rw [h]
  have heq : ∀ n, step w n (run w n) (.call m obj (.hush a) start pos) s =
      (withFrame (s.heap.closure a).frame.slots (run w n (bodyOf s.heap a)) >>= finishCall pos) s4 := by
    intro n
    refine Eq.trans ?_ hpre
    simp only [step, stepCall, if_neg (Nat.not_lt.2 h1)]
    show M.andThen _ _ s = _
    unfold M.andThen M.modify
    simp only [h2, ne_eq, not_true, if_false]
    rfl
  simp only [Lim, heq]
  rw [← hsh]

/-- A task of which the first part is known to have a value. -/
theorem lim_known {w : World} {t : Task} {pos : Pos} {k : Nat → Value → Pos → Value → M Out} {v p x s s1 r s'}
    (h : Ends w t s (.ok ⟨.regular v, p, x⟩) s1) :
    Lim (fun n => run w n t >>= fun o => o.regular pos (k n)) s r s' ↔ Lim (fun n => k n v p x) s1 r s' := by
  constructor
  · rintro ⟨hr, N, hN⟩
    obtain ⟨_, N', hN'⟩ := ends_iff_run.1 h
    refine ⟨hr, max N N', fun n hn => ?_⟩
    have h1 := hN n (by omega)
    have h2 := hN' n (by omega)
    dsimp only at h1 h2
    simp only [bind, M.andThen, h2] at h1
    exact h1
  · exact lim_go h

theorem ends_tailExpr {w : World} {m k f args pos s g p obj s1 vs s2 r s'} (h1 : Yields w m f s (.function g) p obj s1)
    (h2 : InOrder w m push args s1 vs s2) (hk : k ≤ s2.stack.length) :
    Ends w (.expr m (some k) (.call f args pos)) s r s' ↔
      ∃ r', Ends w (.call m obj g s1.args.length pos) (released k s2) r' s' ∧ r = passed pos r' := by
  rw [ends_iff]
  simp only [step, stepExpr]
  rw [lim_known h1]
  dsimp only
  rw [lim_get_bind, lim_known (ends_args.2 (.inl ⟨vs, h2, rfl⟩)), ← lim_passed]
  simp only [Lim, bind, M.andThen, tailShrink, shrink, if_neg (Nat.not_lt.2 hk), M.modify, released]

/-- A returned outcome. -/
def returned : Except Stop Out → Except Stop Out
  | .ok ⟨.regular v, _, _⟩ => .ok ⟨.return_ v, noPos, .nil⟩
  | .ok ⟨f, _, _⟩ => .ok ⟨f, noPos, .nil⟩
  | .error e => .error e

theorem ends_returnStmt {w : World} {m tail e s r s'} :
    Ends w (.stmt m tail (.return_ e)) s r s' ↔ ∃ r', Ends w (.expr m tail e) s r' s' ∧ r = returned r' := by
  rw [ends_iff]
  simp only [step, stepStmt]
  rw [lim_task]
  case hf => exact fun a => .const _
  constructor
  · rintro (⟨o, s1, h1, h2⟩ | ⟨e, rfl, h⟩)
    · rcases o with ⟨f, p, x⟩
      cases f <;>
      · obtain ⟨rfl, rfl⟩ := lim_pure.1 h2
        exact ⟨_, h1, rfl⟩
    · exact ⟨_, h, rfl⟩
  · rintro ⟨r', h, rfl⟩
    cases r' with
    | error e => exact .inr ⟨e, rfl, h⟩
    | ok o =>
      refine .inl ⟨o, s', h, ?_⟩
      rcases o with ⟨f, p, x⟩
      cases f <;> exact lim_pure.2 ⟨rfl, rfl⟩

theorem ends_exprStmt {w : World} {m tail e s r s'} :
    Ends w (.stmt m tail (.expr e)) s r s' ↔ Ends w (.expr m tail e) s r s' := by
  rw [ends_iff, ends_iff_run]
  simp only [step, stepStmt]

theorem ends_lastStmt {w : World} {m tail x s r s'} : Ends w (.block m tail [x]) s r s' ↔ Ends w (.stmt m tail x) s r s' := by
  rw [ends_iff, ends_iff_run]
  simp only [step]

theorem ends_afterStmts {w : World} {m tail last before s s1 r s'} (h : Statements w m before s s1) :
    Ends w (.block m tail (before ++ [last])) s r s' ↔ Ends w (.stmt m tail last) s1 r s' := by
  induction h with
  | nil s => exact ends_lastStmt
  | @cons x xs s v p obj s1 s' h1 h2 ih =>
    rw [← ih]
    rw [ends_iff, ends_iff_run]
    cases xs with
    | nil => exact lim_known h1
    | cons y ys => exact lim_known h1

theorem bind_value {m : M α} {f : α → M β} {s b s'} (h : (m >>= f) s = (.ok b, s')) :
    ∃ a s1, m s = (.ok a, s1) ∧ f a s1 = (.ok b, s') := by
  simp only [bind, M.andThen] at h
  split at h
  · exact ⟨_, _, by assumption, h⟩
  · cases h

/-- A call has a value and its position. -/
theorem ends_callShape {w : World} {c m obj f start pos s r s'} (hp : Pre c (.call m obj f start pos) s)
    (h : Ends w (.call m obj f start pos) s r s') :
    (r = passed pos r ∧ ∀ o, r = .ok o → ∃ v, o = .value v pos) ∧ Core 0 s s' := by
  obtain ⟨hr, N, hN⟩ := h
  have h1 := run_ok w N c _ _ hp
  simp only [Runs, hN] at h1
  cases r with
  | error e => exact ⟨⟨rfl, nofun⟩, h1.2.1⟩
  | ok o =>
    refine ⟨?_, h1.1⟩
    suffices ∃ v, o = .value v pos by
      obtain ⟨v, rfl⟩ := this
      exact ⟨rfl, fun o h => ⟨v, by cases h; rfl⟩⟩
    have h2 := (ends_iff.1 ⟨hr, N, hN⟩)
    obtain ⟨_, N, h2⟩ := h2
    have h2 := h2 N (Nat.le_refl _)
    simp only [step, stepCall] at h2
    split at h2
    · cases h2
    · split at h2
      · obtain ⟨_, s1, _, h2⟩ := bind_value h2
        split at h2
        · cases h2
        · obtain ⟨_, _, _, h2⟩ := bind_value h2
          obtain ⟨_, _, _, h2⟩ := bind_value h2
          obtain ⟨_, _, _, h2⟩ := bind_value h2
          obtain ⟨_, _, _, h2⟩ := bind_value h2
          obtain ⟨o, _, _, h2⟩ := bind_value h2
          rcases o with ⟨f, q, x⟩
          cases f with
          | regular v => cases h2; exact ⟨_, rfl⟩
          | return_ v => cases h2; exact ⟨_, rfl⟩
          | break_ => cases h2
      · simp only [bind, M.andThen] at h2
        split at h2
        · cases h2; exact ⟨_, rfl⟩
        · cases h2

/-- From the start of a call to that of another. -/
structure Link (s s' : RState) : Prop where
  stack : StackRel 0 s s'
  rest : Rest s s'
  quiet : Quiet s s'
  inv : Inv s'

theorem Link.refl {s} (h : Inv s) : Link s s := ⟨.refl _ _, .refl _, .inl rfl, h⟩

theorem Link.trans {a b c} (h1 : Link a b) (h2 : Link b c) : Link a c :=
  ⟨h1.stack.trans h2.stack, h1.rest.trans h2.rest, h1.quiet.trans h1.rest h2.rest h2.quiet, h2.inv⟩

theorem ends_core {w : World} {c : Site} {m e s v p obj s'} (h : Yields w m e s v p obj s') (hi : Inv s) (hk : c.slots ≤ s.stack.length)
    (he : Spec.ExprOk c e) : Core c.slots s s' ∧ s'.args = s.args := by
  obtain ⟨_, N, hN⟩ := h
  have h1 := ev_expr (m := m) (run_ok w N) hi hk (tailPre_none c) he
  simp only [Ev, Runs, hN] at h1
  exact ⟨h1.1.core, h1.2.2⟩

theorem inOrder_core {w : World} {c : Site} {m es s vs s'} (h : InOrder w m push es s vs s') (hi : Inv s) (hk : c.slots ≤ s.stack.length)
    (he : ExprsOk c es) : Core c.slots s s' ∧ s'.args = s.args ++ vs := by
  induction h with
  | nil s => exact ⟨.refl hi, by simp⟩
  | @cons e es s v p obj s1 vs s' h1 _ ih =>
    obtain ⟨c1, a1⟩ := ends_core h1 hi hk he.1
    have c2 : Core c.slots s (push v s1) := c1.args _
    obtain ⟨c3, a3⟩ := ih c2.inv (Nat.le_trans hk c2.stack.length_le) he.2
    exact ⟨c2.trans c3, by rw [a3]; simp [push, a1]⟩

theorem statements_core {w : World} {c : Site} {m xs s s' last} (h : Statements w m xs s s') (hi : Inv s) (hk : c.slots ≤ s.stack.length)
    (he : BlockOk c (xs ++ [last])) : Core c.slots s s' ∧ s'.args = s.args ∧ StmtOk c last := by
  induction h with
  | nil s => exact ⟨.refl hi, rfl, by simpa [BlockOk] using he⟩
  | @cons x xs s v p obj s1 s' h1 _ ih =>
    obtain ⟨_, N, hN⟩ := h1
    rw [List.cons_append, BlockOk] at he
    have h1 := ev_stmt (m := m) (run_ok w N) hi hk (tailPre_none c) he.1
    simp only [Ev, Runs, hN] at h1
    have c1 := h1.1.core
    obtain ⟨c2, a2, l2⟩ := ih c1.inv (Nat.le_trans hk c1.stack.length_le) he.2
    exact ⟨c1.trans c2, a2.trans h1.2.2, l2⟩

/-- A tail call: the frame is gone, and the outcome of the one call is that of the other. -/
theorem tailCall_link {w : World} {c s c' s'} (h : TailCall w c s c' s') (hi : Inv s) :
    Link s s' ∧ c'.start ≤ s'.args.length ∧ s'.shrunk = true ∧ ∀ {r s''}, Ends w c.task s r s'' ↔
      ∃ r' s1, Ends w c'.task s' r' s1 ∧ r = passed c.pos r' ∧ s'' = { s1 with shrunk := s.shrunk } := by
  cases h with
  | @mk m obj a start pos s s0 before last f args p s1 g p' obj' s2 vs s3 hb hbody hlast hs hf hargs =>
    have hc := hi.closure a
    have hb' := hb
    obtain ⟨h1, h2, s4, h3, hs0⟩ := hb
    obtain ⟨core0, args0⟩ := begins_core hi h2 h3
    have hi0 : Inv s0 := by rw [hs0]; exact core0.inv
    have hst0 : s0.stack = s4.stack := by rw [hs0]
    have hk0 : (s.heap.closure a).frame.slots ≤ s0.stack.length := by
      have := core0.stack.length_le
      rw [hst0]
      simp only [framed, List.length_append, List.length_replicate] at this
      omega
    have hok := hc.body
    rw [hbody] at hok
    obtain ⟨core1, args1, hl⟩ := statements_core (c := ⟨(s.heap.closure a).frame.slots, true, false⟩) hs hi0 hk0 hok
    have hcall : Spec.ExprOk ⟨(s.heap.closure a).frame.slots, true, false⟩ (.call f args p) := by
      rcases hlast with rfl | rfl
      · simp only [StmtOk] at hl; exact hl.2
      · simp only [StmtOk] at hl; exact hl
    simp only [Spec.ExprOk] at hcall
    have hk1 := Nat.le_trans hk0 core1.stack.length_le
    obtain ⟨core2, args2⟩ := ends_core hf core1.inv hk1 hcall.1
    have hk2 := Nat.le_trans hk1 core2.stack.length_le
    obtain ⟨core3, args3⟩ := inOrder_core hargs core2.inv hk2 hcall.2
    have hk3 : (s.heap.closure a).frame.slots ≤ s3.stack.length := Nat.le_trans hk2 core3.stack.length_le
    have core := (core1.trans core2).trans core3
    have hlink : Link s (released (s.heap.closure a).frame.slots s3) := by
      subst hs0
      have hst : StackRel (s.heap.closure a).frame.slots (framed (s.heap.closure a).frame.slots start s) s3 := core0.stack.trans core.stack
      have hrest : Rest (framed (s.heap.closure a).frame.slots start s) { s4 with shrunk := false } :=
        ⟨core0.rest.heap, core0.rest.modules, core0.rest.trace, core0.rest.files, core0.rest.std, core0.rest.argv, core0.rest.counted⟩
      have hr := hrest.trans core.rest
      have hq : Quiet (framed (s.heap.closure a).frame.slots start s) s3 := Quiet.trans hrest core.rest core0.quiet core.quiet
      refine ⟨?_, ⟨hr.heap, hr.modules, hr.trace, hr.files, hr.std, hr.argv, hr.counted⟩, hq, core.inv⟩
      obtain ⟨j, l1, l2, l3⟩ := hst
      refine ⟨j, l1, ?_, ?_⟩
      · simp only [framed, List.length_append, List.length_replicate] at l2
        simp only [released, List.length_drop]
        omega
      · simp only [framed, List.drop_append, List.length_replicate, Nat.sub_self, List.drop_replicate, List.replicate_zero,
          List.nil_append, List.drop_zero] at l3
        simpa [released, List.drop_drop, Nat.add_comm] using l3
    have hstart : s2.args.length ≤ (released (s.heap.closure a).frame.slots s3).args.length := by simp [released, args3]
    refine ⟨hlink, hstart, rfl, ?_⟩
    intro r s''
    have hpre : Pre ⟨0, false, false⟩ (.call (s.heap.closure a).module obj' g s2.args.length p)
        (released (s.heap.closure a).frame.slots s3) := ⟨hlink.inv, hstart⟩
    have hsh0 : ({ s0 with shrunk := false } : RState) = s0 := by rw [hs0]
    have hbodyEnds : ∃ K : Except Stop Out → Except Stop Out, (K = passed p ∨ K = fun r => returned (passed p r)) ∧ ∀ {r s'},
        Ends w (bodyOf s.heap a) s0 r s' ↔ ∃ r', Ends w (.call (s.heap.closure a).module obj' g s2.args.length p)
        (released (s.heap.closure a).frame.slots s3) r' s' ∧ r = K r' := by
      have hx := fun {r s'} => ends_tailExpr (pos := p) (r := r) (s' := s') hf hargs hk3
      rcases hlast with rfl | rfl
      · refine ⟨_, .inr rfl, fun {r s'} => ?_⟩
        rw [bodyOf, hbody, ends_afterStmts hs, ends_returnStmt]
        constructor
        · rintro ⟨r', h, rfl⟩
          obtain ⟨r'', h2, rfl⟩ := hx.1 h
          exact ⟨_, h2, rfl⟩
        · rintro ⟨r', h, rfl⟩
          exact ⟨_, hx.2 ⟨_, h, rfl⟩, rfl⟩
      · refine ⟨_, .inl rfl, fun {r s'} => ?_⟩
        rw [bodyOf, hbody, ends_afterStmts hs, ends_exprStmt]
        exact hx
    obtain ⟨K, hK, hbodyEnds⟩ := hbodyEnds
    have hwf : ∀ {r s'}, Lim (fun n => withFrame (s.heap.closure a).frame.slots (run w n (bodyOf s.heap a)))
        { s0 with shrunk := s.shrunk } r s' ↔ ∃ r' s1, Ends w (.call (s.heap.closure a).module obj' g s2.args.length p)
        (released (s.heap.closure a).frame.slots s3) r' s1 ∧ r = K r' ∧ s' = { s1 with shrunk := s.shrunk } := by
      intro r s'
      rw [lim_withFrame]
      simp only [hsh0, hbodyEnds]
      have hcl : ∀ {r' s1}, Ends w (.call (s.heap.closure a).module obj' g s2.args.length p)
          (released (s.heap.closure a).frame.slots s3) r' s1 →
          ∀ r, closed (s.heap.closure a).frame.slots s.shrunk r s1 = (r, { s1 with shrunk := s.shrunk }) := by
        intro r' s1 he r
        have : s1.shrunk = true := (ends_callShape hpre he).2.shrunk
        simp only [closed, this, if_true]
      constructor
      · rintro ⟨r1, s1, ⟨r', he, rfl⟩, h⟩
        rw [hcl he] at h
        cases h
        exact ⟨_, _, he, rfl, rfl⟩
      · rintro ⟨r', s1, he, rfl, rfl⟩
        exact ⟨_, _, ⟨_, he, rfl⟩, hcl he _⟩
    have hmono : Mono fun n => withFrame (s.heap.closure a).frame.slots (run w n (bodyOf s.heap a)) :=
      fun n n' hn => mle_withFrame _ (Mono.run w _ n n' hn)
    simp only [Invocation.task]
    rw [ends_begins hi hb']
    refine Iff.trans (lim_bind (f := fun _ => finishCall pos) hmono (fun _ => .const _)) ?_
    simp only [hwf]
    constructor
    · rintro (⟨o, _, ⟨r', s1, he, ho, rfl⟩, h⟩ | ⟨e, rfl, r', s1, he, ho, rfl⟩)
      · refine ⟨r', s1, he, ?_⟩
        obtain ⟨⟨_, hv⟩, _⟩ := ends_callShape hpre he
        cases r' with
        | error e => rcases hK with rfl | rfl <;> cases ho
        | ok o' =>
          obtain ⟨v, rfl⟩ := hv _ rfl
          rcases hK with rfl | rfl <;> cases ho <;>
          · obtain ⟨rfl, rfl⟩ := lim_pure.1 h
            exact ⟨rfl, rfl⟩
      · refine ⟨r', s1, he, ?_, rfl⟩
        obtain ⟨⟨_, hv⟩, _⟩ := ends_callShape hpre he
        cases r' with
        | error e => rcases hK with rfl | rfl <;> cases ho <;> rfl
        | ok o' =>
          obtain ⟨v, rfl⟩ := hv _ rfl
          rcases hK with rfl | rfl <;> cases ho
    · rintro ⟨r', s1, he, rfl, rfl⟩
      obtain ⟨⟨_, hv⟩, _⟩ := ends_callShape hpre he
      cases r' with
      | error e => exact .inr ⟨e, rfl, _, _, he, by rcases hK with rfl | rfl <;> rfl, rfl⟩
      | ok o' =>
        obtain ⟨v, rfl⟩ := hv _ rfl
        refine .inl ?_
        rcases hK with rfl | rfl
        · exact ⟨_, _, ⟨_, _, he, rfl, rfl⟩, lim_pure.2 ⟨rfl, rfl⟩⟩
        · exact ⟨_, _, ⟨_, _, he, rfl, rfl⟩, lim_pure.2 ⟨rfl, rfl⟩⟩

/-- A chain of tail calls. -/
theorem tailCalls_link {w : World} {n c s c' s'} (h : TailCalls w n c s c' s') (hi : Inv s) (hc : c.start ≤ s.args.length) :
    Link s s' ∧ c'.start ≤ s'.args.length ∧ ∀ {r s''}, Ends w c.task s r s'' ↔
      ∃ r' s1, Ends w c'.task s' r' s1 ∧ r = passed c.pos r' ∧ s'' = { s1 with shrunk := s.shrunk } := by
  induction h with
  | none c s =>
    refine ⟨.refl hi, hc, fun {r s''} => ?_⟩
    have hsh : ∀ {r s''}, Ends w c.task s r s'' → r = passed c.pos r ∧ s'' = { s'' with shrunk := s.shrunk } := by
      intro r s'' he
      have := ends_callShape (c := ⟨0, false, false⟩) ⟨hi, hc⟩ he
      exact ⟨this.1.1, by rw [← this.2.shrunk]⟩
    constructor
    · intro he
      exact ⟨r, s'', he, hsh he⟩
    · rintro ⟨r', s1, he, rfl, rfl⟩
      rw [← (hsh he).1, ← (hsh he).2]
      exact he
  | @next n c s c1 s1 c' s' h1 _ ih =>
    obtain ⟨l1, a1, _, e1⟩ := tailCall_link h1 hi
    obtain ⟨l2, a2, e2⟩ := ih l1.inv a1
    refine ⟨l1.trans l2, a2, fun {r s''} => ?_⟩
    rw [e1]
    constructor
    · rintro ⟨r', s2, he, rfl, rfl⟩
      obtain ⟨r'', s3, he2, rfl, rfl⟩ := e2.1 he
      exact ⟨_, _, he2, passed_passed _ _ _, rfl⟩
    · rintro ⟨r', s2, he, rfl, rfl⟩
      exact ⟨_, _, e2.2 ⟨_, _, he, rfl, rfl⟩, (passed_passed _ _ _).symm, rfl⟩

end Hush

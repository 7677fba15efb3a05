import Verif.Lemmas.InterpRules

/-!
A panic or a `return` in a part of a task is passed on by the task.
-/

namespace Hush
open Spec

theorem lim_leave {w : World} {t : Task} {pos : Pos} {k : Nat → Value → Pos → Value → M Out} {s r s'}
    (h : Ends w t s r s') (hl : Leaving r) : Lim (fun n => run w n t >>= fun o => o.regular pos (k n)) s (passed pos r) s' := by
  obtain ⟨hr, N, hN⟩ := ends_iff_run.1 h
  dsimp only at hN
  refine ⟨passed_ne hr, N, fun n hn => ?_⟩
  show M.andThen _ _ s = _
  unfold M.andThen
  rw [hN n hn]
  rcases r with e | ⟨f, p, x⟩
  · rfl
  · cases f with
    | regular v => exact absurd rfl (hl v p x)
    | _ => rfl

theorem lim_go {w : World} {t : Task} {pos : Pos} {k : Nat → Value → Pos → Value → M Out} {v p x s s1 r s'}
    (h : Ends w t s (.ok ⟨.regular v, p, x⟩) s1) (h' : Lim (fun n => k n v p x) s1 r s') :
    Lim (fun n => run w n t >>= fun o => o.regular pos (k n)) s r s' := by
  obtain ⟨_, N, hN⟩ := ends_iff_run.1 h
  dsimp only at hN
  obtain ⟨hr, N', hN'⟩ := h'
  refine ⟨hr, max N N', fun n hn => ?_⟩
  show M.andThen _ _ s = _
  unfold M.andThen
  rw [hN n (by omega)]
  exact hN' n (by omega)

theorem lim_then {m : Nat → M α} {f : Nat → α → M β} {s a s1 r s'} (h : Lim m s (.ok a) s1) (h' : Lim (fun n => f n a) s1 r s') :
    Lim (fun n => m n >>= f n) s r s' := by
  obtain ⟨_, N, hN⟩ := h
  obtain ⟨hr, N', hN'⟩ := h'
  refine ⟨hr, max N N', fun n hn => ?_⟩
  show M.andThen _ _ s = _
  unfold M.andThen
  rw [hN n (by omega)]
  exact hN' n (by omega)

theorem lim_fails {m : Nat → M α} {f : Nat → α → M β} {s e s'} (h : Lim m s (.error e) s') :
    Lim (fun n => m n >>= f n) s (.error e) s' := by
  obtain ⟨hr, N, hN⟩ := h
  refine ⟨fun h => hr (by cases h; rfl), N, fun n hn => ?_⟩
  show M.andThen _ _ s = _
  unfold M.andThen
  rw [hN n hn]

theorem lim_ends {w : World} {t : Task} {s r s'} (h : Ends w t s r s') : Lim (fun n => run w n t) s r s' := ends_iff_run.1 h

/-- The same outcome up to the position. -/
inductive Same : Except Stop Out → Except Stop Out → Prop
  | error (e : Stop) : Same (.error e) (.error e)
  | return_ (v : Value) (p q : Pos) (x y : Value) : Same (.ok ⟨.return_ v, p, x⟩) (.ok ⟨.return_ v, q, y⟩)

/-- The same state, except for arguments of calls in the making that are dropped on `return`. -/
inductive Cut : Except Stop Out → RState → RState → Prop
  | same (r : Except Stop Out) (s : RState) : Cut r s s
  | drop (o : Out) (k : Nat) (s : RState) : Cut (.ok o) s (cut k s)

theorem Same.leaving {r r' : Except Stop Out} (h : Same r r') : Leaving r := by
  cases h
  · exact leaving_error _
  · exact fun _ _ _ h => by cases h

theorem Same.leaving' {r r' : Except Stop Out} (h : Same r r') : Leaving r' := by
  cases h
  · exact leaving_error _
  · exact fun _ _ _ h => by cases h

theorem Same.passed {r r' : Except Stop Out} (h : Same r r') (pos : Pos) : Same r (passed pos r) := by
  cases h
  · exact .error _
  · exact .return_ _ _ _ _ _

theorem Same.refl_left {r r' : Except Stop Out} (h : Same r r') : Same r r := by
  cases h
  · exact .error _
  · exact .return_ _ _ _ _ _

theorem Same.trans {a b c : Except Stop Out} (h : Same a b) (h' : Same b c) : Same a c := by
  cases h <;> cases h'
  · exact .error _
  · exact .return_ _ _ _ _ _

theorem Cut.trans {a b : Except Stop Out} {s1 s2 s3} (hs : Same a b) (h : Cut a s1 s2) (h' : Cut b s2 s3) : Cut a s1 s3 := by
  cases h with
  | same => cases hs <;> cases h' <;> first | exact .same _ _ | exact .drop _ _ _
  | drop o k =>
    cases hs
    cases h' with
    | same => exact .drop _ _ _
    | drop o j =>
      rw [show cut j (cut k s1) = cut (min j k) s1 by simp [cut, List.take_take]]
      exact .drop _ _ _

theorem inOrder_upTo {w : World} {m : Nat} {keep before e after s vs s1 r s'} (h : InOrder w m keep before s vs s1)
    (he : Eval w m e s1 r s') (hl : Leaving r) : UpTo w m keep (before ++ e :: after) s r s' := by
  induction h with
  | nil s => exact .here he hl
  | cons h _ ih => exact .later h (ih he)

/-- A panic or a `return` in a part is passed on at once. -/
theorem part_passes {w : World} {t s t' s1 r s2} (h : Part w t s t' s1) (h' : Ends w t' s1 r s2) (hr : Same r r) :
    ∃ r' s', Ends w t s r' s' ∧ Same r r' ∧ Cut r s2 s' := by
  have hl := hr.leaving
  cases h with
  | unary => exact ⟨_, _, ends_iff.2 (lim_leave h' hl), hr.passed _, .same _ _⟩
  | left => exact ⟨_, _, ends_iff.2 (lim_leave h' hl), hr.passed _, .same _ _⟩
  | rightLogical h hop =>
    rename_i m tail a op b pos x p obj
    have hx : x = !(op == .or) := by rcases hop with ⟨rfl, rfl⟩ | ⟨rfl, rfl⟩ <;> rfl
    have hop' : op = .and ∨ op = .or := by rcases hop with ⟨h, _⟩ | ⟨h, _⟩ <;> simp [h]
    rw [hx] at h
    exact ⟨_, _, (ends_logical hop').2 (.rightLeaves h h' hl), hr.passed _, .same _ _⟩
  | rightStrict h h1 h2 => exact ⟨_, _, (ends_strict h1 h2).2 (.rightLeaves h h' hl), hr.passed _, .same _ _⟩
  | condition => exact ⟨_, _, ends_iff.2 (lim_leave h' hl), hr.passed _, .same _ _⟩
  | thenBlock h => exact ⟨_, _, ends_iff.2 (lim_go h (lim_passed.2 ⟨_, h', rfl⟩)), hr.passed _, .same _ _⟩
  | elseBlock h => exact ⟨_, _, ends_iff.2 (lim_go h (lim_passed.2 ⟨_, h', rfl⟩)), hr.passed _, .same _ _⟩
  | object => exact ⟨_, _, ends_iff.2 (lim_leave h' hl), hr.passed _, .same _ _⟩
  | field h => exact ⟨_, _, ends_iff.2 (lim_go h (lim_leave h' hl)), hr.passed _, .same _ _⟩
  | function => exact ⟨_, _, ends_iff.2 (lim_leave h' hl), hr.passed _, .same _ _⟩
  | argument h h1 =>
    rename_i m tail f before e after pos g p obj sf vs
    have hu := inOrder_upTo (after := after) h1 h' hl
    cases hr with
    | error e =>
      exact ⟨_, _, ends_iff.2 (lim_go h (lim_get_bind.2 (lim_leave (ends_args.2 (.inr ⟨_, _, hu, rfl, rfl⟩)) (leaving_error e)))),
        .error _, .same _ _⟩
    | return_ v p q x y =>
      exact ⟨_, _, ends_iff.2 (lim_go h (lim_get_bind.2 (lim_leave (ends_args.2 (.inr ⟨_, _, hu, rfl, rfl⟩))
        (fun _ _ _ h => by cases h)))), .return_ _ _ _ _ _, .drop _ _ _⟩
  | item h =>
    exact ⟨_, _, ends_array.2 (.inr ⟨_, inOrder_upTo h h' hl, rfl⟩), hr.passed _, .same _ _⟩
  | entry h =>
    refine ⟨_, _, ends_dict.2 (.inr ⟨_, ?_, rfl⟩), hr.passed _, .same _ _⟩
    rw [List.map_append, List.map_cons]
    exact inOrder_upTo h h' hl
  | assigned => exact ⟨_, _, ends_iff.2 (lim_leave h' hl), hr.passed _, .same _ _⟩
  | assignedObject h => exact ⟨_, _, ends_iff.2 (lim_go h (lim_leave h' hl)), hr.passed _, .same _ _⟩
  | assignedField h h1 => exact ⟨_, _, ends_iff.2 (lim_go h (lim_go h1 (lim_leave h' hl))), hr.passed _, .same _ _⟩
  | returned =>
    refine ⟨passed noPos r, _, ends_iff.2 ?_, hr.passed _, .same _ _⟩
    cases hr with
    | error e => exact lim_fails (lim_ends h')
    | return_ v p q x y => exact lim_then (lim_ends h') (lim_pure.2 ⟨rfl, rfl⟩)
  | while_ => exact ⟨_, _, ends_iff.2 (lim_ends h'), hr, .same _ _⟩
  | whileCondition => exact ⟨_, _, ends_iff.2 (lim_leave h' hl), hr.passed _, .same _ _⟩
  | whileBody h =>
    refine ⟨passed noPos r, _, ends_iff.2 (lim_go h ?_), hr.passed _, .same _ _⟩
    cases hr with
    | error e => exact lim_fails (lim_ends h')
    | return_ v p q x y => exact lim_then (lim_ends h') (lim_pure.2 ⟨rfl, rfl⟩)
  | whileAgain h h1 =>
    exact ⟨_, _, ends_iff.2 (lim_go h (lim_then (lim_ends h1) (lim_ends h'))), hr, .same _ _⟩
  | iterated => exact ⟨_, _, ends_iff.2 (lim_leave h' hl), hr.passed _, .same _ _⟩
  | for_ h => exact ⟨_, _, ends_iff.2 (lim_go h (lim_ends h')), hr, .same _ _⟩
  | forBody h hn hs =>
    rename_i m slot f pos b v p obj s3 n x
    refine ⟨passed noPos r, _, ends_iff.2 ?_, hr.passed _, .same _ _⟩
    refine lim_get_bind.2 (lim_then (lim_ends h) (lim_then (lim_pure.2 ⟨rfl, rfl⟩) (lim_then ((lim_reads (fun _ _ h x => nextValue_mono x h _ _)).2
      ⟨rfl, nofun, n, hn⟩) (lim_then (lim_const.2 ⟨nofun, hs⟩) ?_))))
    cases hr with
    | error e => exact lim_fails (lim_ends h')
    | return_ v p q x y => exact lim_then (lim_ends h') (lim_pure.2 ⟨rfl, rfl⟩)
  | forAgain h hn hs h1 =>
    rename_i m slot f pos b v p obj s3 n x s4 v' p' obj'
    refine ⟨_, _, ends_iff.2 ?_, hr, .same _ _⟩
    exact lim_get_bind.2 (lim_then (lim_ends h) (lim_then (lim_pure.2 ⟨rfl, rfl⟩) (lim_then ((lim_reads (fun _ _ h x => nextValue_mono x h _ _)).2
      ⟨rfl, nofun, n, hn⟩) (lim_then (lim_const.2 ⟨nofun, hs⟩) (lim_then (lim_ends h1) (lim_ends h'))))))
  | statement => exact ⟨_, _, ends_iff.2 (lim_ends h'), hr, .same _ _⟩
  | last => exact ⟨_, _, ends_iff.2 (lim_ends h'), hr, .same _ _⟩
  | first => exact ⟨_, _, ends_iff.2 (lim_leave h' hl), hr.passed _, .same _ _⟩
  | rest h => exact ⟨_, _, ends_iff.2 (lim_go h (lim_ends h')), hr, .same _ _⟩

/-- The same at any depth. -/
theorem within_passes {w : World} {t s t' s1 r s2} (h : Within w t s t' s1) (h' : Ends w t' s1 r s2) (hr : Same r r) :
    ∃ r' s', Ends w t s r' s' ∧ Same r r' ∧ Cut r s2 s' := by
  induction h with
  | self t s => exact ⟨_, _, h', hr, .same _ _⟩
  | part hp _ ih =>
    obtain ⟨r1, s3, h1, hs1, hc1⟩ := ih h'
    obtain ⟨r2, s4, h2, hs2, hc2⟩ := part_passes hp h1 (by cases hs1 <;> first | exact .error _ | exact .return_ _ _ _ _ _)
    exact ⟨r2, s4, h2, hs1.trans hs2, hc1.trans hs1 hc2⟩

end Hush

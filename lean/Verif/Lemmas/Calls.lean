import Verif.Spec.Calls
import Verif.Lemmas.InterpTail

/-!
The variables of a function when its body begins, and the rule for calls.
-/

namespace Hush
open Hush.Spec

theorem store_regular {ix : Nat} {v u : Value} {s : RState} (h : s.stack[ix]? = some (.regular u)) :
    store ix v s = (.ok (), { s with stack := s.stack.set ix (.regular v) }) := by
  simp only [store, h]

/-- The slots after storing consecutive values. -/
def setArgs : Nat → List Value → List Slot → List Slot
  | _, [], st => st
  | ix, v :: vs, st => setArgs (ix + 1) vs (st.set ix (.regular v))

theorem setArgs_length : ∀ (vs : List Value) (ix : Nat) (st : List Slot), (setArgs ix vs st).length = st.length
  | [], _, _ => rfl
  | v :: vs, ix, st => by rw [setArgs, setArgs_length vs, List.length_set]

theorem setArgs_get : ∀ (vs : List Value) (ix : Nat) (st : List Slot), ix + vs.length ≤ st.length → ∀ i,
    (setArgs ix vs st)[i]? = if ix ≤ i ∧ i < ix + vs.length then some (.regular (vs.getD (i - ix) .nil)) else st[i]?
  | [], ix, st, _, i => by
    rw [if_neg (by simp only [List.length_nil]; omega)]
    rfl
  | v :: vs, ix, st, h, i => by
    simp only [List.length_cons] at h ⊢
    rw [setArgs, setArgs_get vs (ix + 1) _ (by rw [List.length_set]; omega)]
    by_cases h1 : i = ix
    · subst h1
      rw [if_neg (by omega), if_pos (by omega), List.getElem?_set_self (by omega), Nat.sub_self]
      rfl
    · by_cases h2 : ix + 1 ≤ i ∧ i < ix + 1 + vs.length
      · rw [if_pos h2, if_pos (by omega)]
        obtain ⟨k, hk⟩ : ∃ k, i - ix = k + 1 := ⟨i - ix - 1, by omega⟩
        rw [hk, List.getD_cons_succ, show i - (ix + 1) = k by omega]
      · rw [if_neg h2, if_neg (by omega), List.getElem?_set_ne (Ne.symm h1)]

theorem storeArgs_regular : ∀ (vs : List Value) (ix : Nat) (s : RState), (∀ j, ix ≤ j → j < ix + vs.length → ∃ u, s.stack[j]? = some (.regular u)) →
    storeArgs ix vs s = (.ok (), { s with stack := setArgs ix vs s.stack })
  | [], ix, s, _ => rfl
  | v :: vs, ix, s, h => by
    obtain ⟨u, hu⟩ := h ix (Nat.le_refl _) (by simp)
    simp only [storeArgs, bind, M.andThen, store_regular hu]
    rw [storeArgs_regular vs (ix + 1)]
    · rfl
    · intro j h1 h2
      obtain ⟨u, hu⟩ := h j (by omega) (by simp only [List.length_cons]; omega)
      exact ⟨u, by rw [List.getElem?_set_ne (by omega)]; exact hu⟩

/-- The slots after placing captured variables. -/
def setCaptured : List (Nat × Nat) → List Slot → List Slot
  | [], st => st
  | (c, ix) :: rest, st => setCaptured rest (st.set ix (.closed c))

theorem setCaptured_length : ∀ (l : List (Nat × Nat)) (st : List Slot), (setCaptured l st).length = st.length
  | [], _ => rfl
  | (c, ix) :: rest, st => by rw [setCaptured, setCaptured_length rest, List.length_set]

theorem setCaptured_get : ∀ (l : List (Nat × Nat)) (st : List Slot), (l.map (·.2)).Nodup → (∀ q ∈ l, q.2 < st.length) → ∀ i,
    (setCaptured l st)[i]? = match l.find? (fun q => q.2 = i) with | some q => some (.closed q.1) | none => st[i]?
  | [], st, _, _, i => rfl
  | (c, ix) :: rest, st, hn, hl, i => by
    simp only [List.map_cons, List.nodup_cons] at hn
    have hix : ix < st.length := hl (c, ix) (List.mem_cons_self ..)
    rw [setCaptured, setCaptured_get rest _ hn.2 (fun q hq => by rw [List.length_set]; exact hl q (List.mem_cons_of_mem _ hq))]
    by_cases h : ix = i
    · subst h
      have : rest.find? (fun q => q.2 = ix) = none := by
        rw [List.find?_eq_none]
        intro q hq he
        exact hn.1 (List.mem_map.2 ⟨q, hq, by simpa using he⟩)
      rw [this, List.find?_cons_of_pos (by simp)]
      exact List.getElem?_set_self hix
    · rw [List.find?_cons_of_neg (by simpa using h)]
      cases rest.find? (fun q => q.2 = i) with
      | some q => rfl
      | none => exact List.getElem?_set_ne h

theorem placeAll_eq : ∀ (l : List (Nat × Nat)) (s : RState), (∀ q ∈ l, q.2 < s.stack.length) →
    placeAll l s = (.ok (), { s with stack := setCaptured l s.stack })
  | [], s, _ => rfl
  | (c, ix) :: rest, s, h => by
    have hix : ix < s.stack.length := h (c, ix) (List.mem_cons_self ..)
    simp only [placeAll, bind, M.andThen, place, List.getElem?_eq_getElem hix]
    rw [placeAll_eq rest]
    · rfl
    · intro q hq
      rw [List.length_set]
      exact h q (List.mem_cons_of_mem _ hq)

/-- The frame that the interpreter builds is the specified one. -/
theorem begins_eq {w : World} {obj : Value} {pos : Pos} {start : Nat} {s : RState} {c : Closure} (hc : ClosureOk c)
    (h2 : (s.args.drop start).length = c.params) (h3 : s.stack.length + c.frame.slots ≤ w.limit) : (do
      extend w c.frame.slots pos
      storeArgs 0 (s.args.drop start)
      placeAll c.context
      storeSelf obj c.frame.selfSlot : M Unit) (cut start s) = (.ok (), { entered c obj start s with shrunk := s.shrunk }) := by
  have hfit := hc.fits
  let base := List.replicate c.frame.slots (Slot.regular .nil) ++ s.stack
  have hb : ∀ i, i < c.frame.slots → base[i]? = some (.regular .nil) := by
    intro i hi
    rw [List.getElem?_append_left (by simpa using hi), List.getElem?_replicate, if_pos hi]
  have hlen : base.length = c.frame.slots + s.stack.length := by simp [base]
  have e1 : extend w c.frame.slots pos (cut start s) = (.ok (), { cut start s with stack := base }) := by
    unfold extend
    rw [if_neg (show ¬ (cut start s).stack.length + c.frame.slots > w.limit from Nat.not_lt.2 h3)]
    rfl
  have e2 := storeArgs_regular (s.args.drop start) 0 { cut start s with stack := base }
    (fun j _ hj => ⟨.nil, hb j (by omega)⟩)
  have e3 := placeAll_eq c.context { cut start s with stack := setArgs 0 (s.args.drop start) base }
    (fun q hq => by
      show q.2 < (setArgs 0 (s.args.drop start) base).length
      rw [setArgs_length, hlen]; have := (hc.target q hq).2; omega)
  have hget : ∀ i, (setCaptured c.context (setArgs 0 (s.args.drop start) base))[i]? =
      match c.context.find? (fun q => q.2 = i) with
      | some q => some (.closed q.1)
      | none => if i < c.frame.slots then some (.regular ((s.args.drop start).getD i .nil)) else s.stack[i - c.frame.slots]? := by
    intro i
    rw [setCaptured_get _ _ hc.once (fun q hq => by rw [setArgs_length, hlen]; have := (hc.target q hq).2; omega)]
    cases c.context.find? (fun q => q.2 = i) with
    | some q => rfl
    | none =>
      dsimp only
      rw [setArgs_get _ _ _ (by omega)]
      by_cases h1 : 0 ≤ i ∧ i < 0 + (s.args.drop start).length
      · rw [if_pos h1, if_pos (by omega), Nat.sub_zero]
      · rw [if_neg h1]
        by_cases h4 : i < c.frame.slots
        · rw [if_pos h4, hb i h4, List.getD_eq_getElem?_getD, List.getElem?_eq_none (by omega)]
          rfl
        · rw [if_neg h4, List.getElem?_append_right (by simp; omega), List.length_replicate]
  have hfull : (setCaptured c.context (setArgs 0 (s.args.drop start) base)).length = c.frame.slots + s.stack.length := by
    rw [setCaptured_length, setArgs_length, hlen]
  have hnew : ∀ i, (newFrame c (s.args.drop start) obj ++ s.stack)[i]? =
      if i < c.frame.slots then some (initial c (s.args.drop start) obj i) else s.stack[i - c.frame.slots]? := by
    intro i
    have hl : (newFrame c (s.args.drop start) obj).length = c.frame.slots := by simp [newFrame]
    by_cases h : i < c.frame.slots
    · rw [if_pos h, List.getElem?_append_left (by omega)]
      simp [newFrame, h]
    · rw [if_neg h, List.getElem?_append_right (by omega), hl]
  have hfind : ∀ i q, c.context.find? (fun q => q.2 = i) = some q → i < c.frame.slots := by
    intro i q hq
    have h1 := List.mem_of_find?_eq_some hq
    have h2 := List.find?_some hq
    have := (hc.target q h1).2
    simp only [decide_eq_true_eq] at h2
    omega
  have e4 : storeSelf obj c.frame.selfSlot { cut start s with stack := setCaptured c.context (setArgs 0 (s.args.drop start) base) } =
      (.ok (), { entered c obj start s with shrunk := s.shrunk }) := by
    cases hs : c.frame.selfSlot with
    | none =>
      refine congrArg (Prod.mk _) ?_
      simp only [entered, cut]
      congr 1
      refine List.ext_getElem? fun i => ?_
      rw [hget, hnew]
      unfold initial
      cases hf : c.context.find? (fun q => q.2 = i) with
      | some q => simp only [if_pos (hfind i q hf)]
      | none => simp only [hs, reduceCtorEq, if_false]
    | some x =>
      obtain ⟨hx1, hx2⟩ := hc.self_ x hs
      have hxf : c.context.find? (fun q => q.2 = x) = none := by
        rw [List.find?_eq_none]
        intro q hq he
        exact hc.apart x hs q hq (by simpa using he)
      have hreg : (setCaptured c.context (setArgs 0 (s.args.drop start) base))[x]? = some (.regular ((s.args.drop start).getD x .nil)) := by
        rw [hget, hxf]; dsimp only; rw [if_pos hx2]
      refine (store_regular (s := { cut start s with stack := setCaptured c.context (setArgs 0 (s.args.drop start) base) }) hreg).trans ?_
      refine congrArg (Prod.mk _) ?_
      simp only [entered, cut]
      congr 1
      refine List.ext_getElem? fun i => ?_
      rw [hnew]
      by_cases hi : i = x
      · subst hi
        rw [List.getElem?_set_self (by omega), if_pos hx2]
        unfold initial
        rw [hxf]
        dsimp only
        rw [hs, if_pos rfl]
      · rw [List.getElem?_set_ne (Ne.symm hi), hget]
        unfold initial
        cases hf : c.context.find? (fun q => q.2 = i) with
        | some q => simp only [if_pos (hfind i q hf)]
        | none => simp only [hs, Option.some.injEq, if_neg (Ne.symm hi)]
  show M.andThen _ _ _ = _
  unfold M.andThen
  rw [e1]
  dsimp only
  show M.andThen _ _ _ = _
  unfold M.andThen
  rw [e2]
  dsimp only
  show M.andThen _ _ _ = _
  unfold M.andThen
  rw [e3]
  exact e4

theorem ends_called {w : World} {m : Nat} {obj : Value} {a start : Nat} {pos : Pos} {s : RState} (hi : Inv s) (hs : start ≤ s.args.length)
    {r s'} : Ends w (.call m obj (.hush a) start pos) s r s' ↔ Called w obj a start pos s r s' := by
  have hc := hi.closure a
  by_cases h2 : (s.args.drop start).length = (s.heap.closure a).params
  · by_cases h3 : s.stack.length + (s.heap.closure a).frame.slots ≤ w.limit
    · have hb : Begins w obj a start pos s (entered (s.heap.closure a) obj start s) :=
        ⟨hs, h2, _, begins_eq hc h2 h3, rfl⟩
      rw [ends_begins hi hb]
      have hi0 : Inv (entered (s.heap.closure a) obj start s) := hi
      have hk0 : (s.heap.closure a).frame.slots ≤ (entered (s.heap.closure a) obj start s).stack.length := by
        simp [entered, newFrame]
      -- What is known after the body.
      have body : ∀ r1 s1, Ends w (bodyOf s.heap a) (entered (s.heap.closure a) obj start s) r1 s1 →
          closed (s.heap.closure a).frame.slots s.shrunk r1 s1 = (r1, left (s.heap.closure a) s s1) ∧ ∀ p o, r1 ≠ .ok ⟨.break_, p, o⟩ := by
        rintro r1 s1 ⟨hr, N, hN⟩
        have h1 := ev_block (m := (s.heap.closure a).module) (tail := some (s.heap.closure a).frame.slots) (run_ok w N)
          (c := ⟨(s.heap.closure a).frame.slots, true, false⟩) hi0 hk0 (fun n h => (Option.some.inj h).symm) hc.body
        have hrun : run w N (.block (s.heap.closure a).module (some (s.heap.closure a).frame.slots) (s.heap.closure a).body)
          (entered (s.heap.closure a) obj start s) = (r1, s1) := hN
        have hst : TailRel (some (s.heap.closure a).frame.slots) (s.heap.closure a).frame.slots (entered (s.heap.closure a) obj start s) s1 := by
          simp only [Ev, Runs, hrun] at h1
          cases r1 with
          | ok o => exact h1.1
          | error e => exact h1.2.1
        constructor
        · unfold closed left
          cases hsh : s1.shrunk with
          | true => simp
          | false =>
            have hl : (s.heap.closure a).frame.slots ≤ s1.stack.length := by
              rcases hst with h | ⟨-, h⟩
              · exact Nat.le_trans hk0 h.stack.length_le
              · rw [h.shrunk] at hsh; cases hsh
            simp only [shrink, if_neg (Nat.not_lt.2 hl), Bool.false_eq_true, if_false]
        · rintro p o rfl
          simp only [Ev, Runs, hrun] at h1
          have := h1.2.1
          simp [FlowOk] at this
      have hfin : ∀ {r1 s1}, Ends w (bodyOf s.heap a) (entered (s.heap.closure a) obj start s) r1 s1 →
          Lim (fun n => withFrame (s.heap.closure a).frame.slots (run w n (bodyOf s.heap a)))
            { entered (s.heap.closure a) obj start s with shrunk := s.shrunk } r1 (left (s.heap.closure a) s s1) := fun h =>
        lim_withFrame.2 ⟨_, _, h, (body _ _ h).1⟩
      constructor
      · intro h
        have hm : Mono (fun n => withFrame (s.heap.closure a).frame.slots (run w n (bodyOf s.heap a))) :=
          fun n n' hn => mle_withFrame _ (Mono.run w _ n n' hn)
        rw [lim_bind (f := fun _ => finishCall pos) hm (fun _ => .const _)] at h
        rcases h with ⟨o, s2, h, h'⟩ | ⟨e, rfl, h⟩
        · obtain ⟨r1, s1, h4, h5⟩ := lim_withFrame.1 h
          have h4' : Ends w (bodyOf s.heap a) (entered (s.heap.closure a) obj start s) r1 s1 := h4
          obtain ⟨h6, h7⟩ := body _ _ h4'
          have h5' : closed (s.heap.closure a).frame.slots s.shrunk r1 s1 = (.ok o, s2) := h5
          rw [h6] at h5'
          cases h5'
          rcases o with ⟨f, p, x⟩
          cases f with
          | regular v => obtain ⟨rfl, rfl⟩ := lim_pure.1 h'; exact .falls h2 h3 h4'
          | return_ v => obtain ⟨rfl, rfl⟩ := lim_pure.1 h'; exact .returns h2 h3 h4'
          | break_ => exact absurd rfl (h7 p x)
        · obtain ⟨r1, s1, h4, h5⟩ := lim_withFrame.1 h
          have h4' : Ends w (bodyOf s.heap a) (entered (s.heap.closure a) obj start s) r1 s1 := h4
          obtain ⟨h6, h7⟩ := body _ _ h4'
          have h5' : closed (s.heap.closure a).frame.slots s.shrunk r1 s1 = (.error e, s') := h5
          rw [h6] at h5'
          cases h5'
          exact .stops h2 h3 h4'
      · intro h
        cases h with
        | wrongNumber h => exact absurd h2 h
        | overflow _ h => omega
        | stops _ _ h => exact lim_fails (hfin h)
        | falls _ _ h => exact lim_then (hfin h) (lim_pure.2 ⟨rfl, rfl⟩)
        | returns _ _ h => exact lim_then (hfin h) (lim_pure.2 ⟨rfl, rfl⟩)
    · have heq : ∀ n, step w n (run w n) (.call m obj (.hush a) start pos) s = (.error (.panic ⟨.stackOverflow, pos⟩), cut start s) := by
        intro n
        simp only [step, stepCall, if_neg (Nat.not_lt.2 hs)]
        show M.andThen _ _ s = _
        unfold M.andThen M.modify
        simp only [h2, ne_eq, not_true, if_false]
        show M.andThen _ _ (cut start s) = _
        unfold M.andThen extend
        rw [if_pos (show (cut start s).stack.length + (s.heap.closure a).frame.slots > w.limit from Nat.not_le.1 h3)]
      rw [ends_iff]
      simp only [Lim, heq]
      constructor
      · rintro ⟨-, N, hN⟩
        cases hN N (Nat.le_refl _)
        exact .overflow h2 (by omega)
      · intro h
        cases h with
        | wrongNumber h => exact absurd h2 h
        | overflow _ _ => exact ⟨nofun, 0, fun _ _ => rfl⟩
        | stops _ h => exact absurd h h3
        | falls _ h => exact absurd h h3
        | returns _ h => exact absurd h h3
  · have heq : ∀ n, step w n (run w n) (.call m obj (.hush a) start pos) s =
        (.error (.panic ⟨.invalidArgs (s.args.drop start).length (s.heap.closure a).params, pos⟩), cut start s) := by
      intro n
      simp only [step, stepCall, if_neg (Nat.not_lt.2 hs)]
      show M.andThen _ _ s = _
      unfold M.andThen M.modify
      simp only [h2, ne_eq, not_false_eq_true, if_true]
      rfl
    rw [ends_iff]
    simp only [Lim, heq]
    constructor
    · rintro ⟨-, N, hN⟩
      cases hN N (Nat.le_refl _)
      exact .wrongNumber h2
    · intro h
      cases h with
      | wrongNumber h => exact ⟨nofun, 0, fun _ _ => rfl⟩
      | overflow h _ => exact absurd h h2
      | stops h _ => exact absurd h h2
      | falls h _ => exact absurd h h2
      | returns h _ => exact absurd h h2

end Hush

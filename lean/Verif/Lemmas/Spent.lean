import Verif.Lemmas.Grow
import Verif.Spec.Spent

/-!
Exhausted iterators stay exhausted, whatever is executed.
-/

set_option linter.unusedTactic false
set_option linter.unreachableTactic false

namespace Hush
open Spec

/-- Exhausted iterators are as before. -/
structure Kept (h h' : Heap) : Prop where
  keeps : ∀ (a : Nat) (st : NState), Spent st → h.natives[a]? = some st → h'.natives[a]? = some st

theorem Kept.refl (h : Heap) : Kept h h := ⟨fun _ _ _ h => h⟩
theorem Kept.trans {a b c : Heap} (h1 : Kept a b) (h2 : Kept b c) : Kept a c :=
  ⟨fun x st hs h => h2.1 x st hs (h1.1 x st hs h)⟩
theorem Kept.same {h h' : Heap} (e : h'.natives = h.natives) : Kept h h' := ⟨fun _ _ _ hh => by rw [e]; exact hh⟩

theorem kept_newArray (h : Heap) (vs) : Kept h (h.newArray vs).2 := .same rfl
theorem kept_newDict (h : Heap) (es) : Kept h (h.newDict es).2 := .same rfl
theorem kept_newError (h : Heap) (d c) : Kept h (h.newError d c).2 := .same rfl
theorem kept_newNative (h : Heap) (n s) : Kept h (h.newNative n s).2 := by
  refine ⟨fun a st _ hh => ?_⟩
  show (h.natives ++ [s])[a]? = some st
  rw [List.getElem?_append_left (List.getElem?_eq_some_iff.1 hh).1]
  exact hh
theorem kept_setArray (h : Heap) (a vs) : Kept h (h.setArray a vs) := .same rfl
theorem kept_setDict (h : Heap) (a es) : Kept h (h.setDict a es) := .same rfl
theorem kept_setNative (h : Heap) (a s) (ha : ¬ Spent (h.native a)) : Kept h (h.setNative a s) := by
  refine ⟨fun x st hs hh => ?_⟩
  show (h.natives.set a s)[x]? = some st
  rw [List.getElem?_set_ne]
  · exact hh
  · intro e
    subst e
    refine ha ?_
    simp only [Heap.native, List.getD_eq_getElem?_getD, hh]
    exact hs
theorem kept_iteration (h : Heap) (v) : Kept h (Lib.iteration h v).2 := by
  cases v <;> exact kept_newDict _ _

mutual
theorem kept_build (args : List Value) (h : Heap) : (t : Tree) → Kept h (t.build args h).2
  | .arg _ | .nil | .bool _ | .byte _ | .int _ | .float _ | .string _ => by simp only [Tree.build]; exact .refl _
  | .array ts => by
    simp only [Tree.build]
    exact (kept_buildList args h ts).trans (kept_newArray _ _)
  | .dict es => by
    simp only [Tree.build]
    exact (kept_buildEntries args h es).trans (kept_newDict _ _)
  | .native _ _ => by simp only [Tree.build]; exact kept_newNative _ _ _
  | .error _ c => by
    simp only [Tree.build]
    exact (kept_build args h c).trans (kept_newError _ _ _)
theorem kept_buildList (args : List Value) (h : Heap) : (ts : List Tree) → Kept h (Tree.buildList args h ts).2
  | [] => by simp only [Tree.buildList]; exact .refl _
  | t :: ts => by
    simp only [Tree.buildList]
    exact (kept_build args h t).trans (kept_buildList args _ ts)
theorem kept_buildEntries (args : List Value) (h : Heap) :
    (ts : List (Tree × Tree)) → Kept h (Tree.buildEntries args h ts).2
  | [] => by simp only [Tree.buildEntries]; exact .refl _
  | (k, v) :: ts => by
    simp only [Tree.buildEntries]
    exact ((kept_build args h k).trans (kept_build args _ v)).trans (kept_buildEntries args _ ts)
end

/-- A result of a library function. -/
def LibKept (h : Heap) (r : LibRes) : Prop := ∀ v h', r = some (.ok (v, h')) → Kept h h'

theorem libKept_none (h) : LibKept h none := by intro _ _ h; cases h
theorem libKept_ok {h : Heap} {p : Value × Heap} (hk : Kept h p.2) : LibKept h (some (.ok p)) := by
  intro v h' hh
  simp only [Option.some.injEq, Except.ok.injEq] at hh
  subst hh; exact hk
theorem libKept_error {h e} (_ : Tolerable e) : LibKept h (some (.error e)) := by intro _ _ h; simp at h
theorem libKept_panic {c : LibCall} {h k} : LibKept h (c.panic k) := libKept_error (tolerable_panic _)
theorem libKept_arity {c : LibCall} {h n} : LibKept h (c.arity n) := libKept_panic
theorem libKept_type {c : LibCall} {h v e} : LibKept h (c.type v e) := libKept_panic
theorem libKept_ret {c : LibCall} {h v} : LibKept h (c.ret h v) := libKept_ok (.refl _)
theorem libKept_timeout {c : LibCall} {h} : LibKept h c.timeout := libKept_error tolerable_timeout

theorem libKept_iterImpl {w : World} {c : LibCall} {h : Heap} : LibKept h (Lib.iterImpl w c h) := by
  simp only [Lib.iterImpl]
  split
  · exact libKept_arity
  · split
    · rename_i a ix hn
      split
      · exact libKept_ok ((kept_setNative _ _ _ (by rw [hn]; simp [Spent])).trans (kept_iteration _ _))
      · exact libKept_ok (kept_iteration _ _)
    · rename_i s ix hn
      split
      · rename_i b hb
        refine libKept_ok ((kept_setNative _ _ _ ?_).trans (kept_iteration _ _))
        rw [hn]
        have := (List.getElem?_eq_some_iff.1 hb).1
        simpa [Spent] using this
      · exact libKept_ok (kept_iteration _ _)
    · rename_i es hn
      split
      · rename_i k v hb
        refine libKept_ok (((kept_setNative _ _ _ ?_).trans (kept_newDict _ _)).trans (kept_iteration _ _))
        rw [hn]
        intro he
        simp only [Spent] at he
        rw [he] at hb
        cases hb
      · exact libKept_ok (kept_iteration _ _)
    · exact libKept_none _

theorem libKept_rangeImpl {w : World} {c : LibCall} {h : Heap} : LibKept h (Lib.rangeImpl w c h) := by
  unfold Lib.rangeImpl
  split
  · exact libKept_arity
  · split
    · rename_i a b s hn
      by_cases hc : (if 0 < s then b ≤ a else a ≤ b)
      · rw [if_pos hc]; exact libKept_ok (kept_iteration _ _)
      · rw [if_neg hc]
        split
        · rename_i he; exact libKept_error (world_arith_tolerable he)
        · refine libKept_ok ((kept_setNative _ _ _ ?_).trans (kept_iteration _ _))
          rw [hn]
          intro hs
          refine hc ?_
          split
          · rename_i h0; exact hs.1 h0
          · rename_i h0; exact hs.2 (Int.not_lt.1 h0)
    · rename_i a b s hn
      by_cases hc : (if floatCmp s 0 = .gt then floatCmp a b ≠ .lt else floatCmp a b ≠ .gt)
      · rw [if_pos hc]; exact libKept_ok (kept_iteration _ _)
      · rw [if_neg hc]
        refine libKept_ok ((kept_setNative _ _ _ ?_).trans (kept_iteration _ _))
        rw [hn]
        intro hs
        refine hc ?_
        split
        · rename_i h0; exact hs.1 h0
        · rename_i h0; exact hs.2 h0
    · exact libKept_none _

/-- Closes `LibKept` goals. -/
macro "lib_kept" : tactic =>
  `(tactic| first
    | exact libKept_ret
    | exact libKept_none _
    | exact libKept_panic
    | exact libKept_type
    | exact libKept_arity
    | exact libKept_timeout
    | exact libKept_ok (kept_newError _ _ _)
    | exact libKept_ok (kept_build _ _ _)
    | exact libKept_error (tolerable_crash (by simp) (by simp)))

theorem libKept_call (w : World) (name : Bytes) (c : LibCall) (h : Heap) : LibKept h (Lib.call w name c h) := by
  simp only [Lib.call]
  split
  · rename_i f hf
    have hm : ∃ n, (n, f) ∈ Lib.table := by
      refine ⟨name, ?_⟩
      revert hf
      generalize Lib.table = l
      induction l with
      | nil => simp
      | cons q l ih =>
        intro hf
        rw [List.lookup_cons] at hf
        split at hf
        · rename_i hq
          simp only [beq_iff_eq] at hq
          simp only [Option.some.injEq] at hf
          subst hf; subst hq
          simp
        · exact List.mem_cons_of_mem _ (ih hf)
    obtain ⟨n, hm⟩ := hm
    clear hf
    have h0 : ∀ q ∈ Lib.table, LibKept h (q.2 w c h) := by
      simp only [Lib.table, List.forall_mem_cons, List.not_mem_nil, false_imp_iff, implies_true, and_true]
      refine ⟨?_, ?_, ?_, ?_, ?_, ?_, ?_, ?_, ?_, ?_, ?_, ?_, ?_, ?_, ?_, ?_, ?_, ?_, ?_, ?_, ?_, ?_, ?_, ?_, ?_, ?_, ?_, ?_, ?_, ?_,
        ?_, ?_, ?_, ?_, ?_, ?_, ?_, ?_, ?_, ?_, ?_, ?_, ?_, ?_, ?_, ?_, ?_, ?_⟩
      · simp only [Lib.assert]; split <;> first | exact libKept_ret | exact libKept_panic | exact libKept_type | exact libKept_arity
      · simp only [Lib.args]; split <;> first | exact libKept_ret | exact libKept_panic | exact libKept_type | exact libKept_arity
      · simp only [Lib.bind]; split <;> first | exact libKept_ok (kept_newNative _ _ _) | exact libKept_type | exact libKept_arity
      · simp only [Lib.bytes]; split <;> first | exact libKept_ok (kept_newArray _ _) | exact libKept_type | exact libKept_arity
      · simp only [Lib.contains]
        split <;> (try split) <;>
          first | exact libKept_ret | exact libKept_timeout | exact libKept_type | exact libKept_arity
      · simp only [Lib.error]; split <;> first | exact libKept_ok (kept_newError _ _ _) | exact libKept_type | exact libKept_arity
      · simp only [Lib.exit]
        split <;> (try split) <;>
          first | exact libKept_error (tolerable_exit _) | exact libKept_panic | exact libKept_type | exact libKept_arity
      · simp only [Lib.hasError]
        split <;> (try split) <;> first | exact libKept_ret | exact libKept_timeout | exact libKept_arity
      · simp only [Lib.hexEncodeFun]; split <;> first | exact libKept_ret | exact libKept_type | exact libKept_arity
      · simp only [Lib.hexDecodeFun]
        repeat' split
        all_goals lib_kept
      · simp only [Lib.b64EncodeFun]; split <;> first | exact libKept_ret | exact libKept_type | exact libKept_arity
      · simp only [Lib.b64DecodeFun]
        split <;> (try split) <;> first | exact libKept_ret | exact libKept_none _ | exact libKept_type | exact libKept_arity
      · simp only [Lib.int]
        split <;> (try split) <;>
          first | exact libKept_ret | exact libKept_none _ | exact libKept_panic | exact libKept_type | exact libKept_arity
      · simp only [Lib.isEmpty]; split <;> first | exact libKept_ret | exact libKept_type | exact libKept_arity
      · simp only [Lib.iter]; split <;> first | exact libKept_ok (kept_newNative _ _ _) | exact libKept_type | exact libKept_arity
      · exact libKept_iterImpl
      · simp only [Lib.len]; split <;> first | exact libKept_ret | exact libKept_type | exact libKept_arity
      · simp only [Lib.panic]; split <;> first | exact libKept_panic | exact libKept_arity
      · simp only [Lib.pop]
        split <;> (try split) <;>
          first | exact libKept_ok (kept_setArray _ _ _) | exact libKept_panic | exact libKept_type | exact libKept_arity
      · simp only [Lib.push]; split <;> first | exact libKept_ok (kept_setArray _ _ _) | exact libKept_type | exact libKept_arity
      · simp only [Lib.range]
        split <;> (try split) <;> first | exact libKept_ok (kept_newNative _ _ _) | exact libKept_type | exact libKept_arity
      · exact libKept_rangeImpl
      · simp only [Lib.replace]
        split <;> (try split) <;> first | exact libKept_ret | exact libKept_none _ | exact libKept_type | exact libKept_arity
      · simp only [Lib.sort]
        split
        · split
          · exact libKept_timeout
          · split
            · exact libKept_error (tolerable_crash (by simp) (by simp))
            · split
              · exact libKept_ok (kept_setArray _ _ _)
              · exact libKept_timeout
        · exact libKept_type
        · exact libKept_arity
      · simp only [Lib.split]
        split <;> (try split) <;>
          first | exact libKept_ok (kept_newArray _ _) | exact libKept_none _ | exact libKept_type | exact libKept_arity
      · simp only [Lib.substr]
        split
        · simp only [Lib.substrOf]
          split
          · exact libKept_error (tolerable_crash (by simp) (by simp))
          · exact libKept_ok (.refl _)
        all_goals first | exact libKept_type | exact libKept_arity
      · simp only [Lib.toStringFun]
        split <;> (try split) <;> first | exact libKept_ret | exact libKept_timeout | exact libKept_arity
      · simp only [Lib.type]; split <;> first | exact libKept_ret | exact libKept_arity
      · simp only [Lib.typecheck]
        split
        · split
          · exact libKept_panic
          · split
            · exact libKept_ret
            · exact libKept_type
        · exact libKept_type
        · exact libKept_arity
      · simp only [Lib.tryTypecheck]
        split
        · split
          · exact libKept_panic
          · split
            · exact libKept_ret
            · exact libKept_none _
        · exact libKept_type
        · exact libKept_arity
      · simp only [Lib.trim]
        repeat' split
        all_goals lib_kept
      · simp only [Lib.jsonEncode]
        repeat' split
        all_goals lib_kept
      · simp only [Lib.jsonDecode]
        repeat' split
        all_goals lib_kept
      · simp only [Lib.float]
        repeat' split
        all_goals lib_kept
      · simp only [Lib.text1]
        repeat' split
        all_goals lib_kept
      · simp only [Lib.text1]
        repeat' split
        all_goals lib_kept
      · simp only [Lib.text1]
        repeat' split
        all_goals lib_kept
      · simp only [Lib.text1]
        repeat' split
        all_goals lib_kept
      · simp only [Lib.text1]
        repeat' split
        all_goals lib_kept
      · simp only [Lib.text1]
        repeat' split
        all_goals lib_kept
      · simp only [Lib.regexReplace]
        repeat' split
        all_goals lib_kept
      · simp only [Lib.export_]
        repeat' split
        all_goals lib_kept
      · simp only [Lib.noArgs]
        repeat' split
        all_goals lib_kept
      · simp only [Lib.noArgs]
        repeat' split
        all_goals lib_kept
      · simp only [Lib.randint]
        repeat' split
        all_goals lib_kept
      · simp only [Lib.randseed]
        repeat' split
        all_goals lib_kept
      · simp only [Lib.sleep]
        repeat' split
        all_goals lib_kept
      · simp only [Lib.read]
        repeat' split
        all_goals lib_kept
    exact h0 _ hm
  · exact libKept_none h

theorem assignValue_kept {h n o op f fp v pos h'} (he : assignValue h n o op f fp v pos = .ok h') : Kept h h' := by
  simp only [assignValue] at he
  split at he
  · split at he
    · cases he
    · cases he
    · split at he <;> cases he
      exact kept_setDict _ _ _
  · split at he
    · cases he
    · split at he <;> cases he
      exact kept_setArray _ _ _
  all_goals cases he

/-- The computation leaves exhausted iterators alone. -/
def MKept (m : M α) : Prop := ∀ s, Kept s.heap (m s).2.heap

theorem mkept_bind {m : M α} {f : α → M β} (hm : MKept m) (hf : ∀ a, MKept (f a)) : MKept (m >>= f) := by
  intro s
  have h1 := hm s
  simp only [Bind.bind, M.andThen]
  rcases he : m s with ⟨_ | a, s'⟩
  · rw [he] at h1; exact h1
  · rw [he] at h1; exact h1.trans (hf a s')

theorem mkept_pure {a : α} : MKept (pure a : M α) := fun _ => .refl _
theorem mkept_stop {e} : MKept (M.stop e : M α) := fun _ => .refl _
theorem mkept_panic {k p} : MKept (M.panic k p : M α) := mkept_stop
theorem mkept_crash {k} : MKept (M.crash k : M α) := mkept_stop
theorem mkept_get : MKept M.get := fun _ => .refl _
theorem mkept_lift {x : Except Stop α} : MKept (M.lift x) := by cases x <;> exact fun _ => .refl _
theorem mkept_reads {f : Heap → Except Stop α} : MKept (M.reads f) := fun _ => .refl _
theorem mkept_modify {f : RState → RState} (h : ∀ s, (f s).heap = s.heap) : MKept (M.modify f) := by
  intro s; show Kept s.heap (f s).heap; rw [h s]; exact .refl _
theorem mkept_record {e} : MKept (record e) := mkept_modify fun _ => rfl

theorem mkept_newArray {vs : Heap → List Value} : MKept (M.alloc fun h => h.newArray (vs h)) := fun s => (kept_newArray s.heap _)
theorem mkept_newDict {vs} : MKept (M.alloc fun h => h.newDict vs) := fun s => (kept_newDict s.heap _)
theorem mkept_newNative {name st} : MKept (M.alloc fun h => h.newNative name st) :=
  fun s => kept_newNative s.heap name st
theorem mkept_newClosure {k} : MKept (M.alloc fun h => h.newClosure k) := fun _ => Kept.same rfl

theorem mkept_fetch {ix} : MKept (fetch ix) := by intro s; unfold fetch; split <;> exact .refl _
theorem mkept_store {ix v} : MKept (store ix v) := by
  intro s; unfold store; split
  · exact .refl _
  · exact Kept.same rfl
  · exact .refl _
theorem mkept_capture {ix} : MKept (capture ix) := by
  intro s; unfold capture; split
  · exact Kept.same rfl
  · exact .refl _
  · exact .refl _
theorem mkept_place {ix c} : MKept (place ix c) := by intro s; unfold place; split <;> exact .refl _
theorem mkept_extend {w n pos} : MKept (extend w n pos) := by intro s; unfold extend; split <;> exact .refl _
theorem mkept_shrink {n} : MKept (shrink n) := by intro s; unfold shrink; split <;> exact .refl _

theorem mkept_captureAll : ∀ {cs}, MKept (captureAll cs)
  | [] => mkept_pure
  | _ :: _ => mkept_bind mkept_capture fun _ => mkept_bind mkept_captureAll fun _ => mkept_pure
theorem mkept_storeArgs : ∀ {ix vs}, MKept (storeArgs ix vs)
  | _, [] => mkept_pure
  | _, _ :: _ => mkept_bind mkept_store fun _ => mkept_storeArgs
theorem mkept_placeAll : ∀ {l}, MKept (placeAll l)
  | [] => mkept_pure
  | (_, _) :: _ => mkept_bind mkept_place fun _ => mkept_placeAll
theorem mkept_storeSelf {obj o} : MKept (storeSelf obj o) := by
  cases o with
  | none => exact mkept_pure
  | some ix => exact mkept_store
theorem mkept_tailShrink {tail} : MKept (tailShrink tail) := by
  cases tail with
  | none => exact mkept_pure
  | some n => exact mkept_bind mkept_shrink fun _ => mkept_modify fun _ => rfl
theorem mkept_answer {args x} : MKept (answer args x) := by
  cases x with
  | value t => exact fun s => (kept_build args s.heap t)
  | panic p => exact mkept_stop
  | crash => exact mkept_crash
  | exit k => exact mkept_stop

theorem mkept_regular {o : Out} {pos} {k : Value → Pos → Value → M Out} (h : ∀ v p obj, MKept (k v p obj)) : MKept (o.regular pos k) := by
  rcases o with ⟨fl, p, obj⟩
  cases fl with
  | regular v => exact h v p obj
  | return_ v => exact mkept_pure
  | break_ => exact mkept_pure
theorem mkept_result {o : Out} : MKept o.result := by
  rcases o with ⟨fl, p, obj⟩
  cases fl with
  | regular v => exact mkept_pure
  | return_ v => exact mkept_crash
  | break_ => exact mkept_crash

theorem mkept_catching {w : World} {m : M Out} (h : MKept m) : MKept (catching w m) := by
  intro s
  have h1 := h s
  unfold catching
  rcases he : m s with ⟨e | o, s'⟩
  · rw [he] at h1
    cases e with
    | panic p => exact h1.trans (kept_newError s'.heap (bs "caught panic: " ++ w.showPanic s'.heap p) _)
    | _ => exact h1
  · rw [he] at h1
    dsimp only
    split <;> exact h1

theorem mkept_callLib {w : World} {n name addr args pos} : MKept (callLib w n name addr args pos) := by
  intro s
  have h1 := libKept_call w name ⟨n, addr, args, pos, s.argv⟩ s.heap
  unfold callLib
  split
  · rename_i v h he
    exact (h1 v h he)
  · exact .refl _
  · exact mkept_bind mkept_record (fun _ => mkept_answer) s

theorem mkept_finally {m : M α} {f : RState → RState} (hm : MKept m) (h : ∀ s, (f s).heap = s.heap) : MKept (finally_ m f) := by
  intro s
  have h1 := hm s
  unfold finally_
  rcases he : m s with ⟨x, s'⟩
  rw [he] at h1
  dsimp only
  rw [h s']
  exact h1

theorem mkept_withFrame {n} {m : M Out} (h : MKept m) : MKept (withFrame n m) := by
  intro s
  have h1 := h { s with shrunk := false }
  unfold withFrame
  rcases he : m { s with shrunk := false } with ⟨x, s'⟩
  rw [he] at h1
  dsimp only
  split
  · exact h1
  · have h2 := mkept_shrink (n := n) s'
    rcases he2 : shrink n s' with ⟨_ | _, s''⟩
    · rw [he2] at h2; exact h1.trans h2
    · rw [he2] at h2; exact h1.trans h2

theorem mkept_afterBody {o : Out} {m : M Out} (h : MKept m) : MKept (afterBody o m) := by
  rcases o with ⟨fl, p, x⟩
  cases fl with
  | regular v => exact h
  | return_ v => exact mkept_pure
  | break_ => exact mkept_pure

/-- All recursive calls leave exhausted iterators alone. -/
def RecKept (rec : Task → M Out) : Prop := ∀ t, MKept (rec t)

/-- Proves that a computation leaves exhausted iterators alone. -/
macro "keep_spent" : tactic => `(tactic| repeat' (first
  | exact mkept_pure | exact mkept_stop | exact mkept_panic | exact mkept_crash | exact mkept_get | exact mkept_lift
  | exact mkept_reads | exact mkept_record | exact mkept_newArray | exact mkept_newDict | exact mkept_newNative
  | exact mkept_newClosure | exact mkept_fetch | exact mkept_store | exact mkept_capture | exact mkept_place
  | exact mkept_extend | exact mkept_shrink | exact mkept_captureAll | exact mkept_storeArgs | exact mkept_placeAll
  | exact mkept_storeSelf | exact mkept_tailShrink | exact mkept_answer | exact mkept_result | exact mkept_callLib
  | exact (by assumption : RecKept _) _
  | exact mkept_modify (fun _ => rfl)
  | apply mkept_regular | apply mkept_catching | apply mkept_withFrame | apply mkept_afterBody
  | (refine mkept_bind ?_ ?_) | split | (intro _)))

theorem mkept_evalCommand {w : World} {b} : MKept (evalCommand w b) := by unfold evalCommand; keep_spent
theorem mkept_loadModule {w : World} {rec path pos} (hr : RecKept rec) : MKept (loadModule w rec path pos) := by
  unfold loadModule; keep_spent
theorem mkept_importModule {w : World} {rec m args pos} (hr : RecKept rec) : MKept (importModule w rec m args pos) := by
  have := @mkept_loadModule w rec
  unfold importModule
  split
  · refine mkept_bind mkept_get fun s => ?_
    split
    · exact mkept_panic
    · split
      · keep_spent
      · exact mkept_bind (mkept_loadModule hr) (by keep_spent)
  · exact mkept_panic
  · exact mkept_panic
theorem mkept_joinCommand {w : World} {addr pos} : MKept (joinCommand w addr pos) := by
  intro s
  by_cases hx : ∃ t, s.heap.native addr = .join (some t)
  · obtain ⟨t, hn⟩ := hx
    have h1 : Kept s.heap (s.heap.setNative addr (.join none)) := kept_setNative _ _ _ (by rw [hn]; simp [Spent])
    have h2 := h1.trans (mkept_bind (mkept_record (e := .join t)) (fun _ => mkept_answer (args := []) (x := w.joined s.trace t))
      { s with heap := s.heap.setNative addr (.join none) })
    simp only [joinCommand, Bind.bind, M.andThen, M.get, hn]
    exact h2
  · have h2 : (joinCommand w addr pos s).2 = s := by
      simp only [joinCommand, Bind.bind, M.andThen, M.get]
      rcases hn : s.heap.native addr <;> try rfl
      rename_i j
      cases j with
      | none => rfl
      | some t => exact absurd ⟨t, hn⟩ hx
    rw [h2]
    exact .refl _
theorem mkept_nativeCall {w : World} {n rec m name addr start pos} (hr : RecKept rec) : MKept (nativeCall w n rec m name addr start pos) := by
  unfold nativeCall
  refine mkept_bind mkept_get fun s => ?_
  dsimp only
  split
  · keep_spent
  · split
    · keep_spent
    · split
      · exact mkept_importModule hr
      · split
        · exact mkept_joinCommand
        · exact mkept_callLib
theorem mkept_stepCall {w : World} {n rec m obj f start pos} (hr : RecKept rec) : MKept (stepCall w n rec m obj f start pos) := by
  intro s
  unfold stepCall
  split
  · exact .refl _
  · split
    · refine (?_ : MKept _) s
      keep_spent
    · refine (?_ : MKept _) s
      refine mkept_bind (mkept_finally (mkept_nativeCall hr) fun _ => rfl) (by keep_spent)
theorem mkept_stepProgram {w : World} {rec m p} (hr : RecKept rec) : MKept (stepProgram w rec m p) := by
  unfold stepProgram
  refine mkept_bind mkept_extend fun _ => mkept_bind mkept_get fun s => mkept_bind mkept_store fun _ => mkept_bind ?_ (by keep_spent)
  intro s
  have h1 := hr (.block m none p.statements) s
  dsimp only
  rcases he : rec (.block m none p.statements) s with ⟨_ | _, s'⟩
  · rw [he] at h1; exact h1
  · rw [he] at h1; exact h1
theorem mkept_stepLit {w : World} {rec m l pos} (hr : RecKept rec) : MKept (stepLit w rec m l pos) := by unfold stepLit; keep_spent
theorem mkept_stepExpr {w : World} {n rec m tail e} (hr : RecKept rec) : MKept (stepExpr w n rec m tail e) := by
  unfold stepExpr
  split
  · keep_spent
  · exact mkept_stepLit hr
  · keep_spent
  · keep_spent
  · keep_spent
  · keep_spent
  · keep_spent
  · exact mkept_bind mkept_evalCommand (by keep_spent)
theorem mkept_stepStmt {n rec m tail st} (hr : RecKept rec) : MKept (stepStmt n rec m tail st) := by
  cases st with
  | assign l e =>
    refine mkept_bind (hr _) fun o => mkept_regular fun v _ _ => ?_
    cases l with
    | ident slot pos => keep_spent
    | access a b pos =>
      refine mkept_bind (hr _) fun o => mkept_regular fun obj opos _ => mkept_bind (hr _) fun o => mkept_regular fun f fpos _ => ?_
      intro s
      simp only [Bind.bind, M.andThen, M.reads]
      cases hx : assignValue s.heap n obj opos f fpos v pos with
      | error e => exact .refl _
      | ok h' => exact (assignValue_kept hx)
  | return_ e => unfold stepStmt; keep_spent
  | break_ => unfold stepStmt; keep_spent
  | while_ c b => unfold stepStmt; keep_spent
  | for_ slot e b => unfold stepStmt; keep_spent
  | expr e => unfold stepStmt; keep_spent
theorem mkept_step {w : World} {n rec} (hr : RecKept rec) : RecKept (step w n rec) := by
  intro t
  unfold step
  split
  · exact mkept_stepExpr hr
  · keep_spent
  · keep_spent
  · keep_spent
  · keep_spent
  · keep_spent
  · keep_spent
  · exact mkept_stepStmt hr
  · keep_spent
  · keep_spent
  · keep_spent
  · keep_spent
  · keep_spent
  · exact mkept_stepCall hr
  · exact mkept_stepProgram hr
theorem mkept_run (w : World) : ∀ n, RecKept (run w n)
  | 0 => fun _ => mkept_stop
  | n + 1 => mkept_step (mkept_run w n)

end Hush

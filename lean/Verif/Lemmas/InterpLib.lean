import Verif.Lemmas.InterpCore

/-!
What library functions, answers of the world and operators preserve.
-/

set_option linter.unusedTactic false
set_option linter.unreachableTactic false

namespace Hush
open Spec

theorem tolerable_panic (p) : Tolerable (.panic p) := ⟨by simp, by simp⟩
theorem tolerable_timeout : Tolerable .timeout := ⟨by simp, by simp⟩
theorem tolerable_exit (c) : Tolerable (.exit c) := ⟨by simp, by simp⟩
theorem tolerable_crash {k} (h1 : k ≠ .slot) (h2 : k ≠ .flow) : Tolerable (.crash k) := ⟨by simpa, by simpa⟩

/-- Function objects, errors and captured variables are as before; other objects are only added. The handles of asynchronous
commands are as before. -/
structure HeapKeeps (h h' : Heap) : Prop where
  closures : h'.closures = h.closures
  cells : h'.cells = h.cells
  contexts : h.contexts <+: h'.contexts
  arrays : h.arrays.length ≤ h'.arrays.length
  dicts : h.dicts.length ≤ h'.dicts.length
  natives : h.natives.length ≤ h'.natives.length
  joins : ∀ (a : Nat) (j : Option Nat), h'.natives[a]? = some (.join j) ↔ h.natives[a]? = some (.join j)

theorem HeapKeeps.refl (h : Heap) : HeapKeeps h h :=
  ⟨rfl, rfl, List.prefix_refl _, Nat.le_refl _, Nat.le_refl _, Nat.le_refl _, fun _ _ => .rfl⟩

theorem HeapKeeps.trans {a b c : Heap} (h1 : HeapKeeps a b) (h2 : HeapKeeps b c) : HeapKeeps a c :=
  ⟨h2.1.trans h1.1, h2.2.trans h1.2, h1.3.trans h2.3, h1.4.trans h2.4, h1.5.trans h2.5, h1.6.trans h2.6,
    fun x j => (h2.7 x j).trans (h1.7 x j)⟩

theorem HeapKeeps.grows {h h' : Heap} (k : HeapKeeps h h') : HeapGrows h h' :=
  ⟨by rw [k.closures]; exact List.prefix_refl _, k.contexts, by rw [k.cells], k.arrays, k.dicts, k.natives⟩

theorem keeps_newArray (h : Heap) (vs) : HeapKeeps h (h.newArray vs).2 := by
  refine ⟨rfl, rfl, List.prefix_refl _, ?_, Nat.le_refl _, Nat.le_refl _, fun _ _ => .rfl⟩; simp [Heap.newArray]
theorem keeps_newDict (h : Heap) (es) : HeapKeeps h (h.newDict es).2 := by
  refine ⟨rfl, rfl, List.prefix_refl _, Nat.le_refl _, ?_, Nat.le_refl _, fun _ _ => .rfl⟩; simp [Heap.newDict]
theorem keeps_newError (h : Heap) (d c) : HeapKeeps h (h.newError d c).2 := by
  refine ⟨rfl, rfl, ?_, Nat.le_refl _, Nat.le_refl _, Nat.le_refl _, fun _ _ => .rfl⟩; simp [Heap.newError]
theorem keeps_newNative (h : Heap) (n s) (hs : ∀ j, s ≠ .join j := by simp) : HeapKeeps h (h.newNative n s).2 := by
  refine ⟨rfl, rfl, List.prefix_refl _, Nat.le_refl _, Nat.le_refl _, ?_, fun a j => ?_⟩
  · simp [Heap.newNative]
  · show (h.natives ++ [s])[a]? = _ ↔ _
    rw [List.getElem?_append]
    split
    · rfl
    · rename_i ha
      rw [List.getElem?_eq_none (Nat.not_lt.1 ha)]
      cases hx : a - h.natives.length with
      | zero => simp [hs j]
      | succ => simp
theorem keeps_setArray (h : Heap) (a vs) : HeapKeeps h (h.setArray a vs) := by
  refine ⟨rfl, rfl, List.prefix_refl _, ?_, Nat.le_refl _, Nat.le_refl _, fun _ _ => .rfl⟩; simp [Heap.setArray]
theorem keeps_setDict (h : Heap) (a es) : HeapKeeps h (h.setDict a es) := by
  refine ⟨rfl, rfl, List.prefix_refl _, Nat.le_refl _, ?_, Nat.le_refl _, fun _ _ => .rfl⟩; simp [Heap.setDict]
theorem grows_newNative (h : Heap) (n s) : HeapGrows h (h.newNative n s).2 := by
  refine ⟨List.prefix_refl _, List.prefix_refl _, Nat.le_refl _, Nat.le_refl _, Nat.le_refl _, ?_⟩; simp [Heap.newNative]
theorem grows_setNative (h : Heap) (a s) : HeapGrows h (h.setNative a s) := by
  refine ⟨List.prefix_refl _, List.prefix_refl _, Nat.le_refl _, Nat.le_refl _, Nat.le_refl _, ?_⟩; simp [Heap.setNative]
theorem keeps_setNative (h : Heap) (a s) (ha : ∀ j, h.native a ≠ .join j) (hs : ∀ j, s ≠ .join j) : HeapKeeps h (h.setNative a s) := by
  refine ⟨rfl, rfl, List.prefix_refl _, Nat.le_refl _, Nat.le_refl _, ?_, fun x j => ?_⟩
  · simp [Heap.setNative]
  · show (h.natives.set a s)[x]? = _ ↔ _
    rw [List.getElem?_set]
    split
    · rename_i hx
      subst hx
      simp only [Heap.native, List.getD_eq_getElem?_getD] at ha
      split
      · refine ⟨fun hh => absurd (Option.some.inj hh) (hs j), fun hh => absurd ?_ (ha j)⟩
        rw [hh]; rfl
      · rename_i hl
        simp [List.getElem?_eq_none (Nat.not_lt.1 hl)]
    · rfl

mutual
theorem keeps_build (args : List Value) (h : Heap) : (t : Tree) → HeapKeeps h (t.build args h).2
  | .arg _ | .nil | .bool _ | .byte _ | .int _ | .float _ | .string _ => by simp only [Tree.build]; exact .refl _
  | .array ts => by
    simp only [Tree.build]
    exact (keeps_buildList args h ts).trans (keeps_newArray _ _)
  | .dict es => by
    simp only [Tree.build]
    exact (keeps_buildEntries args h es).trans (keeps_newDict _ _)
  | .native _ _ => by simp only [Tree.build]; exact keeps_newNative _ _ _
  | .error _ c => by
    simp only [Tree.build]
    exact (keeps_build args h c).trans (keeps_newError _ _ _)
theorem keeps_buildList (args : List Value) (h : Heap) : (ts : List Tree) → HeapKeeps h (Tree.buildList args h ts).2
  | [] => by simp only [Tree.buildList]; exact .refl _
  | t :: ts => by
    simp only [Tree.buildList]
    exact (keeps_build args h t).trans (keeps_buildList args _ ts)
theorem keeps_buildEntries (args : List Value) (h : Heap) :
    (ts : List (Tree × Tree)) → HeapKeeps h (Tree.buildEntries args h ts).2
  | [] => by simp only [Tree.buildEntries]; exact .refl _
  | (k, v) :: ts => by
    simp only [Tree.buildEntries]
    exact ((keeps_build args h k).trans (keeps_build args _ v)).trans (keeps_buildEntries args _ ts)
end

/-- A result of a library function. -/
def LibOk (h : Heap) (r : LibRes) : Prop :=
  (∀ v h', r = some (.ok (v, h')) → HeapKeeps h h') ∧ ∀ e, r = some (.error e) → Tolerable e

theorem libOk_none (h) : LibOk h none := ⟨by simp, by simp⟩
theorem libOk_ok {h : Heap} {p : Value × Heap} (hk : HeapKeeps h p.2) : LibOk h (some (.ok p)) := by
  refine ⟨fun v h' hh => ?_, by simp⟩
  simp only [Option.some.injEq, Except.ok.injEq] at hh
  subst hh; exact hk
theorem libOk_error {h e} (he : Tolerable e) : LibOk h (some (.error e)) := by
  refine ⟨by simp, fun e' hh => ?_⟩
  simp only [Option.some.injEq, Except.error.injEq] at hh
  subst hh; exact he
theorem libOk_panic {c : LibCall} {h k} : LibOk h (c.panic k) := libOk_error (tolerable_panic _)
theorem libOk_arity {c : LibCall} {h n} : LibOk h (c.arity n) := libOk_panic
theorem libOk_type {c : LibCall} {h v e} : LibOk h (c.type v e) := libOk_panic
theorem libOk_ret {c : LibCall} {h v} : LibOk h (c.ret h v) := libOk_ok (.refl _)
theorem libOk_timeout {c : LibCall} {h} : LibOk h c.timeout := libOk_error tolerable_timeout

theorem keeps_iteration (h : Heap) (v) : HeapKeeps h (Lib.iteration h v).2 := by
  cases v <;> exact keeps_newDict _ _

theorem world_arith_tolerable {w : World} {i e} (h : w.arith i = .error e) : Tolerable e := by
  simp only [World.arith] at h
  split at h
  · cases h
  · split at h
    · cases h; exact tolerable_crash (by simp) (by simp)
    · cases h

/-- Closes `LibOk` goals. -/
macro "lib_ok" : tactic =>
  `(tactic| first
    | exact libOk_ret
    | exact libOk_none _
    | exact libOk_panic
    | exact libOk_type
    | exact libOk_arity
    | exact libOk_timeout
    | exact libOk_ok (keeps_newError _ _ _)
    | exact libOk_ok (keeps_build _ _ _)
    | exact libOk_error (tolerable_crash (by simp) (by simp)))

theorem libOk_call (w : World) (name : Bytes) (c : LibCall) (h : Heap) : LibOk h (Lib.call w name c h) := by
  simp only [Lib.call]
  split
  · rename_i f hf
    have hm : ∃ n, (n, f) ∈ Lib.table := by
      refine ⟨name, ?_⟩
      revert hf
      generalize Lib.table = l
      induction l with
      | nil => simp
      | cons q l ih =>
        intro hf
        rw [List.lookup_cons] at hf
        split at hf
        · rename_i hq
          simp only [beq_iff_eq] at hq
          simp only [Option.some.injEq] at hf
          subst hf; subst hq
          simp
        · exact List.mem_cons_of_mem _ (ih hf)
    obtain ⟨n, hm⟩ := hm
    clear hf
    have h0 : ∀ q ∈ Lib.table, LibOk h (q.2 w c h) := by
      simp only [Lib.table, List.forall_mem_cons, List.not_mem_nil, false_imp_iff, implies_true, and_true]
      refine ⟨?_, ?_, ?_, ?_, ?_, ?_, ?_, ?_, ?_, ?_, ?_, ?_, ?_, ?_, ?_, ?_, ?_, ?_, ?_, ?_, ?_, ?_, ?_, ?_, ?_, ?_, ?_, ?_, ?_, ?_,
        ?_, ?_, ?_, ?_, ?_, ?_, ?_, ?_, ?_, ?_, ?_, ?_, ?_, ?_, ?_, ?_, ?_, ?_⟩
      · simp only [Lib.assert]; split <;> first | exact libOk_ret | exact libOk_panic | exact libOk_type | exact libOk_arity
      · simp only [Lib.args]; split <;> first | exact libOk_ret | exact libOk_panic | exact libOk_type | exact libOk_arity
      · simp only [Lib.bind]; split <;> first | exact libOk_ok (keeps_newNative _ _ _) | exact libOk_type | exact libOk_arity
      · simp only [Lib.bytes]; split <;> first | exact libOk_ok (keeps_newArray _ _) | exact libOk_type | exact libOk_arity
      · simp only [Lib.contains]
        split <;> (try split) <;>
          first | exact libOk_ret | exact libOk_timeout | exact libOk_type | exact libOk_arity
      · simp only [Lib.error]; split <;> first | exact libOk_ok (keeps_newError _ _ _) | exact libOk_type | exact libOk_arity
      · simp only [Lib.exit]
        split <;> (try split) <;>
          first | exact libOk_error (tolerable_exit _) | exact libOk_panic | exact libOk_type | exact libOk_arity
      · simp only [Lib.hasError]
        split <;> (try split) <;> first | exact libOk_ret | exact libOk_timeout | exact libOk_arity
      · simp only [Lib.hexEncodeFun]; split <;> first | exact libOk_ret | exact libOk_type | exact libOk_arity
      · simp only [Lib.hexDecodeFun]
        repeat' split
        all_goals lib_ok
      · simp only [Lib.b64EncodeFun]; split <;> first | exact libOk_ret | exact libOk_type | exact libOk_arity
      · simp only [Lib.b64DecodeFun]
        split <;> (try split) <;> first | exact libOk_ret | exact libOk_none _ | exact libOk_type | exact libOk_arity
      · simp only [Lib.int]
        split <;> (try split) <;>
          first | exact libOk_ret | exact libOk_none _ | exact libOk_panic | exact libOk_type | exact libOk_arity
      · simp only [Lib.isEmpty]; split <;> first | exact libOk_ret | exact libOk_type | exact libOk_arity
      · simp only [Lib.iter]; split <;> first | exact libOk_ok (keeps_newNative _ _ _) | exact libOk_type | exact libOk_arity
      · simp only [Lib.iterImpl]
        split
        · exact libOk_arity
        · split <;> (try split) <;>
            first
            | exact libOk_none _
            | exact libOk_ok (keeps_iteration _ _)
            | exact libOk_ok ((keeps_setNative _ _ _ (by simp [*]) (by simp)).trans (keeps_iteration _ _))
            | exact libOk_ok (((keeps_setNative _ _ _ (by simp [*]) (by simp)).trans (keeps_newDict _ _)).trans (keeps_iteration _ _))
      · simp only [Lib.len]; split <;> first | exact libOk_ret | exact libOk_type | exact libOk_arity
      · simp only [Lib.panic]; split <;> first | exact libOk_panic | exact libOk_arity
      · simp only [Lib.pop]
        split <;> (try split) <;>
          first | exact libOk_ok (keeps_setArray _ _ _) | exact libOk_panic | exact libOk_type | exact libOk_arity
      · simp only [Lib.push]; split <;> first | exact libOk_ok (keeps_setArray _ _ _) | exact libOk_type | exact libOk_arity
      · simp only [Lib.range]
        split <;> (try split) <;> first | exact libOk_ok (keeps_newNative _ _ _) | exact libOk_type | exact libOk_arity
      · simp only [Lib.rangeImpl]
        split
        · exact libOk_arity
        · split
          · repeat' split
            all_goals first
              | exact libOk_ok (keeps_iteration _ _)
              | exact libOk_ok ((keeps_setNative _ _ _ (by simp [*]) (by simp)).trans (keeps_iteration _ _))
              | (rename_i he; exact libOk_error (world_arith_tolerable he))
          · repeat' split
            all_goals first
              | exact libOk_ok (keeps_iteration _ _)
              | exact libOk_ok ((keeps_setNative _ _ _ (by simp [*]) (by simp)).trans (keeps_iteration _ _))
          · exact libOk_none _
      · simp only [Lib.replace]
        split <;> (try split) <;> first | exact libOk_ret | exact libOk_none _ | exact libOk_type | exact libOk_arity
      · simp only [Lib.sort]
        split
        · split
          · exact libOk_timeout
          · split
            · exact libOk_error (tolerable_crash (by simp) (by simp))
            · split
              · exact libOk_ok (keeps_setArray _ _ _)
              · exact libOk_timeout
        · exact libOk_type
        · exact libOk_arity
      · simp only [Lib.split]
        split <;> (try split) <;>
          first | exact libOk_ok (keeps_newArray _ _) | exact libOk_none _ | exact libOk_type | exact libOk_arity
      · simp only [Lib.substr]
        split
        · simp only [Lib.substrOf]
          split
          · exact libOk_error (tolerable_crash (by simp) (by simp))
          · exact libOk_ok (.refl _)
        all_goals first | exact libOk_type | exact libOk_arity
      · simp only [Lib.toStringFun]
        split <;> (try split) <;> first | exact libOk_ret | exact libOk_timeout | exact libOk_arity
      · simp only [Lib.type]; split <;> first | exact libOk_ret | exact libOk_arity
      · simp only [Lib.typecheck]
        split
        · split
          · exact libOk_panic
          · split
            · exact libOk_ret
            · exact libOk_type
        · exact libOk_type
        · exact libOk_arity
      · simp only [Lib.tryTypecheck]
        split
        · split
          · exact libOk_panic
          · split
            · exact libOk_ret
            · exact libOk_none _
        · exact libOk_type
        · exact libOk_arity
      · simp only [Lib.trim]
        repeat' split
        all_goals lib_ok
      · simp only [Lib.jsonEncode]
        repeat' split
        all_goals lib_ok
      · simp only [Lib.jsonDecode]
        repeat' split
        all_goals lib_ok
      · simp only [Lib.float]
        repeat' split
        all_goals lib_ok
      · simp only [Lib.text1]
        repeat' split
        all_goals lib_ok
      · simp only [Lib.text1]
        repeat' split
        all_goals lib_ok
      · simp only [Lib.text1]
        repeat' split
        all_goals lib_ok
      · simp only [Lib.text1]
        repeat' split
        all_goals lib_ok
      · simp only [Lib.text1]
        repeat' split
        all_goals lib_ok
      · simp only [Lib.text1]
        repeat' split
        all_goals lib_ok
      · simp only [Lib.regexReplace]
        repeat' split
        all_goals lib_ok
      · simp only [Lib.export_]
        repeat' split
        all_goals lib_ok
      · simp only [Lib.noArgs]
        repeat' split
        all_goals lib_ok
      · simp only [Lib.noArgs]
        repeat' split
        all_goals lib_ok
      · simp only [Lib.randint]
        repeat' split
        all_goals lib_ok
      · simp only [Lib.randseed]
        repeat' split
        all_goals lib_ok
      · simp only [Lib.sleep]
        repeat' split
        all_goals lib_ok
      · simp only [Lib.read]
        repeat' split
        all_goals lib_ok
    exact h0 _ hm
  · exact libOk_none h

/-! ### Operators -/

theorem unaryValue_tolerable {w op v pos e} (h : unaryValue w op v pos = .error e) : Tolerable e := by
  simp only [unaryValue] at h
  split at h <;> first | (cases h; exact tolerable_panic _) | cases h | skip
  rename_i i
  cases ha : w.arith (-i) with
  | ok r => rw [ha] at h; cases h
  | error e' => rw [ha] at h; cases h; exact world_arith_tolerable ha

theorem unaryValue_flow {w op v pos f} (h : unaryValue w op v pos = .ok f) :
    (∃ v', f = .regular v') ∨ (op = .try_ ∧ f = .return_ v) := by
  simp only [unaryValue] at h
  split at h <;> first | (cases h; exact .inl ⟨_, rfl⟩) | (cases h; exact .inr ⟨rfl, rfl⟩) | cases h | skip
  rename_i i
  cases ha : w.arith (-i) with
  | ok r => rw [ha] at h; cases h; exact .inl ⟨_, rfl⟩
  | error e' => rw [ha] at h; cases h

theorem shortCircuit_tolerable {op v pos e} (h : shortCircuit op v pos = .error e) : Tolerable e := by
  simp only [shortCircuit] at h
  split at h
  · split at h <;> cases h
  · cases h; exact tolerable_panic _

theorem deep_tolerable {o : Option α} {e} (h : M.deep o = .error e) : Tolerable e := by
  cases o <;> simp only [M.deep] at h <;> cases h
  exact tolerable_timeout

theorem except_map_error {x : Except Stop α} {f : α → β} {e} (h : x.map f = .error e) : x = .error e := by
  cases x with
  | ok _ => cases h
  | error _ => cases h; rfl

theorem strictValue_tolerable {w h n op pos l lp r rp e} (he : strictValue w h n op pos l lp r rp = .error e) :
    Tolerable e := by
  simp only [strictValue] at he
  split at he
  · simp only [arithValue] at he
    split at he <;> (try split at he) <;> cases he <;> exact tolerable_panic _
  · split at he
    · simp only [ordValue] at he
      split at he <;> cases he <;> exact tolerable_panic _
    · split at he
      · exact deep_tolerable (except_map_error he)
      · split at he
        · exact deep_tolerable (except_map_error he)
        · simp only [concatValue] at he
          split at he <;> cases he <;> exact tolerable_panic _

theorem orOutOfBounds_tolerable {r ix pos e} (h : orOutOfBounds r ix pos = .error e) : Tolerable e := by
  simp only [orOutOfBounds] at h
  split at h <;> cases h
  exact tolerable_panic _

theorem accessValue_tolerable {h n o op f fp e} (he : accessValue h n o op f fp = .error e) : Tolerable e := by
  simp only [accessValue] at he
  split at he <;> (try split at he) <;>
    first
    | exact orOutOfBounds_tolerable he
    | (cases he; exact tolerable_panic _)
    | (cases he; exact tolerable_timeout)

theorem assignValue_tolerable {h n o op f fp v pos e} (he : assignValue h n o op f fp v pos = .error e) : Tolerable e := by
  simp only [assignValue] at he
  split at he
  · split at he
    · cases he; exact tolerable_timeout
    · cases he; exact tolerable_crash (by simp) (by simp)
    · split at he <;> cases he
      exact tolerable_timeout
  · split at he
    · cases he; exact tolerable_panic _
    · split at he <;> cases he
      exact tolerable_panic _
  all_goals cases he; exact tolerable_panic _

theorem assignValue_keeps {h n o op f fp v pos h'} (he : assignValue h n o op f fp v pos = .ok h') : HeapKeeps h h' := by
  simp only [assignValue] at he
  split at he
  · split at he
    · cases he
    · cases he
    · split at he <;> cases he
      exact keeps_setDict _ _ _
  · split at he
    · cases he
    · split at he <;> cases he
      exact keeps_setArray _ _ _
  all_goals cases he

theorem nextValue_tolerable {h n v pos e} (he : nextValue h n v pos = .error e) : Tolerable e := by
  simp only [nextValue] at he
  split at he
  · split at he
    · cases he; exact tolerable_timeout
    · cases he; exact tolerable_panic _
    · cases he
    · split at he <;> cases he
      · exact tolerable_timeout
      · exact tolerable_panic _
    · cases he; exact tolerable_panic _
  · cases he; exact tolerable_panic _

/-! ### Command arguments -/

/-- All slots of the given list can be fetched. -/
def CanFetch (env : ArgEnv) (l : List Nat) : Prop := ∀ s ∈ l, (env.fetch s).isSome = true

theorem collect_tolerable {f : α → Except Stop β} {l e} (h : collect f l = .error e)
    (hf : ∀ x ∈ l, ∀ e, f x = .error e → Tolerable e) : Tolerable e := by
  induction l with
  | nil => cases h
  | cons x xs ih =>
    simp only [collect] at h
    split at h
    · rename_i he; cases h; exact hf x (by simp) _ he
    · split at h
      · rename_i he; cases h; exact ih he (fun y hy => hf y (by simp [hy]))
      · cases h

theorem basicValue_tolerable {env v pos e} (h : buildBasicValue env v pos = .error e) : Tolerable e := by
  simp only [buildBasicValue] at h
  split at h <;> cases h
  exact tolerable_panic _

theorem get_tolerable {env : ArgEnv} {s e} (hs : (env.fetch s).isSome = true) : env.get s ≠ .error e := by
  simp only [ArgEnv.get]
  split
  · simp
  · rename_i h; simp [h] at hs

theorem buildUnit_tolerable {env u e} (h : buildUnit env u = .error e) (hf : CanFetch env (unitSlots u)) : Tolerable e := by
  cases u with
  | literal l => cases h
  | dollar s pos =>
    simp only [buildUnit] at h
    split at h
    · rename_i he; exact absurd he (get_tolerable (hf s (by simp [unitSlots])))
    · exact basicValue_tolerable h

theorem addPart_tolerable {env args p e} (h : addPart env args p = .error e)
    (hf : CanFetch env (partSlots p)) : Tolerable e := by
  cases p with
  | unit u =>
    cases u with
    | literal l => cases h
    | dollar s pos =>
      simp only [addPart] at h
      split at h
      · rename_i he; exact absurd he (get_tolerable (hf s (by simp [partSlots, unitSlots])))
      · split at h
        · rename_i he; cases h; exact collect_tolerable he (fun _ _ _ h => basicValue_tolerable h)
        · cases h
      · split at h
        · rename_i he; cases h; exact basicValue_tolerable he
        · cases h
  | collection items =>
    simp only [addPart] at h
    split at h
    · rename_i he; cases h
      exact collect_tolerable he (fun x hx _ h => buildUnit_tolerable h (fun s hs => hf s (List.mem_flatMap.mpr ⟨x, hx, hs⟩)))
    · cases h
  | home | range | star | percent | charClass => cases h

theorem buildArgument_tolerable {env a e} (h : buildArgument env a = .error e) (hf : CanFetch env (argSlots a)) :
    Tolerable e := by
  have key : ∀ (ps : List Prog.ArgPart) (args : Args) (e : Stop), addParts env args ps = .error e →
      (∀ p ∈ ps, CanFetch env (partSlots p)) → Tolerable e := by
    intro ps
    induction ps with
    | nil => intro args e h; cases h
    | cons p ps ih =>
      intro args e h hf
      simp only [addParts] at h
      split at h
      · rename_i he; cases h; exact addPart_tolerable he (hf p (by simp))
      · exact ih _ _ h (fun q hq => hf q (by simp [hq]))
  simp only [buildArgument] at h
  split at h
  · rename_i he; cases h
    exact key _ _ _ he (fun p hp s hs => hf s (List.mem_flatMap.mpr ⟨p, hp, hs⟩))
  · cases h

theorem buildSingle_tolerable {env o a e} (h : buildSingle env o a = .error e) (hf : CanFetch env (argSlots a)) :
    Tolerable e := by
  simp only [buildSingle] at h
  split at h
  · rename_i he; cases h; exact buildArgument_tolerable he hf
  · split at h
    · cases h; exact tolerable_panic _
    · split at h <;> cases h
      exact tolerable_panic _

theorem CanFetch.flat {env} {f : α → List Nat} {l : List α} (h : CanFetch env (l.flatMap f)) {x} (hx : x ∈ l) :
    CanFetch env (f x) := fun s hs => h s (List.mem_flatMap.mpr ⟨x, hx, hs⟩)

theorem buildArguments_tolerable {env l e} (h : buildArguments env l = .error e)
    (hf : CanFetch env (l.flatMap argSlots)) : Tolerable e := by
  simp only [buildArguments] at h
  split at h
  · rename_i he; cases h
    exact collect_tolerable he (fun x hx _ h => buildArgument_tolerable h (hf.flat hx))
  · cases h

theorem buildRedirection_tolerable {env r e} (h : buildRedirection env r = .error e) (hf : CanFetch env (redirSlots r)) :
    Tolerable e := by
  cases r with
  | output n t =>
    have h := except_map_error h
    cases t with
    | fd m => cases h
    | overwrite a => exact buildSingle_tolerable (except_map_error h) hf
    | append a => exact buildSingle_tolerable (except_map_error h) hf
  | input l a => exact buildSingle_tolerable (except_map_error h) hf

theorem buildEnvItem_tolerable {env i e} (h : buildEnvItem env i = .error e)
    (hf : CanFetch env (unitSlots i.1 ++ argSlots i.2)) : Tolerable e := by
  simp only [buildEnvItem] at h
  split at h
  · rename_i he; cases h; exact buildUnit_tolerable he (fun s hs => hf s (by simp [hs]))
  · split at h
    · rename_i he; cases h; exact buildSingle_tolerable he (fun s hs => hf s (by simp [hs]))
    · cases h

theorem buildBasic_tolerable {env c e} (h : buildBasicCommand env c = .error e) (hf : CanFetch env (basicSlots c)) :
    Tolerable e := by
  simp only [buildBasicCommand] at h
  split at h
  · rename_i he; cases h; exact buildSingle_tolerable he (fun s hs => hf s (by simp [basicSlots, hs]))
  · split at h
    · rename_i he; cases h
      refine collect_tolerable he (fun x hx _ h => buildEnvItem_tolerable h ?_)
      refine CanFetch.flat (f := fun e => unitSlots e.1 ++ argSlots e.2) (l := c.env) ?_ hx
      exact fun s hs => hf s (by simp only [basicSlots, List.mem_append]; exact .inl (.inl (.inr hs)))
    · split at h
      · rename_i he; cases h
        exact buildArguments_tolerable he (fun s hs => hf s (by simp only [basicSlots, List.mem_append]; exact .inl (.inr hs)))
      · split at h
        · rename_i he; cases h
          refine collect_tolerable he (fun x hx _ h => buildRedirection_tolerable h ?_)
          refine CanFetch.flat (f := redirSlots) (l := c.redirections) ?_ hx
          exact fun s hs => hf s (by simp only [basicSlots, List.mem_append]; exact .inr hs)
        · cases h

theorem buildCommand_tolerable {env c e} (h : buildCommand env c = .error e) (hf : CanFetch env (commandSlots c)) :
    Tolerable e := by
  cases c with
  | builtin p as ab pos => exact buildArguments_tolerable (except_map_error h) hf
  | external hd tl =>
    simp only [buildCommand] at h
    split at h
    · rename_i he; cases h
      exact buildBasic_tolerable he (CanFetch.flat (f := basicSlots) (l := hd :: tl) hf (by simp))
    · exact collect_tolerable (except_map_error h) (fun x hx _ h =>
        buildBasic_tolerable h (CanFetch.flat (f := basicSlots) (l := hd :: tl) hf (by simp [hx])))

theorem buildBlock_tolerable {env} {b : Prog.CommandBlock} {e} (h : buildBlock env b.head b.tail = .error e)
    (hf : CanFetch env (blockSlots b)) : Tolerable e := by
  simp only [buildBlock] at h
  split at h
  · rename_i he; cases h
    exact buildCommand_tolerable he (CanFetch.flat (f := commandSlots) (l := b.head :: b.tail) hf (by simp))
  · exact collect_tolerable (except_map_error h) (fun x hx _ h =>
      buildCommand_tolerable h (CanFetch.flat (f := commandSlots) (l := b.head :: b.tail) hf (by simp [hx])))

end Hush

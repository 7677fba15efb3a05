import Verif.Spec.Unique
import Verif.Lemmas.Elements
import Verif.Lemmas.InterpLib

/-!
No dict gets a second entry for a key: allocation, insertion, JSON and the library.
-/

set_option linter.unusedTactic false
set_option linter.unreachableTactic false

namespace Hush
open Spec

/-! ### Memory -/

theorem uniqueKeys_iff {h : Heap} : UniqueKeys h ↔ ∀ es ∈ h.dicts, NoRepeat es := by
  constructor
  · intro hu es he
    obtain ⟨i, hi, rfl⟩ := List.getElem_of_mem he
    have := hu i
    simpa [Heap.dict, List.getD_eq_getElem?_getD, List.getElem?_eq_getElem hi] using this
  · intro hu d
    simp only [Heap.dict, List.getD_eq_getElem?_getD]
    cases hd : h.dicts[d]? with
    | none => exact List.Pairwise.nil
    | some es => exact hu es (List.mem_of_getElem? hd)

theorem unique_same {h h' : Heap} (hu : UniqueKeys h) (hd : h'.dicts = h.dicts) : UniqueKeys h' := by
  rw [uniqueKeys_iff] at hu ⊢
  rw [hd]; exact hu

theorem unique_newDict {h : Heap} {es} (hu : UniqueKeys h) (he : NoRepeat es) : UniqueKeys (h.newDict es).2 := by
  rw [uniqueKeys_iff] at hu ⊢
  intro es' hm
  simp only [Heap.newDict, List.mem_append, List.mem_singleton] at hm
  rcases hm with hm | rfl
  · exact hu _ hm
  · exact he

theorem unique_setDict {h : Heap} {a es} (hu : UniqueKeys h) (he : NoRepeat es) : UniqueKeys (h.setDict a es) := by
  rw [uniqueKeys_iff] at hu ⊢
  intro es' hm
  simp only [Heap.setDict] at hm
  rcases List.mem_or_eq_of_mem_set hm with hm | rfl
  · exact hu _ hm
  · exact he

/-! ### Insertion -/

theorem insertWith_mem {same : Value → Option Bool} {k v : Value} : ∀ {es es' : List (Value × Value)}, insertWith same k v es = some es' →
    ∀ e ∈ es', e.1 = k ∧ same k = same k ∨ ∃ e0 ∈ es, e0.1 = e.1
  | [], es', h, e, he => by
    simp only [insertWith, Option.some.injEq] at h
    subst h
    simp only [List.mem_singleton] at he
    exact .inl ⟨by rw [he], rfl⟩
  | e0 :: es, es', h, e, he => by
    simp only [insertWith] at h
    split at h
    · cases h
    · simp only [Option.some.injEq] at h
      subst h
      rcases List.mem_cons.1 he with rfl | he
      · exact .inr ⟨e0, List.mem_cons_self, rfl⟩
      · exact .inr ⟨e, List.mem_cons_of_mem _ he, rfl⟩
    · cases hi : insertWith same k v es with
      | none => rw [hi] at h; cases h
      | some es1 =>
        rw [hi] at h
        simp only [Option.map_some, Option.some.injEq] at h
        subst h
        rcases List.mem_cons.1 he with rfl | he
        · exact .inr ⟨e, List.mem_cons_self, rfl⟩
        · rcases insertWith_mem hi e he with h1 | ⟨e1, h1, h2⟩
          · exact .inl h1
          · exact .inr ⟨e1, List.mem_cons_of_mem _ h1, h2⟩

theorem noRepeat_insertWith {same : Value → Option Bool} {k v : Value} : ∀ {es es' : List (Value × Value)}, insertWith same k v es = some es' →
    (∀ x, same x = some false → Simple x → x ≠ k) → NoRepeat es → NoRepeat es'
  | [], es', h, _, _ => by
    simp only [insertWith, Option.some.injEq] at h
    subst h
    exact List.pairwise_singleton _ _
  | e0 :: es, es', h, hs, hn => by
    obtain ⟨h1, h2⟩ := List.pairwise_cons.1 hn
    simp only [insertWith] at h
    split at h
    · cases h
    · simp only [Option.some.injEq] at h
      subst h
      exact List.pairwise_cons.2 ⟨h1, h2⟩
    · rename_i hf
      cases hi : insertWith same k v es with
      | none => rw [hi] at h; cases h
      | some es1 =>
        rw [hi] at h
        simp only [Option.map_some, Option.some.injEq] at h
        subst h
        refine List.pairwise_cons.2 ⟨fun e he hsim => ?_, noRepeat_insertWith hi hs h2⟩
        rcases insertWith_mem hi e he with ⟨h3, -⟩ | ⟨e1, h3, h4⟩
        · rw [h3]; exact hs _ hf hsim
        · rw [← h4]; exact h1 _ h3 hsim

theorem noRepeat_dictInsert {h : Heap} {n es k v es'} (hi : dictInsert h n es k v = some es') (hn : NoRepeat es) : NoRepeat es' := by
  refine noRepeat_insertWith hi (fun x hx hsim => ?_) hn
  rintro rfl
  cases n with
  | zero => simp [sameHash, optAnd] at hx
  | succ n => rw [simple_same h n hsim] at hx; simp at hx

theorem noRepeat_fieldInsert {k : Sym} {v : Value} : ∀ {es : List (Value × Value)}, NoRepeat es → NoRepeat (fieldInsert k v es) := by
  intro es
  have hmem : ∀ (es : List (Value × Value)), ∀ e ∈ fieldInsert k v es, e.1 = .string k ∨ ∃ e0 ∈ es, e0.1 = e.1 := by
    intro es
    induction es with
    | nil => intro e he; simp only [fieldInsert, List.mem_singleton] at he; exact .inl (by rw [he])
    | cons e0 es ih =>
      intro e he
      simp only [fieldInsert] at he
      split at he
      · rename_i h0
        rcases List.mem_cons.1 he with rfl | he
        · exact .inl h0
        · exact .inr ⟨e, List.mem_cons_of_mem _ he, rfl⟩
      · rcases List.mem_cons.1 he with rfl | he
        · exact .inr ⟨e, List.mem_cons_self, rfl⟩
        · rcases ih e he with h1 | ⟨e1, h1, h2⟩
          · exact .inl h1
          · exact .inr ⟨e1, List.mem_cons_of_mem _ h1, h2⟩
  induction es with
  | nil => intro _; exact List.pairwise_singleton _ _
  | cons e0 es ih =>
    intro hn
    obtain ⟨h1, h2⟩ := List.pairwise_cons.1 hn
    simp only [fieldInsert]
    split
    · exact List.pairwise_cons.2 ⟨h1, h2⟩
    · rename_i h0
      refine List.pairwise_cons.2 ⟨fun e he hsim => ?_, ih h2⟩
      rcases hmem es e he with h3 | ⟨e1, h3, h4⟩
      · rw [h3]; exact h0
      · rw [← h4]; exact h1 _ h3 hsim

theorem unique_assignValue {h h' : Heap} {n obj opos f fpos v pos} (hx : assignValue h n obj opos f fpos v pos = .ok h') (hu : UniqueKeys h) :
    UniqueKeys h' := by
  unfold assignValue at hx
  split at hx
  · split at hx
    · cases hx
    · cases hx
    · split at hx
      · cases hx
      · rename_i hi
        cases hx
        exact unique_setDict hu (noRepeat_dictInsert hi (hu _))
  · split at hx
    · cases hx
    · split at hx
      · cases hx
      · cases hx; exact unique_same hu rfl
  · cases hx
  · cases hx
  · cases hx

/-! ### Values made by the outside -/

theorem buildEntries_keys (args : List Value) : ∀ (h : Heap) (es : List (Bytes × Tree)),
    (Tree.buildEntries args h (es.map (fun e => (.string e.1, e.2)))).1.map (·.1) = es.map (fun e => Value.string e.1)
  | _, [] => rfl
  | h, e :: es => by
    simp only [List.map_cons, Tree.buildEntries, Tree.build]
    rw [buildEntries_keys]

theorem noRepeat_keys {es : List (Value × Value)} (h : (es.map (·.1)).Nodup) : NoRepeat es := by
  unfold NoRepeat
  rw [List.Nodup, List.pairwise_map] at h
  refine List.Pairwise.imp ?_ h
  exact fun h _ => h

mutual
theorem unique_build (args : List Value) : ∀ (h : Heap) (t : Tree), DistinctTree t → UniqueKeys h → UniqueKeys (t.build args h).2
  | h, .arg _, _, hu | h, .nil, _, hu | h, .bool _, _, hu | h, .byte _, _, hu | h, .int _, _, hu | h, .float _, _, hu | h, .string _, _, hu => by
    simp only [Tree.build]; exact hu
  | h, .array ts, ht, hu => by
    simp only [Tree.build]
    cases ht with
    | array _ ht => exact unique_same (unique_buildList args h ts ht hu) rfl
  | h, .dict es, ht, hu => by
    simp only [Tree.build]
    generalize hes : es = es0 at ht
    cases ht with
    | dict es1 hn ht =>
      have h1 := unique_buildEntries args h es (by
        subst hes
        intro e he
        obtain ⟨e', h1, rfl⟩ := List.mem_map.1 he
        exact ⟨.string _, ht _ h1⟩) hu
      refine unique_newDict (by rw [← hes]; exact h1) (noRepeat_keys ?_)
      rw [buildEntries_keys]
      rw [show es1.map (fun e => Value.string e.1) = (es1.map (·.1)).map Value.string from (List.map_map ..).symm]
      rw [List.Nodup, List.pairwise_map]
      exact List.Pairwise.imp (fun h h' => h (by injection h')) hn
  | h, .native _ _, _, hu => by simp only [Tree.build]; exact unique_same hu rfl
  | h, .error _ c, ht, hu => by
    simp only [Tree.build]
    cases ht with
    | error _ _ ht => exact unique_same (unique_build args h c ht hu) rfl
theorem unique_buildList (args : List Value) : ∀ (h : Heap) (ts : List Tree), (∀ t ∈ ts, DistinctTree t) → UniqueKeys h →
    UniqueKeys (Tree.buildList args h ts).2
  | h, [], _, hu => by simp only [Tree.buildList]; exact hu
  | h, t :: ts, ht, hu => by
    simp only [Tree.buildList]
    exact unique_buildList args _ ts (fun t hm => ht t (List.mem_cons_of_mem _ hm)) (unique_build args h t (ht t List.mem_cons_self) hu)
theorem unique_buildEntries (args : List Value) : ∀ (h : Heap) (ts : List (Tree × Tree)), (∀ e ∈ ts, DistinctTree e.1 ∧ DistinctTree e.2) →
    UniqueKeys h → UniqueKeys (Tree.buildEntries args h ts).2
  | h, [], _, hu => by simp only [Tree.buildEntries]; exact hu
  | h, (k, v) :: ts, ht, hu => by
    simp only [Tree.buildEntries]
    obtain ⟨h1, h2⟩ := ht _ List.mem_cons_self
    exact unique_buildEntries args _ ts (fun t hm => ht t (List.mem_cons_of_mem _ hm)) (unique_build args _ v h2 (unique_build args h k h1 hu))
end

/-! ### JSON -/

theorem insertEntry_keys {k : Bytes} {t : Tree} : ∀ {es : List (Bytes × Tree)}, ∀ e ∈ Json.insertEntry k t es, e = (k, t) ∨ e ∈ es
  | [], e, he => by simp only [Json.insertEntry, List.mem_singleton] at he; exact .inl he
  | e0 :: es, e, he => by
    simp only [Json.insertEntry] at he
    split at he
    · rcases List.mem_cons.1 he with rfl | he
      · exact .inl rfl
      · exact .inr (List.mem_cons_of_mem _ he)
    · rcases List.mem_cons.1 he with rfl | he
      · exact .inr List.mem_cons_self
      · rcases insertEntry_keys e he with h | h
        · exact .inl h
        · exact .inr (List.mem_cons_of_mem _ h)

theorem insertEntry_nodup {k : Bytes} {t : Tree} : ∀ {es : List (Bytes × Tree)}, (es.map (·.1)).Nodup → ((Json.insertEntry k t es).map (·.1)).Nodup
  | [], _ => by simp [Json.insertEntry]
  | e0 :: es, hn => by
    simp only [List.map_cons, List.nodup_cons] at hn
    simp only [Json.insertEntry]
    split
    · rename_i h0
      simp only [List.map_cons, List.nodup_cons]
      rw [← h0]; exact hn
    · rename_i h0
      simp only [List.map_cons, List.nodup_cons]
      refine ⟨fun hm => ?_, insertEntry_nodup hn.2⟩
      obtain ⟨e, he, h1⟩ := List.mem_map.1 hm
      rcases insertEntry_keys e he with rfl | h2
      · exact h0 h1.symm
      · exact hn.1 (List.mem_map.2 ⟨e, h2, h1⟩)

theorem distinct_number {w : World} {neg s t r} (h : Json.number w neg s = some (t, r)) : DistinctTree t := by
  have hmap : ∀ {o : Option UInt64} {r' : Bytes}, o.map (fun x => (Tree.float x, r')) = some (t, r) → DistinctTree t := by
    intro o r' ho
    cases o with
    | none => cases ho
    | some x => simp only [Option.map_some, Option.some.injEq, Prod.mk.injEq] at ho; rw [← ho.1]; exact .float _
  have hint : ∀ {i : Int} {r' : Bytes}, some (Tree.int i, r') = some (t, r) → DistinctTree t := by
    intro i r' ho
    simp only [Option.some.injEq, Prod.mk.injEq] at ho; rw [← ho.1]; exact .int _
  unfold Json.number at h
  repeat' split at h
  all_goals first
    | (cases h; done)
    | exact hmap h
    | exact hint h
    | skip
  all_goals dsimp only at h
  all_goals repeat' split at h
  all_goals first
    | (cases h; done)
    | exact hmap h
    | exact hint h

/-- What the reader returns with this budget is a value in which keys are different. -/
structure Distinctly (w : World) (n : Nat) : Prop where
  value : ∀ d s t r, Json.value w n d s = some (t, r) → DistinctTree t
  items : ∀ d s ts r, Json.items w n d s = some (ts, r) → ∀ t ∈ ts, DistinctTree t
  entries : ∀ d acc s es r, (acc.map (·.1)).Nodup → (∀ e ∈ acc, DistinctTree e.2) → Json.entries w n d acc s = some (es, r) →
    (es.map (·.1)).Nodup ∧ ∀ e ∈ es, DistinctTree e.2

theorem map_some {α β γ : Type} {o : Option (α × β)} {f : α → γ} {t : γ} {r : β} (h : o.map (fun x => (f x.1, x.2)) = some (t, r)) :
    ∃ a, o = some (a, r) ∧ f a = t := by
  cases o with
  | none => cases h
  | some x =>
    obtain ⟨a, b⟩ := x
    simp only [Option.map_some, Option.some.injEq, Prod.mk.injEq] at h
    exact ⟨a, by rw [h.2], h.1⟩

theorem distinctly (w : World) : ∀ n, Distinctly w n := by
  intro n
  induction n with
  | zero => exact ⟨by simp [Json.value], by simp [Json.items], by simp [Json.entries]⟩
  | succ n ih =>
    refine ⟨fun d s t r h => ?_, fun d s ts r h => ?_, fun d acc s es r hn ha h => ?_⟩
    · simp only [Json.value] at h
      split at h
      · cases h; exact .nil
      · cases h; exact .bool _
      · cases h; exact .bool _
      · obtain ⟨a, -, rfl⟩ := map_some h; exact .string _
      · split at h
        · cases h
        · split at h
          · cases h; exact .array _ (by simp)
          · obtain ⟨a, h1, rfl⟩ := map_some h
            exact .array _ (ih.items _ _ _ _ h1)
      · split at h
        · cases h
        · split at h
          · cases h; exact .dict [] (by simp) (by simp)
          · obtain ⟨a, h1, rfl⟩ := map_some (f := fun a : List (Bytes × Tree) => Tree.dict (a.map (fun e => (Tree.string e.1, e.2)))) h
            obtain ⟨h2, h3⟩ := ih.entries _ _ _ _ _ (by simp) (by simp) h1
            exact .dict _ h2 h3
      · exact distinct_number h
      · split at h
        · exact distinct_number h
        · cases h
      · cases h
    · simp only [Json.items] at h
      split at h
      · cases h
      · rename_i t0 s0 h0
        have h1 := ih.value _ _ _ _ h0
        split at h
        · obtain ⟨a, h2, rfl⟩ := map_some h
          intro t ht
          rcases List.mem_cons.1 ht with rfl | ht
          · exact h1
          · exact ih.items _ _ _ _ h2 t ht
        · cases h
          intro t ht
          simp only [List.mem_singleton] at ht
          subst ht; exact h1
        · cases h
    · simp only [Json.entries] at h
      split at h
      · split at h
        · cases h
        · split at h
          · split at h
            · cases h
            · rename_i t0 s0 h0
              have h1 := ih.value _ _ _ _ h0
              have h2 := insertEntry_nodup (k := ‹_›) (t := t0) hn
              have h3 : ∀ {k}, ∀ e ∈ Json.insertEntry k t0 acc, DistinctTree e.2 := by
                intro k e he
                rcases insertEntry_keys e he with rfl | he
                · exact h1
                · exact ha _ he
              split at h
              · exact ih.entries _ _ _ _ _ (insertEntry_nodup hn) h3 h
              · cases h
                exact ⟨insertEntry_nodup hn, h3⟩
              · cases h
          · cases h
      · cases h

theorem distinct_decode {w : World} {s t} (h : Json.decode w s = some t) : DistinctTree t := by
  unfold Json.decode at h
  split at h
  · rename_i h1
    split at h
    · cases h; exact (distinctly w _).value _ _ _ _ h1
    · cases h
  · cases h

/-! ### The library -/

/-- A result of a library function has memory without repeated keys. -/
def LibUnique (r : LibRes) : Prop := ∀ v h, r = some (.ok (v, h)) → UniqueKeys h

theorem libUnique_none : LibUnique none := nofun
theorem libUnique_ok {p : Value × Heap} (h : UniqueKeys p.2) : LibUnique (some (.ok p)) := by
  intro v h' hh
  simp only [Option.some.injEq, Except.ok.injEq] at hh
  subst hh; exact h
theorem libUnique_error {e} : LibUnique (some (.error e)) := nofun
theorem libUnique_panic {c : LibCall} {k} : LibUnique (c.panic k) := libUnique_error
theorem libUnique_arity {c : LibCall} {n} : LibUnique (c.arity n) := libUnique_error
theorem libUnique_type {c : LibCall} {v e} : LibUnique (c.type v e) := libUnique_error
theorem libUnique_timeout {c : LibCall} : LibUnique c.timeout := libUnique_error
theorem libUnique_crash {c : LibCall} {k} : LibUnique (c.crash k) := libUnique_error
theorem libUnique_ret {c : LibCall} {h v} (hu : UniqueKeys h) : LibUnique (c.ret h v) := libUnique_ok hu

theorem unique_iteration {h : Heap} (hu : UniqueKeys h) (v) : UniqueKeys (Lib.iteration h v).2 := by
  cases v with
  | none => exact unique_newDict hu (noRepeat_keys (by simp))
  | some v => exact unique_newDict hu (noRepeat_keys (by simp only [List.map_cons, List.map_nil]; decide))

theorem unique_pair {h : Heap} (hu : UniqueKeys h) (a b : Value) : UniqueKeys (h.newDict [(Lib.kKey, a), (Lib.kValue, b)]).2 :=
  unique_newDict hu (noRepeat_keys (by simp only [List.map_cons, List.map_nil]; decide))

/-- Closes `LibUnique` goals. -/
macro "lib_unique" : tactic =>
  `(tactic| first
    | exact libUnique_error
    | exact libUnique_none
    | exact libUnique_ret (by assumption)
    | exact libUnique_panic
    | exact libUnique_type
    | exact libUnique_arity
    | exact libUnique_timeout
    | exact libUnique_crash
    | exact libUnique_ok (unique_same (by assumption) rfl)
    | exact libUnique_ok (unique_iteration (by assumption) _)
    | exact libUnique_ok (unique_iteration (unique_same (by assumption) rfl) _)
    | exact libUnique_ok (unique_iteration (unique_pair (unique_same (by assumption) rfl) _ _) _)
    | exact libUnique_ok (unique_build _ _ _ (distinct_decode (by assumption)) (by assumption)))

theorem libUnique_call (w : World) (name : Bytes) (c : LibCall) (h : Heap) (hu : UniqueKeys h) : LibUnique (Lib.call w name c h) := by
  simp only [Lib.call]
  split
  · rename_i f hf
    have hm : ∃ n, (n, f) ∈ Lib.table := by
      refine ⟨name, ?_⟩
      revert hf
      generalize Lib.table = l
      induction l with
      | nil => simp
      | cons q l ih =>
        intro hf
        rw [List.lookup_cons] at hf
        split at hf
        · rename_i hq
          simp only [beq_iff_eq] at hq
          simp only [Option.some.injEq] at hf
          subst hf; subst hq
          simp
        · exact List.mem_cons_of_mem _ (ih hf)
    obtain ⟨n, hm⟩ := hm
    clear hf
    have h0 : ∀ q ∈ Lib.table, LibUnique (q.2 w c h) := by
      simp only [Lib.table, List.forall_mem_cons, List.not_mem_nil, false_imp_iff, implies_true, and_true]
      repeat' apply And.intro
      all_goals simp only [Lib.assert, Lib.args, Lib.bind, Lib.bytes, Lib.contains, Lib.error, Lib.exit, Lib.hasError, Lib.hexEncodeFun, Lib.hexDecodeFun,
        Lib.b64EncodeFun, Lib.b64DecodeFun, Lib.int, Lib.isEmpty, Lib.iter, Lib.iterImpl, Lib.len, Lib.panic, Lib.pop, Lib.push, Lib.range, Lib.rangeImpl,
        Lib.replace, Lib.sort, Lib.split, Lib.substr, Lib.substrOf, Lib.toStringFun, Lib.type, Lib.typecheck, Lib.tryTypecheck, Lib.trim, Lib.jsonEncode,
        Lib.jsonDecode, Lib.float, Lib.text1, Lib.regexReplace, Lib.export_, Lib.noArgs, Lib.randint, Lib.randseed, Lib.sleep, Lib.read]
      all_goals repeat' split
      all_goals lib_unique
    exact h0 _ hm
  · exact libUnique_none

end Hush

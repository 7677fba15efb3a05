import Verif.Spec.Reference
import Verif.Lemmas.Grow

/-!
An object that nothing refers to is not changed, and stays so.
-/

namespace Hush
open Spec

/-- The object `r` is `c` and not referred to; `none` means that it does not exist yet. -/
structure HHid (r : Ref) (c : Option Object) (h : Heap) : Prop where
  free : NotInHeap r h
  obj : object h r = c

/-- The object `r` is `c` and not referred to. -/
structure Hid (r : Ref) (c : Option Object) (s : RState) : Prop where
  free : Unreferenced r s
  obj : object s.heap r = c

theorem Hid.hh {r c s} (h : Hid r c s) : HHid r c s.heap := ⟨h.free.heap, h.obj⟩

theorem Hid.heap {r c s h} (hs : Hid r c s) (hh : HHid r c h) : Hid r c { s with heap := h } :=
  ⟨⟨hh.free, hs.free.stack, hs.free.args, hs.free.modules, hs.free.std, hs.free.argv⟩, hh.obj⟩

theorem clean_nil (r) : ¬ Names r .nil := by cases r <;> simp [Names]
theorem clean_bool (r b) : ¬ Names r (.bool b) := by cases r <;> simp [Names]
theorem clean_int (r b) : ¬ Names r (.int b) := by cases r <;> simp [Names]
theorem clean_byte (r b) : ¬ Names r (.byte b) := by cases r <;> simp [Names]
theorem clean_float (r b) : ¬ Names r (.float b) := by cases r <;> simp [Names]
theorem clean_string (r b) : ¬ Names r (.string b) := by cases r <;> simp [Names]
theorem clean_error (r b c) : ¬ Names r (.error b c) := by cases r <;> simp [Names]
theorem clean_hush (r b) : ¬ Names r (.function (.hush b)) := by cases r <;> simp [Names]

/-! ### Memory -/

theorem HHid.array {r c h} (hh : HHid r c h) {a v} (hv : v ∈ h.array a) : ¬ Names r v := by
  simp only [Heap.array, List.getD_eq_getElem?_getD] at hv
  cases ha : h.arrays[a]? with
  | none => rw [ha] at hv; simp at hv
  | some vs => rw [ha] at hv; exact hh.free.arrays vs (List.mem_of_getElem? ha) v hv

theorem HHid.dict {r c h} (hh : HHid r c h) {a e} (he : e ∈ h.dict a) : ¬ Names r e.1 ∧ ¬ Names r e.2 := by
  simp only [Heap.dict, List.getD_eq_getElem?_getD] at he
  cases ha : h.dicts[a]? with
  | none => rw [ha] at he; simp at he
  | some vs => rw [ha] at he; exact hh.free.dicts vs (List.mem_of_getElem? ha) e he

theorem HHid.cell {r c h} (hh : HHid r c h) (a) : ¬ Names r (h.cell a) := by
  simp only [Heap.cell, List.getD_eq_getElem?_getD]
  cases ha : h.cells[a]? with
  | none => exact clean_nil r
  | some v => exact hh.free.cells v (List.mem_of_getElem? ha)

theorem HHid.context {r c h} (hh : HHid r c h) (a) : ¬ Names r (h.context a) := by
  simp only [Heap.context, List.getD_eq_getElem?_getD]
  cases ha : h.contexts[a]? with
  | none => exact clean_nil r
  | some v => exact hh.free.contexts v (List.mem_of_getElem? ha)

theorem HHid.native {r c h} (hh : HHid r c h) (a) : ¬ StateNames r (h.native a) := by
  simp only [Heap.native, List.getD_eq_getElem?_getD]
  cases ha : h.natives[a]? with
  | none => exact id
  | some v => exact hh.free.natives v (List.mem_of_getElem? ha)

theorem getElem?_append_some {l l' : List α} {i : Nat} {a : α} (h : l[i]? = some a) : (l ++ l')[i]? = some a := by
  have := (List.getElem?_eq_some_iff.1 h).1
  rw [List.getElem?_append_left this, h]

/-- The object does not exist if it should not. -/
def Last (r : Ref) (c : Option Object) (h : Heap) : Prop := c = none → object h r = none

theorem object_sizes {h h' : Heap} {r} (g : Sizes h h') (ho : object h' r = none) : object h r = none := by
  cases r with
  | array a => simp only [object, Option.map_eq_none_iff, List.getElem?_eq_none_iff] at ho ⊢; exact g.arrays.trans ho
  | dict a => simp only [object, Option.map_eq_none_iff, List.getElem?_eq_none_iff] at ho ⊢; exact g.dicts.trans ho
  | native a => simp only [object, Option.map_eq_none_iff, List.getElem?_eq_none_iff] at ho ⊢; exact g.natives.trans ho

theorem Last.back {r c h h'} (hl : Last r c h') (g : Sizes h h') : Last r c h := fun hc => object_sizes g (hl hc)

theorem object_arrays {h : Heap} {r c l} (ho : object h r = c) (hl : Last r c { h with arrays := h.arrays ++ l }) :
    object { h with arrays := h.arrays ++ l } r = c := by
  cases c with
  | none => exact hl rfl
  | some c =>
    cases r with
    | array a =>
      simp only [object, Option.map_eq_some_iff] at ho ⊢
      obtain ⟨x, h1, h2⟩ := ho
      exact ⟨x, getElem?_append_some h1, h2⟩
    | dict a => exact ho
    | native a => exact ho

theorem object_dicts {h : Heap} {r c l} (ho : object h r = c) (hl : Last r c { h with dicts := h.dicts ++ l }) :
    object { h with dicts := h.dicts ++ l } r = c := by
  cases c with
  | none => exact hl rfl
  | some c =>
    cases r with
    | dict a =>
      simp only [object, Option.map_eq_some_iff] at ho ⊢
      obtain ⟨x, h1, h2⟩ := ho
      exact ⟨x, getElem?_append_some h1, h2⟩
    | array a => exact ho
    | native a => exact ho

theorem object_natives {h : Heap} {r c l} (ho : object h r = c) (hl : Last r c { h with natives := h.natives ++ l }) :
    object { h with natives := h.natives ++ l } r = c := by
  cases c with
  | none => exact hl rfl
  | some c =>
    cases r with
    | native a =>
      simp only [object, Option.map_eq_some_iff] at ho ⊢
      obtain ⟨x, h1, h2⟩ := ho
      exact ⟨x, getElem?_append_some h1, h2⟩
    | array a => exact ho
    | dict a => exact ho

theorem mem_append_one {l : List α} {a b : α} (h : a ∈ l ++ [b]) : a ∈ l ∨ a = b := by simpa using h

/-- A result with a memory. -/
def VHid (r : Ref) (c : Option Object) (x : Value × Heap) : Prop := ¬ Names r x.1 ∧ HHid r c x.2

theorem vhid_newArray {r c h vs} (hh : HHid r c h) (hv : ∀ v ∈ vs, ¬ Names r v) (hl : Last r c (h.newArray vs).2) : VHid r c (h.newArray vs) := by
  refine ⟨?_, ⟨?_, hh.free.dicts, hh.free.cells, hh.free.contexts, hh.free.natives⟩, object_arrays hh.obj hl⟩
  · have ho := hh.obj
    cases r with
    | array a =>
      intro h'
      simp only [Names, Heap.newArray, Value.array.injEq] at h'
      cases c with
      | none => simpa [object, ← h', Heap.newArray, Heap.newDict, Heap.newNative] using hl rfl
      | some c => simp [object, ← h'] at ho
    | dict a => simp [Names, Heap.newArray]
    | native a => simp [Names, Heap.newArray]
  · intro vs' h'
    rcases mem_append_one h' with h' | rfl
    · exact hh.free.arrays _ h'
    · exact hv

theorem vhid_newDict {r c h es} (hh : HHid r c h) (hv : ∀ e ∈ es, ¬ Names r e.1 ∧ ¬ Names r e.2) (hl : Last r c (h.newDict es).2) : VHid r c (h.newDict es) := by
  refine ⟨?_, ⟨hh.free.arrays, ?_, hh.free.cells, hh.free.contexts, hh.free.natives⟩, object_dicts hh.obj hl⟩
  · have ho := hh.obj
    cases r with
    | dict a =>
      intro h'
      simp only [Names, Heap.newDict, Value.dict.injEq] at h'
      cases c with
      | none => simpa [object, ← h', Heap.newArray, Heap.newDict, Heap.newNative] using hl rfl
      | some c => simp [object, ← h'] at ho
    | array a => simp [Names, Heap.newDict]
    | native a => simp [Names, Heap.newDict]
  · intro vs' h'
    rcases mem_append_one h' with h' | rfl
    · exact hh.free.dicts _ h'
    · exact hv

theorem vhid_newNative {r c h name st} (hh : HHid r c h) (hv : ¬ StateNames r st) (hl : Last r c (h.newNative name st).2) : VHid r c (h.newNative name st) := by
  refine ⟨?_, ⟨hh.free.arrays, hh.free.dicts, hh.free.cells, hh.free.contexts, ?_⟩, object_natives hh.obj hl⟩
  · have ho := hh.obj
    cases r with
    | native a =>
      intro h'
      simp only [Names, Heap.newNative, Value.function.injEq, Fn.native.injEq] at h'
      obtain ⟨_, _, h'⟩ := h'
      cases c with
      | none => simpa [object, ← h', Heap.newArray, Heap.newDict, Heap.newNative] using hl rfl
      | some c => simp [object, ← h'] at ho
    | array a => simp [Names, Heap.newNative]
    | dict a => simp [Names, Heap.newNative]
  · intro vs' h'
    rcases mem_append_one h' with h' | rfl
    · exact hh.free.natives _ h'
    · exact hv

theorem vhid_newError {r c h d v} (hh : HHid r c h) (hv : ¬ Names r v) : VHid r c (h.newError d v) := by
  refine ⟨clean_error _ _ _, ⟨hh.free.arrays, hh.free.dicts, hh.free.cells, ?_, hh.free.natives⟩, ?_⟩
  · intro vs' h'
    rcases mem_append_one h' with h' | rfl
    · exact hh.free.contexts _ h'
    · exact hv
  · have := hh.obj; cases r <;> exact this

theorem vhid_newClosure {r c h k} (hh : HHid r c h) : VHid r c (h.newClosure k) := by
  refine ⟨clean_hush _ _, ⟨hh.free.arrays, hh.free.dicts, hh.free.cells, hh.free.contexts, hh.free.natives⟩, ?_⟩
  have := hh.obj; cases r <;> exact this

theorem hhid_newCell {r c h v} (hh : HHid r c h) (hv : ¬ Names r v) : HHid r c (h.newCell v).2 := by
  refine ⟨⟨hh.free.arrays, hh.free.dicts, ?_, hh.free.contexts, hh.free.natives⟩, ?_⟩
  · intro vs' h'
    rcases mem_append_one h' with h' | rfl
    · exact hh.free.cells _ h'
    · exact hv
  · have := hh.obj; cases r <;> exact this

theorem hhid_setCell {r c h a v} (hh : HHid r c h) (hv : ¬ Names r v) : HHid r c (h.setCell a v) := by
  refine ⟨⟨hh.free.arrays, hh.free.dicts, ?_, hh.free.contexts, hh.free.natives⟩, ?_⟩
  · intro vs' h'
    rcases List.mem_or_eq_of_mem_set h' with h' | rfl
    · exact hh.free.cells _ h'
    · exact hv
  · have := hh.obj; cases r <;> exact this

theorem hhid_setArray {r c h a vs} (hh : HHid r c h) (ha : ¬ Names r (.array a)) (hv : ∀ v ∈ vs, ¬ Names r v) :
    HHid r c (h.setArray a vs) := by
  refine ⟨⟨?_, hh.free.dicts, hh.free.cells, hh.free.contexts, hh.free.natives⟩, ?_⟩
  · intro vs' h'
    rcases List.mem_or_eq_of_mem_set h' with h' | rfl
    · exact hh.free.arrays _ h'
    · exact hv
  · have ho := hh.obj
    cases r with
    | array b =>
      simp only [Names, Value.array.injEq] at ha
      simp only [object, Heap.setArray] at ho ⊢
      rw [List.getElem?_set_ne ha]; exact ho
    | dict b => exact ho
    | native b => exact ho

theorem hhid_setDict {r c h a es} (hh : HHid r c h) (ha : ¬ Names r (.dict a)) (hv : ∀ e ∈ es, ¬ Names r e.1 ∧ ¬ Names r e.2) :
    HHid r c (h.setDict a es) := by
  refine ⟨⟨hh.free.arrays, ?_, hh.free.cells, hh.free.contexts, hh.free.natives⟩, ?_⟩
  · intro vs' h'
    rcases List.mem_or_eq_of_mem_set h' with h' | rfl
    · exact hh.free.dicts _ h'
    · exact hv
  · have ho := hh.obj
    cases r with
    | dict b =>
      simp only [Names, Value.dict.injEq] at ha
      simp only [object, Heap.setDict] at ho ⊢
      rw [List.getElem?_set_ne ha]; exact ho
    | array b => exact ho
    | native b => exact ho

theorem hhid_setNative {r c h a st} (hh : HHid r c h) {name} (ha : ¬ Names r (.function (.native name a))) (hv : ¬ StateNames r st) :
    HHid r c (h.setNative a st) := by
  refine ⟨⟨hh.free.arrays, hh.free.dicts, hh.free.cells, hh.free.contexts, ?_⟩, ?_⟩
  · intro vs' h'
    rcases List.mem_or_eq_of_mem_set h' with h' | rfl
    · exact hh.free.natives _ h'
    · exact hv
  · have ho := hh.obj
    cases r with
    | native b =>
      have : a ≠ b := fun e => ha (by rw [e]; exact ⟨name, rfl⟩)
      simp only [object, Heap.setNative] at ho ⊢
      rw [List.getElem?_set_ne this]; exact ho
    | dict b => exact ho
    | array b => exact ho

mutual
theorem vhid_build {r c h} {args : List Value} (hh : HHid r c h) (ha : ∀ v ∈ args, ¬ Names r v) :
    (t : Tree) → Last r c (t.build args h).2 → VHid r c (t.build args h)
  | .arg i, _ => by
    refine ⟨?_, hh⟩
    simp only [Tree.build, List.getD_eq_getElem?_getD]
    cases h1 : args[i]? with
    | none => exact clean_nil r
    | some v => exact ha v (List.mem_of_getElem? h1)
  | .nil, _ => ⟨clean_nil r, hh⟩
  | .bool b, _ => ⟨clean_bool r b, hh⟩
  | .byte b, _ => ⟨clean_byte r b, hh⟩
  | .int b, _ => ⟨clean_int r b, hh⟩
  | .float b, _ => ⟨clean_float r b, hh⟩
  | .string b, _ => ⟨clean_string r b, hh⟩
  | .array items, hl => by
    have := vhid_buildList hh ha items (hl.back (keeps_newArray _ _).grows.sizes)
    exact vhid_newArray this.2 this.1 hl
  | .dict entries, hl => by
    have := vhid_buildEntries hh ha entries (hl.back (keeps_newDict _ _).grows.sizes)
    exact vhid_newDict this.2 this.1 hl
  | .native name data, hl => vhid_newNative hh id hl
  | .error d t, hl => by
    have := vhid_build hh ha t (hl.back (keeps_newError _ d _).grows.sizes)
    exact vhid_newError this.2 this.1
theorem vhid_buildList {r c h} {args : List Value} (hh : HHid r c h) (ha : ∀ v ∈ args, ¬ Names r v) :
    (ts : List Tree) → Last r c (Tree.buildList args h ts).2 →
      (∀ v ∈ (Tree.buildList args h ts).1, ¬ Names r v) ∧ HHid r c (Tree.buildList args h ts).2
  | [], _ => ⟨nofun, hh⟩
  | t :: ts, hl => by
    have h1 := vhid_build hh ha t (hl.back (keeps_buildList args _ ts).grows.sizes)
    have h2 := vhid_buildList h1.2 ha ts hl
    refine ⟨?_, h2.2⟩
    intro v hv
    rcases List.mem_cons.1 hv with rfl | hv
    · exact h1.1
    · exact h2.1 v hv
theorem vhid_buildEntries {r c h} {args : List Value} (hh : HHid r c h) (ha : ∀ v ∈ args, ¬ Names r v) :
    (ts : List (Tree × Tree)) → Last r c (Tree.buildEntries args h ts).2 →
      (∀ e ∈ (Tree.buildEntries args h ts).1, ¬ Names r e.1 ∧ ¬ Names r e.2) ∧ HHid r c (Tree.buildEntries args h ts).2
  | [], _ => ⟨nofun, hh⟩
  | (k, v) :: ts, hl => by
    have hb := hl.back (keeps_buildEntries args _ ts).grows.sizes
    have h0 := vhid_build hh ha k (hb.back (keeps_build args _ v).grows.sizes)
    have h1 := vhid_build h0.2 ha v hb
    have h2 := vhid_buildEntries h1.2 ha ts hl
    refine ⟨?_, h2.2⟩
    intro v hv
    rcases List.mem_cons.1 hv with rfl | hv
    · exact ⟨h0.1, h1.1⟩
    · exact h2.1 v hv
end

/-! ### Library functions -/

/-- The result of a library function. -/
def LHid (r : Ref) (c : Option Object) (x : LibRes) : Prop := ∀ v h, x = some (.ok (v, h)) → Last r c h → VHid r c (v, h)

theorem lhid_none {r c} : LHid r c none := nofun
theorem lhid_error {r c e} : LHid r c (some (.error e)) := nofun
theorem lhid_ok {r c x} (h : Last r c x.2 → VHid r c x) : LHid r c (some (.ok x)) := by
  intro v h' e; cases e; exact h
theorem lhid_ret {r c h v} {k : LibCall} (hh : HHid r c h) (hv : ¬ Names r v) : LHid r c (k.ret h v) := lhid_ok fun _ => ⟨hv, hh⟩

theorem vhid_iteration {r c h} (hh : HHid r c h) {o : Option Value} (hv : ∀ v, o = some v → ¬ Names r v) :
    Last r c (Lib.iteration h o).2 → VHid r c (Lib.iteration h o) := by
  intro hl
  cases o with
  | none =>
    refine vhid_newDict hh ?_ hl
    simp [Lib.kFinished, clean_string, clean_bool]
  | some v =>
    refine vhid_newDict hh ?_ hl
    simp [Lib.kFinished, Lib.kValue, clean_string, clean_bool, hv v rfl]

theorem lhid_call {r c h} (w : World) (name : Bytes) (k : LibCall) (hh : HHid r c h) (ha : ∀ v ∈ k.args, ¬ Names r v)
    (hv : ¬ Names r k.argv) (hn : ¬ Names r (.function (.native name k.addr))) : LHid r c (Lib.call w name k h) := by
  simp only [Lib.call]
  cases hf : Lib.table.lookup name with
  | none => exact lhid_none
  | some f =>
    have hm : (name, f) ∈ Lib.table := by
      revert hf
      generalize Lib.table = l
      induction l with
      | nil => simp
      | cons q l ih =>
        intro hf
        rw [List.lookup_cons] at hf
        split at hf
        · rename_i hq
          simp only [beq_iff_eq] at hq
          simp only [Option.some.injEq] at hf
          subst hf; subst hq
          simp
        · exact List.mem_cons_of_mem _ (ih hf)
    have ret : ∀ {v}, ¬ Names r v → LHid r c (k.ret h v) := fun hv => lhid_ret hh hv
    have h0 : ∀ q ∈ Lib.table, LHid r c (q.2 w k h) := by
      simp only [Lib.table, List.forall_mem_cons, List.not_mem_nil, false_imp_iff, implies_true, and_true]
      refine ⟨?_, ?_, ?_, ?_, ?_, ?_, ?_, ?_, ?_, ?_, ?_, ?_, ?_, ?_, ?_, ?_, ?_, ?_, ?_, ?_, ?_, ?_, ?_, ?_, ?_, ?_, ?_, ?_, ?_, ?_,
        ?_, ?_, ?_, ?_, ?_, ?_, ?_, ?_, ?_, ?_, ?_, ?_, ?_, ?_, ?_, ?_, ?_, ?_⟩
      · simp only [Lib.assert]; split <;> first | exact ret (clean_nil r) | exact lhid_error
      · simp only [Lib.args]; split <;> first | exact ret hv | exact lhid_error
      · simp only [Lib.bind]
        split
        · rename_i obj f he
          refine lhid_ok fun hl => vhid_newNative hh ?_ hl
          rintro (h1 | h1)
          · exact ha obj (by simp [he]) h1
          · exact ha (.function f) (by simp [he]) h1
        all_goals exact lhid_error
      · simp only [Lib.bytes]
        split
        · refine lhid_ok fun hl => vhid_newArray hh ?_ hl
          intro v hv'
          obtain ⟨b, _, rfl⟩ := List.mem_map.1 hv'
          exact clean_byte r b
        all_goals exact lhid_error
      · simp only [Lib.contains]
        split <;> (try split) <;> first | exact ret (clean_bool r _) | exact lhid_error
      · simp only [Lib.error]
        split
        · rename_i s v he
          exact lhid_ok fun _ => vhid_newError hh (ha v (by simp [he]))
        all_goals exact lhid_error
      · simp only [Lib.exit]
        split <;> (try split) <;> exact lhid_error
      · simp only [Lib.hasError]
        split <;> (try split) <;> first | exact ret (clean_bool r _) | exact lhid_error
      · simp only [Lib.hexEncodeFun]; split <;> first | exact ret (clean_string r _) | exact lhid_error
      · simp only [Lib.hexDecodeFun]
        repeat' split
        all_goals first | exact ret (clean_string r _) | exact lhid_error | exact lhid_ok fun _ => vhid_newError hh (clean_string r _)
      · simp only [Lib.b64EncodeFun]; split <;> first | exact ret (clean_string r _) | exact lhid_error
      · simp only [Lib.b64DecodeFun]
        split <;> (try split) <;> first | exact ret (clean_string r _) | exact lhid_none | exact lhid_error
      · simp only [Lib.int]
        split <;> (try split) <;> first | exact ret (clean_int r _) | exact lhid_none | exact lhid_error
      · simp only [Lib.isEmpty]; split <;> first | exact ret (clean_bool r _) | exact lhid_error
      · simp only [Lib.iter]
        split
        · rename_i a he
          exact lhid_ok fun hl => vhid_newNative hh (ha (.array a) (by simp [he])) hl
        · rename_i d he
          refine lhid_ok fun hl => vhid_newNative hh ?_ hl
          rintro ⟨e, h1, h2⟩
          have := hh.dict h1
          exact h2.elim this.1 this.2
        · exact lhid_ok fun hl => vhid_newNative hh id hl
        all_goals exact lhid_error
      · by_cases hname : ∃ v, Lib.iterImpl w k h = some (.ok v)
        · simp only [Lib.iterImpl]
          split
          · exact lhid_error
          · have hst := hh.native k.addr
            split
            · rename_i a ix he
              rw [he] at hst
              split
              · rename_i v hix
                refine lhid_ok (vhid_iteration (hhid_setNative (st := .arrayIter a (ix + 1)) hh (name := name) hn hst) ?_)
                rintro v' ⟨⟩
                exact hh.array (List.mem_of_getElem? hix)
              · exact lhid_ok (vhid_iteration hh nofun)
            · split
              · refine lhid_ok (vhid_iteration (hhid_setNative hh (name := name) hn id) ?_)
                rintro v' ⟨⟩
                exact clean_byte r _
              · exact lhid_ok (vhid_iteration hh nofun)
            · rename_i es he
              rw [he] at hst
              split
              · rename_i kk v hl
                have hmem := List.mem_of_getLast? hl
                intro v0 h0 e0 hlast
                cases e0
                have h1 : HHid r c (h.setNative k.addr (.dictIter es.dropLast)) := by
                  refine hhid_setNative hh (name := name) hn ?_
                  rintro ⟨e, h1, h2⟩
                  exact hst ⟨e, List.dropLast_subset _ h1, h2⟩
                have hk1 : ¬ Names r kk := fun hx => hst ⟨_, hmem, .inl hx⟩
                have hk2 : ¬ Names r v := fun hx => hst ⟨_, hmem, .inr hx⟩
                have h2 := vhid_newDict h1 (es := [(Lib.kKey, kk), (Lib.kValue, v)]) (by
                  simp [Lib.kKey, Lib.kValue, clean_string, hk1, hk2]) (hlast.back (keeps_newDict _ _).grows.sizes)
                refine vhid_iteration (o := some _) h2.2 ?_ hlast
                rintro v' ⟨⟩
                exact h2.1
              · exact lhid_ok (vhid_iteration hh nofun)
            · exact lhid_none
        · intro v h' he
          exact absurd ⟨_, he⟩ hname
      · simp only [Lib.len]; split <;> first | exact ret (clean_int r _) | exact lhid_error
      · simp only [Lib.panic]; split <;> exact lhid_error
      · simp only [Lib.pop]
        split
        · rename_i a he
          split
          · rename_i v hl
            refine lhid_ok fun _ => ⟨hh.array (List.mem_of_getLast? hl), hhid_setArray hh (ha _ (by simp [he])) ?_⟩
            intro v' hv'
            exact hh.array (List.dropLast_subset _ hv')
          · exact lhid_error
        all_goals exact lhid_error
      · simp only [Lib.push]
        split
        · rename_i a v he
          refine lhid_ok fun _ => ⟨clean_nil r, hhid_setArray hh (ha _ (by simp [he])) ?_⟩
          intro v' hv'
          rcases mem_append_one hv' with h1 | rfl
          · exact hh.array h1
          · exact ha _ (by simp [he])
        all_goals exact lhid_error
      · simp only [Lib.range]
        split <;> (try split) <;> first | exact lhid_ok fun hl => vhid_newNative hh id hl | exact lhid_error
      · simp only [Lib.rangeImpl]
        split
        · exact lhid_error
        · split
          · rename_i a b st _
            by_cases hc : (if 0 < st then b ≤ a else a ≤ b)
            · rw [if_pos hc]; exact lhid_ok (vhid_iteration hh nofun)
            · rw [if_neg hc]
              split
              · exact lhid_error
              · refine lhid_ok (vhid_iteration (hhid_setNative hh (name := name) hn (by exact id)) ?_)
                rintro v' ⟨⟩
                exact clean_int r _
          · rename_i a b st _
            by_cases hc : (if floatCmp st 0 = .gt then floatCmp a b ≠ .lt else floatCmp a b ≠ .gt)
            · rw [if_pos hc]; exact lhid_ok (vhid_iteration hh nofun)
            · rw [if_neg hc]
              refine lhid_ok (vhid_iteration (hhid_setNative hh (name := name) hn (by exact id)) ?_)
              rintro v' ⟨⟩
              exact clean_float r _
          · exact lhid_none
      · simp only [Lib.replace]
        split <;> (try split) <;> first | exact ret (clean_string r _) | exact lhid_none | exact lhid_error
      · simp only [Lib.sort]
        split
        · rename_i a he
          split
          · exact lhid_error
          · split
            · exact lhid_error
            · split
              · rename_i vs hs
                refine lhid_ok fun _ => ⟨clean_nil r, hhid_setArray hh (ha _ (by simp [he])) ?_⟩
                intro v hv'
                simp only [Lib.sortValues] at hs
                split at hs
                · cases hs
                  exact hh.array (List.mem_mergeSort.1 hv')
                · cases hs
              · exact lhid_error
        all_goals exact lhid_error
      · simp only [Lib.split]
        split
        · refine lhid_ok fun hl => vhid_newArray hh ?_ hl
          intro v hv'
          obtain ⟨b, _, rfl⟩ := List.mem_map.1 hv'
          exact clean_string r b
        all_goals exact lhid_error
      · simp only [Lib.substr]
        split
        · simp only [Lib.substrOf]
          split
          · exact lhid_error
          · refine lhid_ok fun _ => ⟨?_, hh⟩
            dsimp only
            split
            · exact clean_string r _
            · exact clean_nil r
        all_goals exact lhid_error
      · simp only [Lib.toStringFun]
        split <;> (try split) <;> first | exact ret (clean_string r _) | exact lhid_error
      · simp only [Lib.type]; split <;> first | exact ret (clean_string r _) | exact lhid_error
      · simp only [Lib.typecheck]
        split
        · rename_i v s he
          split
          · exact lhid_error
          · split
            · exact ret (ha v (by simp [he]))
            · exact lhid_error
        all_goals exact lhid_error
      · simp only [Lib.tryTypecheck]
        split
        · split
          · exact lhid_error
          · split
            · exact ret (clean_nil r)
            · exact lhid_none
        all_goals exact lhid_error
      · simp only [Lib.trim]
        repeat' split
        all_goals first | exact ret (clean_string r _) | exact ret (clean_float r _) | exact lhid_none | exact lhid_error | exact lhid_ok fun _ => vhid_newError hh (clean_string r _)
      · simp only [Lib.jsonEncode]
        repeat' split
        all_goals first | exact ret (clean_string r _) | exact ret (clean_float r _) | exact lhid_none | exact lhid_error | exact lhid_ok fun _ => vhid_newError hh (clean_string r _)
      · simp only [Lib.jsonDecode]
        split
        · split
          · exact lhid_ok fun hl => vhid_build hh (by simp) _ hl
          · exact lhid_ok fun _ => vhid_newError hh (clean_string r _)
        all_goals exact lhid_error
      · simp only [Lib.float]
        repeat' split
        all_goals first | exact ret (clean_string r _) | exact ret (clean_float r _) | exact lhid_none | exact lhid_error | exact lhid_ok fun _ => vhid_newError hh (clean_string r _)
      · simp only [Lib.text1]
        repeat' split
        all_goals first | exact ret (clean_string r _) | exact ret (clean_float r _) | exact lhid_none | exact lhid_error | exact lhid_ok fun _ => vhid_newError hh (clean_string r _)
      · simp only [Lib.text1]
        repeat' split
        all_goals first | exact ret (clean_string r _) | exact ret (clean_float r _) | exact lhid_none | exact lhid_error | exact lhid_ok fun _ => vhid_newError hh (clean_string r _)
      · simp only [Lib.text1]
        repeat' split
        all_goals first | exact ret (clean_string r _) | exact ret (clean_float r _) | exact lhid_none | exact lhid_error | exact lhid_ok fun _ => vhid_newError hh (clean_string r _)
      · simp only [Lib.text1]
        repeat' split
        all_goals first | exact ret (clean_string r _) | exact ret (clean_float r _) | exact lhid_none | exact lhid_error | exact lhid_ok fun _ => vhid_newError hh (clean_string r _)
      · simp only [Lib.text1]
        repeat' split
        all_goals first | exact ret (clean_string r _) | exact ret (clean_float r _) | exact lhid_none | exact lhid_error | exact lhid_ok fun _ => vhid_newError hh (clean_string r _)
      · simp only [Lib.text1]
        repeat' split
        all_goals first | exact ret (clean_string r _) | exact ret (clean_float r _) | exact lhid_none | exact lhid_error | exact lhid_ok fun _ => vhid_newError hh (clean_string r _)
      · simp only [Lib.regexReplace]
        repeat' split
        all_goals first | exact ret (clean_string r _) | exact ret (clean_float r _) | exact lhid_none | exact lhid_error | exact lhid_ok fun _ => vhid_newError hh (clean_string r _)
      · simp only [Lib.export_]
        repeat' split
        all_goals first | exact ret (clean_string r _) | exact ret (clean_float r _) | exact lhid_none | exact lhid_error | exact lhid_ok fun _ => vhid_newError hh (clean_string r _)
      · simp only [Lib.noArgs]
        repeat' split
        all_goals first | exact ret (clean_string r _) | exact ret (clean_float r _) | exact lhid_none | exact lhid_error | exact lhid_ok fun _ => vhid_newError hh (clean_string r _)
      · simp only [Lib.noArgs]
        repeat' split
        all_goals first | exact ret (clean_string r _) | exact ret (clean_float r _) | exact lhid_none | exact lhid_error | exact lhid_ok fun _ => vhid_newError hh (clean_string r _)
      · simp only [Lib.randint]
        repeat' split
        all_goals first | exact ret (clean_string r _) | exact ret (clean_float r _) | exact lhid_none | exact lhid_error | exact lhid_ok fun _ => vhid_newError hh (clean_string r _)
      · simp only [Lib.randseed]
        repeat' split
        all_goals first | exact ret (clean_string r _) | exact ret (clean_float r _) | exact lhid_none | exact lhid_error | exact lhid_ok fun _ => vhid_newError hh (clean_string r _)
      · simp only [Lib.sleep]
        repeat' split
        all_goals first | exact ret (clean_string r _) | exact ret (clean_float r _) | exact lhid_none | exact lhid_error | exact lhid_ok fun _ => vhid_newError hh (clean_string r _)
      · simp only [Lib.read]
        repeat' split
        all_goals first | exact ret (clean_string r _) | exact ret (clean_float r _) | exact lhid_none | exact lhid_error | exact lhid_ok fun _ => vhid_newError hh (clean_string r _)
    exact h0 _ hm

/-! ### Computations -/


/-- The computation keeps the object hidden, and its results are such that `P`. -/
def Hides (r : Ref) (c : Option Object) (m : M α) (P : α → Prop) : Prop :=
  ∀ s, Hid r c s → Last r c (m s).2.heap → Hid r c (m s).2 ∧ ∀ a, (m s).1 = .ok a → P a

variable {r : Ref} {c : Option Object}

/-- The outcome of a task. -/
def OHid (r : Ref) (o : Out) : Prop := FlowWithout r o.flow ∧ ¬ Names r o.obj

/-- Recursive calls keep the object hidden. -/
structure RecHides (r : Ref) (c : Option Object) (rec : Task → M Out) : Prop where
  grows : RecGrows rec
  hides : ∀ t, TaskWithout r t → Hides r c (rec t) (OHid r)

theorem recHides_grows {rec t} (h : RecHides r c rec) : MGrows (rec t) := h.grows t

theorem mgrows_assign {n obj opos f fpos v pos} : MGrows (do
    let h ← M.reads (fun h => assignValue h n obj opos f fpos v pos)
    M.modify (fun s => { s with heap := h })
    pure (.value .nil noPos) : M Out) := by
  intro s
  simp only [Bind.bind, M.andThen, M.reads]
  cases hx : assignValue s.heap n obj opos f fpos v pos with
  | error e => exact .refl _
  | ok h' => exact (assignValue_keeps hx).grows.sizes

/-- Proves that a computation only adds objects. -/
macro "grows" : tactic => `(tactic| repeat' (first
  | exact mgrows_pure | exact mgrows_stop | exact mgrows_panic | exact mgrows_crash | exact mgrows_get | exact mgrows_lift
  | exact mgrows_reads | exact mgrows_record | exact mgrows_newArray | exact mgrows_newDict | exact mgrows_newNative
  | exact mgrows_newClosure | exact mgrows_fetch | exact mgrows_store | exact mgrows_capture | exact mgrows_place
  | exact mgrows_extend | exact mgrows_shrink | exact mgrows_captureAll | exact mgrows_storeArgs | exact mgrows_placeAll
  | exact mgrows_storeSelf | exact mgrows_tailShrink | exact mgrows_answer | exact mgrows_result | exact mgrows_callLib
  | assumption
  | exact recHides_grows (by assumption)
  | exact mgrows_loadModule (RecHides.grows (by assumption)) | exact mgrows_importModule (RecHides.grows (by assumption))
  | exact mgrows_modify (fun _ => rfl) | exact mgrows_assign
  | apply mgrows_regular | apply mgrows_catching | apply mgrows_withFrame | apply mgrows_afterBody
  | (refine mgrows_bind ?_ ?_) | split | (intro _)))

theorem hides_bind {m : M α} {f : α → M β} {P : α → Prop} {Q : β → Prop} (hm : Hides r c m P) (hf : ∀ a, P a → Hides r c (f a) Q)
    (hg : ∀ a, MGrows (f a) := by grows) : Hides r c (m >>= f) Q := by
  intro s hs hl
  simp only [Bind.bind, M.andThen] at hl ⊢
  have h1 := hm s hs
  rcases he : m s with ⟨_ | a, s'⟩
  · rw [he] at h1 hl; exact ⟨(h1 hl).1, nofun⟩
  · rw [he] at h1 hl
    have h2 := h1 (hl.back (hg a s'))
    exact hf a (h2.2 a rfl) s' h2.1 hl

theorem hides_pure {a : α} {P : α → Prop} (h : P a) : Hides r c (pure a : M α) P := by
  intro s hs _; refine ⟨hs, ?_⟩; intro b hb; cases hb; exact h

theorem hides_stop {e} {P : α → Prop} : Hides r c (M.stop e : M α) P := fun _ hs _ => ⟨hs, nofun⟩
theorem hides_panic {k p} {P : α → Prop} : Hides r c (M.panic k p : M α) P := hides_stop
theorem hides_crash {k} {P : α → Prop} : Hides r c (M.crash k : M α) P := hides_stop

theorem hides_get : Hides r c M.get (Hid r c) := by
  intro s hs _; refine ⟨hs, ?_⟩; intro b hb; cases hb; exact hs

theorem hides_lift {x : Except Stop α} {P : α → Prop} (h : ∀ a, x = .ok a → P a) : Hides r c (M.lift x) P := by
  intro s hs hl
  cases x with
  | ok a => exact ⟨hs, fun b hb => by cases hb; exact h a rfl⟩
  | error e => exact ⟨hs, nofun⟩

theorem hides_reads {f : Heap → Except Stop α} {P : α → Prop} (h : ∀ hp a, HHid r c hp → f hp = .ok a → P a) : Hides r c (M.reads f) P :=
  fun s hs _ => ⟨hs, fun a ha => h s.heap a hs.hh ha⟩

theorem hides_alloc {f : Heap → α × Heap} {P : α → Prop} (h : ∀ hp, HHid r c hp → Last r c (f hp).2 → P (f hp).1 ∧ HHid r c (f hp).2) : Hides r c (M.alloc f) P :=
  fun s hs hl => ⟨hs.heap (h _ hs.hh hl).2, fun a ha => by cases ha; exact (h _ hs.hh hl).1⟩

theorem hides_new {f : Heap → Value × Heap} (h : ∀ hp, HHid r c hp → Last r c (f hp).2 → VHid r c (f hp)) : Hides r c (M.alloc f) (fun v => ¬ Names r v) :=
  hides_alloc h

theorem hides_modify {f : RState → RState} (h : ∀ s, Hid r c s → Hid r c (f s)) : Hides r c (M.modify f) (fun _ => True) :=
  fun s hs _ => ⟨h s hs, fun _ _ => trivial⟩

theorem hides_mono {m : M α} {P Q : α → Prop} (h : Hides r c m P) (hpq : ∀ a, P a → Q a) : Hides r c m Q :=
  fun s hs hl => ⟨(h s hs hl).1, fun a ha => hpq a ((h s hs hl).2 a ha)⟩

theorem Hid.withArgs {s : RState} {args : List Value} (hs : Hid r c s) (h : ∀ v ∈ args, ¬ Names r v) : Hid r c { s with args := args } :=
  ⟨⟨hs.free.heap, hs.free.stack, h, hs.free.modules, hs.free.std, hs.free.argv⟩, hs.obj⟩

theorem Hid.cutArgs {s : RState} {k : Nat} (hs : Hid r c s) : Hid r c { s with args := s.args.take k } :=
  hs.withArgs (fun v hv => hs.free.args v (List.mem_of_mem_take hv))

theorem Hid.withStack {s : RState} {st : List Slot} (hs : Hid r c s) (h : ∀ v, .regular v ∈ st → ¬ Names r v) : Hid r c { s with stack := st } :=
  ⟨⟨hs.free.heap, h, hs.free.args, hs.free.modules, hs.free.std, hs.free.argv⟩, hs.obj⟩

theorem hides_record (e : Event) : Hides r c (record e) (fun _ => True) :=
  hides_modify (fun _ hs => ⟨⟨hs.free.heap, hs.free.stack, hs.free.args, hs.free.modules, hs.free.std, hs.free.argv⟩, hs.obj⟩)

theorem Hid.slot {s : RState} (hs : Hid r c s) {sl : Slot} (h : sl ∈ s.stack) : ¬ Names r (sl.fetch s.heap) := by
  cases sl with
  | regular v => exact hs.free.stack v h
  | closed a => exact hs.hh.cell a

theorem hides_fetch (ix) : Hides r c (fetch ix) (fun v => ¬ Names r v) := by
  intro s hs hl
  simp only [fetch]
  split
  · rename_i sl he
    exact ⟨hs, fun a ha => by cases ha; exact hs.slot (List.mem_of_getElem? he)⟩
  · exact ⟨hs, nofun⟩

theorem hides_store {ix v} (hv : ¬ Names r v) : Hides r c (store ix v) (fun _ => True) := by
  intro s hs hl
  refine ⟨?_, fun _ _ => trivial⟩
  simp only [store]
  split
  · refine hs.withStack ?_
    intro v' h'
    rcases List.mem_or_eq_of_mem_set h' with h' | h'
    · exact hs.free.stack v' h'
    · cases h'; exact hv
  · exact hs.heap (hhid_setCell hs.hh hv)
  · exact hs

theorem hides_capture {ix} : Hides r c (capture ix) (fun _ => True) := by
  intro s hs hl
  refine ⟨?_, fun _ _ => trivial⟩
  simp only [capture]
  split
  · rename_i v he
    have h1 : Hid r c { s with stack := s.stack.set ix (.closed s.heap.cells.length) } := by
      refine hs.withStack ?_
      intro v' h'
      rcases List.mem_or_eq_of_mem_set h' with h' | h'
      · exact hs.free.stack v' h'
      · cases h'
    exact h1.heap (hhid_newCell hs.hh (hs.free.stack v (List.mem_of_getElem? he)))
  · exact hs
  · exact hs

theorem hides_place {ix a} : Hides r c (place ix a) (fun _ => True) := by
  intro s hs hl
  refine ⟨?_, fun _ _ => trivial⟩
  simp only [place]
  split
  · refine hs.withStack ?_
    intro v' h'
    rcases List.mem_or_eq_of_mem_set h' with h' | h'
    · exact hs.free.stack v' h'
    · cases h'
  · exact hs

theorem hides_extend {w : World} {n pos} : Hides r c (extend w n pos) (fun _ => True) := by
  intro s hs hl
  refine ⟨?_, fun _ _ => trivial⟩
  simp only [extend]
  split
  · exact hs
  · refine hs.withStack ?_
    intro v' h'
    rcases List.mem_append.1 h' with h' | h'
    · have := (List.mem_replicate.1 h').2
      cases this
      exact clean_nil r
    · exact hs.free.stack v' h'

theorem hides_shrink {n} : Hides r c (shrink n) (fun _ => True) := by
  intro s hs hl
  refine ⟨?_, fun _ _ => trivial⟩
  simp only [shrink]
  split
  · exact hs
  · exact hs.withStack (fun v' h' => hs.free.stack v' (List.mem_of_mem_drop h'))

theorem hides_captureAll : ∀ cs, Hides r c (captureAll cs) (fun _ => True)
  | [] => hides_pure trivial
  | _ :: cs => hides_bind hides_capture fun _ _ => hides_bind (hides_captureAll cs) fun _ _ => hides_pure trivial

theorem hides_storeArgs : ∀ {ix vs}, (∀ v ∈ vs, ¬ Names r v) → Hides r c (storeArgs ix vs) (fun _ => True)
  | _, [], _ => hides_pure trivial
  | _, v :: _, h => hides_bind (hides_store (h v (by simp))) fun _ _ => hides_storeArgs fun v hv => h v (by simp [hv])

theorem hides_placeAll : ∀ {l}, Hides r c (placeAll l) (fun _ => True)
  | [] => hides_pure trivial
  | (_, _) :: _ => hides_bind hides_place fun _ _ => hides_placeAll

theorem hides_storeSelf {obj o} (h : ¬ Names r obj) : Hides r c (storeSelf obj o) (fun _ => True) := by
  cases o with
  | none => exact hides_pure trivial
  | some ix => exact hides_store h

theorem hides_tailShrink {tail} : Hides r c (tailShrink tail) (fun _ => True) := by
  cases tail with
  | none => exact hides_pure trivial
  | some n =>
    exact hides_bind hides_shrink fun _ _ => hides_modify fun _ hs =>
      ⟨⟨hs.free.heap, hs.free.stack, hs.free.args, hs.free.modules, hs.free.std, hs.free.argv⟩, hs.obj⟩

theorem hides_answer {args} {x : Reply} (h : ∀ v ∈ args, ¬ Names r v) : Hides r c (answer args x) (fun v => ¬ Names r v) := by
  cases x with
  | value t => exact hides_new fun hp hh => vhid_build hh h t
  | panic p => exact hides_stop
  | crash => exact hides_crash
  | exit k => exact hides_stop

theorem hides_evalCommand {w : World} {b} : Hides r c (evalCommand w b) (fun v => ¬ Names r v) := by
  unfold evalCommand
  generalize b.kind = k
  refine hides_bind hides_get (fun s _ => hides_bind (hides_lift (P := fun _ => True) fun _ _ => trivial) (fun ex _ =>
    hides_bind (hides_record _) (fun _ _ => ?_) ?_) ?_) ?_
  rotate_left
  · cases k with
    | asynchronous => exact fun _ => mgrows_bind mgrows_newNative fun _ => mgrows_newDict
    | _ => exact fun _ => mgrows_answer
  · cases k with
    | asynchronous => exact fun _ => mgrows_bind mgrows_record fun _ => mgrows_bind mgrows_newNative fun _ => mgrows_newDict
    | _ => exact fun _ => mgrows_bind mgrows_record fun _ => mgrows_answer
  · cases k with
    | asynchronous =>
      exact fun _ => mgrows_bind mgrows_lift fun _ => mgrows_bind mgrows_record fun _ => mgrows_bind mgrows_newNative fun _ => mgrows_newDict
    | _ => exact fun _ => mgrows_bind mgrows_lift fun _ => mgrows_bind mgrows_record fun _ => mgrows_answer
  split
  · refine hides_bind (hides_new fun hp hh hl => vhid_newNative hh id hl) (fun f hf => hides_new fun hp hh hl => vhid_newDict hh ?_ hl) (fun _ => mgrows_newDict)
    simp [clean_string, hf]
  · exact hides_answer nofun

theorem ohid_value {v pos} (h : ¬ Names r v) : OHid r (.value v pos) := ⟨h, clean_nil r⟩

theorem hides_regular {o : Out} {pos} {k : Value → Pos → Value → M Out} (ho : OHid r o)
    (h : ∀ v p obj, ¬ Names r v → ¬ Names r obj → Hides r c (k v p obj) (OHid r)) : Hides r c (o.regular pos k) (OHid r) := by
  rcases o with ⟨fl, p, obj⟩
  cases fl with
  | regular v => exact h v p obj ho.1 ho.2
  | return_ v => exact hides_pure ⟨ho.1, clean_nil r⟩
  | break_ => exact hides_pure ⟨trivial, clean_nil r⟩

theorem hides_result {o : Out} (ho : OHid r o) : Hides r c o.result (fun v => ¬ Names r v) := by
  rcases o with ⟨fl, p, obj⟩
  cases fl with
  | regular v => exact hides_pure ho.1
  | return_ v => exact hides_crash
  | break_ => exact hides_crash

theorem hides_catching {w : World} {m : M Out} (h : Hides r c m (OHid r)) : Hides r c (catching w m) (fun v => ¬ Names r v) := by
  intro s hs hl
  have h1 := h s hs
  simp only [catching] at hl ⊢
  rcases he : m s with ⟨e | o, s'⟩
  · rw [he] at h1 hl
    cases e with
    | panic p =>
      have h1 := h1 hl
      have h2 := vhid_newError (d := bs "caught panic: " ++ w.showPanic s'.heap p) h1.1.hh (clean_string r (bs "panic"))
      exact ⟨h1.1.heap h2.2, fun a ha => by cases ha; exact h2.1⟩
    | _ => exact ⟨(h1 hl).1, nofun⟩
  · rw [he] at h1 hl
    have h1 := h1 (by
      dsimp only at hl ⊢
      split at hl <;> exact hl)
    have h2 := (h1.2 o rfl).1
    dsimp only
    split
    · rename_i v hv
      refine ⟨h1.1, fun a ha => ?_⟩
      cases ha
      rw [hv] at h2; exact h2
    · exact ⟨h1.1, nofun⟩

theorem hides_callLib {w : World} {n name addr args pos} (ha : ∀ v ∈ args, ¬ Names r v) (hn : ¬ Names r (.function (.native name addr))) :
    Hides r c (callLib w n name addr args pos) (fun v => ¬ Names r v) := by
  intro s hs hl
  have h1 := lhid_call w name ⟨n, addr, args, pos, s.argv⟩ hs.hh ha hs.free.argv hn
  unfold callLib at hl ⊢
  split
  · rename_i v h he
    rw [he] at hl
    have := h1 v h he hl
    exact ⟨hs.heap this.2, fun a ha => by cases ha; exact this.1⟩
  · exact ⟨hs, nofun⟩
  · rename_i he
    rw [he] at hl
    exact hides_bind (hides_record _) (fun _ _ => hides_answer ha) (fun _ => mgrows_answer) s hs hl

theorem hides_loadModule {w : World} {rec path pos} (hr : RecHides r c rec) : Hides r c (loadModule w rec path pos) (fun v => ¬ Names r v) := by
  refine hides_bind hides_get fun s _ => hides_bind (hides_record _) fun _ _ => ?_
  split
  · exact hides_panic
  · split
    · exact hides_crash
    · split
      · split
        · refine hides_bind (hides_modify fun _ hs =>
            ⟨⟨hs.free.heap, hs.free.stack, hs.free.args, hs.free.modules, hs.free.std, hs.free.argv⟩, hs.obj⟩) fun _ _ =>
            hides_bind (hr.hides _ trivial) fun o ho => hides_result ho
        · exact hides_panic
        · exact hides_crash
      · exact hides_panic

theorem lookup_mem_modules {l : List (Sym × Value)} {p : Sym} {v : Value} (h : l.lookup p = some v) : (p, v) ∈ l := by
  induction l with
  | nil => simp at h
  | cons q l ih =>
    rw [List.lookup_cons] at h
    split at h
    · rename_i hq
      simp only [beq_iff_eq] at hq
      simp only [Option.some.injEq] at h
      subst hq; subst h
      simp
    · exact List.mem_cons_of_mem _ (ih h)

theorem hides_importModule {w : World} {rec m args pos} (hr : RecHides r c rec) :
    Hides r c (importModule w rec m args pos) (fun v => ¬ Names r v) := by
  simp only [importModule]
  split
  · refine hides_bind hides_get fun s hs => ?_
    split
    · exact hides_panic
    · split
      · rename_i v hv
        refine hides_bind (hides_record _) fun _ _ => hides_pure (hs.free.modules _ (lookup_mem_modules hv))
      · refine hides_bind (hides_loadModule hr) fun v hv => hides_bind (hides_modify fun s hs => ?_) fun _ _ =>
          hides_bind (hides_record _) fun _ _ => hides_pure hv
        refine ⟨⟨hs.free.heap, hs.free.stack, hs.free.args, ?_, hs.free.std, hs.free.argv⟩, hs.obj⟩
        intro q hq
        rcases List.mem_cons.1 hq with rfl | hq
        · exact hv
        · exact hs.free.modules q hq
  · exact hides_panic
  · exact hides_panic

theorem mgrows_setNative {a st} : MGrows (M.modify fun s => { s with heap := s.heap.setNative a st }) :=
  fun s => (grows_setNative s.heap a st).sizes

theorem hides_joinCommand {w : World} {addr pos name} (hn : ¬ Names r (.function (.native name addr))) :
    Hides r c (joinCommand w addr pos) (fun v => ¬ Names r v) := by
  refine hides_bind hides_get (fun s _ => ?_) (fun s => ?_)
  · split
    · refine hides_bind (hides_modify fun s hs => hs.heap (hhid_setNative hs.hh hn id)) fun _ _ =>
        hides_bind (hides_record _) fun _ _ => hides_answer nofun
    · exact hides_panic
  split
  · exact mgrows_bind mgrows_setNative fun _ => mgrows_bind mgrows_record fun _ => mgrows_answer
  · exact mgrows_panic

theorem hides_nativeCall {w : World} {n rec m name addr start pos} (hr : RecHides r c rec) (hn : ¬ Names r (.function (.native name addr))) :
    Hides r c (nativeCall w n rec m name addr start pos) (fun v => ¬ Names r v) := by
  unfold nativeCall
  refine hides_bind hides_get (fun s hs => ?_) ?_
  rotate_left
  · intro s
    dsimp only
    split
    · grows
    · split
      · grows
      · split
        · grows
        · split
          · exact mgrows_joinCommand
          · exact mgrows_callLib
  have ha : ∀ v ∈ s.args.drop start, ¬ Names r v := fun v hv => hs.free.args v (List.mem_of_mem_drop hv)
  dsimp only
  split
  · split
    · rename_i f he
      exact hides_catching (hr.hides _ ⟨clean_nil r, ha _ (by simp [he])⟩)
    · exact hides_panic
    · exact hides_panic
  · split
    · split
      · rename_i obj f he
        have := hs.hh.native addr
        rw [he] at this
        exact hides_bind (hr.hides _ ⟨fun h => this (.inl h), fun h => this (.inr h)⟩) fun o ho => hides_result ho
      · exact hides_crash
    · split
      · exact hides_importModule hr
      · split
        · exact hides_joinCommand hn
        · exact hides_callLib ha hn

theorem shrink_heap {n s} : (shrink n s).2.heap = s.heap := by unfold shrink; split <;> rfl

theorem hides_withFrame {n} {m : M Out} (h : Hides r c m (OHid r)) : Hides r c (withFrame n m) (OHid r) := by
  have flag : ∀ {s b}, Hid r c s → Hid r c { s with shrunk := b } := fun hs =>
    ⟨⟨hs.free.heap, hs.free.stack, hs.free.args, hs.free.modules, hs.free.std, hs.free.argv⟩, hs.obj⟩
  intro s hs hl
  have h1 := h { s with shrunk := false } (flag hs)
  simp only [withFrame] at hl ⊢
  rcases he : m { s with shrunk := false } with ⟨x, s'⟩
  rw [he] at h1 hl
  have h1 := h1 (hl.back (by
    dsimp only
    split
    · exact .refl _
    · have h2 := mgrows_shrink (n := n) s'
      rcases he2 : shrink n s' with ⟨e | _, s''⟩
      · rw [he2] at h2; exact h2
      · rw [he2] at h2; exact h2))
  dsimp only
  split
  · exact ⟨flag h1.1, h1.2⟩
  · have h2 := hides_shrink (n := n) s' h1.1 (fun hc => by rw [shrink_heap, h1.1.obj, hc])
    rcases he2 : shrink n s' with ⟨e | _, s''⟩
    · rw [he2] at h2
      refine ⟨flag h2.1, ?_⟩
      intro o ho
      dsimp only at ho
      split at ho
      · exact h1.2 o ho
      · cases ho
    · rw [he2] at h2
      exact ⟨flag h2.1, h1.2⟩

theorem hides_stepCall {w : World} {n rec m obj f start pos} (hr : RecHides r c rec) (ho : ¬ Names r obj) (hf : ¬ Names r (.function f)) :
    Hides r c (stepCall w n rec m obj f start pos) (OHid r) := by
  intro s hs hl
  by_cases hlen : s.args.length < start
  · unfold stepCall
    rw [if_pos hlen]
    exact ⟨hs, nofun⟩
  · have ha : ∀ v ∈ s.args.drop start, ¬ Names r v := fun v hv => hs.free.args v (List.mem_of_mem_drop hv)
    cases f with
    | hush a =>
      simp only [stepCall, if_neg hlen] at hl ⊢
      refine hides_bind (P := fun _ => True) (Q := OHid r) (hides_modify fun s hs => hs.cutArgs) (fun _ _ => ?_) (by grows) s hs hl
      split
      · exact hides_panic
      · refine hides_bind hides_extend fun _ _ => hides_bind (hides_storeArgs ha) fun _ _ => hides_bind hides_placeAll fun _ _ =>
          hides_bind (hides_storeSelf ho) fun _ _ => hides_bind (hides_withFrame (hr.hides _ trivial)) fun o ho => ?_
        have := ho.1
        rcases o with ⟨fl, p, x⟩
        cases fl with
        | regular v => exact hides_pure (ohid_value this)
        | return_ v => exact hides_pure (ohid_value this)
        | break_ => exact hides_crash
    | native name addr =>
      simp only [stepCall, if_neg hlen] at hl ⊢
      refine hides_bind (P := fun v => ¬ Names r v) (Q := OHid r) ?_ (fun v hv => hides_pure (ohid_value hv)) (fun _ => mgrows_pure) s hs hl
      clear hl
      intro s hs hl
      have := hides_nativeCall (c := c) (w := w) (n := n) (m := m) (start := start) (pos := pos) hr hf s hs
      simp only [finally_]
      simp only [finally_] at hl
      rcases he : nativeCall w n rec m name addr start pos s with ⟨x, s'⟩
      rw [he] at this hl
      have := this hl
      exact ⟨this.1.cutArgs, this.2⟩

theorem hides_stepProgram {w : World} {rec m p} (hr : RecHides r c rec) : Hides r c (stepProgram w rec m p) (OHid r) := by
  have hb : MGrows (fun s : RState =>
      match rec (.block m none p.statements) s with
      | (.ok o, s) => (.ok o, s)
      | (.error e, s) => (.error e, { s with leaked := s.leaked + p.rootSlots })) := by
    intro s
    have h1 := hr.grows (.block m none p.statements) s
    dsimp only
    rcases he : rec (.block m none p.statements) s with ⟨_ | _, s'⟩
    · rw [he] at h1; exact h1
    · rw [he] at h1; exact h1
  refine hides_bind hides_extend fun _ _ => hides_bind hides_get fun s hs => hides_bind (hides_store hs.free.std) fun _ _ =>
    hides_bind (P := OHid r) ?_ fun o ho => ?_
  · intro s hs hl
    have := hr.hides (.block m none p.statements) trivial s hs
    dsimp only at hl ⊢
    rcases he : rec (.block m none p.statements) s with ⟨_ | _, s'⟩
    · rw [he] at this hl
      have this := this hl
      exact ⟨⟨⟨this.1.free.heap, this.1.free.stack, this.1.free.args, this.1.free.modules, this.1.free.std, this.1.free.argv⟩, this.1.obj⟩, nofun⟩
    · rw [he] at this hl
      exact this hl
  · have := ho.1
    rcases o with ⟨fl, p, x⟩
    cases fl with
    | regular v => exact hides_bind hides_shrink fun _ _ => hides_pure (ohid_value this)
    | return_ v => exact hides_crash
    | break_ => exact hides_crash

theorem hides_stepLit {w : World} {rec m l pos} (hr : RecHides r c rec) : Hides r c (stepLit w rec m l pos) (OHid r) := by
  cases l with
  | nil => exact hides_pure (ohid_value (clean_nil r))
  | bool b => exact hides_pure (ohid_value (clean_bool r b))
  | int b => exact hides_pure (ohid_value (clean_int r b))
  | float b => exact hides_pure (ohid_value (clean_float r _))
  | byte b => exact hides_pure (ohid_value (clean_byte r b))
  | string b => exact hides_pure (ohid_value (clean_string r b))
  | array es => exact hides_bind (hr.hides _ nofun) fun o ho => hides_pure ⟨ho.1, clean_nil r⟩
  | dict fs => exact hides_bind (hr.hides _ nofun) fun o ho => hides_pure ⟨ho.1, clean_nil r⟩
  | function params frame body =>
    exact hides_bind (hides_captureAll _) fun _ _ => hides_bind (hides_new fun hp hh _ => vhid_newClosure hh) fun f hf =>
      hides_pure (ohid_value hf)
  | ident s => exact hides_pure (ohid_value (clean_string r s))

theorem unaryValue_clean {w : World} {op v pos f} (hv : ¬ Names r v) (h : unaryValue w op v pos = .ok f) : FlowWithout r f := by
  unfold unaryValue at h
  split at h
  · cases h; exact clean_float r _
  · rename_i i
    cases h1 : w.arith (-i) with
    | ok x => rw [h1] at h; cases h; exact clean_int r _
    | error e => rw [h1] at h; cases h
  · cases h
  · cases h; exact clean_bool r _
  · cases h
  · cases h; exact clean_error r _ _
  · cases h; exact hv

theorem deep_bool {o : Option Bool} {g : Bool → Value} {v} (h : (M.deep o).map g = .ok v) : ∃ b, v = g b := by
  cases o with
  | none => cases h
  | some b => cases h; exact ⟨b, rfl⟩

theorem strictValue_clean {w : World} {h n op pos l lp r' rp v} (he : strictValue w h n op pos l lp r' rp = .ok v) : ¬ Names r v := by
  unfold strictValue at he
  split at he
  · unfold arithValue at he
    split at he <;> (try split at he) <;> cases he <;> first | exact clean_int r _ | exact clean_float r _
  · split at he
    · unfold ordValue at he
      split at he <;> cases he <;> exact clean_bool r _
    · split at he
      · obtain ⟨b, rfl⟩ := deep_bool he; exact clean_bool r _
      · split at he
        · obtain ⟨b, rfl⟩ := deep_bool he; exact clean_bool r _
        · unfold concatValue at he
          split at he <;> cases he
          exact clean_string r _

theorem findM_mem {f : α → Option Bool} : ∀ {l : List α} {x}, findM f l = some (some x) → x ∈ l
  | [], _, h => by cases h
  | y :: ys, x, h => by
    unfold findM at h
    split at h
    · cases h
    · cases h; simp
    · exact List.mem_cons_of_mem _ (findM_mem h)

theorem dictGet_clean {h n d k v} (hh : HHid r c h) (he : dictGet h n d k = some (some v)) : ¬ Names r v := by
  unfold dictGet lookupWith at he
  rw [Option.map_eq_some_iff] at he
  obtain ⟨o, h1, h2⟩ := he
  cases o with
  | none => cases h2
  | some e =>
    cases h2
    exact (hh.dict (findM_mem h1)).2

theorem orOutOfBounds_clean {o ix pos v} (h : ∀ v, o = some v → ¬ Names r v) (he : orOutOfBounds o ix pos = .ok v) : ¬ Names r v := by
  cases o with
  | none => cases he
  | some x => cases he; exact h _ rfl

theorem indexOf_mem {l : List α} {i x} (h : indexOf l i = some x) : x ∈ l := by
  unfold indexOf at h
  split at h
  · exact List.mem_of_getElem? h
  · cases h

theorem accessValue_clean {h n o op f fp v} (hh : HHid r c h) (he : accessValue h n o op f fp = .ok v) : ¬ Names r v := by
  unfold accessValue at he
  split at he
  · split at he
    · cases he
    · rename_i x hx
      refine orOutOfBounds_clean ?_ he
      rintro v rfl
      exact dictGet_clean hh hx
  · refine orOutOfBounds_clean ?_ he
    intro v hv
    exact hh.array (indexOf_mem hv)
  · cases he
  · refine orOutOfBounds_clean ?_ he
    intro v hv
    obtain ⟨b, _, rfl⟩ := Option.map_eq_some_iff.1 hv
    exact clean_byte r b
  · cases he
  · refine orOutOfBounds_clean ?_ he
    intro v hv
    unfold errorField at hv
    split at hv
    · cases hv; exact clean_string r _
    · split at hv
      · cases hv; exact hh.context _
      · cases hv
  · cases he

theorem insertWith_clean {same k v} (hk : ¬ Names r k) (hv : ¬ Names r v) : ∀ {es es'}, (∀ e ∈ es, ¬ Names r e.1 ∧ ¬ Names r e.2) →
    insertWith same k v es = some es' → ∀ e ∈ es', ¬ Names r e.1 ∧ ¬ Names r e.2
  | [], _, _, h => by cases h; simp [hk, hv]
  | e :: es, es', hes, h => by
    unfold insertWith at h
    split at h
    · cases h
    · cases h
      intro x hx
      rcases List.mem_cons.1 hx with rfl | hx
      · exact ⟨(hes e (by simp)).1, hv⟩
      · exact hes x (by simp [hx])
    · rw [Option.map_eq_some_iff] at h
      obtain ⟨y, h1, rfl⟩ := h
      intro x hx
      rcases List.mem_cons.1 hx with rfl | hx
      · exact hes x (by simp)
      · exact insertWith_clean hk hv (fun e he => hes e (by simp [he])) h1 x hx

theorem assignValue_clean {h n o op f fp v pos h'} (hh : HHid r c h) (ho : ¬ Names r o) (hf : ¬ Names r f) (hv : ¬ Names r v)
    (he : assignValue h n o op f fp v pos = .ok h') : HHid r c h' := by
  unfold assignValue at he
  split at he
  · split at he
    · cases he
    · cases he
    · split at he
      · cases he
      · rename_i es hes
        cases he
        exact hhid_setDict hh ho (insertWith_clean hf hv (fun e he => hh.dict he) hes)
  · split at he
    · cases he
    · split at he
      · cases he
      · cases he
        refine hhid_setArray hh ho ?_
        intro x hx
        rcases List.mem_or_eq_of_mem_set hx with hx | rfl
        · exact hh.array hx
        · exact hv
  · cases he
  · cases he
  · cases he

theorem nextValue_clean {h n v pos o} (hh : HHid r c h) (he : nextValue h n v pos = .ok o) : ∀ x, o = some x → ¬ Names r x := by
  rintro x rfl
  unfold nextValue at he
  split at he
  · split at he
    · cases he
    · cases he
    · cases he
    · split at he
      · cases he
      · cases he
      · rename_i hx
        cases he
        exact dictGet_clean hh hx
    · cases he
  · cases he

theorem hides_stepExpr {w : World} {n rec m tail e} (hr : RecHides r c rec) : Hides r c (stepExpr w n rec m tail e) (OHid r) := by
  cases e with
  | ident slot pos => exact hides_bind (hides_fetch slot) fun v hv => hides_pure (ohid_value hv)
  | lit l pos => exact hides_stepLit hr
  | unary op e pos =>
    refine hides_bind (hr.hides _ trivial) fun o ho => hides_regular ho fun v p obj hv _ => ?_
    exact hides_bind (hides_lift fun f hf => unaryValue_clean hv hf) fun f hf => hides_pure ⟨hf, clean_nil r⟩
  | binary a op b pos =>
    refine hides_bind (hr.hides _ trivial) fun o ho => hides_regular ho fun v p obj hv _ => ?_
    split
    · refine hides_bind (hides_lift (P := fun o => ∀ v, o = some v → ¬ Names r v) ?_) fun o ho => ?_
      · intro o h v ho
        subst ho
        unfold shortCircuit at h
        split at h
        · split at h
          · split at h <;> cases h
            exact clean_bool r _
          · split at h <;> cases h
            exact clean_bool r _
        · cases h
      · split
        · exact hides_pure (ohid_value (ho _ rfl))
        · refine hides_bind (hr.hides _ trivial) fun o ho => hides_regular ho fun v p obj hv _ => ?_
          split
          · exact hides_pure (ohid_value (clean_bool r _))
          · exact hides_panic
    · refine hides_bind (hr.hides _ trivial) fun o ho => hides_regular ho fun v p obj hv _ => ?_
      exact hides_bind (hides_reads fun hp a hh ha => strictValue_clean ha) fun v hv => hides_pure (ohid_value hv)
  | if_ cnd t e pos =>
    refine hides_bind (hr.hides _ trivial) fun o ho => hides_regular ho fun v p obj hv _ => ?_
    split
    · exact hides_bind (hr.hides _ trivial) fun o ho => hides_pure ⟨ho.1, clean_nil r⟩
    · exact hides_panic
  | access a b pos =>
    refine hides_bind (hr.hides _ trivial) fun o ho => hides_regular ho fun v p obj hv _ => ?_
    refine hides_bind (hr.hides _ trivial) fun o ho => hides_regular ho fun v' p obj hv' _ => ?_
    exact hides_bind (hides_reads fun hp a hh ha => accessValue_clean hh ha) fun x hx => hides_pure ⟨hx, hv⟩
  | call f args pos =>
    refine hides_bind (hr.hides _ trivial) fun o ho => hides_regular ho fun v p obj hv hobj => ?_
    split
    · refine hides_bind hides_get fun s hs => hides_bind (hr.hides _ trivial) fun o ho => hides_regular ho fun _ _ _ _ _ => ?_
      exact hides_bind hides_tailShrink fun _ _ => hides_bind (hr.hides _ ⟨hobj, hv⟩) fun o ho => hides_pure ⟨ho.1, clean_nil r⟩
    · exact hides_panic
  | command b pos => exact hides_bind hides_evalCommand fun v hv => hides_pure (ohid_value hv)

theorem hides_stepStmt {n rec m tail st} (hr : RecHides r c rec) : Hides r c (stepStmt n rec m tail st) (OHid r) := by
  cases st with
  | assign l e =>
    refine hides_bind (hr.hides _ trivial) fun o ho => hides_regular ho fun v p obj hv _ => ?_
    cases l with
    | ident slot pos => exact hides_bind (hides_store hv) fun _ _ => hides_pure (ohid_value (clean_nil r))
    | access a b pos =>
      refine hides_bind (hr.hides _ trivial) fun o ho => hides_regular ho fun v1 p1 obj hv1 _ => ?_
      refine hides_bind (hr.hides _ trivial) fun o ho => hides_regular ho fun v2 p2 obj hv2 _ => ?_
      intro s hs hl
      simp only [Bind.bind, M.andThen, M.reads] at hl ⊢
      cases he : assignValue s.heap n v1 p1 v2 p2 v pos with
      | error e => exact ⟨hs, nofun⟩
      | ok h' =>
        exact ⟨hs.heap (assignValue_clean hs.hh hv1 hv2 hv he), fun a ha => by cases ha; exact ohid_value (clean_nil r)⟩
  | return_ e =>
    refine hides_bind (hr.hides _ trivial) fun o ho => ?_
    have := ho.1
    rcases o with ⟨fl, p, x⟩
    cases fl with
    | regular v => exact hides_pure ⟨this, clean_nil r⟩
    | return_ v => exact hides_pure ⟨this, clean_nil r⟩
    | break_ => exact hides_pure ⟨this, clean_nil r⟩
  | break_ => exact hides_pure ⟨trivial, clean_nil r⟩
  | while_ c b => exact hr.hides _ trivial
  | for_ slot e b =>
    refine hides_bind (hr.hides _ trivial) fun o ho => hides_regular ho fun v p obj hv _ => ?_
    split
    · exact hr.hides _ hv
    · exact hides_panic
  | expr e => exact hr.hides _ trivial

theorem hides_afterBody {o : Out} {m : M Out} (ho : OHid r o) (h : Hides r c m (OHid r)) : Hides r c (afterBody o m) (OHid r) := by
  have := ho.1
  rcases o with ⟨fl, p, x⟩
  cases fl with
  | regular v => exact h
  | return_ v => exact hides_pure ⟨this, clean_nil r⟩
  | break_ => exact hides_pure (ohid_value (clean_nil r))

theorem fieldInsert_clean {k v} (hv : ¬ Names r v) : ∀ {es}, (∀ e ∈ es, ¬ Names r e.1 ∧ ¬ Names r e.2) →
    ∀ e ∈ fieldInsert k v es, ¬ Names r e.1 ∧ ¬ Names r e.2
  | [], _ => by simp [fieldInsert, clean_string, hv]
  | e :: es, h => by
    unfold fieldInsert
    split
    · intro x hx
      rcases List.mem_cons.1 hx with rfl | hx
      · exact ⟨(h e (by simp)).1, hv⟩
      · exact h x (by simp [hx])
    · intro x hx
      rcases List.mem_cons.1 hx with rfl | hx
      · exact h x (by simp)
      · exact fieldInsert_clean hv (fun e he => h e (by simp [he])) x hx

theorem hides_step {w : World} {n rec} (hr : RecHides r c rec) : RecHides r c (step w n rec) := by
  refine ⟨mgrows_step hr.grows, ?_⟩
  intro t ht
  cases t with
  | expr m tail e => exact hides_stepExpr hr
  | items m es acc =>
    cases es with
    | nil => exact hides_bind (hides_new fun hp hh hl => vhid_newArray hh ht hl) fun v hv => hides_pure (ohid_value hv)
    | cons e es =>
      refine hides_bind (hr.hides _ trivial) fun o ho => hides_regular ho fun v p obj hv _ => hr.hides _ ?_
      intro x hx
      rcases mem_append_one hx with hx | rfl
      · exact ht x hx
      · exact hv
  | fields m es acc =>
    cases es with
    | nil => exact hides_bind (hides_new fun hp hh hl => vhid_newDict hh ht hl) fun v hv => hides_pure (ohid_value hv)
    | cons e es =>
      refine hides_bind (hr.hides _ trivial) fun o ho => hides_regular ho fun v p obj hv _ => hr.hides _ ?_
      exact fieldInsert_clean hv ht
  | args m es start =>
    cases es with
    | nil => exact hides_pure (ohid_value (clean_nil r))
    | cons e es =>
      refine hides_bind (hr.hides _ trivial) fun o ho => ?_
      have := ho.1
      rcases o with ⟨fl, p, x⟩
      cases fl with
      | regular v =>
        refine hides_bind (hides_modify fun s hs => hs.withArgs ?_) fun _ _ => hr.hides _ trivial
        intro x hx
        rcases mem_append_one hx with hx | rfl
        · exact hs.free.args x hx
        · exact this
      | return_ v => exact hides_bind (hides_modify fun s hs => hs.cutArgs) fun _ _ => hides_pure ⟨this, clean_nil r⟩
      | break_ => exact hides_bind (hides_modify fun s hs => hs.cutArgs) fun _ _ => hides_pure ⟨this, clean_nil r⟩
  | stmt m tail s => exact hides_stepStmt hr
  | block m tail b =>
    cases b with
    | nil => exact hides_pure (ohid_value (clean_nil r))
    | cons s b =>
      cases b with
      | nil => exact hr.hides _ trivial
      | cons s' b => exact hides_bind (hr.hides _ trivial) fun o ho => hides_regular ho fun _ _ _ _ _ => hr.hides _ trivial
  | loop m cnd b =>
    refine hides_bind (hr.hides _ trivial) fun o ho => hides_regular ho fun v p obj hv _ => ?_
    split
    · exact hides_bind (hr.hides _ trivial) fun o ho => hides_afterBody ho (hr.hides _ trivial)
    · exact hides_pure (ohid_value (clean_nil r))
    · exact hides_panic
  | iter m slot f pos b =>
    refine hides_bind hides_get fun s hs => hides_bind (hr.hides _ ⟨clean_nil r, ht⟩) fun o ho => hides_bind (hides_result ho) fun v hv =>
      hides_bind (hides_reads fun hp a hh ha => nextValue_clean hh ha) fun o ho => ?_
    split
    · exact hides_pure (ohid_value (clean_nil r))
    · exact hides_bind (hides_store (ho _ rfl)) fun _ _ => hides_bind (hr.hides _ trivial) fun o ho => hides_afterBody ho (hr.hides _ ht)
  | call m obj f start pos => exact hides_stepCall hr ht.1 ht.2
  | program m p => exact hides_stepProgram hr

theorem hides_run (w : World) : ∀ n, RecHides r c (run w n)
  | 0 => ⟨fun _ => mgrows_stop, fun _ _ => hides_stop⟩
  | n + 1 => hides_step (hides_run w n)

end Hush

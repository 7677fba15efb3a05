import Verif.Lemmas.InterpLib
import Verif.Spec.Variables

/-!
Two memories that differ in where captured variables are: the operations on values agree.
-/

namespace Hush
open Spec

/-- Another place for the captured variables. -/
def ren (κ : List Nat) (c : Closure) : Closure := { c with context := c.context.map (fun q => (κ.getD q.1 0, q.2)) }

/-- The memories agree, except that cell `i` of the first is the variable `κ[i]` of the second. -/
structure HRel (κ : List Nat) (h h' : Heap) : Prop where
  arrays : h'.arrays = h.arrays
  dicts : h'.dicts = h.dicts
  contexts : h'.contexts = h.contexts
  natives : h'.natives = h.natives
  closures : h'.closures = h.closures.map (ren κ)
  bound : ∀ c ∈ h.closures, ∀ q ∈ c.context, q.1 < κ.length
  len : κ.length = h.cells.length
  nodup : κ.Nodup
  cells : ∀ (i l : Nat), κ[i]? = some l → h'.cells[l]? = h.cells[i]?

namespace HRel
variable {κ : List Nat} {h h' : Heap}

theorem array (r : HRel κ h h') : h'.array = h.array := by funext a; simp only [Heap.array, r.arrays]
theorem dict (r : HRel κ h h') : h'.dict = h.dict := by funext a; simp only [Heap.dict, r.dicts]
theorem context (r : HRel κ h h') : h'.context = h.context := by funext a; simp only [Heap.context, r.contexts]
theorem native (r : HRel κ h h') : h'.native = h.native := by funext a; simp only [Heap.native, r.natives]

theorem closure (r : HRel κ h h') (a : Nat) : h'.closure a = ren κ (h.closure a) := by
  simp only [Heap.closure, r.closures, List.getD_eq_getElem?_getD, List.getElem?_map]
  cases h.closures[a]? <;> rfl

theorem closure_bound (r : HRel κ h h') (a : Nat) : ∀ q ∈ (h.closure a).context, q.1 < κ.length := by
  simp only [Heap.closure, List.getD_eq_getElem?_getD]
  cases ha : h.closures[a]? with
  | some c => exact r.bound c (List.mem_of_getElem? ha)
  | none => intro q hq; simp [default] at hq

theorem cell (r : HRel κ h h') {c : Nat} (hc : c < κ.length) : h'.cell (κ.getD c 0) = h.cell c := by
  have h1 : κ[c]? = some κ[c] := List.getElem?_eq_getElem hc
  have h2 := r.cells c _ h1
  simp only [Heap.cell, List.getD_eq_getElem?_getD, h1, Option.getD_some, h2]

end HRel

theorem listEq_map {f : β → β → Option Bool} {f' : α → α → Option Bool} {g : α → β} : ∀ {l l' : List α},
    (∀ p ∈ l, ∀ q ∈ l', f (g p) (g q) = f' p q) → listEq f (l.map g) (l'.map g) = listEq f' l l'
  | [], [], _ => rfl
  | [], _ :: _, _ => rfl
  | _ :: _, [], _ => rfl
  | a :: l, b :: l', h => by
    simp only [List.map_cons, listEq, h a (by simp) b (by simp)]
    rw [listEq_map (fun p hp q hq => h p (by simp [hp]) q (by simp [hq]))]

theorem sliceEq_map {f : β → β → Option Bool} {f' : α → α → Option Bool} {g : α → β} {l l' : List α}
    (h : ∀ p ∈ l, ∀ q ∈ l', f (g p) (g q) = f' p q) : sliceEq f (l.map g) (l'.map g) = sliceEq f' l l' := by
  simp only [sliceEq, List.length_map, listEq_map h]

namespace HRel
variable {κ : List Nat} {h h' : Heap}

theorem fnCmp (r : HRel κ h h') : fnCmp h' = fnCmp h := by
  funext a b
  cases a <;> cases b <;> simp only [Hush.fnCmp, r.closure, ren]

theorem valueCmp (r : HRel κ h h') : ∀ n, valueCmp h' n = valueCmp h n
  | 0 => by funext a b; simp only [Hush.valueCmp]
  | n + 1 => by
    have ih := r.valueCmp n
    funext a b
    simp only [Hush.valueCmp, ih, r.array, r.dict, r.context, r.fnCmp]

theorem sameHash (r : HRel κ h h') : ∀ n, sameHash h' n = sameHash h n
  | 0 => by funext a b; simp only [Hush.sameHash]
  | n + 1 => by
    have ih := r.sameHash n
    funext a b
    simp only [Hush.sameHash, ih, r.array, r.dict, r.context, r.valueCmp, r.closure, ren]

theorem valueEq (r : HRel κ h h') : ∀ n, valueEq h' n = valueEq h n
  | 0 => by funext a b; simp only [Hush.valueEq]
  | n + 1 => by
    have ih := r.valueEq n
    funext a b
    have hf : ∀ a b, sliceEq (fun p q : Nat × Nat => optAnd (Hush.valueEq h n (h'.cell p.1) (h'.cell q.1)) (fun _ => some (p.2 == q.2)))
        ((h.closure a).context.map (fun q => (κ.getD q.1 0, q.2))) ((h.closure b).context.map (fun q => (κ.getD q.1 0, q.2)))
        = sliceEq (fun p q : Nat × Nat => optAnd (Hush.valueEq h n (h.cell p.1) (h.cell q.1)) (fun _ => some (p.2 == q.2)))
        (h.closure a).context (h.closure b).context := by
      intro a b
      refine sliceEq_map ?_
      intro p hp q hq
      simp only [r.cell (r.closure_bound a p hp), r.cell (r.closure_bound b q hq)]
    simp only [Hush.valueEq, ih, r.array, r.dict, r.context, r.sameHash, r.closure, ren, hf]

theorem dictGet (r : HRel κ h h') : dictGet h' = dictGet h := by
  funext n d k; simp only [Hush.dictGet, r.valueEq, r.sameHash, r.dict]

theorem dictInsert (r : HRel κ h h') : dictInsert h' = dictInsert h := by
  funext n d k v; simp only [Hush.dictInsert, r.valueEq, r.sameHash]

theorem touches (r : HRel κ h h') (t) : ∀ n, touches h' t n = touches h t n
  | 0 => by funext a; simp only [Hush.touches]
  | n + 1 => by
    have ih := r.touches t n
    funext a
    simp only [Hush.touches, ih, r.array, r.dict, r.context]

theorem findError (r : HRel κ h h') : ∀ n, Lib.findError h' n = Lib.findError h n
  | 0 => by funext a; simp only [Lib.findError]
  | n + 1 => by
    have ih := r.findError n
    funext a
    simp only [Lib.findError, ih, r.array, r.dict]

theorem showValue (r : HRel κ h h') : ∀ n, Show.value w h' n = Show.value w h n
  | 0 => by funext v; simp only [Show.value]
  | n + 1 => by
    have ih := r.showValue (w := w) n
    have hf : Show.function w h' = Show.function w h := by
      funext f
      cases f <;> simp only [Show.function, r.closure, ren]
    funext v
    simp only [Show.value, ih, r.array, r.dict, r.context, hf]

theorem jsonEncode (r : HRel κ h h') : ∀ n, Json.encode w h' n = Json.encode w h n
  | 0 => by funext d v; simp only [Json.encode]
  | n + 1 => by
    have ih := r.jsonEncode (w := w) n
    funext d v
    simp only [Json.encode, ih, r.array, r.dict]

theorem sortValues (r : HRel κ h h') : Lib.sortValues h' = Lib.sortValues h := by
  funext n vs; simp only [Lib.sortValues, r.valueCmp]

theorem strictValue (r : HRel κ h h') : strictValue w h' = strictValue w h := by
  funext n op pos l lp rt rp; simp only [Hush.strictValue, r.valueEq]

theorem accessValue (r : HRel κ h h') : accessValue h' = accessValue h := by
  funext n o p f q
  have he : errorField h' = errorField h := by funext d c k; simp only [errorField, r.context]
  simp only [Hush.accessValue, r.dictGet, r.array, he]

theorem nextValue (r : HRel κ h h') : nextValue h' = nextValue h := by
  funext n v p; simp only [Hush.nextValue, r.dictGet]

/-- Another memory with the same cells and functions. -/
theorem swap {g : Heap} (r : HRel κ h h') (h1 : g.cells = h.cells) (h2 : g.closures = h.closures) :
    HRel κ g { g with cells := h'.cells, closures := h'.closures } where
  arrays := rfl
  dicts := rfl
  contexts := rfl
  natives := rfl
  closures := by rw [h2]; exact r.closures
  bound := by rw [h2]; exact r.bound
  len := by rw [h1]; exact r.len
  nodup := r.nodup
  cells := by rw [h1]; exact r.cells

theorem eq_swap (r : HRel κ h h') : h' = { h with cells := h'.cells, closures := h'.closures } := by
  rcases h' with ⟨a, b, c, d, e, f⟩
  have h1 := r.arrays; have h2 := r.dicts; have h3 := r.contexts; have h4 := r.natives
  simp only at h1 h2 h3 h4
  simp only [h1, h2, h3, h4]

end HRel

/-- `g` and `g'` are the results of the same operation on `h` and `h'`, which does not change variables and functions. -/
structure SameSeen (h h' g g' : Heap) : Prop where
  cells : g.cells = h.cells
  closures : g.closures = h.closures
  eq : g' = { g with cells := h'.cells, closures := h'.closures }

theorem SameSeen.rel {κ h h' g g'} (r : HRel κ h h') (s : SameSeen h h' g g') : HRel κ g g' := by
  rw [s.eq]; exact r.swap s.cells s.closures

theorem SameSeen.cells' {h h' g g'} (s : SameSeen h h' g g') : g'.cells = h'.cells := by rw [s.eq]

section
variable {κ : List Nat} {h h' : Heap}

theorem HRel.same (r : HRel κ h h') : SameSeen h h' h h' := ⟨rfl, rfl, r.eq_swap⟩

theorem same_newArray {g g' vs} (s : SameSeen h h' g g') :
    (g'.newArray vs).1 = (g.newArray vs).1 ∧ SameSeen h h' (g.newArray vs).2 (g'.newArray vs).2 := by
  obtain ⟨h1, h2, rfl⟩ := s; exact ⟨rfl, h1, h2, rfl⟩
theorem same_newDict {g g' vs} (s : SameSeen h h' g g') :
    (g'.newDict vs).1 = (g.newDict vs).1 ∧ SameSeen h h' (g.newDict vs).2 (g'.newDict vs).2 := by
  obtain ⟨h1, h2, rfl⟩ := s; exact ⟨rfl, h1, h2, rfl⟩
theorem same_newError {g g' d v} (s : SameSeen h h' g g') :
    (g'.newError d v).1 = (g.newError d v).1 ∧ SameSeen h h' (g.newError d v).2 (g'.newError d v).2 := by
  obtain ⟨h1, h2, rfl⟩ := s; exact ⟨rfl, h1, h2, rfl⟩
theorem same_newNative {g g' d v} (s : SameSeen h h' g g') :
    (g'.newNative d v).1 = (g.newNative d v).1 ∧ SameSeen h h' (g.newNative d v).2 (g'.newNative d v).2 := by
  obtain ⟨h1, h2, rfl⟩ := s; exact ⟨rfl, h1, h2, rfl⟩
theorem same_setNative {g g' d v} (s : SameSeen h h' g g') : SameSeen h h' (g.setNative d v) (g'.setNative d v) := by
  obtain ⟨h1, h2, rfl⟩ := s; exact ⟨h1, h2, rfl⟩
theorem same_setArray {g g' d v} (s : SameSeen h h' g g') : SameSeen h h' (g.setArray d v) (g'.setArray d v) := by
  obtain ⟨h1, h2, rfl⟩ := s; exact ⟨h1, h2, rfl⟩
theorem same_setDict {g g' d v} (s : SameSeen h h' g g') : SameSeen h h' (g.setDict d v) (g'.setDict d v) := by
  obtain ⟨h1, h2, rfl⟩ := s; exact ⟨h1, h2, rfl⟩

mutual
theorem same_build (args : List Value) {g g'} (s : SameSeen h h' g g') : (t : Tree) →
    (t.build args g').1 = (t.build args g).1 ∧ SameSeen h h' (t.build args g).2 (t.build args g').2
  | .arg i | .nil | .bool _ | .byte _ | .int _ | .float _ | .string _ => by simp only [Tree.build]; exact ⟨trivial, s⟩
  | .array items => by
    have h1 := same_buildList args s items
    simp only [Tree.build, h1.1]; exact same_newArray h1.2
  | .dict entries => by
    have h1 := same_buildEntries args s entries
    simp only [Tree.build, h1.1]; exact same_newDict h1.2
  | .native name data => by simp only [Tree.build]; exact same_newNative s
  | .error d c => by
    have h1 := same_build args s c
    simp only [Tree.build, h1.1]; exact same_newError h1.2
theorem same_buildList (args : List Value) {g g'} (s : SameSeen h h' g g') : (t : List Tree) →
    (Tree.buildList args g' t).1 = (Tree.buildList args g t).1 ∧ SameSeen h h' (Tree.buildList args g t).2 (Tree.buildList args g' t).2
  | [] => by simp only [Tree.buildList]; exact ⟨trivial, s⟩
  | t :: ts => by
    have h1 := same_build args s t
    have h2 := same_buildList args h1.2 ts
    simp only [Tree.buildList, h1.1, h2.1]; exact ⟨trivial, h2.2⟩
theorem same_buildEntries (args : List Value) {g g'} (s : SameSeen h h' g g') : (t : List (Tree × Tree)) →
    (Tree.buildEntries args g' t).1 = (Tree.buildEntries args g t).1 ∧
      SameSeen h h' (Tree.buildEntries args g t).2 (Tree.buildEntries args g' t).2
  | [] => by simp only [Tree.buildEntries]; exact ⟨trivial, s⟩
  | (k, v) :: ts => by
    have h1 := same_build args s k
    have h2 := same_build args h1.2 v
    have h3 := same_buildEntries args h2.2 ts
    simp only [Tree.buildEntries, h1.1, h2.1, h3.1]; exact ⟨trivial, h3.2⟩
end

/-- Library calls agree. -/
def LibSame (h h' : Heap) (x x' : LibRes) : Prop :=
  match x with
  | none => x' = none
  | some (.error e) => x' = some (.error e)
  | some (.ok (v, g)) => ∃ g', x' = some (.ok (v, g')) ∧ SameSeen h h' g g'

theorem libSame_ret {c : LibCall} {h h' g g' v} (s : SameSeen h h' g g') : LibSame h h' (c.ret g v) (c.ret g' v) := ⟨_, rfl, s⟩
theorem libSame_ok {h h' : Heap} {p p' : Value × Heap} (s : p'.1 = p.1 ∧ SameSeen h h' p.2 p'.2) : LibSame h h' (some (.ok p)) (some (.ok p')) := by
  rcases p with ⟨v, g⟩; rcases p' with ⟨v', g'⟩
  obtain ⟨h1, h2⟩ := s
  simp only at h1 h2; subst h1
  exact ⟨_, rfl, h2⟩
theorem libSame_panic {c : LibCall} {h h' k} : LibSame h h' (c.panic k) (c.panic k) := rfl
theorem libSame_arity {c : LibCall} {h h' k} : LibSame h h' (c.arity k) (c.arity k) := rfl
theorem libSame_type {c : LibCall} {h h' k t} : LibSame h h' (c.type k t) (c.type k t) := rfl
theorem libSame_timeout {c : LibCall} {h h'} : LibSame h h' c.timeout c.timeout := rfl
theorem libSame_crash {c : LibCall} {h h' k} : LibSame h h' (c.crash k) (c.crash k) := rfl
theorem libSame_none {h h'} : LibSame h h' none none := rfl
theorem libSame_error {h h' e} : LibSame h h' (some (.error e)) (some (.error e)) := rfl

theorem same_iteration {g g' : Heap} {v} (s : SameSeen h h' g g') :
    (Lib.iteration g' v).1 = (Lib.iteration g v).1 ∧ SameSeen h h' (Lib.iteration g v).2 (Lib.iteration g' v).2 := by
  cases v <;> exact same_newDict s

/-- Closes `LibSame` goals. -/
macro "libsame" s:term : tactic =>
  `(tactic| first
    | exact libSame_ret $s
    | exact libSame_ok (same_newArray $s)
    | exact libSame_ok (same_newError $s)
    | exact libSame_ok (same_newNative $s)
    | exact libSame_ok (same_iteration $s)
    | exact libSame_ok (same_iteration (same_setNative $s))
    | exact libSame_ok ⟨rfl, same_setArray $s⟩
    | exact libSame_panic
    | exact libSame_arity
    | exact libSame_type
    | exact libSame_timeout
    | exact libSame_crash
    | exact libSame_none
    | exact libSame_error)

variable (r : HRel κ h h') (w : World) (c : LibCall)
include r

theorem libSame_call (name : Bytes) : LibSame h h' (Lib.call w name c h) (Lib.call w name c h') := by
  have s := r.same
  have key : ∀ f ∈ Lib.table.map (·.2), LibSame h h' (f w c h) (f w c h') := by
    simp only [Lib.table, List.map_cons, List.map_nil, List.forall_mem_cons, List.not_mem_nil, false_imp_iff, implies_true, and_true]
    refine ⟨?_, ?_, ?_, ?_, ?_, ?_, ?_, ?_, ?_, ?_, ?_, ?_, ?_, ?_, ?_, ?_, ?_, ?_, ?_, ?_, ?_, ?_, ?_, ?_, ?_, ?_, ?_, ?_, ?_, ?_,
      ?_, ?_, ?_, ?_, ?_, ?_, ?_, ?_, ?_, ?_, ?_, ?_, ?_, ?_, ?_, ?_, ?_, ?_⟩
    · simp only [Lib.assert]; split <;> libsame s
    · simp only [Lib.args]; split <;> libsame s
    · simp only [Lib.bind]; split <;> libsame s
    · simp only [Lib.bytes]; split <;> libsame s
    · simp only [Lib.contains, r.valueEq, r.dictGet, r.array]; split <;> first | libsame s | (split <;> libsame s)
    · simp only [Lib.error]; split <;> libsame s
    · simp only [Lib.exit]; split <;> first | libsame s | (split <;> libsame s)
    · simp only [Lib.hasError, r.findError]; split <;> first | libsame s | (split <;> libsame s)
    · simp only [Lib.hexEncodeFun]; split <;> libsame s
    · simp only [Lib.hexDecodeFun]; split <;> first | libsame s | (split <;> libsame s)
    · simp only [Lib.b64EncodeFun]; split <;> libsame s
    · simp only [Lib.b64DecodeFun]; split <;> first | libsame s | (split <;> libsame s)
    · simp only [Lib.int]; split <;> first | libsame s | (split <;> libsame s)
    · simp only [Lib.isEmpty, r.array, r.dict]; split <;> libsame s
    · simp only [Lib.iter, r.dict]; split <;> libsame s
    · simp only [Lib.iterImpl, r.native, r.array]
      split
      · libsame s
      · split
        · split <;> libsame s
        · split <;> libsame s
        · split
          · refine libSame_ok ?_
            rename_i e _ _ k v _
            have h1 := same_newDict (vs := [(Lib.kKey, k), (Lib.kValue, v)]) (same_setNative (d := c.addr) (v := .dictIter e.dropLast) s)
            rw [h1.1]
            exact same_iteration h1.2
          · libsame s
        · libsame s
    · simp only [Lib.len, r.array, r.dict]; split <;> libsame s
    · simp only [Lib.panic]; split <;> libsame s
    · simp only [Lib.pop, r.array]; split <;> first | libsame s | (split <;> libsame s)
    · simp only [Lib.push, r.array]; split <;> libsame s
    · simp only [Lib.range]; split <;> first | libsame s | (split <;> libsame s)
    · simp only [Lib.rangeImpl, r.native]
      split
      · libsame s
      · split
        · rename_i a b s' _
          by_cases hq : (if 0 < s' then b ≤ a else a ≤ b)
          · rw [if_pos hq, if_pos hq]; libsame s
          · rw [if_neg hq, if_neg hq]; split <;> libsame s
        · rename_i a b s' _
          by_cases hq : (if floatCmp s' 0 = .gt then floatCmp a b ≠ .lt else floatCmp a b ≠ .gt)
          · rw [if_pos hq, if_pos hq]; libsame s
          · rw [if_neg hq, if_neg hq]; libsame s
        · libsame s
    · simp only [Lib.replace]; split <;> libsame s
    · simp only [Lib.sort, r.array, r.touches, r.sortValues]
      split
      · split
        · libsame s
        · split
          · libsame s
          · split <;> libsame s
      · libsame s
      · libsame s
    · simp only [Lib.split]; split <;> libsame s
    · simp only [Lib.substr]
      split
      · generalize Lib.substrOf w _ _ _ = x
        cases x with
        | ok v => exact ⟨_, rfl, s⟩
        | error e => rfl
      all_goals libsame s
    · simp only [Lib.toStringFun, r.showValue]; repeat' split
      all_goals libsame s
    · simp only [Lib.type]; split <;> libsame s
    · simp only [Lib.typecheck]; split <;> first | libsame s | (split <;> first | libsame s | (split <;> libsame s))
    · simp only [Lib.tryTypecheck]; split <;> first | libsame s | (split <;> first | libsame s | (split <;> libsame s))
    · simp only [Lib.trim]; repeat' split
      all_goals libsame s
    · simp only [Lib.jsonEncode, r.jsonEncode]; repeat' split
      all_goals libsame s
    · simp only [Lib.jsonDecode]; repeat' split
      all_goals first | libsame s | exact libSame_ok (same_build _ s _)
    · simp only [Lib.float]; repeat' split
      all_goals libsame s
    · simp only [Lib.text1]; repeat' split
      all_goals libsame s
    · simp only [Lib.text1]; repeat' split
      all_goals libsame s
    · simp only [Lib.text1]; repeat' split
      all_goals libsame s
    · simp only [Lib.text1]; repeat' split
      all_goals libsame s
    · simp only [Lib.text1]; repeat' split
      all_goals libsame s
    · simp only [Lib.text1]; repeat' split
      all_goals libsame s
    · simp only [Lib.regexReplace]; repeat' split
      all_goals libsame s
    · simp only [Lib.export_]; repeat' split
      all_goals libsame s
    · simp only [Lib.noArgs]; repeat' split
      all_goals libsame s
    · simp only [Lib.noArgs]; repeat' split
      all_goals libsame s
    · simp only [Lib.randint]; repeat' split
      all_goals libsame s
    · simp only [Lib.randseed]; repeat' split
      all_goals libsame s
    · simp only [Lib.sleep]; repeat' split
      all_goals libsame s
    · simp only [Lib.read]; repeat' split
      all_goals libsame s
  simp only [Lib.call]
  cases hf : Lib.table.lookup name with
  | none => rfl
  | some f =>
    refine key f ?_
    revert hf
    generalize Lib.table = l
    intro hf
    clear key
    induction l with
    | nil => simp at hf
    | cons e l ih =>
      rcases e with ⟨a, b⟩
      simp only [List.lookup_cons] at hf
      split at hf
      · cases hf; simp
      · exact List.mem_cons_of_mem _ (ih hf)

/-- Element assignment. -/
theorem same_assign {n obj op f fp v p} :
    match assignValue h n obj op f fp v p with
    | .error e => assignValue h' n obj op f fp v p = .error e
    | .ok g => ∃ g', assignValue h' n obj op f fp v p = .ok g' ∧ SameSeen h h' g g' := by
  have s := r.same
  simp only [assignValue, r.touches, r.dictInsert, r.dict, r.array]
  split
  · rename_i he
    revert he
    split
    · split
      · rintro ⟨⟩; rfl
      · rintro ⟨⟩; rfl
      · split
        · rintro ⟨⟩; rfl
        · intro he; cases he
    · split
      · rintro ⟨⟩; rfl
      · split
        · rintro ⟨⟩; rfl
        · intro he; cases he
    all_goals (rintro ⟨⟩; rfl)
  · rename_i he
    revert he
    split
    · split
      · intro he; cases he
      · intro he; cases he
      · split
        · intro he; cases he
        · rintro ⟨⟩; exact ⟨_, rfl, same_setDict s⟩
    · split
      · intro he; cases he
      · split
        · intro he; cases he
        · rintro ⟨⟩; exact ⟨_, rfl, same_setArray s⟩
    all_goals (intro he; cases he)

end
end Hush

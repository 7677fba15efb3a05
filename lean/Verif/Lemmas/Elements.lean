import Verif.Spec.Elements
import Verif.Lemmas.InterpParts

/-!
Element access and assignment.
-/

namespace Hush
open Spec

theorem floatHashed_eq {a b : UInt64} (ha : floatIsNaN a = false) : (floatHashed a == floatHashed b) = decide (b = a) := by
  unfold floatHashed
  rw [ha]
  simp only [Bool.false_eq_true, if_false]
  by_cases hb : floatIsNaN b = true
  · rw [if_pos hb]
    have h1 : a ≠ 9221120237041090560 := by
      rintro rfl
      revert ha; decide
    have h2 : b ≠ a := by rintro rfl; rw [ha] at hb; cases hb
    rw [decide_eq_false h2]
    exact beq_eq_false_iff_ne.2 h1
  · rw [if_neg hb]
    by_cases h : b = a
    · subst h; simp
    · rw [decide_eq_false h]
      exact beq_eq_false_iff_ne.2 (Ne.symm h)

theorem floatEq_self {a : UInt64} (ha : floatIsNaN a = false) : floatEq a a = true := by simp [floatEq, ha]

/-- A simple key is found at itself. -/
theorem simple_same (h : Heap) (n : Nat) {k : Value} (hk : Simple k) (x : Value) :
    optAnd (sameHash h (n + 1) k x) (fun _ => valueEq h (n + 1) k x) = some (decide (x = k)) := by
  cases k <;> simp only [Simple] at hk <;> cases x <;> simp only [sameHash, valueEq, optAnd, reduceCtorEq, decide_false, decide_true, Value.bool.injEq,
    Value.byte.injEq, Value.int.injEq, Value.string.injEq, Value.float.injEq]
  · rename_i a b; cases a <;> cases b <;> rfl
  · rename_i a b
    by_cases hab : b = a
    · subst hab; simp
    · rw [decide_eq_false hab, beq_eq_false_iff_ne.2 (Ne.symm hab)]
  · rename_i a b
    by_cases hab : b = a
    · subst hab; simp
    · rw [decide_eq_false hab, beq_eq_false_iff_ne.2 (Ne.symm hab)]
  · rename_i a b
    rw [floatHashed_eq hk]
    by_cases hab : b = a
    · subst hab; simp [floatEq_self hk]
    · rw [decide_eq_false hab]
  · rename_i a b
    by_cases hab : b = a
    · subst hab; simp
    · rw [decide_eq_false hab, beq_eq_false_iff_ne.2 (Ne.symm hab)]

theorem findM_find (p : α → Bool) (l : List α) : findM (fun x => some (p x)) l = some (l.find? p) := by
  induction l with
  | nil => rfl
  | cons a l ih =>
    simp only [findM, List.find?_cons]
    cases p a with
    | true => rfl
    | false => exact ih

theorem dictGet_simple (h : Heap) (n : Nat) (d : Nat) {k : Value} (hk : Simple k) :
    dictGet h (n + 1) d k = some (look (h.dict d) k) := by
  unfold dictGet lookupWith look
  have : (fun e : Value × Value => optAnd (sameHash h (n + 1) k e.1) (fun _ => valueEq h (n + 1) k e.1))
      = fun e => some (decide (e.1 = k)) := funext (fun e => simple_same h n hk e.1)
  rw [this, findM_find]
  rfl

/-- What the insertion makes of the entries. -/
def put (es : List (Value × Value)) (k v : Value) : List (Value × Value) :=
  match es with
  | [] => [(k, v)]
  | e :: es => if e.1 = k then (e.1, v) :: es else e :: put es k v

theorem dictInsert_simple (h : Heap) (n : Nat) (es : List (Value × Value)) {k : Value} (hk : Simple k) (v : Value) :
    dictInsert h (n + 1) es k v = some (put es k v) := by
  unfold dictInsert
  have : (fun k' : Value => optAnd (sameHash h (n + 1) k k') (fun _ => valueEq h (n + 1) k k'))
      = fun k' => some (decide (k' = k)) := funext (fun e => simple_same h n hk e)
  rw [this]
  induction es with
  | nil => rfl
  | cons e es ih =>
    simp only [insertWith, put]
    by_cases he : e.1 = k
    · rw [decide_eq_true he, if_pos he]
    · rw [decide_eq_false he, if_neg he]
      simp only [ih, Option.map_some]

theorem look_put (es : List (Value × Value)) (k v k' : Value) : look (put es k v) k' = if k' = k then some v else look es k' := by
  induction es with
  | nil =>
    simp only [put, look, List.find?_cons, List.find?_nil]
    by_cases h : k' = k
    · subst h; simp
    · rw [if_neg h, decide_eq_false (Ne.symm h)]
  | cons e es ih =>
    simp only [put]
    by_cases he : e.1 = k
    · rw [if_pos he]
      simp only [look, List.find?_cons]
      by_cases h : k' = k
      · subst h; rw [if_pos rfl, decide_eq_true he]; rfl
      · rw [if_neg h]
        have : ¬ e.1 = k' := fun h' => h (h'.symm.trans he)
        rw [decide_eq_false this]
    · rw [if_neg he]
      simp only [look, List.find?_cons] at ih ⊢
      by_cases h' : e.1 = k'
      · rw [decide_eq_true h']
        have : k' ≠ k := fun h => he (h'.trans h)
        rw [if_neg this]
      · rw [decide_eq_false h']
        exact ih

theorem touches_simple (h : Heap) (n : Nat) (t : Nat ⊕ Nat) {k : Value} (hk : Simple k) : touches h t (n + 1) k = some false := by
  cases k <;> simp only [Simple] at hk <;> rfl

theorem setArray_get {h : Heap} {a : Nat} (ha : a < h.arrays.length) (vs : List Value) : (h.setArray a vs).array a = vs := by
  simp [Heap.setArray, Heap.array, ha]

theorem setDict_get {h : Heap} {a : Nat} (ha : a < h.dicts.length) (vs : List (Value × Value)) : (h.setDict a vs).dict a = vs := by
  simp [Heap.setDict, Heap.dict, ha]

theorem setArray_same (h : Heap) (a : Nat) (vs : List Value) : SameButArray a h (h.setArray a vs) where
  arrays b hb := by simp [Heap.setArray, Heap.array, Ne.symm hb]
  count := by simp [Heap.setArray]
  dicts := rfl
  cells := rfl
  closures := rfl
  contexts := rfl
  natives := rfl

theorem setDict_same (h : Heap) (a : Nat) (vs : List (Value × Value)) : SameButDict a h (h.setDict a vs) where
  dicts b hb := by simp [Heap.setDict, Heap.dict, Ne.symm hb]
  count := by simp [Heap.setDict]
  arrays := rfl
  cells := rfl
  closures := rfl
  contexts := rfl
  natives := rfl

theorem indexOf_inRange {l : List α} {i : Int} (h : InRange i l.length) : ∃ x, indexOf l i = some x ∧ l[i.toNat]? = some x := by
  have h1 : i.toNat < l.length := by unfold InRange at h; omega
  exact ⟨l[i.toNat], by rw [indexOf, if_pos h.1, List.getElem?_eq_getElem h1], List.getElem?_eq_getElem h1⟩

theorem indexOf_outside {l : List α} {i : Int} (h : ¬ InRange i l.length) : indexOf l i = none := by
  unfold indexOf
  split
  · rename_i h0
    exact List.getElem?_eq_none (by unfold InRange at h; omega)
  · rfl

/-- Element access is strict: object, then field. -/
theorem ends_access {w : World} {m : Nat} {tail : Option Nat} {a b : Prog.Expr} {pos : Pos} {s v p obj s1 v' p' obj' s2}
    (h1 : Yields w m a s v p obj s1) (h2 : Yields w m b s1 v' p' obj' s2) {n : Nat} {r : Except Stop Value}
    (hr : accessValue s2.heap n v p v' p' = r) (ht : r ≠ .error .timeout) :
    Ends w (.expr m tail (.access a b pos)) s (match r with | .ok x => .ok ⟨.regular x, pos, v⟩ | .error e => .error e) s2 := by
  refine ends_iff.2 (lim_go h1 (lim_go h2 ?_))
  have hm : ∀ (n n' : Nat), n ≤ n' → ∀ h, ELe (accessValue h n v p v' p') (accessValue h n' v p v' p') :=
    fun n n' hn h => accessValue_mono h hn _ _ _ _
  have hl := (lim_reads hm).2 ⟨rfl, ht, n, hr⟩
  cases r with
  | ok x => exact lim_then hl (lim_pure.2 ⟨rfl, rfl⟩)
  | error e => exact lim_fails hl

/-- Element assignment: value, object, field. -/
theorem ends_assign {w : World} {m : Nat} {tail : Option Nat} {a b e : Prog.Expr} {pos : Pos} {s v p obj s1 v' p' obj' s2 v'' p'' obj'' s3}
    (h0 : Yields w m e s v p obj s1) (h1 : Yields w m a s1 v' p' obj' s2) (h2 : Yields w m b s2 v'' p'' obj'' s3) {n : Nat}
    {r : Except Stop Heap} (hr : assignValue s3.heap n v' p' v'' p'' v pos = r) (ht : r ≠ .error .timeout) :
    Ends w (.stmt m tail (.assign (.access a b pos) e)) s (match r with | .ok _ => done .nil noPos | .error e => .error e)
      (match r with | .ok h => { s3 with heap := h } | .error _ => s3) := by
  refine ends_iff.2 (lim_go h0 (lim_go h1 (lim_go h2 ?_)))
  have hm : ∀ (n n' : Nat), n ≤ n' → ∀ h, ELe (assignValue h n v' p' v'' p'' v pos) (assignValue h n' v' p' v'' p'' v pos) :=
    fun n n' hn h => assignValue_mono h hn _ _ _ _ _ _
  have hl := (lim_reads hm).2 ⟨rfl, ht, n, hr⟩
  cases r with
  | ok x => exact lim_then hl (lim_modify_bind.2 (lim_pure.2 ⟨rfl, rfl⟩))
  | error e => exact lim_fails hl

end Hush

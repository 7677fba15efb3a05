import Verif.Lemmas.Structure
import Verif.Lemmas.Elements

/-!
Keys of dicts: values that a change of the memory does not affect, lookup and insertion.
-/

namespace Hush
open Hush.Spec

/-- All objects in the value have the same contents in both memories. -/
inductive Unchanged (h h' : Heap) : Value → Prop
  | nil : Unchanged h h' .nil
  | bool (b) : Unchanged h h' (.bool b)
  | byte (b) : Unchanged h h' (.byte b)
  | int (i) : Unchanged h h' (.int i)
  | float (b) : Unchanged h h' (.float b)
  | string (s) : Unchanged h h' (.string s)
  | array (a) : h'.array a = h.array a → (∀ v ∈ h.array a, Unchanged h h' v) → Unchanged h h' (.array a)
  | dict (d) : h'.dict d = h.dict d → (∀ e ∈ h.dict d, Unchanged h h' e.1) → (∀ e ∈ h.dict d, Unchanged h h' e.2) → Unchanged h h' (.dict d)
  | native (name addr) : Unchanged h h' (.function (.native name addr))
  | hush (f) : h'.closure f = h.closure f → (∀ c ∈ (h.closure f).context, h'.cell c.1 = h.cell c.1) →
    (∀ c ∈ (h.closure f).context, Unchanged h h' (h.cell c.1)) → Unchanged h h' (.function (.hush f))
  | error (s c) : h'.context c = h.context c → Unchanged h h' (h.context c) → Unchanged h h' (.error s c)

theorem unchanged_of_avoids {h h' : Heap} {x : Nat} {v : Value} (hs : SameButDict x h h') (hv : Avoids h x v) : Unchanged h h' v := by
  induction hv with
  | nil => exact .nil
  | bool b => exact .bool b
  | byte b => exact .byte b
  | int b => exact .int b
  | float b => exact .float b
  | string b => exact .string b
  | array a _ ih => exact .array a (by simp only [Heap.array, hs.arrays]) ih
  | dict d hd _ _ ih1 ih2 => exact .dict d (hs.dicts d hd) ih1 ih2
  | native name addr => exact .native _ _
  | hush f _ ih => exact .hush f (by simp only [Heap.closure, hs.closures]) (fun c _ => by simp only [Heap.cell, hs.cells]) ih
  | error s c _ ih => exact .error s c (by simp only [Heap.context, hs.contexts]) ih

/-! ### Functions that agree on the items of lists -/

theorem listEq_congr {f g : α → β → Option Bool} : ∀ {l : List α} {l' : List β}, (∀ a ∈ l, ∀ b ∈ l', f a b = g a b) → listEq f l l' = listEq g l l'
  | [], [], _ => rfl
  | [], _ :: _, _ => rfl
  | _ :: _, [], _ => rfl
  | a :: l, b :: l', h => by
    simp only [listEq]
    rw [h a List.mem_cons_self b List.mem_cons_self, listEq_congr fun x hx y hy => h x (List.mem_cons_of_mem _ hx) y (List.mem_cons_of_mem _ hy)]

theorem sliceEq_congr {f g : α → β → Option Bool} {l : List α} {l' : List β} (h : ∀ a ∈ l, ∀ b ∈ l', f a b = g a b) : sliceEq f l l' = sliceEq g l l' := by
  unfold sliceEq
  rw [listEq_congr h]

theorem listCmp_congr {f g : α → β → Option Ordering} : ∀ {l : List α} {l' : List β}, (∀ a ∈ l, ∀ b ∈ l', f a b = g a b) → listCmp f l l' = listCmp g l l'
  | [], [], _ => rfl
  | [], _ :: _, _ => rfl
  | _ :: _, [], _ => rfl
  | a :: l, b :: l', h => by
    simp only [listCmp]
    rw [h a List.mem_cons_self b List.mem_cons_self, listCmp_congr fun x hx y hy => h x (List.mem_cons_of_mem _ hx) y (List.mem_cons_of_mem _ hy)]

theorem findM_congr {f g : α → Option Bool} {l : List α} (h : ∀ a ∈ l, f a = g a) : findM f l = findM g l := by
  induction l with
  | nil => rfl
  | cons x l ih =>
    simp only [findM]
    rw [h x List.mem_cons_self, ih fun a ha => h a (List.mem_cons_of_mem _ ha)]

theorem allM_congr {f g : α → Option Bool} {l : List α} (h : ∀ a ∈ l, f a = g a) : allM f l = allM g l := by
  induction l with
  | nil => rfl
  | cons x l ih =>
    simp only [allM]
    rw [h x List.mem_cons_self, ih fun a ha => h a (List.mem_cons_of_mem _ ha)]

theorem btreeInsert_congr {f g : Value → Value → Option Ordering} {S : Value → Prop} (hfg : ∀ a b, S a → S b → f a b = g a b) {e : Value × Value}
    (he : S e.1 ∧ S e.2) {l : List (Value × Value)} (hl : ∀ x ∈ l, S x.1 ∧ S x.2) :
    btreeInsert f e l = btreeInsert g e l ∧ ∀ l', btreeInsert g e l = some l' → ∀ x ∈ l', S x.1 ∧ S x.2 := by
  induction l with
  | nil =>
    refine ⟨rfl, fun l' h => ?_⟩
    cases h
    simpa using he
  | cons x l ih =>
    have hx := hl x List.mem_cons_self
    obtain ⟨ih1, ih2⟩ := ih fun y hy => hl y (List.mem_cons_of_mem _ hy)
    simp only [btreeInsert]
    rw [hfg _ _ he.1 hx.1, ih1]
    refine ⟨rfl, fun l' h => ?_⟩
    split at h
    · cases h
    · cases h
      intro y hy
      rcases List.mem_cons.1 hy with rfl | hy
      · exact he
      · exact hl y hy
    · cases h
      intro y hy
      rcases List.mem_cons.1 hy with rfl | hy
      · exact ⟨hx.1, he.2⟩
      · exact hl y (List.mem_cons_of_mem _ hy)
    · obtain ⟨l1, h1, rfl⟩ := Option.map_eq_some_iff.1 h
      intro y hy
      rcases List.mem_cons.1 hy with rfl | hy
      · exact hx
      · exact ih2 _ h1 y hy

theorem btree_congr {f g : Value → Value → Option Ordering} {S : Value → Prop} (hfg : ∀ a b, S a → S b → f a b = g a b) (es : List (Value × Value))
    (hl : ∀ x ∈ es, S x.1 ∧ S x.2) : btree f es = btree g es ∧ ∀ l', btree g es = some l' → ∀ x ∈ l', S x.1 ∧ S x.2 := by
  have key : ∀ (es acc : List (Value × Value)), (∀ e ∈ es, S e.1 ∧ S e.2) → (∀ e ∈ acc, S e.1 ∧ S e.2) →
      es.foldl (fun acc e => acc.bind (btreeInsert f e)) (some acc) = es.foldl (fun acc e => acc.bind (btreeInsert g e)) (some acc) ∧
      ∀ l', es.foldl (fun acc e => acc.bind (btreeInsert g e)) (some acc) = some l' → ∀ x ∈ l', S x.1 ∧ S x.2 := by
    intro es
    induction es with
    | nil =>
      refine fun acc _ h => ⟨rfl, fun l' h' => ?_⟩
      cases h'
      exact h
    | cons e es ih =>
      intro acc h1 h2
      obtain ⟨h3, h4⟩ := btreeInsert_congr hfg (h1 e List.mem_cons_self) h2
      simp only [List.foldl_cons, Option.bind_some, h3]
      cases hb : btreeInsert g e acc with
      | some l => exact ih l (fun x hx => h1 x (List.mem_cons_of_mem _ hx)) (h4 l hb)
      | none =>
        have hn : ∀ (f : Value → Value → Option Ordering) (es : List (Value × Value)),
            es.foldl (fun acc e => acc.bind (btreeInsert f e)) none = none := by
          intro f es
          induction es with
          | nil => rfl
          | cons _ _ ih => exact ih
        rw [hn, hn]
        exact ⟨rfl, fun _ h => nomatch h⟩
  exact key es [] hl (by simp)

theorem pairCmp_congr {f g : Value → Value → Option Ordering} {a b : Value × Value} (h1 : f a.1 b.1 = g a.1 b.1) (h2 : f a.2 b.2 = g a.2 b.2) :
    pairCmp f a b = pairCmp g a b := by
  simp only [pairCmp, h1, h2]

/-! ### Comparisons of values that have not changed -/

theorem valueCmp_unchanged {h h' : Heap} (hfn : ∀ f g, Unchanged h h' (.function f) → Unchanged h h' (.function g) → fnCmp h' f g = fnCmp h f g) :
    ∀ n a b, Unchanged h h' a → Unchanged h h' b → valueCmp h' n a b = valueCmp h n a b := by
  intro n
  induction n with
  | zero => intro a b _ _; rfl
  | succ n ih =>
    intro a b ha hb
    by_cases hr : a.rank = b.rank
    rotate_left
    · rw [valueCmp_rank _ _ hr, valueCmp_rank _ _ hr]
    cases a <;> cases b <;> first | (cases hr; done) | rfl | skip
    · cases ha with
      | array _ ha1 ha2 => cases hb with
        | array _ hb1 hb2 =>
          simp only [valueCmp, ha1, hb1]
          exact listCmp_congr fun a ha b hb => ih a b (ha2 a ha) (hb2 b hb)
    · cases ha with
      | dict _ ha1 ha2 ha3 => cases hb with
        | dict _ hb1 hb2 hb3 =>
          obtain ⟨c1, c2⟩ := btree_congr ih (h.dict _) (fun e he => ⟨ha2 e he, ha3 e he⟩)
          obtain ⟨c3, c4⟩ := btree_congr ih (h.dict _) (fun e he => ⟨hb2 e he, hb3 e he⟩)
          simp only [valueCmp, ha1, hb1, c1, c3]
          split
          · rename_i x y h1 h2
            exact listCmp_congr fun a ha b hb => pairCmp_congr (ih _ _ (c2 _ h1 a ha).1 (c4 _ h2 b hb).1) (ih _ _ (c2 _ h1 a ha).2 (c4 _ h2 b hb).2)
          · rfl
    · simp only [valueCmp]
      rw [hfn _ _ ha hb]
    · cases ha with
      | error _ _ ha1 ha2 => cases hb with
        | error _ _ hb1 hb2 =>
          simp only [valueCmp, ha1, hb1]
          rw [ih _ _ ha2 hb2]

theorem fnCmp_unchanged {h h' : Heap} {f g : Fn} (hf : Unchanged h h' (.function f)) (hg : Unchanged h h' (.function g)) : fnCmp h' f g = fnCmp h f g := by
  cases hf <;> cases hg <;> simp_all [fnCmp]

theorem sameHash_unchanged {h h' : Heap} : ∀ n a b, Unchanged h h' a → Unchanged h h' b → sameHash h' n a b = sameHash h n a b := by
  intro n
  induction n with
  | zero => intro a b _ _; rfl
  | succ n ih =>
    intro a b ha hb
    by_cases hr : a.kind = b.kind
    rotate_left
    · rw [sameHash_kind _ _ _ _ hr, sameHash_kind _ _ _ _ hr]
    cases ha with
    | array a ha1 ha2 =>
      cases hb <;> first | (cases hr; done) | skip
      rename_i b hb1 hb2
      simp only [sameHash, ha1, hb1]
      exact sliceEq_congr fun a ha b hb => ih a b (ha2 a ha) (hb2 b hb)
    | dict a ha1 ha2 ha3 =>
      cases hb <;> first | (cases hr; done) | skip
      rename_i b hb1 hb2 hb3
      have hc := valueCmp_unchanged (h := h) (h' := h') (fun f g => fnCmp_unchanged) n
      obtain ⟨c1, c2⟩ := btree_congr hc (h.dict a) (fun e he => ⟨ha2 e he, ha3 e he⟩)
      obtain ⟨c3, c4⟩ := btree_congr hc (h.dict b) (fun e he => ⟨hb2 e he, hb3 e he⟩)
      simp only [sameHash, ha1, hb1, c1, c3]
      split
      · rename_i x y h1 h2
        refine sliceEq_congr fun a ha b hb => ?_
        rw [ih _ _ (c2 _ h1 a ha).1 (c4 _ h2 b hb).1, ih _ _ (c2 _ h1 a ha).2 (c4 _ h2 b hb).2]
      · rfl
    | hush f ha1 ha2 ha3 =>
      cases hb <;> first | (cases hr; done) | skip
      rename_i g hb1 hb2 hb3
      simp only [sameHash, ha1, hb1]
    | error s c ha1 ha2 =>
      cases hb <;> first | (cases hr; done) | skip
      rename_i s' c' hb1 hb2
      simp only [sameHash, ha1, hb1]
      rw [ih _ _ ha2 hb2]
    | _ => cases hb <;> first | (cases hr; done) | rfl

theorem valueEq_unchanged {h h' : Heap} : ∀ n a b, Unchanged h h' a → Unchanged h h' b → valueEq h' n a b = valueEq h n a b := by
  intro n
  induction n with
  | zero => intro a b _ _; rfl
  | succ n ih =>
    intro a b ha hb
    by_cases hr : a.kind = b.kind
    rotate_left
    · rw [valueEq_kind _ _ _ _ hr, valueEq_kind _ _ _ _ hr]
    cases ha with
    | array a ha1 ha2 =>
      cases hb <;> first | (cases hr; done) | skip
      rename_i b hb1 hb2
      simp only [valueEq, ha1, hb1]
      exact sliceEq_congr fun a ha b hb => ih a b (ha2 a ha) (hb2 b hb)
    | dict a ha1 ha2 ha3 =>
      cases hb <;> first | (cases hr; done) | skip
      rename_i b hb1 hb2 hb3
      simp only [valueEq, ha1, hb1]
      split
      · refine allM_congr fun e he => ?_
        have : lookupWith (valueEq h' n) (sameHash h' n) (h.dict b) e.1 = lookupWith (valueEq h n) (sameHash h n) (h.dict b) e.1 :=
          findM_congr fun e' he' => by rw [ih _ _ (ha2 e he) (hb2 e' he'), sameHash_unchanged n _ _ (ha2 e he) (hb2 e' he')]
        rw [this]
        split
        · rfl
        · rfl
        · rename_i e' h1
          have h2 : e' ∈ h.dict b := by
            exact (findM_some h1).1
          rw [ih _ _ (ha3 e he) (hb3 e' h2)]
      · rfl
    | hush f ha1 ha2 ha3 =>
      cases hb <;> first | (cases hr; done) | skip
      rename_i g hb1 hb2 hb3
      simp only [valueEq, ha1, hb1]
      split
      · refine sliceEq_congr fun c hc c' hc' => ?_
        rw [ha2 c hc, hb2 c' hc', ih _ _ (ha3 c hc) (hb3 c' hc')]
      · rfl
    | error s c ha1 ha2 =>
      cases hb <;> first | (cases hr; done) | skip
      rename_i s' c' hb1 hb2
      simp only [valueEq, ha1, hb1]
      rw [ih _ _ ha2 hb2]
    | _ => cases hb <;> first | (cases hr; done) | rfl

theorem unchanged_refl {h : Heap} {v : Value} (hv : Finite h true v) : Unchanged h h v := by
  induction hv with
  | nil => exact .nil
  | bool b => exact .bool b
  | byte b => exact .byte b
  | int b => exact .int b
  | float b => exact .float b
  | string b => exact .string b
  | array a _ ih => exact .array a rfl ih
  | dict d _ _ ih1 ih2 => exact .dict d rfl ih1 ih2
  | native name addr => exact .native _ _
  | hush f _ ih => exact .hush f rfl (fun _ _ => rfl) (ih rfl)
  | error s c _ ih => exact .error s c rfl ih

/-- A dict that is not in the value is not borrowed by hashing or comparing it. -/
theorem avoids_touches {h : Heap} {x : Nat} : ∀ {n v}, Depth h true n v → Avoids h x v → touches h (.inl x) n v = some false := by
  intro n
  induction n with
  | zero => exact fun h => h.elim
  | succ n ih =>
    intro v hd hv
    cases hv with
    | array a ha =>
      simp only [touches, reduceCtorEq, if_false]
      exact anyM_false fun v hv => ih (hd v hv) (ha v hv)
    | dict d hne h1 h2 =>
      simp only [touches]
      rw [if_neg fun hc => hne (Sum.inl.inj hc).symm]
      refine anyM_false fun e he => ?_
      rw [ih (hd e he).1 (h1 e he)]
      exact ih (hd e he).2 (h2 e he)
    | error s c hc => exact ih (v := h.context c) hd hc
    | _ => rfl

/-! ### Keys by equality -/

section
open Classical

/-- The test of the dict for two keys says whether they are equal. -/
theorem same_at {h : Heap} (hk : DistinctKeys h) {n : Nat} {a b : Value} (ga : GoodKey h a) (gb : GoodKey h b) (da : Depth h true n a) (db : Depth h true n b) :
    optAnd (sameHash h n a b) (fun _ => valueEq h n a b) = some (decide (Equal h a b)) := by
  obtain ⟨r, hr⟩ := (equivOn_and (equivOn_hash h true n) (equivOn_values h hk n)).total da db
  rw [hr]
  cases r with
  | true => exact congrArg some (decide_eq_true ⟨n, (optAnd_true.1 hr).2⟩).symm
  | false =>
    refine congrArg some (decide_eq_false ?_).symm
    rintro ⟨m, hm⟩
    obtain ⟨r, h1⟩ := (equivOn_values h hk n).total da db
    have h2 := valueEq_mono h (Nat.le_max_left n m) a b _ h1
    rw [valueEq_mono h (Nat.le_max_right n m) a b _ hm] at h2
    cases h2
    have h3 : optAnd (sameHash h n a b) (fun _ => valueEq h n a b) = some true :=
      optAnd_true.2 ⟨(keysAgree h hk n).hash ga.hashed gb.hashed da db h1, h1⟩
    rw [h3] at hr
    cases hr

theorem equal_symm {h : Heap} (hk : DistinctKeys h) {a b : Value} (ga : GoodKey h a) (gb : GoodKey h b) (he : Equal h a b) : Equal h b a := by
  obtain ⟨n, hn⟩ := he
  obtain ⟨m, h1, h2⟩ := depth_two ga.finite gb.finite
  have h3 := valueEq_mono h (Nat.le_max_left n m) a b _ hn
  exact ⟨_, (equivOn_values h hk _).symm (depth_mono (Nat.le_max_right n m) h1) (depth_mono (Nat.le_max_right n m) h2) h3⟩

theorem equal_trans {h : Heap} (hk : DistinctKeys h) {a b c : Value} (ga : GoodKey h a) (gb : GoodKey h b) (gc : GoodKey h c) (h1 : Equal h a b)
    (h2 : Equal h b c) : Equal h a c := by
  obtain ⟨n, hn⟩ := h1
  obtain ⟨n', hn'⟩ := h2
  obtain ⟨m, d1, d2⟩ := depth_two ga.finite gb.finite
  obtain ⟨m', d3⟩ := depth_of_finite gc.finite
  have l1 : n ≤ max (max n n') (max m m') := by omega
  have l2 : n' ≤ max (max n n') (max m m') := by omega
  have l3 : m ≤ max (max n n') (max m m') := by omega
  have l4 : m' ≤ max (max n n') (max m m') := by omega
  exact ⟨_, (equivOn_values h hk _).trans (depth_mono l3 d1) (depth_mono l3 d2) (depth_mono l4 d3) (valueEq_mono h l1 a b _ hn)
    (valueEq_mono h l2 b c _ hn')⟩

theorem equal_refl {h : Heap} (hk : DistinctKeys h) {a : Value} (ga : GoodKey h a) : Equal h a a := by
  obtain ⟨n, hn⟩ := depth_of_finite ga.finite
  exact ⟨n, (equivOn_values h hk n).refl hn⟩

/-- Lookup in a memory where neither the key nor the keys of the dict have changed. -/
theorem dictGet_key {h h' : Heap} (hk : DistinctKeys h) {n d : Nat} {k : Value} (gk : GoodKey h k) (dk : Depth h true n k) (uk : Unchanged h h' k)
    (ge : ∀ e ∈ h'.dict d, GoodKey h e.1) (de : ∀ e ∈ h'.dict d, Depth h true n e.1) (ue : ∀ e ∈ h'.dict d, Unchanged h h' e.1) :
    dictGet h' n d k = some (((h'.dict d).find? (fun e => decide (Equal h k e.1))).map (·.2)) := by
  unfold dictGet lookupWith
  rw [findM_congr (g := fun e => some (decide (Equal h k e.1))), findM_find]
  · rfl
  · intro e he
    rw [sameHash_unchanged n _ _ uk (ue e he), valueEq_unchanged n _ _ uk (ue e he)]
    exact same_at hk gk (ge e he) dk (de e he)

/-- What the insertion makes of the entries. -/
def putBy (p : Value → Bool) (k v : Value) : List (Value × Value) → List (Value × Value)
  | [] => [(k, v)]
  | e :: es => if p e.1 then (e.1, v) :: es else e :: putBy p k v es

theorem insertWith_putBy {f : Value → Option Bool} {p : Value → Bool} {k v : Value} {es : List (Value × Value)} (h : ∀ e ∈ es, f e.1 = some (p e.1)) :
    insertWith f k v es = some (putBy p k v es) := by
  induction es with
  | nil => rfl
  | cons e es ih =>
    simp only [insertWith, putBy]
    rw [h e List.mem_cons_self, ih fun e he => h e (List.mem_cons_of_mem _ he)]
    cases p e.1 <;> rfl

theorem mem_putBy {p : Value → Bool} {k v : Value} {es : List (Value × Value)} {e : Value × Value} (h : e ∈ putBy p k v es) :
    e = (k, v) ∨ (∃ e' ∈ es, e = (e'.1, v)) ∨ e ∈ es := by
  induction es with
  | nil => exact .inl (by simpa [putBy] using h)
  | cons x es ih =>
    simp only [putBy] at h
    split at h
    · rcases List.mem_cons.1 h with rfl | h
      · exact .inr (.inl ⟨x, List.mem_cons_self, rfl⟩)
      · exact .inr (.inr (List.mem_cons_of_mem _ h))
    · rcases List.mem_cons.1 h with rfl | h
      · exact .inr (.inr List.mem_cons_self)
      · rcases ih h with h | ⟨e', h1, h2⟩ | h
        · exact .inl h
        · exact .inr (.inl ⟨e', List.mem_cons_of_mem _ h1, h2⟩)
        · exact .inr (.inr (List.mem_cons_of_mem _ h))

theorem putBy_key {p : Value → Bool} {k v : Value} {es : List (Value × Value)} {P : Value → Prop} (hk : P k) (hes : ∀ e ∈ es, P e.1) :
    ∀ e ∈ putBy p k v es, P e.1 := by
  intro e he
  rcases mem_putBy he with rfl | ⟨e', h1, rfl⟩ | h
  · exact hk
  · exact hes e' h1
  · exact hes e h

theorem putBy_apart {h : Heap} (hk : DistinctKeys h) {k v : Value} (gk : GoodKey h k) {es : List (Value × Value)} (ge : ∀ e ∈ es, GoodKey h e.1)
    (ha : es.Pairwise (fun e e' => ¬ Equal h e.1 e'.1)) :
    (putBy (fun x => decide (Equal h k x)) k v es).Pairwise (fun e e' => ¬ Equal h e.1 e'.1) := by
  induction es with
  | nil => simp [putBy]
  | cons x es ih =>
    have hx := List.pairwise_cons.1 ha
    simp only [putBy]
    split
    · exact List.pairwise_cons.2 ⟨hx.1, hx.2⟩
    · rename_i hn
      have hn : ¬ Equal h k x.1 := fun hc => hn (decide_eq_true hc)
      refine List.pairwise_cons.2 ⟨fun e he => ?_, ih (fun e he => ge e (List.mem_cons_of_mem _ he)) hx.2⟩
      rcases mem_putBy he with rfl | ⟨e', h1, rfl⟩ | h1
      · exact fun hc => hn (equal_symm hk (ge x List.mem_cons_self) gk hc)
      · exact hx.1 e' h1
      · exact hx.1 e h1

theorem putBy_entry {h : Heap} (hk : DistinctKeys h) {k v : Value} (gk : GoodKey h k) {k' v' : Value} (gk' : GoodKey h k') {es : List (Value × Value)}
    (ge : ∀ e ∈ es, GoodKey h e.1) (ha : es.Pairwise (fun e e' => ¬ Equal h e.1 e'.1)) :
    (∃ e ∈ putBy (fun x => decide (Equal h k x)) k v es, Equal h k' e.1 ∧ e.2 = v') ↔
      if Equal h k k' then v' = v else ∃ e ∈ es, Equal h k' e.1 ∧ e.2 = v' := by
  induction es with
  | nil =>
    simp only [putBy, List.mem_singleton, exists_eq_left, List.not_mem_nil, false_and, exists_false]
    split
    · rename_i he
      exact ⟨fun h => h.2.symm, fun h => ⟨equal_symm hk gk gk' he, h.symm⟩⟩
    · rename_i he
      exact ⟨fun h => he (equal_symm hk gk' gk h.1), False.elim⟩
  | cons x es ih =>
    have hx := List.pairwise_cons.1 ha
    have gx := ge x List.mem_cons_self
    have ges := fun e he => ge e (List.mem_cons_of_mem x he)
    have ih := ih ges hx.2
    simp only [putBy, decide_eq_true_eq]
    by_cases h1 : Equal h k x.1
    · rw [if_pos h1]
      simp only [List.mem_cons, exists_eq_or_imp]
      split
      · rename_i h2
        have h3 := equal_trans hk gk' gk gx (equal_symm hk gk gk' h2) h1
        refine ⟨?_, fun h => .inl ⟨h3, h.symm⟩⟩
        rintro (⟨_, h4⟩ | ⟨e, he, h4, _⟩)
        · exact h4.symm
        · exact absurd (equal_trans hk gx gk' (ges e he) (equal_symm hk gk' gx h3) h4) (hx.1 e he)
      · rename_i h2
        have h3 : ¬ Equal h k' x.1 := fun hc => h2 (equal_trans hk gk gx gk' h1 (equal_symm hk gk' gx hc))
        simp [h3]
    · rw [if_neg h1]
      simp only [List.mem_cons, exists_eq_or_imp]
      rw [ih]
      split
      · rename_i h2
        have h3 : ¬ Equal h k' x.1 := fun hc => h1 (equal_trans hk gk gk' gx h2 hc)
        simp [h3]
      · exact Iff.rfl

theorem find_entry {h : Heap} (hk : DistinctKeys h) {k v : Value} (gk : GoodKey h k) {es : List (Value × Value)}
    (ge : ∀ e ∈ es, GoodKey h e.1) (ha : es.Pairwise (fun e e' => ¬ Equal h e.1 e'.1)) :
    (es.find? (fun e => decide (Equal h k e.1))).map (·.2) = some v ↔ ∃ e ∈ es, Equal h k e.1 ∧ e.2 = v := by
  induction es with
  | nil => simp
  | cons x es ih =>
    have hx := List.pairwise_cons.1 ha
    have gx := ge x List.mem_cons_self
    have ges := fun e he => ge e (List.mem_cons_of_mem x he)
    have ih := ih ges hx.2
    simp only [List.find?_cons, List.mem_cons, exists_eq_or_imp]
    by_cases h1 : Equal h k x.1
    · rw [decide_eq_true h1]
      simp only [Option.map_some, Option.some.injEq, h1, true_and]
      refine ⟨.inl, ?_⟩
      rintro (h | ⟨e, he, h2, _⟩)
      · exact h
      · exact absurd (equal_trans hk gx gk (ges e he) (equal_symm hk gk gx h1) h2) (hx.1 e he)
    · rw [decide_eq_false h1]
      simp only [h1, false_and, false_or]
      exact ih

end

end Hush

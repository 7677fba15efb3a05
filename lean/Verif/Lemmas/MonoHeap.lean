import Verif.Model.Lib

/-!
Comparisons of values do not depend on the bound on their depth, if it is large enough.
-/

namespace Hush

/-- The second result is the first one, unless that is missing. -/
def OLe (a b : Option α) : Prop := ∀ x, a = some x → b = some x

theorem OLe.refl (a : Option α) : OLe a a := fun _ h => h
theorem OLe.none (b : Option α) : OLe none b := fun _ h => by cases h
theorem OLe.trans {a b c : Option α} (h1 : OLe a b) (h2 : OLe b c) : OLe a c := fun x h => h2 x (h1 x h)

theorem optAnd_mono {a a' : Option Bool} {b b' : Unit → Option Bool} (ha : OLe a a') (hb : OLe (b ()) (b' ())) :
    OLe (optAnd a b) (optAnd a' b') := by
  cases a with
  | none => exact .none _
  | some x =>
    rw [ha x rfl]
    cases x with
    | false => exact .refl _
    | true => exact hb

theorem listEq_mono {f f' : α → β → Option Bool} (h : ∀ a b, OLe (f a b) (f' a b)) (as : List α) (bs : List β) :
    OLe (listEq f as bs) (listEq f' as bs) := by
  induction as generalizing bs with
  | nil => cases bs <;> exact .refl _
  | cons a as ih =>
    cases bs with
    | nil => exact .refl _
    | cons b bs => exact optAnd_mono (h a b) (ih bs)

theorem sliceEq_mono {f f' : α → β → Option Bool} (h : ∀ a b, OLe (f a b) (f' a b)) (as : List α) (bs : List β) :
    OLe (sliceEq f as bs) (sliceEq f' as bs) := by
  simp only [sliceEq]
  split
  · exact listEq_mono h as bs
  · exact .refl _

theorem findM_mono {f f' : α → Option Bool} (h : ∀ a, OLe (f a) (f' a)) (l : List α) : OLe (findM f l) (findM f' l) := by
  induction l with
  | nil => exact .refl _
  | cons a l ih =>
    simp only [findM]
    cases hf : f a with
    | none => exact .none _
    | some x =>
      rw [h a x hf]
      cases x with
      | true => exact .refl _
      | false => exact ih

theorem anyM_mono {f f' : α → Option Bool} (h : ∀ a, OLe (f a) (f' a)) (l : List α) : OLe (anyM f l) (anyM f' l) := by
  induction l with
  | nil => exact .refl _
  | cons a l ih =>
    simp only [anyM]
    cases hf : f a with
    | none => exact .none _
    | some x =>
      rw [h a x hf]
      cases x with
      | true => exact .refl _
      | false => exact ih

theorem allM_mono {f f' : α → Option Bool} (h : ∀ a, OLe (f a) (f' a)) (l : List α) : OLe (allM f l) (allM f' l) := by
  induction l with
  | nil => exact .refl _
  | cons a l ih => exact optAnd_mono (h a) ih

theorem listCmp_mono {f f' : α → β → Option Ordering} (h : ∀ a b, OLe (f a b) (f' a b)) (as : List α) (bs : List β) :
    OLe (listCmp f as bs) (listCmp f' as bs) := by
  induction as generalizing bs with
  | nil => cases bs <;> exact .refl _
  | cons a as ih =>
    cases bs with
    | nil => exact .refl _
    | cons b bs =>
      simp only [listCmp]
      cases hf : f a b with
      | none => exact .none _
      | some x =>
        rw [h a b x hf]
        cases x with
        | eq => exact ih bs
        | _ => exact .refl _

theorem pairCmp_mono {f f' : Value → Value → Option Ordering} (h : ∀ a b, OLe (f a b) (f' a b)) (a b : Value × Value) :
    OLe (pairCmp f a b) (pairCmp f' a b) := by
  simp only [pairCmp]
  cases hf : f a.1 b.1 with
  | none => exact .none _
  | some x =>
    rw [h _ _ x hf]
    cases x with
    | eq => exact h _ _
    | _ => exact .refl _

theorem omap_mono {a b : Option α} (f : α → β) (h : OLe a b) : OLe (a.map f) (b.map f) := by
  cases a with
  | none => exact .none _
  | some x => rw [h x rfl]; exact .refl _

theorem btreeInsert_mono {f f' : Value → Value → Option Ordering} (h : ∀ a b, OLe (f a b) (f' a b)) (e : Value × Value)
    (l : List (Value × Value)) : OLe (btreeInsert f e l) (btreeInsert f' e l) := by
  induction l with
  | nil => exact .refl _
  | cons x l ih =>
    simp only [btreeInsert]
    cases hf : f e.1 x.1 with
    | none => exact .none _
    | some o =>
      rw [h _ _ o hf]
      cases o with
      | gt => exact omap_mono _ ih
      | _ => exact .refl _

theorem btree_mono {f f' : Value → Value → Option Ordering} (h : ∀ a b, OLe (f a b) (f' a b)) (es : List (Value × Value)) :
    OLe (btree f es) (btree f' es) := by
  have key : ∀ (es : List (Value × Value)) (a a' : Option (List (Value × Value))), OLe a a' →
      OLe (es.foldl (fun acc e => acc.bind (btreeInsert f e)) a) (es.foldl (fun acc e => acc.bind (btreeInsert f' e)) a') := by
    intro es
    induction es with
    | nil => exact fun a a' h => h
    | cons e es ih =>
      intro a a' ha
      refine ih _ _ ?_
      cases a with
      | none => exact .none _
      | some l => rw [ha l rfl]; exact btreeInsert_mono h e l
  exact key es _ _ (.refl _)

theorem insertWith_mono {f f' : Value → Option Bool} (h : ∀ a, OLe (f a) (f' a)) (k v : Value) (l : List (Value × Value)) :
    OLe (insertWith f k v l) (insertWith f' k v l) := by
  induction l with
  | nil => exact .refl _
  | cons x l ih =>
    simp only [insertWith]
    cases hf : f x.1 with
    | none => exact .none _
    | some o =>
      rw [h _ o hf]
      cases o with
      | false => exact omap_mono _ ih
      | true => exact .refl _

theorem valueCmp_succ (h : Heap) (n : Nat) : ∀ a b, OLe (valueCmp h n a b) (valueCmp h (n + 1) a b) := by
  induction n with
  | zero => exact fun _ _ => .none _
  | succ n ih =>
    intro a b
    rw [valueCmp.eq_def h (n + 1), valueCmp.eq_def h (n + 1 + 1)]
    simp only
    cases a <;> cases b <;> simp only <;> try exact OLe.refl _
    · exact listCmp_mono ih _ _
    · rename_i a b
      cases h1 : btree (valueCmp h n) (h.dict a) with
      | none => exact .none _
      | some x =>
        rw [btree_mono ih _ x h1]
        cases h2 : btree (valueCmp h n) (h.dict b) with
        | none => exact .none _
        | some y => rw [btree_mono ih _ y h2]; exact listCmp_mono (pairCmp_mono ih) _ _
    · split
      · exact ih _ _
      · exact .refl _

theorem valueCmp_mono (h : Heap) {n m : Nat} (hn : n ≤ m) (a b) : OLe (valueCmp h n a b) (valueCmp h m a b) := by
  induction hn with
  | refl => exact .refl _
  | step _ ih => exact ih.trans (valueCmp_succ h _ a b)

theorem sameHash_succ (h : Heap) (n : Nat) : ∀ a b, OLe (sameHash h n a b) (sameHash h (n + 1) a b) := by
  induction n with
  | zero => exact fun _ _ => .none _
  | succ n ih =>
    intro a b
    rw [sameHash.eq_def h (n + 1), sameHash.eq_def h (n + 1 + 1)]
    simp only
    cases a <;> cases b <;> (try simp only) <;> try exact OLe.refl _
    · exact sliceEq_mono ih _ _
    · rename_i a b
      cases h1 : btree (valueCmp h n) (h.dict a) with
      | none => exact .none _
      | some x =>
        rw [btree_mono (valueCmp_succ h n) _ x h1]
        cases h2 : btree (valueCmp h n) (h.dict b) with
        | none => exact .none _
        | some y =>
          rw [btree_mono (valueCmp_succ h n) _ y h2]
          exact sliceEq_mono (fun p q => optAnd_mono (ih _ _) (ih _ _)) _ _
    · rename_i f g
      cases f <;> cases g <;> exact .refl _
    · exact optAnd_mono (.refl _) (ih _ _)

theorem sameHash_mono (h : Heap) {n m : Nat} (hn : n ≤ m) (a b) : OLe (sameHash h n a b) (sameHash h m a b) := by
  induction hn with
  | refl => exact .refl _
  | step _ ih => exact ih.trans (sameHash_succ h _ a b)

theorem lookupWith_mono {f f' g g' : Value → Value → Option Bool} (hf : ∀ a b, OLe (f a b) (f' a b))
    (hg : ∀ a b, OLe (g a b) (g' a b)) (es k) : OLe (lookupWith f g es k) (lookupWith f' g' es k) :=
  findM_mono (fun _ => optAnd_mono (hg _ _) (hf _ _)) es

theorem valueEq_succ (h : Heap) (n : Nat) : ∀ a b, OLe (valueEq h n a b) (valueEq h (n + 1) a b) := by
  induction n with
  | zero => exact fun _ _ => .none _
  | succ n ih =>
    intro a b
    rw [valueEq.eq_def h (n + 1), valueEq.eq_def h (n + 1 + 1)]
    simp only
    cases a <;> cases b <;> (try simp only) <;> try exact OLe.refl _
    · exact sliceEq_mono ih _ _
    · rename_i a b
      split
      · refine allM_mono (fun e => ?_) _
        cases h1 : lookupWith (valueEq h n) (sameHash h n) (h.dict b) e.1 with
        | none => exact .none _
        | some x =>
          rw [lookupWith_mono ih (sameHash_succ h n) _ _ x h1]
          cases x with
          | none => exact .refl _
          | some e' => exact ih _ _
      · exact .refl _
    · rename_i f g
      cases f <;> cases g <;> simp only <;> try exact OLe.refl _
      split
      · exact sliceEq_mono (fun p q => optAnd_mono (ih _ _) (.refl _)) _ _
      · exact .refl _
    · exact optAnd_mono (.refl _) (ih _ _)

theorem valueEq_mono (h : Heap) {n m : Nat} (hn : n ≤ m) (a b) : OLe (valueEq h n a b) (valueEq h m a b) := by
  induction hn with
  | refl => exact .refl _
  | step _ ih => exact ih.trans (valueEq_succ h _ a b)

theorem dictGet_mono (h : Heap) {n m : Nat} (hn : n ≤ m) (d k) : OLe (dictGet h n d k) (dictGet h m d k) :=
  omap_mono _ (lookupWith_mono (valueEq_mono h hn) (sameHash_mono h hn) _ _)

theorem dictInsert_mono (h : Heap) {n m : Nat} (hn : n ≤ m) (es k v) : OLe (dictInsert h n es k v) (dictInsert h m es k v) :=
  insertWith_mono (fun _ => optAnd_mono (sameHash_mono h hn _ _) (valueEq_mono h hn _ _)) _ _ _

theorem touches_succ (h : Heap) (t : Nat ⊕ Nat) (n : Nat) : ∀ v, OLe (touches h t n v) (touches h t (n + 1) v) := by
  induction n with
  | zero => exact fun _ => .none _
  | succ n ih =>
    intro v
    rw [touches.eq_def h t (n + 1), touches.eq_def h t (n + 1 + 1)]
    simp only
    cases v <;> simp only <;> try exact OLe.refl _
    · split
      · exact .refl _
      · exact anyM_mono ih _
    · split
      · exact .refl _
      · refine anyM_mono (fun e => ?_) _
        cases h1 : touches h t n e.1 with
        | none => exact .none _
        | some x =>
          rw [ih _ x h1]
          cases x with
          | false => exact ih _
          | true => exact .refl _
    · exact ih _

theorem touches_mono (h : Heap) (t : Nat ⊕ Nat) {n m : Nat} (hn : n ≤ m) (v) : OLe (touches h t n v) (touches h t m v) := by
  induction hn with
  | refl => exact .refl _
  | step _ ih => exact ih.trans (touches_succ h t _ v)

theorem findError_succ (h : Heap) (n : Nat) : ∀ v, OLe (Lib.findError h n v) (Lib.findError h (n + 1) v) := by
  induction n with
  | zero => exact fun _ => .none _
  | succ n ih =>
    intro v
    rw [Lib.findError.eq_def h (n + 1), Lib.findError.eq_def h (n + 1 + 1)]
    simp only
    cases v <;> simp only <;> try exact OLe.refl _
    · exact anyM_mono ih _
    · refine anyM_mono (fun e => ?_) _
      cases h1 : Lib.findError h n e.1 with
      | none => exact .none _
      | some x =>
        rw [ih _ x h1]
        cases x with
        | false => exact ih _
        | true => exact .refl _

theorem findError_mono (h : Heap) {n m : Nat} (hn : n ≤ m) (v) : OLe (Lib.findError h n v) (Lib.findError h m v) := by
  induction hn with
  | refl => exact .refl _
  | step _ ih => exact ih.trans (findError_succ h _ v)

/-! ### Text -/

theorem all_mono {f g : α → Option Bytes} (h : ∀ a, OLe (f a) (g a)) : ∀ l, OLe (Show.all f l) (Show.all g l)
  | [] => .refl _
  | x :: xs => by
    simp only [Show.all]
    cases h1 : f x with
    | none => exact .none _
    | some t =>
      rw [h x t h1]
      cases h2 : Show.all f xs with
      | none => exact .none _
      | some ts => rw [all_mono h xs ts h2]; exact .refl _

theorem show_succ (w : World) (h : Heap) (n : Nat) : ∀ v, OLe (Show.value w h n v) (Show.value w h (n + 1) v) := by
  induction n with
  | zero => exact fun _ => .none _
  | succ n ih =>
    intro v
    rw [Show.value.eq_def w h (n + 1), Show.value.eq_def w h (n + 1 + 1)]
    simp only
    cases v <;> simp only <;> try exact OLe.refl _
    · exact omap_mono _ (all_mono ih _)
    · refine omap_mono _ (all_mono (fun e => ?_) _)
      cases h1 : Show.value w h n e.1 with
      | none => exact .none _
      | some t => rw [ih _ t h1]; exact omap_mono _ (ih _)
    · exact omap_mono _ (ih _)

theorem show_mono (w : World) (h : Heap) {n m : Nat} (hn : n ≤ m) (v) : OLe (Show.value w h n v) (Show.value w h m v) := by
  induction hn with
  | refl => exact .refl _
  | step _ ih => exact ih.trans (show_succ w h _ v)

/-! ### JSON -/

/-- The relation for texts. -/
def TextLe (a b : Except Json.EncStop α) : Prop := a = .error .deep ∨ a = b

theorem encodeAll_mono {f g : α → Except Json.EncStop Bytes} (hf : ∀ x, TextLe (f x) (g x)) (xs : List α) :
    TextLe (Json.encodeAll f xs) (Json.encodeAll g xs) := by
  induction xs with
  | nil => exact .inr rfl
  | cons x xs ih =>
    simp only [Json.encodeAll]
    rcases hf x with h | h
    · rw [h]; exact .inl rfl
    · rw [h]
      cases g x with
      | error e => exact .inr rfl
      | ok t =>
        rcases ih with h | h <;> rw [h]
        · exact .inl rfl
        · exact .inr rfl

theorem encode_succ (w : World) (h : Heap) (n : Nat) : ∀ d v, TextLe (Json.encode w h n d v) (Json.encode w h (n + 1) d v) := by
  induction n with
  | zero => exact fun _ _ => .inl rfl
  | succ n ih =>
    intro d v
    rw [Json.encode.eq_def w h (n + 1), Json.encode.eq_def w h (n + 1 + 1)]
    simp only
    cases v <;> simp only <;> try exact .inr rfl
    · rename_i a
      rcases encodeAll_mono (ih (d + 1)) (h.array a) with h | h <;> rw [h]
      · exact .inl rfl
      · exact .inr rfl
    · rename_i a
      have : ∀ e, TextLe (Json.encodeEntry (Json.encode w h n (d + 1)) e) (Json.encodeEntry (Json.encode w h (n + 1) (d + 1)) e) := by
        intro e
        simp only [Json.encodeEntry]
        split
        · rcases ih (d + 1) e.2 with h | h <;> rw [h]
          · exact .inl rfl
          · exact .inr rfl
        · exact .inr rfl
      rcases encodeAll_mono this (h.dict a) with h | h <;> rw [h]
      · exact .inl rfl
      · exact .inr rfl

theorem encode_mono (w : World) (h : Heap) {n m : Nat} (hn : n ≤ m) (d v) (hd : Json.encode w h n d v ≠ .error .deep) :
    Json.encode w h n d v = Json.encode w h m d v := by
  induction hn with
  | refl => rfl
  | @step m _ ih =>
    rcases encode_succ w h m d v with h | h
    · rw [ih] at hd; exact absurd h hd
    · rw [ih, h]

theorem sortValues_mono (h : Heap) {n m : Nat} (hn : n ≤ m) (vs) : OLe (Lib.sortValues h n vs) (Lib.sortValues h m vs) := by
  simp only [Lib.sortValues]
  split
  · rename_i h1
    have key : ∀ a ∈ vs, ∀ b ∈ vs, valueCmp h n a b = valueCmp h m a b := by
      intro a ha b hb
      have := List.all_eq_true.1 (List.all_eq_true.1 h1 a ha) b hb
      cases hc : valueCmp h n a b with
      | none => rw [hc] at this; cases this
      | some x => rw [valueCmp_mono h hn a b x hc]
    have h2 : vs.all (fun a => vs.all (fun b => (valueCmp h m a b).isSome)) = true := by
      rw [List.all_eq_true] at h1 ⊢
      intro a ha
      have := h1 a ha
      rw [List.all_eq_true] at this ⊢
      intro b hb
      rw [← key a ha b hb]; exact this b hb
    rw [if_pos h2]
    have := List.map_mergeSort (r := fun a b => valueCmp h n a b != some .gt) (s := fun a b => valueCmp h m a b != some .gt)
      (f := id) (l := vs) (fun a ha b hb => by simp only [id, key a ha b hb])
    simp only [List.map_id] at this
    rw [this]
    exact .refl _
  · exact .none _

end Hush

import Verif.Lemmas.Order

/-!
Equality of values.
-/

namespace Hush
open Hush.Spec

/-- The test is an equivalence on the given items. -/
structure EquivOn (f : α → α → Option Bool) (S : α → Prop) : Prop where
  total : ∀ {a b}, S a → S b → ∃ o, f a b = some o
  refl : ∀ {a}, S a → f a a = some true
  symm : ∀ {a b}, S a → S b → f a b = some true → f b a = some true
  trans : ∀ {a b c}, S a → S b → S c → f a b = some true → f b c = some true → f a c = some true

namespace EquivOn
variable {f : α → α → Option Bool} {S : α → Prop}

theorem subset (h : EquivOn f S) {T : α → Prop} (ht : ∀ a, T a → S a) : EquivOn f T where
  total a b := h.total (ht _ a) (ht _ b)
  refl a := h.refl (ht _ a)
  symm a b := h.symm (ht _ a) (ht _ b)
  trans a b c := h.trans (ht _ a) (ht _ b) (ht _ c)

theorem comap (h : EquivOn f S) (g : β → α) : EquivOn (fun a b => f (g a) (g b)) (fun a => S (g a)) where
  total a b := h.total a b
  refl a := h.refl a
  symm a b := h.symm a b
  trans a b c := h.trans a b c

theorem image {g : β → α} {T : β → Prop} (h : EquivOn (fun a b => f (g a) (g b)) T) : EquivOn f (fun a => ∃ x, T x ∧ a = g x) where
  total := by
    rintro _ _ ⟨x, hx, rfl⟩ ⟨y, hy, rfl⟩
    exact h.total hx hy
  refl := by
    rintro _ ⟨x, hx, rfl⟩
    exact h.refl hx
  symm := by
    rintro _ _ ⟨x, hx, rfl⟩ ⟨y, hy, rfl⟩
    exact h.symm hx hy
  trans := by
    rintro _ _ _ ⟨x, hx, rfl⟩ ⟨y, hy, rfl⟩ ⟨z, hz, rfl⟩
    exact h.trans hx hy hz

end EquivOn

/-- Items are the same if something about them is. -/
theorem equivOn_key [BEq β] [LawfulBEq β] (g : α → β) (S : α → Prop) : EquivOn (fun a b => some (g a == g b)) S where
  total _ _ := ⟨_, rfl⟩
  refl _ := by simp
  symm _ _ h := by simp at h ⊢; exact h.symm
  trans _ _ _ h1 h2 := by simp at h1 h2 ⊢; exact h1.trans h2

theorem equivOn_and {f g : α → α → Option Bool} {S : α → Prop} (hf : EquivOn f S) (hg : EquivOn g S) :
    EquivOn (fun a b => optAnd (f a b) (fun _ => g a b)) S := by
  have key : ∀ {a b}, optAnd (f a b) (fun _ => g a b) = some true ↔ f a b = some true ∧ g a b = some true := by
    intro a b
    cases hfab : f a b with
    | none => simp [optAnd]
    | some r => cases r <;> simp [optAnd]
  constructor
  · intro a b ha hb
    obtain ⟨o, ho⟩ := hf.total ha hb
    rw [ho]
    cases o
    · exact ⟨_, rfl⟩
    · exact hg.total ha hb
  · intro a ha
    exact key.2 ⟨hf.refl ha, hg.refl ha⟩
  · intro a b ha hb h
    exact key.2 ⟨hf.symm ha hb (key.1 h).1, hg.symm ha hb (key.1 h).2⟩
  · intro a b c ha hb hc h h'
    exact key.2 ⟨hf.trans ha hb hc (key.1 h).1 (key.1 h').1, hg.trans ha hb hc (key.1 h).2 (key.1 h').2⟩

theorem optAnd_true {a : Option Bool} {b : Unit → Option Bool} : optAnd a b = some true ↔ a = some true ∧ b () = some true := by
  cases a with
  | none => simp [optAnd]
  | some r => cases r <;> simp [optAnd]

theorem equivOn_list {f : α → α → Option Bool} {S : α → Prop} (hf : EquivOn f S) : EquivOn (listEq f) (fun l => ∀ a ∈ l, S a) where
  total {l1 l2} h1 h2 := by
    induction l1 generalizing l2 with
    | nil => cases l2 <;> exact ⟨_, rfl⟩
    | cons a l1 ih =>
      cases l2 with
      | nil => exact ⟨_, rfl⟩
      | cons b l2 =>
        obtain ⟨o, ho⟩ := hf.total (h1 a List.mem_cons_self) (h2 b List.mem_cons_self)
        simp only [listEq, ho]
        cases o
        · exact ⟨_, rfl⟩
        · exact ih (fun x hx => h1 x (List.mem_cons_of_mem _ hx)) (fun x hx => h2 x (List.mem_cons_of_mem _ hx))
  refl {l} h := by
    induction l with
    | nil => rfl
    | cons a l ih => exact optAnd_true.2 ⟨hf.refl (h a List.mem_cons_self), ih fun x hx => h x (List.mem_cons_of_mem _ hx)⟩
  symm {l1 l2} h1 h2 h := by
    induction l1 generalizing l2 with
    | nil => cases l2 <;> first | rfl | cases h
    | cons a l1 ih =>
      cases l2 with
      | nil => cases h
      | cons b l2 =>
        obtain ⟨h3, h4⟩ := optAnd_true.1 h
        exact optAnd_true.2 ⟨hf.symm (h1 a List.mem_cons_self) (h2 b List.mem_cons_self) h3,
          ih (fun x hx => h1 x (List.mem_cons_of_mem _ hx)) (fun x hx => h2 x (List.mem_cons_of_mem _ hx)) h4⟩
  trans {l1 l2 l3} h1 h2 h3 h h' := by
    induction l1 generalizing l2 l3 with
    | nil =>
      cases l2 with
      | nil => exact h'
      | cons b l2 => cases h
    | cons a l1 ih =>
      cases l2 with
      | nil => cases h
      | cons b l2 =>
        cases l3 with
        | nil => cases h'
        | cons c l3 =>
          obtain ⟨h4, h5⟩ := optAnd_true.1 h
          obtain ⟨h6, h7⟩ := optAnd_true.1 h'
          exact optAnd_true.2 ⟨hf.trans (h1 a List.mem_cons_self) (h2 b List.mem_cons_self) (h3 c List.mem_cons_self) h4 h6,
            ih (fun x hx => h1 x (List.mem_cons_of_mem _ hx)) (fun x hx => h2 x (List.mem_cons_of_mem _ hx))
              (fun x hx => h3 x (List.mem_cons_of_mem _ hx)) h5 h7⟩

theorem equivOn_slice {f : α → α → Option Bool} {S : α → Prop} (hf : EquivOn f S) : EquivOn (sliceEq f) (fun l => ∀ a ∈ l, S a) := by
  have h := equivOn_list hf
  have key : ∀ {l l'}, sliceEq f l l' = some true ↔ l.length = l'.length ∧ listEq f l l' = some true := by
    intro l l'
    simp only [sliceEq]
    split <;> simp_all
  constructor
  · intro a b ha hb
    simp only [sliceEq]
    split
    · exact h.total ha hb
    · exact ⟨_, rfl⟩
  · intro a ha; exact key.2 ⟨rfl, h.refl ha⟩
  · intro a b ha hb h1
    exact key.2 ⟨(key.1 h1).1.symm, h.symm ha hb (key.1 h1).2⟩
  · intro a b c ha hb hc h1 h2
    exact key.2 ⟨(key.1 h1).1.trans (key.1 h2).1, h.trans ha hb hc (key.1 h1).2 (key.1 h2).2⟩

/-- The kind of a value: equal values have the same. -/
def Value.kind : Value → Nat
  | .function (.native _ _) => 10
  | v => v.rank

theorem equivOn_kinds {f : Value → Value → Option Bool} {S : Value → Prop} (hf : ∀ a b : Value, a.kind ≠ b.kind → f a b = some false)
    (hs : ∀ v, S v → EquivOn f (fun x => S x ∧ x.kind = v.kind)) : EquivOn f S := by
  have hk : ∀ {a b}, f a b = some true → a.kind = b.kind := by
    intro a b h
    by_cases hk : a.kind = b.kind
    · exact hk
    · rw [hf a b hk] at h; cases h
  constructor
  · intro a b ha hb
    by_cases hk : a.kind = b.kind
    · exact (hs b hb).total ⟨ha, hk⟩ ⟨hb, rfl⟩
    · exact ⟨_, hf a b hk⟩
  · intro a ha; exact (hs a ha).refl ⟨ha, rfl⟩
  · intro a b ha hb h
    exact (hs b hb).symm ⟨ha, hk h⟩ ⟨hb, rfl⟩ h
  · intro a b c ha hb hc h1 h2
    exact (hs b hb).trans ⟨ha, hk h1⟩ ⟨hb, rfl⟩ ⟨hc, (hk h2).symm⟩ h1 h2

theorem sameHash_kind (h : Heap) (n : Nat) (a b : Value) (hk : a.kind ≠ b.kind) : sameHash h (n + 1) a b = some false := by
  cases a with
  | function f =>
    cases b with
    | function g => cases f <;> cases g <;> first | rfl | exact absurd rfl hk
    | _ => cases f <;> rfl
  | _ => cases b with
    | function g => cases g <;> rfl
    | _ => first | rfl | exact absurd rfl hk

theorem valueEq_kind (h : Heap) (n : Nat) (a b : Value) (hk : a.kind ≠ b.kind) : valueEq h (n + 1) a b = some false := by
  cases a with
  | function f =>
    cases b with
    | function g => cases f <;> cases g <;> first | rfl | exact absurd rfl hk
    | _ => cases f <;> rfl
  | _ => cases b with
    | function g => cases g <;> rfl
    | _ => first | rfl | exact absurd rfl hk

theorem equivOn_const (S : α → Prop) : EquivOn (fun _ _ => some true) S :=
  ⟨fun _ _ => ⟨_, rfl⟩, fun _ => rfl, fun _ _ _ => rfl, fun _ _ _ _ _ => rfl⟩

theorem equivOn_pair {f g : Value → Value → Option Bool} {S : Value → Prop} (hf : EquivOn f S) (hg : EquivOn g S) :
    EquivOn (fun p q : Value × Value => optAnd (f p.1 q.1) (fun _ => g p.2 q.2)) (fun e => S e.1 ∧ S e.2) :=
  equivOn_and ((hf.comap (Prod.fst (β := Value))).subset fun _ h => h.1) ((hg.comap (Prod.snd (α := Value))).subset fun _ h => h.2)

theorem equivOn_hash (h : Heap) (b : Bool) : ∀ n, EquivOn (sameHash h n) (Depth h b n) := by
  intro n
  induction n with
  | zero => exact ⟨fun h => h.elim, fun h => h.elim, fun h => h.elim, fun h => h.elim⟩
  | succ n ih =>
    refine equivOn_kinds (sameHash_kind h n) fun v hv => ?_
    cases v with
    | nil =>
      refine (EquivOn.image (g := fun _ : Unit => Value.nil) (T := fun _ => True) ?_).subset ?_
      · exact equivOn_const _
      · rintro x ⟨_, hr⟩
        cases x with
        | function f => cases f <;> cases hr
        | _ => first | exact ⟨(), trivial, rfl⟩ | cases hr
    | bool c =>
      refine (EquivOn.image (g := Value.bool) (T := fun _ => True) ?_).subset ?_
      · exact equivOn_key id _
      · rintro x ⟨_, hr⟩
        cases x with
        | function f => cases f <;> cases hr
        | _ => first | exact ⟨_, trivial, rfl⟩ | cases hr
    | byte c =>
      refine (EquivOn.image (g := Value.byte) (T := fun _ => True) ?_).subset ?_
      · exact equivOn_key id _
      · rintro x ⟨_, hr⟩
        cases x with
        | function f => cases f <;> cases hr
        | _ => first | exact ⟨_, trivial, rfl⟩ | cases hr
    | int c =>
      refine (EquivOn.image (g := Value.int) (T := fun _ => True) ?_).subset ?_
      · exact equivOn_key id _
      · rintro x ⟨_, hr⟩
        cases x with
        | function f => cases f <;> cases hr
        | _ => first | exact ⟨_, trivial, rfl⟩ | cases hr
    | float c =>
      refine (EquivOn.image (g := Value.float) (T := fun _ => True) ?_).subset ?_
      · exact equivOn_key floatHashed _
      · rintro x ⟨_, hr⟩
        cases x with
        | function f => cases f <;> cases hr
        | _ => first | exact ⟨_, trivial, rfl⟩ | cases hr
    | string c =>
      refine (EquivOn.image (g := Value.string) (T := fun _ => True) ?_).subset ?_
      · exact equivOn_key id _
      · rintro x ⟨_, hr⟩
        cases x with
        | function f => cases f <;> cases hr
        | _ => first | exact ⟨_, trivial, rfl⟩ | cases hr
    | array c =>
      refine (EquivOn.image (g := Value.array) (T := fun a => ∀ v ∈ h.array a, Depth h b n v) ?_).subset ?_
      · exact (equivOn_slice ih).comap h.array
      · rintro x ⟨hx, hr⟩
        cases x with
        | function f => cases f <;> cases hr
        | _ => first | exact ⟨_, hx, rfl⟩ | cases hr
    | dict c =>
      refine (EquivOn.image (g := Value.dict) (T := fun d => ∀ e ∈ h.dict d, Depth h b n e.1 ∧ Depth h b n e.2) ?_).subset ?_
      · have h1 := (equivOn_slice (equivOn_pair ih ih)).comap (fun d => (btree (valueCmp h n) (h.dict d)).getD [])
        have h2 : ∀ {d}, (∀ e ∈ h.dict d, Depth h b n e.1 ∧ Depth h b n e.2) →
            ∃ l, btree (valueCmp h n) (h.dict d) = some l ∧ ∀ e ∈ l, Depth h b n e.1 ∧ Depth h b n e.2 :=
          fun hd => btree_total (totalOn_values h b n) _ hd
        have h3 : ∀ {d}, (∀ e ∈ h.dict d, Depth h b n e.1 ∧ Depth h b n e.2) →
            ∀ e ∈ (btree (valueCmp h n) (h.dict d)).getD [], Depth h b n e.1 ∧ Depth h b n e.2 := by
          intro d hd
          obtain ⟨l, hl, hl'⟩ := h2 hd
          rw [hl]
          exact hl'
        have h4 : ∀ {d d'}, (∀ e ∈ h.dict d, Depth h b n e.1 ∧ Depth h b n e.2) → (∀ e ∈ h.dict d', Depth h b n e.1 ∧ Depth h b n e.2) →
            sameHash h (n + 1) (.dict d) (.dict d') =
              sliceEq (fun p q : Value × Value => optAnd (sameHash h n p.1 q.1) (fun _ => sameHash h n p.2 q.2))
                ((btree (valueCmp h n) (h.dict d)).getD []) ((btree (valueCmp h n) (h.dict d')).getD []) := by
          intro d d' hd hd'
          obtain ⟨l, hl, _⟩ := h2 hd
          obtain ⟨l', hl', _⟩ := h2 hd'
          simp only [sameHash, hl, hl', Option.getD_some]
        constructor
        · intro d d' hd hd'
          rw [h4 hd hd']
          exact h1.total (h3 hd) (h3 hd')
        · intro d hd
          rw [h4 hd hd]
          exact h1.refl (h3 hd)
        · intro d d' hd hd'
          rw [h4 hd hd', h4 hd' hd]
          exact h1.symm (h3 hd) (h3 hd')
        · intro d d' d'' hd hd' hd''
          rw [h4 hd hd', h4 hd hd'', h4 hd' hd'']
          exact h1.trans (h3 hd) (h3 hd') (h3 hd'')
      · rintro x ⟨hx, hr⟩
        cases x with
        | function f => cases f <;> cases hr
        | _ => first | exact ⟨_, hx, rfl⟩ | cases hr
    | function f =>
      cases f with
      | hush f =>
        refine (EquivOn.image (g := fun f => Value.function (.hush f)) (T := fun _ => True) ?_).subset ?_
        · have : (fun f g => sameHash h (n + 1) (.function (.hush f)) (.function (.hush g))) =
              fun f g => some (((h.closure f).module, (h.closure f).pos) == ((h.closure g).module, (h.closure g).pos)) := rfl
          rw [this]
          exact equivOn_key (fun f => ((h.closure f).module, (h.closure f).pos)) _
        · rintro x ⟨_, hr⟩
          cases x with
          | function f => cases f <;> first | exact ⟨_, trivial, rfl⟩ | cases hr
          | _ => cases hr
      | native name _ =>
        refine (EquivOn.image (g := fun p : Bytes × Nat => Value.function (.native p.1 p.2)) (T := fun _ => True) ?_).subset ?_
        · exact equivOn_key (fun p : Bytes × Nat => p.1) _
        · rintro x ⟨_, hr⟩
          cases x with
          | function f => cases f <;> first | exact ⟨(_, _), trivial, rfl⟩ | cases hr
          | _ => cases hr
    | error c d =>
      refine (EquivOn.image (g := fun p : Bytes × Nat => Value.error p.1 p.2) (T := fun p => Depth h b n (h.context p.2)) ?_).subset ?_
      · exact equivOn_and (equivOn_key (fun p : Bytes × Nat => p.1) _) (ih.comap fun p : Bytes × Nat => h.context p.2)
      · rintro x ⟨hx, hr⟩
        cases x with
        | function f => cases f <;> cases hr
        | error d c => exact ⟨(d, c), hx, rfl⟩
        | _ => cases hr

/-! ### Dicts -/

/-- Whether a dict has an equal entry for each entry of another one. -/
def dictEqWith (same eq : Value → Value → Option Bool) (es es' : List (Value × Value)) : Option Bool :=
  if es.length = es'.length then
    allM (fun e =>
      match findM (fun e' => same e.1 e'.1) es' with
      | none => none
      | some none => some false
      | some (some e') => eq e.2 e'.2) es
  else some false

theorem findM_total {f : α → Option Bool} {l : List α} (h : ∀ x ∈ l, ∃ r, f x = some r) :
    (∃ x ∈ l, f x = some true ∧ findM f l = some (some x)) ∨ (∀ x ∈ l, f x = some false) ∧ findM f l = some none := by
  induction l with
  | nil => exact .inr ⟨by simp, rfl⟩
  | cons x l ih =>
    obtain ⟨r, hr⟩ := h x List.mem_cons_self
    cases r
    · simp only [findM, hr]
      rcases ih fun y hy => h y (List.mem_cons_of_mem _ hy) with ⟨y, hy, h1, h2⟩ | ⟨h1, h2⟩
      · exact .inl ⟨y, List.mem_cons_of_mem _ hy, h1, h2⟩
      · refine .inr ⟨?_, h2⟩
        intro y hy
        rcases List.mem_cons.1 hy with rfl | hy
        · exact hr
        · exact h1 y hy
    · exact .inl ⟨x, List.mem_cons_self, hr, by simp only [findM, hr]⟩

theorem allM_true {f : α → Option Bool} {l : List α} : allM f l = some true ↔ ∀ x ∈ l, f x = some true := by
  induction l with
  | nil => simp [allM]
  | cons x l ih => rw [allM, optAnd_true, ih]; simp

theorem allM_total {f : α → Option Bool} {l : List α} (h : ∀ x ∈ l, ∃ r, f x = some r) : ∃ r, allM f l = some r := by
  induction l with
  | nil => exact ⟨_, rfl⟩
  | cons x l ih =>
    obtain ⟨r, hr⟩ := h x List.mem_cons_self
    simp only [allM, hr]
    cases r
    · exact ⟨_, rfl⟩
    · exact ih fun y hy => h y (List.mem_cons_of_mem _ hy)

/-- The keys are different. -/
def Apart (same : Value → Value → Option Bool) (es : List (Value × Value)) : Prop :=
  es.Pairwise (fun e e' => same e.1 e'.1 ≠ some true)

/-- Each entry of one list has an equal one in the other list. -/
def Covers (same eq : Value → Value → Option Bool) (es es' : List (Value × Value)) : Prop :=
  ∀ e ∈ es, ∃ e' ∈ es', same e.1 e'.1 = some true ∧ eq e.2 e'.2 = some true

theorem apart_unique {same : Value → Value → Option Bool} {S : Value → Prop} (hs : EquivOn same S) {es : List (Value × Value)}
    (hes : ∀ e ∈ es, S e.1) (ha : Apart same es) {e e' : Value × Value} (he : e ∈ es) (he' : e' ∈ es) (h : same e.1 e'.1 = some true) :
    e = e' := by
  induction es with
  | nil => cases he
  | cons x es ih =>
    have hx := List.pairwise_cons.1 ha
    rcases List.mem_cons.1 he with rfl | he1
    · rcases List.mem_cons.1 he' with rfl | he2
      · rfl
      · exact absurd h (hx.1 _ he2)
    · rcases List.mem_cons.1 he' with rfl | he2
      · exact absurd (hs.symm (hes _ he) (hes _ he') h) (hx.1 _ he1)
      · exact ih (fun y hy => hes y (List.mem_cons_of_mem _ hy)) hx.2 he1 he2

theorem dictEq_true {same eq : Value → Value → Option Bool} {S : Value → Prop} (hs : EquivOn same S) {es es' : List (Value × Value)}
    (h : ∀ e ∈ es, S e.1 ∧ S e.2) (h' : ∀ e ∈ es', S e.1 ∧ S e.2) (ha : Apart same es') :
    dictEqWith same eq es es' = some true ↔ es.length = es'.length ∧ Covers same eq es es' := by
  unfold dictEqWith
  split
  · rename_i hl
    rw [allM_true]
    refine ⟨fun h1 => ⟨hl, fun e he => ?_⟩, fun h1 e he => ?_⟩
    · have h2 := h1 e he
      rcases findM_total (f := fun e' => same e.1 e'.1) (l := es') (fun x hx => hs.total (h e he).1 (h' x hx).1) with ⟨x, hx, h3, h4⟩ | ⟨_, h4⟩
      · rw [h4] at h2
        exact ⟨x, hx, h3, h2⟩
      · rw [h4] at h2
        cases h2
    · obtain ⟨x, hx, h3, h4⟩ := h1.2 e he
      rcases findM_total (f := fun e' => same e.1 e'.1) (l := es') (fun x hx => hs.total (h e he).1 (h' x hx).1) with ⟨y, hy, h5, h6⟩ | ⟨h5, _⟩
      · rw [h6]
        have : x = y := apart_unique hs (fun z hz => (h' z hz).1) ha hx hy
          (hs.trans (h' x hx).1 (h e he).1 (h' y hy).1 (hs.symm (h e he).1 (h' x hx).1 h3) h5)
        subst this
        exact h4
      · rw [h5 x hx] at h3
        cases h3
  · rename_i hl
    simp [hl]

theorem covers_symm {same eq : Value → Value → Option Bool} {S : Value → Prop} (hs : EquivOn same S) (he : EquivOn eq S)
    {es es' : List (Value × Value)} (h : ∀ e ∈ es, S e.1 ∧ S e.2) (h' : ∀ e ∈ es', S e.1 ∧ S e.2) (ha : Apart same es)
    (hl : es.length = es'.length) (hc : Covers same eq es es') : Covers same eq es' es := by
  induction es generalizing es' with
  | nil =>
    cases es' with
    | nil => nofun
    | cons _ _ => cases hl
  | cons x es ih =>
    obtain ⟨y, hy, h1, h2⟩ := hc x List.mem_cons_self
    have hx := h x List.mem_cons_self
    obtain ⟨l1, l2, rfl⟩ := List.append_of_mem hy
    have hyS := h' y hy
    have hsub : ∀ z ∈ l1 ++ l2, z ∈ l1 ++ y :: l2 := by
      intro z hz
      simp only [List.mem_append, List.mem_cons] at hz ⊢
      rcases hz with hz | hz
      · exact .inl hz
      · exact .inr (.inr hz)
    have hap := List.pairwise_cons.1 ha
    have key : Covers same eq (l1 ++ l2) es := by
      refine ih (es' := l1 ++ l2) (fun z hz => h z (List.mem_cons_of_mem _ hz)) (fun z hz => h' z (hsub z hz)) hap.2 ?_ ?_
      · simp only [List.length_cons, List.length_append] at hl ⊢
        omega
      · intro z hz
        obtain ⟨y', hy', h3, h4⟩ := hc z (List.mem_cons_of_mem _ hz)
        have hzS := h z (List.mem_cons_of_mem _ hz)
        have hne : y' ≠ y := by
          rintro rfl
          exact hap.1 z hz (hs.trans hx.1 hyS.1 hzS.1 h1 (hs.symm hzS.1 hyS.1 h3))
        refine ⟨y', ?_, h3, h4⟩
        simp only [List.mem_append, List.mem_cons] at hy' ⊢
        rcases hy' with hy' | hy' | hy'
        · exact .inl hy'
        · exact absurd hy' hne
        · exact .inr hy'
    intro z hz
    by_cases hzy : z = y
    · subst hzy
      exact ⟨x, List.mem_cons_self, hs.symm hx.1 hyS.1 h1, he.symm hx.2 hyS.2 h2⟩
    · obtain ⟨u, hu, h3⟩ := key z (by
        simp only [List.mem_append, List.mem_cons] at hz ⊢
        rcases hz with hz | hz | hz
        · exact .inl hz
        · exact absurd hz hzy
        · exact .inr hz)
      exact ⟨u, List.mem_cons_of_mem _ hu, h3⟩

theorem equivOn_dict {same eq : Value → Value → Option Bool} {S : Value → Prop} (hs : EquivOn same S) (he : EquivOn eq S) :
    EquivOn (dictEqWith same eq) (fun es => (∀ e ∈ es, S e.1 ∧ S e.2) ∧ Apart same es) := by
  constructor
  · rintro es es' ⟨h, _⟩ ⟨h', _⟩
    unfold dictEqWith
    split
    · refine allM_total fun e he1 => ?_
      rcases findM_total (f := fun e' => same e.1 e'.1) (l := es') (fun x hx => hs.total (h e he1).1 (h' x hx).1) with ⟨x, hx, _, h4⟩ | ⟨_, h4⟩
      · rw [h4]
        exact he.total (h e he1).2 (h' x hx).2
      · rw [h4]
        exact ⟨_, rfl⟩
    · exact ⟨_, rfl⟩
  · rintro es ⟨h, ha⟩
    exact (dictEq_true hs h h ha).2 ⟨rfl, fun e he1 => ⟨e, he1, hs.refl (h e he1).1, he.refl (h e he1).2⟩⟩
  · rintro es es' ⟨h, ha⟩ ⟨h', ha'⟩ h1
    obtain ⟨h2, h3⟩ := (dictEq_true hs h h' ha').1 h1
    exact (dictEq_true hs h' h ha).2 ⟨h2.symm, covers_symm hs he h h' ha h2 h3⟩
  · rintro es es' es'' ⟨h, ha⟩ ⟨h', ha'⟩ ⟨h'', ha''⟩ h1 h2
    obtain ⟨h3, h4⟩ := (dictEq_true hs h h' ha').1 h1
    obtain ⟨h5, h6⟩ := (dictEq_true hs h' h'' ha'').1 h2
    refine (dictEq_true hs h h'' ha'').2 ⟨h3.trans h5, fun e he1 => ?_⟩
    obtain ⟨e', he', h7, h8⟩ := h4 e he1
    obtain ⟨e'', he'', h9, h10⟩ := h6 e' he'
    exact ⟨e'', he'', hs.trans (h e he1).1 (h' e' he').1 (h'' e'' he'').1 h7 h9, he.trans (h e he1).2 (h' e' he').2 (h'' e'' he'').2 h8 h10⟩

/-- Equality is an equivalence on finite values. -/
theorem equivOn_values (h : Heap) (hk : DistinctKeys h) : ∀ n, EquivOn (valueEq h n) (Depth h true n) := by
  intro n
  induction n with
  | zero => exact ⟨fun h => h.elim, fun h => h.elim, fun h => h.elim, fun h => h.elim⟩
  | succ n ih =>
    refine equivOn_kinds (valueEq_kind h n) fun v hv => ?_
    cases v with
    | nil =>
      refine (EquivOn.image (g := fun _ : Unit => Value.nil) (T := fun _ => True) ?_).subset ?_
      · exact equivOn_const _
      · rintro x ⟨_, hr⟩
        cases x with
        | function f => cases f <;> cases hr
        | _ => first | exact ⟨(), trivial, rfl⟩ | cases hr
    | bool c =>
      refine (EquivOn.image (g := Value.bool) (T := fun _ => True) ?_).subset ?_
      · exact equivOn_key id _
      · rintro x ⟨_, hr⟩
        cases x with
        | function f => cases f <;> cases hr
        | _ => first | exact ⟨_, trivial, rfl⟩ | cases hr
    | byte c =>
      refine (EquivOn.image (g := Value.byte) (T := fun _ => True) ?_).subset ?_
      · exact equivOn_key id _
      · rintro x ⟨_, hr⟩
        cases x with
        | function f => cases f <;> cases hr
        | _ => first | exact ⟨_, trivial, rfl⟩ | cases hr
    | int c =>
      refine (EquivOn.image (g := Value.int) (T := fun _ => True) ?_).subset ?_
      · exact equivOn_key id _
      · rintro x ⟨_, hr⟩
        cases x with
        | function f => cases f <;> cases hr
        | _ => first | exact ⟨_, trivial, rfl⟩ | cases hr
    | float c =>
      refine (EquivOn.image (g := Value.float) (T := fun a => floatIsNaN a = false) ?_).subset ?_
      · have h1 := equivOn_key floatKey (fun a => floatIsNaN a = false)
        have h2 : ∀ {a b}, floatIsNaN a = false → floatIsNaN b = false → valueEq h (n + 1) (.float a) (.float b) = some (floatKey a == floatKey b) := by
          intro a b ha hb
          simp [valueEq, floatEq, ha, hb]
        constructor
        · intro a b _ _; exact ⟨_, rfl⟩
        · intro a ha; rw [h2 ha ha]; exact h1.refl ha
        · intro a b ha hb; rw [h2 ha hb, h2 hb ha]; exact h1.symm ha hb
        · intro a b c ha hb hc; rw [h2 ha hb, h2 hb hc, h2 ha hc]; exact h1.trans ha hb hc
      · rintro x ⟨hx, hr⟩
        cases x with
        | function f => cases f <;> cases hr
        | _ => first | exact ⟨_, hx, rfl⟩ | cases hr
    | string c =>
      refine (EquivOn.image (g := Value.string) (T := fun _ => True) ?_).subset ?_
      · exact equivOn_key id _
      · rintro x ⟨_, hr⟩
        cases x with
        | function f => cases f <;> cases hr
        | _ => first | exact ⟨_, trivial, rfl⟩ | cases hr
    | array c =>
      refine (EquivOn.image (g := Value.array) (T := fun a => ∀ v ∈ h.array a, Depth h true n v) ?_).subset ?_
      · exact (equivOn_slice ih).comap h.array
      · rintro x ⟨hx, hr⟩
        cases x with
        | function f => cases f <;> cases hr
        | _ => first | exact ⟨_, hx, rfl⟩ | cases hr
    | dict c =>
      refine (EquivOn.image (g := Value.dict) (T := fun d => ∀ e ∈ h.dict d, Depth h true n e.1 ∧ Depth h true n e.2) ?_).subset ?_
      · have h1 := (equivOn_dict (equivOn_and (equivOn_hash h true n) ih) ih).comap h.dict
        refine h1.subset fun d hd => ⟨hd, (hk d).imp fun h1 h2 => h1 ?_⟩
        exact ⟨n, optAnd_true.1 h2⟩
      · rintro x ⟨hx, hr⟩
        cases x with
        | function f => cases f <;> cases hr
        | _ => first | exact ⟨_, hx, rfl⟩ | cases hr
    | function f =>
      cases f with
      | hush f =>
        refine (EquivOn.image (g := fun f => Value.function (.hush f)) (T := fun f => ∀ c ∈ (h.closure f).context, Depth h true n (h.cell c.1)) ?_).subset ?_
        · have h1 := equivOn_and (equivOn_key (fun f => ((h.closure f).module, (h.closure f).pos)) (fun f => ∀ c ∈ (h.closure f).context, Depth h true n (h.cell c.1)))
            ((equivOn_slice (equivOn_and (ih.comap fun p : Nat × Nat => h.cell p.1) (equivOn_key (fun p : Nat × Nat => p.2) _))).comap
              fun f => (h.closure f).context)
          have : (fun f g => valueEq h (n + 1) (.function (.hush f)) (.function (.hush g))) =
              fun f g => optAnd (some (((h.closure f).module, (h.closure f).pos) == ((h.closure g).module, (h.closure g).pos)))
                (fun _ => sliceEq (fun p q : Nat × Nat => optAnd (valueEq h n (h.cell p.1) (h.cell q.1)) (fun _ => some (p.2 == q.2)))
                  (h.closure f).context (h.closure g).context) := by
            funext f g
            show (if ((h.closure f).module, (h.closure f).pos) == ((h.closure g).module, (h.closure g).pos) then _ else _) = _
            cases ((h.closure f).module, (h.closure f).pos) == ((h.closure g).module, (h.closure g).pos) <;> rfl
          rw [this]
          exact h1
        · rintro x ⟨hx, hr⟩
          cases x with
          | function f => cases f <;> first | exact ⟨_, hx rfl, rfl⟩ | cases hr
          | _ => cases hr
      | native name _ =>
        refine (EquivOn.image (g := fun p : Bytes × Nat => Value.function (.native p.1 p.2)) (T := fun _ => True) ?_).subset ?_
        · exact equivOn_key (fun p : Bytes × Nat => p.1) _
        · rintro x ⟨_, hr⟩
          cases x with
          | function f => cases f <;> first | exact ⟨(_, _), trivial, rfl⟩ | cases hr
          | _ => cases hr
    | error c d =>
      refine (EquivOn.image (g := fun p : Bytes × Nat => Value.error p.1 p.2) (T := fun p => Depth h true n (h.context p.2)) ?_).subset ?_
      · exact equivOn_and (equivOn_key (fun p : Bytes × Nat => p.1) _) (ih.comap fun p : Bytes × Nat => h.context p.2)
      · rintro x ⟨hx, hr⟩
        cases x with
        | function f => cases f <;> cases hr
        | error d c => exact ⟨(d, c), hx, rfl⟩
        | _ => cases hr

/-! ### Keys -/

theorem floatKey_hashed {a b : UInt64} (ha' : a ≠ 0x8000000000000000)
    (hb' : b ≠ 0x8000000000000000) (h : floatKey a = floatKey b) : a = b := by
  have h1 : a.toNat ≠ 0x8000000000000000 := fun h => ha' (UInt64.toNat_inj.1 h)
  have h2 : b.toNat ≠ 0x8000000000000000 := fun h => hb' (UInt64.toNat_inj.1 h)
  have h3 := a.toNat_lt
  have h4 := b.toNat_lt
  apply UInt64.toNat_inj.1
  simp only [floatKey, floatMagnitude] at h
  split at h <;> split at h <;> omega

end Hush

import Verif.Spec.Values
import Verif.Lemmas.MonoHeap

/-!
The order of values.
-/

namespace Hush
open Hush.Spec

/-- The comparison is a total preorder on the given items. -/
structure TotalOn (f : α → α → Option Ordering) (S : α → Prop) : Prop where
  total : ∀ {a b}, S a → S b → ∃ o, f a b = some o
  swap : ∀ {a b o}, S a → S b → f a b = some o → f b a = some o.swap
  congr : ∀ {a b c}, S a → S b → S c → f a b = some .eq → f a c = f b c
  trans : ∀ {a b c}, S a → S b → S c → f a b = some .lt → f b c = some .lt → f a c = some .lt

namespace TotalOn
variable {f : α → α → Option Ordering} {S : α → Prop}

theorem subset (h : TotalOn f S) {T : α → Prop} (ht : ∀ a, T a → S a) : TotalOn f T where
  total a b := h.total (ht _ a) (ht _ b)
  swap a b := h.swap (ht _ a) (ht _ b)
  congr a b c := h.congr (ht _ a) (ht _ b) (ht _ c)
  trans a b c := h.trans (ht _ a) (ht _ b) (ht _ c)

theorem comap (h : TotalOn f S) (g : β → α) : TotalOn (fun a b => f (g a) (g b)) (fun a => S (g a)) where
  total a b := h.total a b
  swap a b := h.swap a b
  congr a b c := h.congr a b c
  trans a b c := h.trans a b c

theorem image {g : β → α} {T : β → Prop} (h : TotalOn (fun a b => f (g a) (g b)) T) : TotalOn f (fun a => ∃ x, T x ∧ a = g x) where
  total := by
    rintro _ _ ⟨x, hx, rfl⟩ ⟨y, hy, rfl⟩
    exact h.total hx hy
  swap := by
    rintro _ _ _ ⟨x, hx, rfl⟩ ⟨y, hy, rfl⟩
    exact h.swap hx hy
  congr := by
    rintro _ _ _ ⟨x, hx, rfl⟩ ⟨y, hy, rfl⟩ ⟨z, hz, rfl⟩
    exact h.congr hx hy hz
  trans := by
    rintro _ _ _ ⟨x, hx, rfl⟩ ⟨y, hy, rfl⟩ ⟨z, hz, rfl⟩
    exact h.trans hx hy hz

theorem congr_right (h : TotalOn f S) {a b c} (ha : S a) (hb : S b) (hc : S c) (hbc : f b c = some .eq) : f a b = f a c := by
  obtain ⟨o, ho⟩ := h.total ha hb
  obtain ⟨o', ho'⟩ := h.total ha hc
  have h1 := h.swap ha hb ho
  have h2 := h.swap ha hc ho'
  have := h.congr hb hc ha hbc
  rw [h1, h2] at this
  rw [ho, ho']
  cases o <;> cases o' <;> simp_all [Ordering.swap]

/-- Less, then at most. -/
theorem lt_le (h : TotalOn f S) {a b c} (ha : S a) (hb : S b) (hc : S c) (h1 : f a b = some .lt) (h2 : f b c ≠ some .gt) :
    f a c = some .lt := by
  obtain ⟨o, ho⟩ := h.total hb hc
  cases o with
  | lt => exact h.trans ha hb hc h1 ho
  | eq => exact (h.congr_right ha hb hc ho).symm.trans h1
  | gt => exact absurd ho h2

theorem le_trans (h : TotalOn f S) {a b c} (ha : S a) (hb : S b) (hc : S c) (h1 : f a b ≠ some .gt) (h2 : f b c ≠ some .gt) :
    f a c ≠ some .gt := by
  obtain ⟨o, ho⟩ := h.total ha hb
  cases o with
  | lt => rw [h.lt_le ha hb hc ho h2]; nofun
  | eq => rwa [h.congr ha hb hc ho]
  | gt => exact absurd ho h1

end TotalOn

/-- A number for each item. -/
theorem totalOn_int (g : α → Int) (S : α → Prop) : TotalOn (fun a b => some (compare (g a) (g b))) S where
  total _ _ := ⟨_, rfl⟩
  swap _ _ h := by
    rw [← Option.some.inj h]
    exact congrArg some Std.OrientedCmp.eq_swap
  congr _ _ _ h := by
    have := Option.some.inj h
    rw [Int.compare_eq_eq] at this
    rw [this]
  trans _ _ _ h1 h2 := by
    have h1 := Option.some.inj h1
    have h2 := Option.some.inj h2
    rw [Int.compare_eq_lt] at h1 h2
    exact congrArg some (Int.compare_eq_lt.2 (Int.lt_trans h1 h2))

theorem bytesCmp_swap (a b : Bytes) : bytesCmp b a = (bytesCmp a b).swap := by
  induction a generalizing b with
  | nil => cases b <;> rfl
  | cons x a ih =>
    cases b with
    | nil => rfl
    | cons y b =>
      simp only [bytesCmp]
      by_cases h1 : x < y
      · have h2 : ¬ y < x := fun h => by rw [UInt8.lt_iff_toNat_lt] at h h1; omega
        rw [if_pos h1, if_neg h2, if_pos h1]; rfl
      · rw [if_neg h1]
        by_cases h2 : y < x
        · rw [if_pos h2, if_neg h1, if_pos h2]; rfl
        · rw [if_neg h2, if_neg h1, if_neg h2]
          exact ih b

theorem bytesCmp_eq {a b : Bytes} : bytesCmp a b = .eq ↔ a = b := by
  induction a generalizing b with
  | nil => cases b <;> simp [bytesCmp]
  | cons x a ih =>
    cases b with
    | nil => simp [bytesCmp]
    | cons y b =>
      simp only [bytesCmp, List.cons.injEq]
      by_cases h1 : x < y
      · have : x ≠ y := fun h => UInt8.lt_irrefl _ (h ▸ h1)
        simp [h1, this]
      · by_cases h2 : y < x
        · have : x ≠ y := fun h => UInt8.lt_irrefl _ (h ▸ h2)
          simp [h1, h2, this]
        · simp [ih, UInt8.le_antisymm (UInt8.not_lt.1 h2) (UInt8.not_lt.1 h1)]

theorem bytesCmp_trans {a b c : Bytes} (h1 : bytesCmp a b = .lt) (h2 : bytesCmp b c = .lt) : bytesCmp a c = .lt := by
  induction a generalizing b c with
  | nil =>
    cases b with
    | nil => cases h1
    | cons y b =>
      cases c with
      | nil => cases h2
      | cons z c => rfl
  | cons x a ih =>
    cases b with
    | nil => cases h1
    | cons y b =>
      cases c with
      | nil => cases h2
      | cons z c =>
        simp only [bytesCmp] at h1 h2 ⊢
        simp only [UInt8.lt_iff_toNat_lt] at h1 h2 ⊢
        split at h1
        · split at h2
          · rw [if_pos (by omega)]
          · split at h2
            · cases h2
            · rw [if_pos (by omega)]
        · split at h1
          · cases h1
          · split at h2
            · rw [if_pos (by omega)]
            · split at h2
              · cases h2
              · rw [if_neg (by omega), if_neg (by omega)]
                exact ih h1 h2

theorem totalOn_bytes (S : Bytes → Prop) : TotalOn (fun a b => some (bytesCmp a b)) S where
  total _ _ := ⟨_, rfl⟩
  swap _ _ h := by rw [← Option.some.inj h]; exact congrArg some (bytesCmp_swap _ _)
  congr _ _ _ h := by rw [bytesCmp_eq.1 (Option.some.inj h)]
  trans _ _ _ h1 h2 := congrArg some (bytesCmp_trans (Option.some.inj h1) (Option.some.inj h2))

/-- First one comparison, then the other. -/
def thenCmp (f g : α → α → Option Ordering) (a b : α) : Option Ordering :=
  match f a b with
  | some .eq => g a b
  | r => r

theorem totalOn_then {f g : α → α → Option Ordering} {S : α → Prop} (hf : TotalOn f S) (hg : TotalOn g S) : TotalOn (thenCmp f g) S where
  total {a b} ha hb := by
    obtain ⟨o, ho⟩ := hf.total ha hb
    simp only [thenCmp, ho]
    cases o
    · exact ⟨_, rfl⟩
    · exact hg.total ha hb
    · exact ⟨_, rfl⟩
  swap {a b o} ha hb h := by
    obtain ⟨o', ho⟩ := hf.total ha hb
    simp only [thenCmp, ho, hf.swap ha hb ho] at h ⊢
    cases o'
    · cases h; rfl
    · exact hg.swap ha hb h
    · cases h; rfl
  congr {a b c} ha hb hc h := by
    obtain ⟨o', ho⟩ := hf.total ha hb
    simp only [thenCmp, ho] at h ⊢
    cases o'
    · cases h
    · rw [hf.congr ha hb hc ho, hg.congr ha hb hc h]
    · cases h
  trans {a b c} ha hb hc h1 h2 := by
    obtain ⟨o, ho⟩ := hf.total ha hb
    obtain ⟨o', ho'⟩ := hf.total hb hc
    simp only [thenCmp, ho, ho'] at h1 h2 ⊢
    cases o
    · have : f b c ≠ some .gt := by
        rw [ho']
        rintro h
        cases h
        cases h2
      rw [hf.lt_le ha hb hc ho this]
    · rw [hf.congr ha hb hc ho, ho']
      cases o'
      · rfl
      · exact hg.trans ha hb hc h1 h2
      · cases h2
    · cases h1

theorem totalOn_list {f : α → α → Option Ordering} {S : α → Prop} (hf : TotalOn f S) : TotalOn (listCmp f) (fun l => ∀ a ∈ l, S a) where
  total {l1 l2} h1 h2 := by
    induction l1 generalizing l2 with
    | nil => cases l2 <;> exact ⟨_, rfl⟩
    | cons a l1 ih =>
      cases l2 with
      | nil => exact ⟨_, rfl⟩
      | cons b l2 =>
        obtain ⟨o, ho⟩ := hf.total (h1 a List.mem_cons_self) (h2 b List.mem_cons_self)
        simp only [listCmp, ho]
        cases o
        · exact ⟨_, rfl⟩
        · exact ih (fun x hx => h1 x (List.mem_cons_of_mem _ hx)) (fun x hx => h2 x (List.mem_cons_of_mem _ hx))
        · exact ⟨_, rfl⟩
  swap {l1 l2 o} h1 h2 h := by
    induction l1 generalizing l2 with
    | nil => cases l2 <;> cases h <;> rfl
    | cons a l1 ih =>
      cases l2 with
      | nil => cases h; rfl
      | cons b l2 =>
        have ha := h1 a List.mem_cons_self
        have hb := h2 b List.mem_cons_self
        obtain ⟨o', ho⟩ := hf.total ha hb
        simp only [listCmp, ho, hf.swap ha hb ho] at h ⊢
        cases o'
        · cases h; rfl
        · exact ih (fun x hx => h1 x (List.mem_cons_of_mem _ hx)) (fun x hx => h2 x (List.mem_cons_of_mem _ hx)) h
        · cases h; rfl
  congr {l1 l2 l3} h1 h2 h3 h := by
    induction l1 generalizing l2 l3 with
    | nil =>
      cases l2 with
      | nil => rfl
      | cons b l2 => cases h
    | cons a l1 ih =>
      cases l2 with
      | nil => cases h
      | cons b l2 =>
        have ha := h1 a List.mem_cons_self
        have hb := h2 b List.mem_cons_self
        obtain ⟨o', ho⟩ := hf.total ha hb
        simp only [listCmp, ho] at h
        cases o'
        · cases h
        · cases l3 with
          | nil => rfl
          | cons c l3 =>
            simp only [listCmp]
            rw [hf.congr ha hb (h3 c List.mem_cons_self) ho, ih (fun x hx => h1 x (List.mem_cons_of_mem _ hx))
              (fun x hx => h2 x (List.mem_cons_of_mem _ hx)) (fun x hx => h3 x (List.mem_cons_of_mem _ hx)) h]
        · cases h
  trans {l1 l2 l3} h1 h2 h3 h h' := by
    induction l1 generalizing l2 l3 with
    | nil =>
      cases l2 with
      | nil => cases h
      | cons b l2 =>
        cases l3 with
        | nil => cases h'
        | cons c l3 => rfl
    | cons a l1 ih =>
      cases l2 with
      | nil => cases h
      | cons b l2 =>
        cases l3 with
        | nil => cases h'
        | cons c l3 =>
          have ha := h1 a List.mem_cons_self
          have hb := h2 b List.mem_cons_self
          have hc := h3 c List.mem_cons_self
          obtain ⟨o, ho⟩ := hf.total ha hb
          obtain ⟨o', ho'⟩ := hf.total hb hc
          simp only [listCmp, ho, ho'] at h h' ⊢
          cases o
          · have : f b c ≠ some .gt := by
              rw [ho']
              rintro h
              cases h
              cases h'
            rw [hf.lt_le ha hb hc ho this]
          · rw [hf.congr ha hb hc ho, ho']
            cases o'
            · rfl
            · exact ih (fun x hx => h1 x (List.mem_cons_of_mem _ hx)) (fun x hx => h2 x (List.mem_cons_of_mem _ hx))
                (fun x hx => h3 x (List.mem_cons_of_mem _ hx)) h h'
            · cases h'
          · cases h

theorem pairCmp_list (f : Value → Value → Option Ordering) (a b : Value × Value) : pairCmp f a b = listCmp f [a.1, a.2] [b.1, b.2] := by
  simp only [pairCmp, listCmp]
  cases f a.1 b.1 with
  | none => rfl
  | some o =>
    cases o
    · rfl
    · cases h : f a.2 b.2 with
      | none => rfl
      | some o => cases o <;> rfl
    · rfl

theorem totalOn_pair {f : Value → Value → Option Ordering} {S : Value → Prop} (hf : TotalOn f S) :
    TotalOn (pairCmp f) (fun e => S e.1 ∧ S e.2) := by
  have h1 : pairCmp f = fun a b => listCmp f [a.1, a.2] [b.1, b.2] := by
    funext a b; exact pairCmp_list f a b
  rw [h1]
  exact ((totalOn_list hf).comap (fun e : Value × Value => [e.1, e.2])).subset fun e he => by
    simp only [List.mem_cons, List.not_mem_nil, or_false]
    rintro a (rfl | rfl)
    · exact he.1
    · exact he.2

theorem btreeInsert_total {f : Value → Value → Option Ordering} {S : Value → Prop} (hf : TotalOn f S) {e : Value × Value}
    (he : S e.1 ∧ S e.2) (l : List (Value × Value)) (hl : ∀ e ∈ l, S e.1 ∧ S e.2) :
    ∃ l', btreeInsert f e l = some l' ∧ ∀ e ∈ l', S e.1 ∧ S e.2 := by
  induction l with
  | nil => exact ⟨_, rfl, by simpa using he⟩
  | cons x l ih =>
    have hx := hl x List.mem_cons_self
    have hl' : ∀ e ∈ l, S e.1 ∧ S e.2 := fun y hy => hl y (List.mem_cons_of_mem _ hy)
    obtain ⟨o, ho⟩ := hf.total he.1 hx.1
    simp only [btreeInsert, ho]
    cases o
    · refine ⟨_, rfl, ?_⟩
      intro y hy
      rcases List.mem_cons.1 hy with rfl | hy
      · exact he
      · exact hl y hy
    · refine ⟨_, rfl, ?_⟩
      intro y hy
      rcases List.mem_cons.1 hy with rfl | hy
      · exact ⟨hx.1, he.2⟩
      · exact hl' y hy
    · obtain ⟨l', h1, h2⟩ := ih hl'
      simp only [h1]
      refine ⟨_, rfl, ?_⟩
      intro y hy
      rcases List.mem_cons.1 hy with rfl | hy
      · exact hx
      · exact h2 y hy

theorem btree_total {f : Value → Value → Option Ordering} {S : Value → Prop} (hf : TotalOn f S) (es : List (Value × Value))
    (hl : ∀ e ∈ es, S e.1 ∧ S e.2) : ∃ l', btree f es = some l' ∧ ∀ e ∈ l', S e.1 ∧ S e.2 := by
  have key : ∀ (es acc : List (Value × Value)), (∀ e ∈ es, S e.1 ∧ S e.2) → (∀ e ∈ acc, S e.1 ∧ S e.2) →
      ∃ l', es.foldl (fun acc e => acc.bind (btreeInsert f e)) (some acc) = some l' ∧ ∀ e ∈ l', S e.1 ∧ S e.2 := by
    intro es
    induction es with
    | nil => exact fun acc _ h => ⟨acc, rfl, h⟩
    | cons e es ih =>
      intro acc h1 h2
      obtain ⟨l', h3, h4⟩ := btreeInsert_total hf (h1 e List.mem_cons_self) acc h2
      simp only [List.foldl_cons, Option.bind_some, h3]
      exact ih l' (fun x hx => h1 x (List.mem_cons_of_mem _ hx)) h4
  exact key es [] hl (by simp)

/-- The value is finite, with references followed at most `n - 1` times. -/
def Depth (h : Heap) (captured : Bool) : Nat → Value → Prop
  | 0, _ => False
  | n + 1, v =>
    match v with
    | .float x => floatIsNaN x = false
    | .array a => ∀ v ∈ h.array a, Depth h captured n v
    | .dict d => ∀ e ∈ h.dict d, Depth h captured n e.1 ∧ Depth h captured n e.2
    | .function (.hush f) => captured = true → ∀ c ∈ (h.closure f).context, Depth h captured n (h.cell c.1)
    | .error _ c => Depth h captured n (h.context c)
    | _ => True

theorem depth_succ {h : Heap} {b : Bool} : ∀ {n v}, Depth h b n v → Depth h b (n + 1) v := by
  intro n
  induction n with
  | zero => exact fun hv => hv.elim
  | succ n ih =>
    intro v hv
    cases v with
    | array a => exact fun x hx => ih (hv x hx)
    | dict d => exact fun x hx => ⟨ih (hv x hx).1, ih (hv x hx).2⟩
    | error x c => exact ih (v := h.context c) hv
    | function f =>
      cases f with
      | hush f => exact fun hb x hx => ih (hv hb x hx)
      | native _ _ => trivial
    | _ => exact hv

theorem depth_mono {h : Heap} {b : Bool} {n m v} (hn : n ≤ m) (hv : Depth h b n v) : Depth h b m v := by
  induction hn with
  | refl => exact hv
  | step _ ih => exact depth_succ ih

/-- A bound for finitely many items. -/
theorem bound_all {P : Nat → α → Prop} (hm : ∀ n a, P n a → P (n + 1) a) (l : List α) (hl : ∀ a ∈ l, ∃ n, P n a) :
    ∃ n, ∀ a ∈ l, P n a := by
  have hm' : ∀ {n m a}, n ≤ m → P n a → P m a := by
    intro n m a hn h
    induction hn with
    | refl => exact h
    | step _ ih => exact hm _ _ ih
  induction l with
  | nil => exact ⟨0, by simp⟩
  | cons a l ih =>
    obtain ⟨n, hn⟩ := hl a List.mem_cons_self
    obtain ⟨m, hm1⟩ := ih fun x hx => hl x (List.mem_cons_of_mem _ hx)
    refine ⟨max n m, fun x hx => ?_⟩
    rcases List.mem_cons.1 hx with rfl | hx
    · exact hm' (Nat.le_max_left _ _) hn
    · exact hm' (Nat.le_max_right _ _) (hm1 x hx)

theorem depth_of_finite {h : Heap} {b : Bool} {v : Value} (hv : Finite h b v) : ∃ n, Depth h b n v := by
  induction hv with
  | nil | bool | byte | int | string | native => exact ⟨1, trivial⟩
  | float x hx => exact ⟨1, hx⟩
  | array a _ ih =>
    obtain ⟨n, hn⟩ := bound_all (P := fun n v => Depth h b n v) (fun _ _ => depth_succ) _ ih
    exact ⟨n + 1, hn⟩
  | dict d _ _ ih1 ih2 =>
    obtain ⟨n, hn⟩ := bound_all (P := fun n (e : Value × Value) => Depth h b n e.1) (fun _ _ => depth_succ) _ ih1
    obtain ⟨m, hm⟩ := bound_all (P := fun n (e : Value × Value) => Depth h b n e.2) (fun _ _ => depth_succ) _ ih2
    exact ⟨max n m + 1, fun e he => ⟨depth_mono (Nat.le_max_left _ _) (hn e he), depth_mono (Nat.le_max_right _ _) (hm e he)⟩⟩
  | hush f hf ih =>
    cases b with
    | false => exact ⟨1, nofun⟩
    | true =>
      obtain ⟨n, hn⟩ := bound_all (P := fun n (c : Nat × Nat) => Depth h true n (h.cell c.1)) (fun _ _ => depth_succ) _ (ih rfl)
      exact ⟨n + 1, fun _ => hn⟩
  | error x c _ ih =>
    obtain ⟨n, hn⟩ := ih
    exact ⟨n + 1, hn⟩

theorem valueCmp_rank (h : Heap) (n : Nat) {a b : Value} (hr : a.rank ≠ b.rank) :
    valueCmp h (n + 1) a b = some (compare a.rank b.rank) := by
  cases a <;> cases b <;> first | rfl | exact absurd rfl hr

/-- Values of different types are ordered by the type, so it is enough to look at values of the same type. -/
theorem totalOn_ranks {h : Heap} {n : Nat} {S : Value → Prop}
    (hs : ∀ v, S v → TotalOn (valueCmp h (n + 1)) (fun x => S x ∧ x.rank = v.rank)) : TotalOn (valueCmp h (n + 1)) S := by
  have cmp_lt : ∀ {a b : Value}, a.rank ≠ b.rank → valueCmp h (n + 1) a b = some .lt → a.rank < b.rank := fun hr h => by
    rw [valueCmp_rank _ _ hr] at h
    exact Nat.compare_eq_lt.1 (Option.some.inj h)
  have lt_cmp : ∀ {a b : Value}, a.rank < b.rank → valueCmp h (n + 1) a b = some .lt := fun hr => by
    rw [valueCmp_rank _ _ (Nat.ne_of_lt hr)]
    exact congrArg some (Nat.compare_eq_lt.2 hr)
  have cmp_eq : ∀ {a b : Value}, valueCmp h (n + 1) a b = some .eq → a.rank = b.rank := fun {a b} h => by
    by_cases hr : a.rank = b.rank
    · exact hr
    · rw [valueCmp_rank _ _ hr] at h
      exact Nat.compare_eq_eq.1 (Option.some.inj h)
  constructor
  · intro a b ha hb
    by_cases hr : a.rank = b.rank
    · exact (hs b hb).total ⟨ha, hr⟩ ⟨hb, rfl⟩
    · exact ⟨_, valueCmp_rank _ _ hr⟩
  · intro a b o ha hb ho
    by_cases hr : a.rank = b.rank
    · exact (hs b hb).swap ⟨ha, hr⟩ ⟨hb, rfl⟩ ho
    · rw [valueCmp_rank _ _ hr] at ho
      rw [valueCmp_rank _ _ (fun h => hr h.symm), ← Option.some.inj ho]
      exact congrArg some Std.OrientedCmp.eq_swap
  · intro a b c ha hb hc hab
    have hr := cmp_eq hab
    by_cases hrc : c.rank = b.rank
    · exact (hs b hb).congr ⟨ha, hr⟩ ⟨hb, rfl⟩ ⟨hc, hrc⟩ hab
    · rw [valueCmp_rank _ _ (fun h => hrc h.symm), valueCmp_rank _ _ (fun h => hrc (h.symm.trans hr)), hr]
  · intro a b c ha hb hc hab hbc
    by_cases h1 : a.rank = b.rank
    · by_cases h2 : b.rank = c.rank
      · exact (hs b hb).trans ⟨ha, h1⟩ ⟨hb, rfl⟩ ⟨hc, h2.symm⟩ hab hbc
      · exact lt_cmp (h1 ▸ cmp_lt h2 hbc)
    · have h3 := cmp_lt h1 hab
      by_cases h2 : b.rank = c.rank
      · exact lt_cmp (h2 ▸ h3)
      · exact lt_cmp (Nat.lt_trans h3 (cmp_lt h2 hbc))

theorem totalOn_nat (g : α → Nat) (S : α → Prop) : TotalOn (fun a b => some (compare (g a) (g b))) S where
  total _ _ := ⟨_, rfl⟩
  swap _ _ h := by
    rw [← Option.some.inj h]
    exact congrArg some Std.OrientedCmp.eq_swap
  congr _ _ _ h := by
    have := Option.some.inj h
    rw [Nat.compare_eq_eq] at this
    rw [this]
  trans _ _ _ h1 h2 := by
    have h1 := Option.some.inj h1
    have h2 := Option.some.inj h2
    rw [Nat.compare_eq_lt] at h1 h2
    exact congrArg some (Nat.compare_eq_lt.2 (Nat.lt_trans h1 h2))

theorem totalOn_pos (h : Heap) : TotalOn (fun a b : Nat =>
    some (posCmp (h.closure a).module (h.closure a).pos (h.closure b).module (h.closure b).pos)) (fun _ => True) := by
  have : (fun a b : Nat => some (posCmp (h.closure a).module (h.closure a).pos (h.closure b).module (h.closure b).pos)) =
      thenCmp (fun a b => some (compare (h.closure a).module (h.closure b).module))
        (thenCmp (fun a b => some (compare (h.closure a).pos.line (h.closure b).pos.line))
          (fun a b => some (compare (h.closure a).pos.column (h.closure b).pos.column))) := by
    funext a b
    simp only [thenCmp, posCmp]
    cases compare (h.closure a).module (h.closure b).module
    · rfl
    · cases compare (h.closure a).pos.line (h.closure b).pos.line <;> rfl
    · rfl
  rw [this]
  exact totalOn_then (totalOn_nat _ _) (totalOn_then (totalOn_nat _ _) (totalOn_nat _ _))

theorem totalOn_fn (h : Heap) : TotalOn (fun f g => some (fnCmp h f g)) (fun _ => True) where
  total _ _ := ⟨_, rfl⟩
  swap {f g o} _ _ ho := by
    cases f <;> cases g
    · exact (totalOn_pos h).swap trivial trivial ho
    · cases ho; rfl
    · cases ho; rfl
    · exact (totalOn_bytes (fun _ => True)).swap trivial trivial ho
  congr {f g k} _ _ _ ho := by
    cases f <;> cases g <;> cases k <;> first | rfl | cases ho | skip
    · exact (totalOn_pos h).congr trivial trivial trivial ho
    · exact (totalOn_bytes (fun _ => True)).congr trivial trivial trivial ho
  trans {f g k} _ _ _ h1 h2 := by
    cases f with
    | hush f =>
      cases g with
      | hush g =>
        cases k with
        | hush k => exact (totalOn_pos h).trans trivial trivial trivial h1 h2
        | native _ _ => rfl
      | native _ _ =>
        cases k with
        | hush k => cases h2
        | native _ _ => rfl
    | native f _ =>
      cases g with
      | hush g => cases h1
      | native g _ =>
        cases k with
        | hush k => cases h2
        | native k _ => exact (totalOn_bytes (fun _ => True)).trans trivial trivial trivial h1 h2

theorem totalOn_const (S : α → Prop) : TotalOn (fun _ _ => some .eq) S where
  total _ _ := ⟨_, rfl⟩
  swap _ _ h := by cases h; rfl
  congr _ _ _ _ := rfl
  trans _ _ _ h1 _ := nomatch h1

theorem totalOn_float : TotalOn (fun a b => some (floatCmp a b)) (fun a => floatIsNaN a = false) := by
  have h1 := totalOn_int floatKey (fun a => floatIsNaN a = false)
  have h2 : ∀ {a b}, floatIsNaN a = false → floatIsNaN b = false → some (floatCmp a b) = some (compare (floatKey a) (floatKey b)) := by
    intro a b ha hb
    simp only [floatCmp, ha, hb]
  constructor
  · intro a b _ _; exact ⟨_, rfl⟩
  · intro a b o ha hb ho
    rw [h2 ha hb] at ho
    rw [h2 hb ha]
    exact h1.swap ha hb ho
  · intro a b c ha hb hc ho
    rw [h2 ha hb] at ho
    rw [h2 ha hc, h2 hb hc]
    exact h1.congr ha hb hc ho
  · intro a b c ha hb hc ho ho'
    rw [h2 ha hb] at ho
    rw [h2 hb hc] at ho'
    rw [h2 ha hc]
    exact h1.trans ha hb hc ho ho'

/-- The order of values is a total preorder on finite values. -/
theorem totalOn_values (h : Heap) (b : Bool) : ∀ n, TotalOn (valueCmp h n) (Depth h b n) := by
  intro n
  induction n with
  | zero => exact ⟨fun h => h.elim, fun h => h.elim, fun h => h.elim, fun h => h.elim⟩
  | succ n ih =>
    refine totalOn_ranks fun v hv => ?_
    cases v with
    | nil =>
      refine (TotalOn.image (g := fun _ : Unit => Value.nil) (T := fun _ => True) ?_).subset ?_
      · exact totalOn_const _
      · rintro x ⟨_, hr⟩
        cases x <;> first | exact ⟨(), trivial, rfl⟩ | cases hr
    | bool c =>
      refine (TotalOn.image (g := Value.bool) (T := fun _ => True) ?_).subset ?_
      · exact totalOn_nat Bool.toNat _
      · rintro x ⟨_, hr⟩
        cases x <;> first | exact ⟨_, trivial, rfl⟩ | cases hr
    | byte c =>
      refine (TotalOn.image (g := Value.byte) (T := fun _ => True) ?_).subset ?_
      · exact totalOn_nat UInt8.toNat _
      · rintro x ⟨_, hr⟩
        cases x <;> first | exact ⟨_, trivial, rfl⟩ | cases hr
    | int c =>
      refine (TotalOn.image (g := Value.int) (T := fun _ => True) ?_).subset ?_
      · exact totalOn_int id _
      · rintro x ⟨_, hr⟩
        cases x <;> first | exact ⟨_, trivial, rfl⟩ | cases hr
    | float c =>
      refine (TotalOn.image (g := Value.float) (T := fun a => floatIsNaN a = false) ?_).subset ?_
      · exact totalOn_float
      · rintro x ⟨hx, hr⟩
        cases x <;> first | exact ⟨_, hx, rfl⟩ | cases hr
    | string c =>
      refine (TotalOn.image (g := Value.string) (T := fun _ => True) ?_).subset ?_
      · exact totalOn_bytes _
      · rintro x ⟨_, hr⟩
        cases x <;> first | exact ⟨_, trivial, rfl⟩ | cases hr
    | array c =>
      refine (TotalOn.image (g := Value.array) (T := fun a => ∀ v ∈ h.array a, Depth h b n v) ?_).subset ?_
      · exact (totalOn_list ih).comap h.array
      · rintro x ⟨hx, hr⟩
        cases x <;> first | exact ⟨_, hx, rfl⟩ | cases hr
    | dict c =>
      refine (TotalOn.image (g := Value.dict) (T := fun d => ∀ e ∈ h.dict d, Depth h b n e.1 ∧ Depth h b n e.2) ?_).subset ?_
      · have h1 := (totalOn_list (totalOn_pair ih)).comap (fun d => (btree (valueCmp h n) (h.dict d)).getD [])
        have h2 : ∀ {d}, (∀ e ∈ h.dict d, Depth h b n e.1 ∧ Depth h b n e.2) →
            ∃ l, btree (valueCmp h n) (h.dict d) = some l ∧ ∀ e ∈ l, Depth h b n e.1 ∧ Depth h b n e.2 := fun hd => btree_total ih _ hd
        have h3 : ∀ {d}, (∀ e ∈ h.dict d, Depth h b n e.1 ∧ Depth h b n e.2) →
            ∀ e ∈ (btree (valueCmp h n) (h.dict d)).getD [], Depth h b n e.1 ∧ Depth h b n e.2 := by
          intro d hd
          obtain ⟨l, hl, hl'⟩ := h2 hd
          rw [hl]
          exact hl'
        have h4 : ∀ {d d'}, (∀ e ∈ h.dict d, Depth h b n e.1 ∧ Depth h b n e.2) → (∀ e ∈ h.dict d', Depth h b n e.1 ∧ Depth h b n e.2) →
            valueCmp h (n + 1) (.dict d) (.dict d') =
              listCmp (pairCmp (valueCmp h n)) ((btree (valueCmp h n) (h.dict d)).getD []) ((btree (valueCmp h n) (h.dict d')).getD []) := by
          intro d d' hd hd'
          obtain ⟨l, hl, _⟩ := h2 hd
          obtain ⟨l', hl', _⟩ := h2 hd'
          simp only [valueCmp, hl, hl', Option.getD_some]
        constructor
        · intro d d' hd hd'
          rw [h4 hd hd']
          exact h1.total (h3 hd) (h3 hd')
        · intro d d' o hd hd'
          rw [h4 hd hd', h4 hd' hd]
          exact h1.swap (h3 hd) (h3 hd')
        · intro d d' d'' hd hd' hd''
          rw [h4 hd hd', h4 hd hd'', h4 hd' hd'']
          exact h1.congr (h3 hd) (h3 hd') (h3 hd'')
        · intro d d' d'' hd hd' hd''
          rw [h4 hd hd', h4 hd hd'', h4 hd' hd'']
          exact h1.trans (h3 hd) (h3 hd') (h3 hd'')
      · rintro x ⟨hx, hr⟩
        cases x <;> first | exact ⟨_, hx, rfl⟩ | cases hr
    | function c =>
      refine (TotalOn.image (g := Value.function) (T := fun _ => True) ?_).subset ?_
      · exact totalOn_fn h
      · rintro x ⟨_, hr⟩
        cases x <;> first | exact ⟨_, trivial, rfl⟩ | cases hr
    | error c d =>
      refine (TotalOn.image (g := fun p : Bytes × Nat => Value.error p.1 p.2) (T := fun p => Depth h b n (h.context p.2)) ?_).subset ?_
      · have : (fun p q : Bytes × Nat => valueCmp h (n + 1) (.error p.1 p.2) (.error q.1 q.2)) =
            thenCmp (fun p q => some (bytesCmp p.1 q.1)) (fun p q => valueCmp h n (h.context p.2) (h.context q.2)) := by
          funext p q
          simp only [valueCmp, thenCmp]
          cases bytesCmp p.1 q.1 <;> rfl
        rw [this]
        exact totalOn_then (((totalOn_bytes (fun _ => True)).comap Prod.fst).subset fun _ _ => trivial) (ih.comap fun p : Bytes × Nat => h.context p.2)
      · rintro x ⟨hx, hr⟩
        cases x with
        | error d c => exact ⟨(d, c), hx, rfl⟩
        | _ => cases hr

/-! ### Sorting -/

theorem sort_total {f : Value → Value → Option Ordering} {S : Value → Prop} (hf : TotalOn f S) (l : List Value) (hl : ∀ v ∈ l, S v) :
    (l.mergeSort (fun a b => f a b != some .gt)).Perm l ∧
    (l.mergeSort (fun a b => f a b != some .gt)).Pairwise (fun a b => f b a ≠ some .lt) ∧
    ∀ a b, [a, b].Sublist l → f a b = some .eq → [a, b].Sublist (l.mergeSort (fun a b => f a b != some .gt)) := by
  let l' : List {v // S v} := l.pmap Subtype.mk hl
  let r : {v // S v} → {v // S v} → Bool := fun a b => f a.1 b.1 != some .gt
  have hl' : l'.map Subtype.val = l := by simp [l', List.map_pmap]
  have hm : (l'.mergeSort r).map Subtype.val = l.mergeSort (fun a b => f a b != some .gt) := by
    rw [← hl']
    exact List.map_mergeSort fun _ _ _ _ => rfl
  have htr : ∀ a b c, r a b = true → r b c = true → r a c = true := by
    intro a b c h1 h2
    simp only [r, bne_iff_ne, ne_eq] at h1 h2 ⊢
    exact hf.le_trans a.2 b.2 c.2 h1 h2
  have htot : ∀ a b, (r a b || r b a) = true := by
    intro a b
    obtain ⟨o, ho⟩ := hf.total a.2 b.2
    simp only [r, ho, hf.swap a.2 b.2 ho]
    cases o <;> rfl
  rw [← hm]
  refine ⟨?_, ?_, ?_⟩
  · have := (List.mergeSort_perm l' r).map Subtype.val
    rwa [hl'] at this
  · rw [List.pairwise_map]
    refine (List.pairwise_mergeSort htr htot l').imp ?_
    intro a b h
    simp only [r, bne_iff_ne, ne_eq] at h
    intro h'
    exact h (hf.swap b.2 a.2 h')
  · intro a b hs he
    have ha : S a := hl a (hs.subset (by simp))
    have hb : S b := hl b (hs.subset (by simp))
    have hs' : [(⟨a, ha⟩ : {v // S v}), ⟨b, hb⟩].Sublist l' := by
      have h1 := hs
      rw [← hl', List.sublist_map_iff] at h1
      obtain ⟨k, hk, he⟩ := h1
      match k, he with
      | [x, y], he =>
        simp only [List.map_cons, List.map_nil, List.cons.injEq, and_true] at he
        obtain ⟨rfl, rfl⟩ := he
        exact hk
    have := List.pair_sublist_mergeSort htr htot (le := r) (a := ⟨a, ha⟩) (b := ⟨b, hb⟩) (by simp [r, he]) hs'
    have := this.map Subtype.val
    simpa using this

/-- A value that contains the array is as deep. -/
theorem depth_touches {h : Heap} {b : Bool} {a : Nat} : ∀ {n v m}, Depth h b n v → touches h (.inr a) m v = some true →
    ∃ k, k ≤ n ∧ Depth h b k (.array a) := by
  intro n
  induction n with
  | zero => exact fun hv => hv.elim
  | succ n ih =>
    intro v m hv ht
    cases m with
    | zero => cases ht
    | succ m =>
      have any : ∀ {α : Type} {f : α → Option Bool} {l : List α}, anyM f l = some true → ∃ x ∈ l, f x = some true := by
        intro α f l hl
        induction l with
        | nil => cases hl
        | cons x l ih =>
          simp only [anyM] at hl
          split at hl
          · cases hl
          · exact ⟨x, List.mem_cons_self, ‹_›⟩
          · obtain ⟨y, hy, h⟩ := ih hl
            exact ⟨y, List.mem_cons_of_mem _ hy, h⟩
      have up : ∀ {v}, Depth h b n v → touches h (.inr a) m v = some true → ∃ k, k ≤ n + 1 ∧ Depth h b k (.array a) := by
        intro v h1 h2
        obtain ⟨k, h3, h4⟩ := ih h1 h2
        exact ⟨k, by omega, h4⟩
      cases v with
      | array x =>
        simp only [touches] at ht
        split at ht
        · rename_i he
          cases he
          exact ⟨n + 1, Nat.le_refl _, hv⟩
        · obtain ⟨y, hy, h1⟩ := any ht
          exact up (hv y hy) h1
      | dict d =>
        simp only [touches, reduceCtorEq, if_false] at ht
        obtain ⟨e, he, h1⟩ := any ht
        split at h1
        · exact up (hv e he).2 h1
        · exact up (hv e he).1 h1
      | error x c => exact up (v := h.context c) hv ht
      | _ => cases ht

theorem depth_touches_some {h : Heap} {b : Bool} (t : Nat ⊕ Nat) : ∀ {n v}, Depth h b n v → ∃ r, touches h t n v = some r := by
  intro n
  induction n with
  | zero => exact fun hv => hv.elim
  | succ n ih =>
    intro v hv
    have any : ∀ {α : Type} {f : α → Option Bool} {l : List α}, (∀ x ∈ l, ∃ r, f x = some r) → ∃ r, anyM f l = some r := by
      intro α f l hl
      induction l with
      | nil => exact ⟨_, rfl⟩
      | cons x l ih =>
        obtain ⟨r, hr⟩ := hl x List.mem_cons_self
        simp only [anyM, hr]
        cases r
        · exact ih fun y hy => hl y (List.mem_cons_of_mem _ hy)
        · exact ⟨_, rfl⟩
    cases v with
    | array x =>
      simp only [touches]
      split
      · exact ⟨_, rfl⟩
      · exact any fun y hy => ih (hv y hy)
    | dict d =>
      simp only [touches]
      split
      · exact ⟨_, rfl⟩
      · refine any fun e he => ?_
        obtain ⟨r, hr⟩ := ih (hv e he).1
        simp only [hr]
        cases r
        · exact ih (hv e he).2
        · exact ⟨_, rfl⟩
    | error x c => exact ih (v := h.context c) hv
    | _ => exact ⟨_, rfl⟩

theorem anyM_false {f : α → Option Bool} {l : List α} (h : ∀ x ∈ l, f x = some false) : anyM f l = some false := by
  induction l with
  | nil => rfl
  | cons x l ih =>
    simp only [anyM, h x List.mem_cons_self]
    exact ih fun y hy => h y (List.mem_cons_of_mem _ hy)

/-- No element of a finite array contains the array. -/
theorem finite_touches {h : Heap} {b : Bool} {a : Nat} (ha : Finite h b (.array a)) :
    ∃ n, (∀ v ∈ h.array a, Depth h b n v) ∧ anyM (touches h (.inr a) n) (h.array a) = some false := by
  have hmin : ∃ n, Depth h b (n + 1) (.array a) ∧ ∀ k, k ≤ n → ¬ Depth h b k (.array a) := by
    obtain ⟨n, hn⟩ := depth_of_finite ha
    induction n with
    | zero => exact hn.elim
    | succ n ih =>
      by_cases hd : Depth h b n (.array a)
      · exact ih hd
      · exact ⟨n, hn, fun k hk hd' => hd (depth_mono hk hd')⟩
  obtain ⟨n, hn, hk⟩ := hmin
  refine ⟨n, hn, anyM_false fun v hv => ?_⟩
  obtain ⟨r, hr⟩ := depth_touches_some (.inr a) (hn v hv)
  cases r
  · exact hr
  · obtain ⟨k, h1, h2⟩ := depth_touches (hn v hv) hr
    exact absurd h2 (hk k h1)

/-- `std.sort` of a finite array. -/
theorem lib_sort {w : World} {h : Heap} {a : Nat} {b : Bool} (ha : Finite h b (.array a)) :
    ∃ n vs, (∀ z pos argv, Lib.call w (bs "std.sort") ⟨n, z, [.array a], pos, argv⟩ h = some (.ok (.nil, h.setArray a vs))) ∧
      vs.Perm (h.array a) ∧ vs.Pairwise (fun x y => ¬ Compare h y x .lt) ∧
      ∀ x y, [x, y].Sublist (h.array a) → Compare h x y .eq → [x, y].Sublist vs := by
  obtain ⟨n, h1, h2⟩ := finite_touches ha
  have ht := totalOn_values h b n
  obtain ⟨h3, h4, h5⟩ := sort_total ht (h.array a) h1
  have agree : ∀ {x y o}, x ∈ h.array a → y ∈ h.array a → Compare h x y o → valueCmp h n x y = some o := by
    rintro x y o hx hy ⟨m, hm⟩
    obtain ⟨o', ho'⟩ := ht.total (h1 x hx) (h1 y hy)
    have e1 := valueCmp_mono h (Nat.le_max_left n m) x y _ ho'
    have e2 := valueCmp_mono h (Nat.le_max_right n m) x y _ hm
    rw [ho', ← e1, e2]
  refine ⟨n, _, ?_, h3, ?_, ?_⟩
  · intro z pos argv
    show Lib.sort w ⟨n, z, [.array a], pos, argv⟩ h = _
    have hall : (h.array a).all (fun x => (h.array a).all (fun y => (valueCmp h n x y).isSome)) = true := by
      simp only [List.all_eq_true]
      intro x hx y hy
      obtain ⟨o, ho⟩ := ht.total (h1 x hx) (h1 y hy)
      rw [ho]; rfl
    simp only [Lib.sort, h2, Bool.false_and, Bool.false_eq_true, if_false, Lib.sortValues, hall, if_true]
  · refine List.Pairwise.imp_of_mem ?_ h4
    intro x y hx hy hne hc
    exact hne (agree (h3.mem_iff.1 hy) (h3.mem_iff.1 hx) hc)
  · intro x y hs hc
    exact h5 x y hs (agree (hs.subset (by simp)) (hs.subset (by simp)) hc)

end Hush

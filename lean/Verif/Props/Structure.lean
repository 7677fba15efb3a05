import Verif.Lemmas.Structure
import Verif.Props.Values
import Verif.Spec.Library

/-!
Properties C23 and C24: equality and order are those of the contents of the values.
-/

namespace Hush.Props
open Hush Hush.Spec

/-- C23: two finite values are equal if and only if they have the same contents, and otherwise they are different.
Missing: dicts with a key that has the float -0.0 in it, or a dict with a key that has a function of hush in it; see `equal_same_key_violated` and
`equal_dicts_violated`. -/
theorem equality_contents_partial (h : Heap) (hk : DistinctKeys h) (hh : HashedKeys h) (a b : Value) (ha : Finite h true a) (hb : Finite h true b) :
    (Equal h a b ↔ SameContents h a b) ∧ (Different h a b ↔ ¬ SameContents h a b) := by
  obtain ⟨n, h1, h2⟩ := depth_two ha hb
  obtain ⟨r, hr⟩ := (equivOn_values h hk n).total h1 h2
  have h3 : Equal h a b ↔ SameContents h a b :=
    ⟨fun ⟨m, hm⟩ => contents_of_equal hm, fun hs => ⟨n, equal_of_contents hk hh h1 h2 hs⟩⟩
  refine ⟨h3, ?_⟩
  rw [← h3, (equal_agree hr).1, (equal_agree hr).2]
  simp

/-- C23: values that compare as equal always have the same contents. -/
theorem equal_contents (h : Heap) (a b : Value) (he : Equal h a b) : SameContents h a b := he.elim fun _ hn => contents_of_equal hn

-- The arrays and dicts of `twinHeap` meet the hypotheses.
example : HashedKeys twinHeap ∧ DistinctKeys twinHeap ∧ Finite twinHeap true (.dict 0) ∧ Finite twinHeap true (.dict 1) ∧
    SameContents twinHeap (.dict 0) (.dict 1) ∧ ¬ SameContents twinHeap (.array 0) (.int 1) := by
  refine ⟨?_, twinHeap_keys, twinHeap_dict 0, twinHeap_dict 1, contents_of_equal (n := 4) rfl, nofun⟩
  intro d
  match d with
  | 0 | 1 =>
    simp only [twinHeap, Heap.dict, List.getD_cons_zero, List.getD_cons_succ, List.mem_cons, List.not_mem_nil, or_false]
    rintro e (rfl | rfl)
    all_goals first | exact .int _ | exact .nil
  | d + 2 => exact fun e he => by cases he

theorem compare_of {h : Heap} {a b : Value} {o o' : Ordering} (h1 : valueCmp h 1 a b = some o) : Compare h a b o' ↔ o = o' :=
  ⟨fun h2 => (compare_agree h1 h2).symm, fun h2 => ⟨1, h2 ▸ h1⟩⟩

theorem before_mono {eq eq' lt lt' : α → α → Prop} (h1 : ∀ a b, eq a b → eq' a b) (h2 : ∀ a b, lt a b → lt' a b) {l l'}
    (h : Before eq lt l l') : Before eq' lt' l l' := by
  induction h with
  | ends b bs => exact .ends b bs
  | less as bs h => exact .less as bs (h2 _ _ h)
  | next h _ ih => exact .next (h1 _ _ h) ih

/-- C24: values of different types are in the order of the types; false is before true; bytes and floats that are numbers are in the
order of their values; arrays are in the order of dictionaries; errors are in the order of their descriptions, then of their contexts. For integers
and strings see `order_usual`, for functions `order_functions`, for dicts `order_dicts_partial`. -/
theorem order_contents_partial (h : Heap) :
    (∀ a b : Value, typeName a ≠ typeName b →
      (Compare h a b .lt ↔ typeOrder.idxOf (typeName a) < typeOrder.idxOf (typeName b))) ∧
    (∀ a b : Bool, Compare h (.bool a) (.bool b) .lt ↔ a = false ∧ b = true) ∧
    (∀ a b : UInt8, Compare h (.byte a) (.byte b) .lt ↔ a < b) ∧
    (∀ a b : UInt64, ¬ NotNumber a → ¬ NotNumber b → (Compare h (.float a) (.float b) .lt ↔ floatUnits a < floatUnits b)) ∧
    (∀ a b : Nat, Compare h (.array a) (.array b) .lt ↔
      Before (fun x y => Compare h x y .eq) (fun x y => Compare h x y .lt) (h.array a) (h.array b)) ∧
    (∀ (s s' : Bytes) (c c' : Nat), Compare h (.error s c) (.error s' c') .lt ↔
      s < s' ∨ s = s' ∧ Compare h (h.context c) (h.context c') .lt) := by
  refine ⟨?_, ?_, ?_, ?_, ?_, ?_⟩
  · intro a b hne
    have hr : a.rank ≠ b.rank := by
      intro hr
      apply hne
      cases a <;> cases b <;> first | (cases hr; done) | rfl
    have key : ∀ v : Value, typeOrder.idxOf (typeName v) = v.rank := by
      intro v
      cases v <;> (simp only [typeName, Value.rank]; decide)
    rw [key, key, compare_of (valueCmp_rank h 0 hr), Nat.compare_eq_lt]
  · intro a b
    rw [compare_of (o := compare a.toNat b.toNat) rfl]
    cases a <;> cases b <;> decide
  · intro a b
    rw [compare_of (o := compare a.toNat b.toNat) rfl, Nat.compare_eq_lt]
    exact UInt8.lt_iff_toNat_lt.symm
  · intro a b ha hb
    rw [compare_of (o := floatCmp a b) rfl, floatUnits_lt]
    rw [notNumber_false] at ha hb
    simp only [floatCmp, ha, hb]
    exact Int.compare_eq_lt
  · intro a b
    constructor
    · rintro ⟨n, hn⟩
      cases n with
      | zero => cases hn
      | succ n => exact before_mono (fun _ _ h => ⟨n, h⟩) (fun _ _ h => ⟨n, h⟩) (listCmp_lt.1 hn)
    · intro hb
      have : ∃ n, Before (fun x y => valueCmp h n x y = some .eq) (fun x y => valueCmp h n x y = some .lt) (h.array a) (h.array b) := by
        generalize h.array a = l, h.array b = l' at hb
        induction hb with
        | ends b bs => exact ⟨0, .ends b bs⟩
        | less as bs h => obtain ⟨n, hn⟩ := h; exact ⟨n, .less as bs hn⟩
        | next h1 _ ih =>
          obtain ⟨n, hn⟩ := h1
          obtain ⟨m, hm⟩ := ih
          refine ⟨max n m, .next (valueCmp_mono h (Nat.le_max_left n m) _ _ _ hn) (before_mono ?_ ?_ hm)⟩ <;>
            exact fun x y hxy => valueCmp_mono h (Nat.le_max_right n m) x y _ hxy
      obtain ⟨n, hn⟩ := this
      exact ⟨n + 1, listCmp_lt.2 hn⟩
  · intro s s' c c'
    have hlt := (order_usual h).2 s s'
    rw [compare_of (o := bytesCmp s s') rfl] at hlt
    rw [← hlt]
    have heq := @bytesCmp_eq s s'
    rw [← heq]
    constructor
    · rintro ⟨n, hn⟩
      cases n with
      | zero => cases hn
      | succ n =>
        simp only [valueCmp] at hn
        split at hn
        · rename_i he; exact .inr ⟨he, n, hn⟩
        · exact .inl (Option.some.inj hn)
    · rintro (h1 | ⟨h1, n, hn⟩)
      · exact ⟨1, by simp only [valueCmp, h1]⟩
      · exact ⟨n + 1, by simp only [valueCmp, h1, hn]⟩

-- [1, "a"] is before [1, "a", nil], and -1.5 is before 0.25.
example : Compare { Heap.empty with arrays := [[.int 1, .string (bs "a")], [.int 1, .string (bs "a"), .nil]] } (.array 0) (.array 1) .lt ∧
    floatUnits 0xBFF8000000000000 < floatUnits 0x3FD0000000000000 :=
  ⟨(order_contents_partial _).2.2.2.2.1 0 1 |>.2 (.next ⟨1, rfl⟩ (.next ⟨1, rfl⟩ (.ends _ _))), by decide +kernel⟩

/-- C24: functions of hush are before native ones. They are in the order of their modules and then of their places in the source; native functions
are in the order of their names. -/
theorem order_functions (h : Heap) :
    (∀ f name addr, Compare h (.function (.hush f)) (.function (.native name addr)) .lt) ∧
    (∀ name name' addr addr', Compare h (.function (.native name addr)) (.function (.native name' addr')) .lt ↔ name < name') ∧
    (∀ f g, Compare h (.function (.hush f)) (.function (.hush g)) .lt ↔
      (h.closure f).module < (h.closure g).module ∨ (h.closure f).module = (h.closure g).module ∧
        ((h.closure f).pos.line < (h.closure g).pos.line ∨ (h.closure f).pos.line = (h.closure g).pos.line ∧
          (h.closure f).pos.column < (h.closure g).pos.column)) := by
  refine ⟨fun f name addr => ⟨1, rfl⟩, ?_, ?_⟩
  · intro name name' addr addr'
    rw [compare_of (o := bytesCmp name name') rfl, ← (order_usual h).2 name name', compare_of (o := bytesCmp name name') rfl]
  · intro f g
    rw [compare_of (o := posCmp (h.closure f).module (h.closure f).pos (h.closure g).module (h.closure g).pos) rfl]
    generalize (h.closure f).module = a, (h.closure f).pos = p, (h.closure g).module = b, (h.closure g).pos = q
    simp only [posCmp, Ordering.then_eq_lt, Nat.compare_eq_lt, Nat.compare_eq_eq]

-- A function in line 2 is before one in line 3.
example : Compare { Heap.empty with closures := [⟨0, ⟨1, [], none⟩, [], [], 0, ⟨2, 8⟩⟩, ⟨0, ⟨1, [], none⟩, [], [], 0, ⟨3, 1⟩⟩] }
    (.function (.hush 0)) (.function (.hush 1)) .lt := (order_functions _).2.2 0 1 |>.2 (.inr ⟨rfl, .inl (by decide)⟩)

/-- C24: values without functions of hush and without the float -0.0 compare as equal in the order if and only if they are equal. -/
theorem order_equal_partial (h : Heap) (hk : DistinctKeys h) (a b : Value) (ha : Exact h a) (hb : Exact h b) : Compare h a b .eq ↔ Equal h a b := by
  obtain ⟨n, h1, h2⟩ := depth_two (c := true) (exact_finite ha) (exact_finite hb)
  have key := (keysAgree h hk n).exact ha hb h1 h2
  obtain ⟨o, ho⟩ := (totalOn_values h true n).total h1 h2
  obtain ⟨r, hr⟩ := (equivOn_values h hk n).total h1 h2
  rw [(equal_agree hr).1]
  rw [ho, hr] at key
  constructor
  · intro hc
    have := compare_agree ho hc
    subst this
    simpa using key.2 rfl
  · intro hc
    subst hc
    exact ⟨n, ho.trans (key.1 rfl)⟩

-- The dicts of `twinHeap`, which have the same entries in a different order.
example : DistinctKeys twinHeap ∧ Exact twinHeap (.dict 0) ∧ Exact twinHeap (.dict 1) ∧ Compare twinHeap (.dict 0) (.dict 1) .eq :=
  ⟨twinHeap_keys, twinHeap_exact_dict 0, twinHeap_exact_dict 1,
    (order_equal_partial twinHeap twinHeap_keys _ _ (twinHeap_exact_dict 0) (twinHeap_exact_dict 1)).2 ⟨5, rfl⟩⟩

/-- C24 is violated for functions: those from the same place of the source compare as equal in the order, even if they are different. -/
theorem order_equal_violated : ∃ (h : Heap) (f g : Value), Compare h f g .eq ∧ Different h f g :=
  ⟨closureHeap, .function (.hush 0), .function (.hush 1), ⟨1, rfl⟩, ⟨2, rfl⟩⟩

/-- C24: finite dicts are in the order of dictionaries of their entries, which are taken in the order of their keys; first the key of an entry is compared,
then the value. Missing: dicts with a key that has a function of hush or the float -0.0 in it. -/
theorem order_dicts_partial (h : Heap) (hk : DistinctKeys h) (d d' : Nat) (hd : Finite h true (.dict d)) (hd' : Finite h true (.dict d'))
    (he : ∀ e ∈ h.dict d, Exact h e.1) (he' : ∀ e ∈ h.dict d', Exact h e.1) :
    ∃ es es', es.Perm (h.dict d) ∧ es'.Perm (h.dict d') ∧ es.Pairwise (fun e e' => Compare h e.1 e'.1 .lt) ∧
      es'.Pairwise (fun e e' => Compare h e.1 e'.1 .lt) ∧
      (Compare h (.dict d) (.dict d') .lt ↔
        Before (fun e e' => Compare h e.1 e'.1 .eq ∧ Compare h e.2 e'.2 .eq)
          (fun e e' => Compare h e.1 e'.1 .lt ∨ Compare h e.1 e'.1 .eq ∧ Compare h e.2 e'.2 .lt) es es') := by
  obtain ⟨n, h1, h2⟩ := depth_two hd hd'
  cases n with
  | zero => cases h1
  | succ n =>
    obtain ⟨x, hx, px, sx⟩ := dict_sorted hk (keysAgree h hk n) h1 he
    obtain ⟨y, hy, py, sy⟩ := dict_sorted hk (keysAgree h hk n) h2 he'
    refine ⟨x, y, px, py, sx.imp fun h => ⟨n, h⟩, sy.imp fun h => ⟨n, h⟩, ?_⟩
    have hc : valueCmp h (n + 1) (.dict d) (.dict d') = listCmp (pairCmp (valueCmp h n)) x y := by
      simp only [valueCmp, hx, hy]
    have t := totalOn_values h true n
    have hxd : ∀ e ∈ x, Depth h true n e.1 ∧ Depth h true n e.2 := fun e hm => h1 e (px.mem_iff.1 hm)
    have hyd : ∀ e ∈ y, Depth h true n e.1 ∧ Depth h true n e.2 := fun e hm => h2 e (py.mem_iff.1 hm)
    obtain ⟨o, ho⟩ := (totalOn_values h true (n + 1)).total h1 h2
    have h3 : Compare h (.dict d) (.dict d') .lt ↔ listCmp (pairCmp (valueCmp h n)) x y = some .lt := by
      rw [← hc]
      exact ⟨fun h4 => by rw [ho, compare_agree ho h4], fun h4 => ⟨_, h4⟩⟩
    rw [h3, listCmp_lt]
    have agree : ∀ {a b o}, Depth h true n a → Depth h true n b → (Compare h a b o ↔ valueCmp h n a b = some o) := by
      intro a b o ha hb
      obtain ⟨o', ho'⟩ := t.total ha hb
      exact ⟨fun h4 => by rw [ho', compare_agree ho' h4], fun h4 => ⟨n, h4⟩⟩
    have plt : ∀ {a b : Value × Value}, pairCmp (valueCmp h n) a b = some .lt ↔
        valueCmp h n a.1 b.1 = some .lt ∨ valueCmp h n a.1 b.1 = some .eq ∧ valueCmp h n a.2 b.2 = some .lt := by
      intro a b
      simp only [pairCmp]
      cases valueCmp h n a.1 b.1 with
      | none => simp
      | some o => cases o <;> simp
    clear h3 hc ho sx sy px py hx hy
    induction x generalizing y with
    | nil =>
      constructor
      · intro hb; cases hb; exact .ends _ _
      · intro hb; cases hb; exact .ends _ _
    | cons a x ih =>
      cases y with
      | nil => exact ⟨fun h => (nomatch h), fun h => (nomatch h)⟩
      | cons b y =>
        have ha := hxd a List.mem_cons_self
        have hb := hyd b List.mem_cons_self
        have ih := ih y (fun e hm => hxd e (List.mem_cons_of_mem _ hm)) (fun e hm => hyd e (List.mem_cons_of_mem _ hm))
        constructor
        · intro hbf
          cases hbf with
          | less _ _ hl =>
            refine .less _ _ ?_
            rw [agree ha.1 hb.1, agree ha.1 hb.1, agree ha.2 hb.2]
            exact plt.1 hl
          | next hq hr =>
            refine .next ?_ (ih.1 hr)
            rw [agree ha.1 hb.1, agree ha.2 hb.2]
            exact pairCmp_eq.1 hq
        · intro hbf
          cases hbf with
          | less _ _ hl =>
            rw [agree ha.1 hb.1, agree ha.1 hb.1, agree ha.2 hb.2] at hl
            exact .less _ _ (plt.2 hl)
          | next hq hr =>
            rw [agree ha.1 hb.1, agree ha.2 hb.2] at hq
            exact .next (pairCmp_eq.2 hq) (ih.2 hr)

-- The dicts of `twinHeap`.
example : DistinctKeys twinHeap ∧ Finite twinHeap true (.dict 0) ∧ Finite twinHeap true (.dict 1) ∧ (∀ e ∈ twinHeap.dict 0, Exact twinHeap e.1) := by
  refine ⟨twinHeap_keys, twinHeap_dict 0, twinHeap_dict 1, ?_⟩
  have := twinHeap_exact_dict 0
  cases this with
  | dict _ h1 _ => exact h1

end Hush.Props

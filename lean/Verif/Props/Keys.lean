import Verif.Lemmas.Keys
import Verif.Props.Eval

/-!
C25: entries of dicts, for all keys of which equality and hashing agree.
-/

namespace Hush.Props
open Hush.Spec

theorem apart_equal {h : Heap} (hk : DistinctKeys h) {d : Nat} (ge : ∀ e ∈ h.dict d, GoodKey h e.1) :
    (h.dict d).Pairwise (fun e e' => ¬ Equal h e.1 e'.1) := by
  have := hk d
  rw [List.pairwise_iff_forall_sublist] at this ⊢
  intro a b hab hc
  have ga := ge a (hab.subset (by simp))
  have gb := ge b (hab.subset (by simp))
  obtain ⟨n, h1, h2⟩ := depth_two ga.finite gb.finite
  classical
  have h3 := same_at hk ga gb h1 h2
  rw [decide_eq_true hc] at h3
  exact this hab ⟨n, optAnd_true.1 h3⟩

theorem depth_keys {h : Heap} {k : Value} (gk : GoodKey h k) {es : List (Value × Value)} (ge : ∀ e ∈ es, GoodKey h e.1) :
    ∃ n, Depth h true n k ∧ ∀ e ∈ es, Depth h true n e.1 := by
  obtain ⟨n, hn⟩ := depth_of_finite gk.finite
  obtain ⟨m, hm⟩ := bound_all (P := fun n (e : Value × Value) => Depth h true n e.1) (fun _ _ => depth_succ) es fun e he => depth_of_finite (ge e he).finite
  exact ⟨max n m, depth_mono (Nat.le_max_left _ _) hn, fun e he => depth_mono (Nat.le_max_right _ _) (hm e he)⟩

/-- Reading in a memory that is different from one with good keys only in the entries of a dict which is not in these keys. -/
theorem read_key {w : World} {m : Nat} {a b : Prog.Expr} {pos : Pos} {s s1 s2 : RState} {x : Nat} {k : Value} {p p' : Pos} {o o' : Value} {h : Heap}
    (hk : DistinctKeys h) (gk : GoodKey h k) (uk : Unchanged h s2.heap k) (ge : ∀ e ∈ s2.heap.dict x, GoodKey h e.1)
    (ue : ∀ e ∈ s2.heap.dict x, Unchanged h s2.heap e.1) (hp : (s2.heap.dict x).Pairwise (fun e e' => ¬ Equal h e.1 e'.1))
    (ha : Yields w m a s (.dict x) p o s1) (hb : Yields w m b s1 k p' o' s2) :
    (∀ v, (∃ e ∈ s2.heap.dict x, Equal h k e.1 ∧ e.2 = v) → Yields w m (.access a b pos) s v pos (.dict x) s2) ∧
    ((∀ v, ¬ ∃ e ∈ s2.heap.dict x, Equal h k e.1 ∧ e.2 = v) → Eval w m (.access a b pos) s (.error (.panic ⟨.indexOutOfBounds k, p'⟩)) s2) := by
  obtain ⟨n, h1, h2⟩ := depth_keys gk ge
  have h3 := dictGet_key hk gk h1 uk ge h2 ue
  constructor
  · intro v hv
    rw [(find_entry hk gk ge hp).2 hv] at h3
    exact ends_access ha hb (n := n) (r := .ok v) (by simp only [accessValue, h3, orOutOfBounds]) nofun
  · intro hv
    have h4 : ((s2.heap.dict x).find? (fun e => @decide (Equal h k e.1) (Classical.propDecidable _))).map (·.2) = none := by
      refine Option.eq_none_iff_forall_ne_some.2 fun v hc => hv v ?_
      exact (find_entry hk gk ge hp).1 hc
    rw [h4] at h3
    exact ends_access ha hb (n := n) (r := .error (.panic _)) (by simp only [accessValue, h3, orOutOfBounds]) nofun

/-- C25, partially: reading an entry of a dict gives the value of the entry whose key is equal, and is a panic if there is none. Missing from
C25: keys that have in them a float that is not a number or -0.0, themselves, or a dict with a function of hush in a key; see `nan_key_violated` and
`equal_dicts_violated`. -/
theorem dict_read_key_partial (w : World) (m : Nat) (a b : Prog.Expr) (pos : Pos) (s s1 s2 : RState) (x : Nat) (k : Value) (p p' : Pos)
    (o o' : Value) (hk : DistinctKeys s2.heap) (gk : GoodKey s2.heap k) (ge : ∀ e ∈ s2.heap.dict x, GoodKey s2.heap e.1)
    (ha : Yields w m a s (.dict x) p o s1) (hb : Yields w m b s1 k p' o' s2) :
    (∀ v, HasEntry s2.heap x k v → Yields w m (.access a b pos) s v pos (.dict x) s2) ∧
    ((∀ v, ¬ HasEntry s2.heap x k v) → Eval w m (.access a b pos) s (.error (.panic ⟨.indexOutOfBounds k, p'⟩)) s2) :=
  read_key hk gk (unchanged_refl gk.finite) ge (fun e he => unchanged_refl (ge e he).finite) (apart_equal hk ge) ha hb

/-- C25, partially: assigning to an entry of a dict changes the entry whose key is equal, or adds one, and nothing else: for equal keys there is then the
assigned value, and for other keys what was there before. Missing from C25: as for `dict_read_key_partial`, and keys that have the dict
itself in them; see `dict_own_key_violated`. -/
theorem dict_write_key_partial (w : World) (m : Nat) (a b e : Prog.Expr) (pos : Pos) (s s1 s2 s3 : RState) (v : Value) (x : Nat) (k : Value)
    (p p' p'' : Pos) (o o' o'' : Value) (hk : DistinctKeys s3.heap) (gk : GoodKey s3.heap k) (ge : ∀ e ∈ s3.heap.dict x, GoodKey s3.heap e.1)
    (ak : Avoids s3.heap x k) (ae : ∀ e ∈ s3.heap.dict x, Avoids s3.heap x e.1) (he : Yields w m e s v p o s1)
    (ha : Yields w m a s1 (.dict x) p' o' s2) (hb : Yields w m b s2 k p'' o'' s3) (hx : x < s3.heap.dicts.length) :
    ∃ h', Ends w (.stmt m none (.assign (.access a b pos) e)) s (done .nil noPos) { s3 with heap := h' } ∧
      SameButDict x s3.heap h' ∧
      (∀ k', GoodKey s3.heap k' → Avoids s3.heap x k' →
        (Equal s3.heap k k' → ∀ v', HasEntry h' x k' v' ↔ v' = v) ∧
        (¬ Equal s3.heap k k' → ∀ v', HasEntry h' x k' v' ↔ HasEntry s3.heap x k' v')) ∧
      (∀ a' b' pos' s4 s5 s6 k' q q' o o', Yields w m a' s4 (.dict x) q o s5 → Yields w m b' s5 k' q' o' s6 → s6.heap = h' →
        GoodKey s3.heap k' → Avoids s3.heap x k' →
        (∀ v', HasEntry h' x k' v' → Yields w m (.access a' b' pos') s4 v' pos' (.dict x) s6) ∧
        ((∀ v', ¬ HasEntry h' x k' v') → Eval w m (.access a' b' pos') s4 (.error (.panic ⟨.indexOutOfBounds k', q'⟩)) s6)) := by
  classical
  have hp := apart_equal hk ge
  obtain ⟨n, h1, h2⟩ := depth_keys gk ge
  let es := putBy (fun x => decide (Equal s3.heap k x)) k v (s3.heap.dict x)
  let h' := s3.heap.setDict x es
  have hs : SameButDict x s3.heap h' := setDict_same _ _ _
  have hd : h'.dict x = es := setDict_get hx _
  have ge' : ∀ e ∈ h'.dict x, GoodKey s3.heap e.1 := by rw [hd]; exact putBy_key gk ge
  have ae' : ∀ e ∈ h'.dict x, Avoids s3.heap x e.1 := by rw [hd]; exact putBy_key ak ae
  have hp' : (h'.dict x).Pairwise (fun e e' => ¬ Equal s3.heap e.1 e'.1) := by
    rw [hd]
    have := putBy_apart hk (v := v) gk ge hp
    simp only [es]
    convert this
  have hsame : ∀ {a b}, Avoids s3.heap x a → Avoids s3.heap x b → (Equal h' a b ↔ Equal s3.heap a b) := fun a b =>
    exists_congr fun n => by rw [valueEq_unchanged n _ _ (unchanged_of_avoids hs a) (unchanged_of_avoids hs b)]
  have hentry : ∀ k' v', Avoids s3.heap x k' → (HasEntry h' x k' v' ↔ ∃ e ∈ h'.dict x, Equal s3.heap k' e.1 ∧ e.2 = v') := fun k' v' h =>
    exists_congr fun e => and_congr_right fun he => by rw [hsame h (ae' e he)]
  refine ⟨h', ?_, hs, fun k' gk' ak' => ?_, ?_⟩
  · refine ends_assign he ha hb (n := n) (r := .ok _) ?_ nofun
    have h3 : dictInsert s3.heap n (s3.heap.dict x) k v = some es :=
      insertWith_putBy fun e he => by rw [same_at hk gk (ge e he) h1 (h2 e he)]
    simp only [assignValue, avoids_touches h1 ak, h3]
    rfl
  · constructor
    · intro hc v'
      have := putBy_entry hk (v := v) (v' := v') gk gk' ge hp
      rw [if_pos hc] at this
      rw [hentry k' v' ak', hd]
      exact this
    · intro hc v'
      have := putBy_entry hk (v := v) (v' := v') gk gk' ge hp
      rw [if_neg hc] at this
      rw [hentry k' v' ak', hd]
      exact this
  · rintro a' b' pos' s4 s5 s6 k' q q' o o' h4 h5 h6 gk' ak'
    have := read_key (pos := pos') hk gk' (h6 ▸ unchanged_of_avoids hs ak') (h6 ▸ ge') (fun e he => by rw [h6] at he ⊢; exact unchanged_of_avoids hs (ae' e he))
      (h6 ▸ hp') h4 h5
    rw [h6] at this
    exact ⟨fun v' hv => this.1 v' ((hentry k' v' ak').1 hv), fun hn => this.2 fun v' hv => hn v' ((hentry k' v' ak').2 hv)⟩

/-- C25 is violated by keys that have the dict in them: `d[d] = v` is a Rust panic. -/
theorem dict_own_key_violated (w : World) (m : Nat) (a b e : Prog.Expr) (pos : Pos) (s s1 s2 s3 : RState) (v : Value) (x : Nat)
    (p p' p'' : Pos) (o o' o'' : Value) (he : Yields w m e s v p o s1) (ha : Yields w m a s1 (.dict x) p' o' s2)
    (hb : Yields w m b s2 (.dict x) p'' o'' s3) : Ends w (.stmt m none (.assign (.access a b pos) e)) s (.error (.crash .borrow)) s3 :=
  ends_assign he ha hb (n := 1) (r := .error (.crash .borrow)) (by simp [assignValue, touches]) nofun

/-- Memory with the arrays `[1]`, `[1]` and `[2]`, and the dict that has 7 for the first one. -/
def keyHeap : Heap := { Heap.empty with arrays := [[.int 1], [.int 1], [.int 2]], dicts := [[(.array 0, .int 7)]] }

/-- A state with this memory and the dict and the arrays as local variables. -/
def keyState : RState :=
  { RState.init [] [] with heap := keyHeap, stack := [.regular (.dict 0), .regular (.array 1), .regular (.array 2)] }

theorem keyHeap_distinct : DistinctKeys keyHeap := by
  intro d
  match d with
  | 0 => simp [keyHeap, Heap.dict]
  | d + 1 => simp [keyHeap, Heap.dict]

theorem keyHeap_array (a : Nat) : ∀ v ∈ keyHeap.array a, ∃ i, v = .int i := by
  match a with
  | 0 | 1 | 2 => simp [keyHeap, Heap.array]
  | a + 3 => simp [keyHeap, Heap.array]

theorem keyHeap_good (a : Nat) : GoodKey keyHeap (.array a) ∧ Avoids keyHeap 0 (.array a) := by
  refine ⟨⟨.array a fun v hv => ?_, .array a fun v hv => ?_⟩, .array a fun v hv => ?_⟩
  all_goals
    obtain ⟨i, rfl⟩ := keyHeap_array a v hv
    constructor

theorem keyHeap_keys : ∀ e ∈ keyHeap.dict 0, e.1 = .array 0 := by simp [keyHeap, Heap.dict]

-- The entry for the first `[1]` is read with the second one, and there is none for `[2]`.
example : DistinctKeys keyState.heap ∧ GoodKey keyState.heap (.array 1) ∧ (∀ e ∈ keyState.heap.dict 0, GoodKey keyState.heap e.1) ∧
    HasEntry keyState.heap 0 (.array 1) (.int 7) ∧
    Yields (fileWorld fun _ => none) 0 (.access (.ident 0 (q 0)) (.ident 1 (q 0)) (q 0)) keyState (.int 7) (q 0) (.dict 0) keyState := by
  have h1 : ∀ e ∈ keyState.heap.dict 0, GoodKey keyState.heap e.1 := fun e he => keyHeap_keys e he ▸ (keyHeap_good 0).1
  have h2 : HasEntry keyState.heap 0 (.array 1) (.int 7) := ⟨(.array 0, .int 7), by simp [keyState, keyHeap, Heap.dict], ⟨3, rfl⟩, rfl⟩
  exact ⟨keyHeap_distinct, (keyHeap_good 1).1, h1, h2,
    (dict_read_key_partial _ 0 _ _ (q 0) keyState keyState keyState 0 (.array 1) (q 0) (q 0) .nil .nil keyHeap_distinct (keyHeap_good 1).1 h1
      ⟨nofun, 1, rfl⟩ ⟨nofun, 1, rfl⟩).1 _ h2⟩

-- Assigning 8 with the second `[1]` changes the entry of the first one: there is 8 for both.
example : ∃ h', Ends (fileWorld fun _ => none) (.stmt 0 none (.assign (.access (.ident 0 (q 0)) (.ident 1 (q 0)) (q 0)) (.lit (.int 8) (q 0)))) keyState
    (done .nil noPos) { keyState with heap := h' } ∧ HasEntry h' 0 (.array 0) (.int 8) ∧ HasEntry h' 0 (.array 1) (.int 8) ∧
    ¬ HasEntry h' 0 (.array 2) (.int 7) := by
  obtain ⟨h', h1, _, h2, _⟩ := dict_write_key_partial (fileWorld fun _ => none) 0 (.ident 0 (q 0)) (.ident 1 (q 0)) (.lit (.int 8) (q 0)) (q 0) keyState keyState
    keyState keyState (.int 8) 0 (.array 1) (q 0) (q 0) (q 0) .nil .nil .nil keyHeap_distinct (keyHeap_good 1).1
    (fun e he => keyHeap_keys e he ▸ (keyHeap_good 0).1) (keyHeap_good 1).2 (fun e he => keyHeap_keys e he ▸ (keyHeap_good 0).2)
    ⟨nofun, 1, rfl⟩ ⟨nofun, 1, rfl⟩ ⟨nofun, 1, rfl⟩ (by decide)
  refine ⟨h', h1, ((h2 _ (keyHeap_good 0).1 (keyHeap_good 0).2).1 ⟨3, rfl⟩ _).2 rfl, ((h2 _ (keyHeap_good 1).1 (keyHeap_good 1).2).1 ⟨3, rfl⟩ _).2 rfl, ?_⟩
  have h3 : ¬ Equal keyHeap (.array 2) (.array 0) := fun ⟨n, hn⟩ => by
    have := valueEq_mono keyHeap (Nat.le_max_left n 3) _ _ _ hn
    rw [valueEq_mono keyHeap (Nat.le_max_right n 3) (.array 2) (.array 0) false rfl] at this
    cases this
  have h4 : ¬ Equal keyHeap (.array 1) (.array 2) := fun ⟨n, hn⟩ => by
    have := valueEq_mono keyHeap (Nat.le_max_left n 3) _ _ _ hn
    rw [valueEq_mono keyHeap (Nat.le_max_right n 3) (.array 1) (.array 2) false rfl] at this
    cases this
  rw [(h2 _ (keyHeap_good 2).1 (keyHeap_good 2).2).2 h4 _]
  rintro ⟨e, he, h5, _⟩
  rw [keyHeap_keys e he] at h5
  exact h3 h5

end Hush.Props

import Verif.Lemmas.Hidden
import Verif.Lemmas.InterpRules
import Verif.Spec.Loops

/-!
For loops over library iterators.
-/

namespace Hush
open Spec

/-- The function `f`, an iterator with the private state number `it`, supplies the elements of the source. -/
structure Supplies (w : World) (m : Nat) (pos : Pos) (f : Fn) (it : Nat) (q : Source) (st : Nat → NState) : Prop where
  called : ∀ k s, object s.heap (.native it) = some (.native (st k)) → ∃ d,
    (∀ n, run w (n + 1) (.call m .nil f s.args.length pos) s = (.ok (.value (.dict d) pos), q.asked k s)) ∧
    (∀ n, nextValue (q.asked k s).heap (n + 1) (.dict d) pos = .ok (q.element k s))
  hidden : ∀ k s v, Hid (.native it) (some (.native (st k))) s → q.element k s = some v →
    Hid (.native it) (some (.native (st (k + 1)))) (q.asked k s) ∧ ¬ Names (.native it) v

theorem run_iter {w : World} {m slot f pos body it q st} (hq : Supplies w m pos f it q st) {k s}
    (hs : object s.heap (.native it) = some (.native (st k))) (n : Nat) :
    run w (n + 2) (.iter m slot f pos body) s =
      match q.element k s with
      | none => (.ok (.value .nil noPos), q.asked k s)
      | some v => (do
          store slot v
          let o ← run w (n + 1) (.block m none body)
          afterBody o (run w (n + 1) (.iter m slot f pos body)) : M Out) (q.asked k s) := by
  obtain ⟨d, h1, h2⟩ := hq.called k s hs
  show (do
    let s ← M.get
    let o ← run w (n + 1) (.call m .nil f s.args.length pos)
    let v ← o.result
    match ← M.reads (fun h => nextValue h (n + 1) v pos) with
    | none => pure (.value .nil noPos)
    | some v => do
      store slot v
      let o ← run w (n + 1) (.block m none body)
      afterBody o (run w (n + 1) (.iter m slot f pos body)) : M Out) s = _
  simp only [Bind.bind, M.andThen, M.get, h1, Out.result, Out.value, M.reads, h2, Pure.pure, M.ret]
  cases q.element k s with
  | none => rfl
  | some v => rfl

theorem visits_of_run {w : World} {m slot f pos body it q st} (hq : Supplies w m pos f it q st) :
    ∀ n k s r s', Hid (.native it) (some (.native (st k))) s → run w n (.iter m slot f pos body) s = (r, s') → r ≠ .error .timeout →
      ∃ vs fin, Visits w m slot body q k s vs fin r s' := by
  intro n
  induction n using Nat.strongRecOn with
  | _ n ih =>
  intro k s r s' hs hr ht
  match n, ih, hr with
  | 0, _, hr => cases hr; exact absurd rfl ht
  | 1, _, hr =>
    simp only [run, step, Bind.bind, M.andThen, M.get, M.stop] at hr
    cases hr; exact absurd rfl ht
  | n + 2, ih, hr =>
    rw [run_iter hq hs.obj] at hr
    cases he : q.element k s with
    | none =>
      rw [he] at hr
      cases hr
      exact ⟨_, _, .finish he⟩
    | some v =>
      rw [he] at hr
      obtain ⟨hh, hv⟩ := hq.hidden k s v hs he
      simp only [Bind.bind, M.andThen] at hr
      have h1 := hides_store (ix := slot) hv _ hh nofun
      rcases hst : store slot v (q.asked k s) with ⟨x | x, s1⟩
      · rw [hst] at hr
        cases hr
        exact ⟨_, _, .noVariable he hst⟩
      · rw [hst] at hr h1
        dsimp only at hr
        have h2 := (hides_run w (n + 1)).hides (.block m none body) trivial s1 h1.1 nofun
        rcases hb : run w (n + 1) (.block m none body) s1 with ⟨e | o, s2⟩
        · rw [hb] at hr
          cases hr
          exact ⟨_, _, .stopped he hst ⟨ht, _, hb⟩⟩
        · rw [hb] at hr h2
          dsimp only at hr
          rcases o with ⟨fl, p, obj⟩
          cases fl with
          | regular x =>
            obtain ⟨vs, fin, h3⟩ := ih (n + 1) (by omega) (k + 1) s2 r s' h2.1 hr ht
            exact ⟨_, _, .turn he hst ⟨nofun, _, hb⟩ h3⟩
          | return_ x =>
            cases hr
            exact ⟨_, _, .returned he hst ⟨nofun, _, hb⟩⟩
          | break_ =>
            cases hr
            exact ⟨_, _, .broken he hst ⟨nofun, _, hb⟩⟩

/-- More budget. -/
theorem run_more {w : World} {n n' t s r s'} (h : run w n t s = (r, s')) (hr : r ≠ .error .timeout) (hn : n ≤ n') :
    run w n' t s = (r, s') := by
  rcases runTask_mono w hn t s with h1 | h1
  · rw [h] at h1; exact absurd h1 hr
  · rw [← h1, h]

theorem run_of_visits {w : World} {m slot f pos body it q st} (hq : Supplies w m pos f it q st) {k s vs fin r s'}
    (h : Visits w m slot body q k s vs fin r s') (hs : Hid (.native it) (some (.native (st k))) s) :
    r ≠ .error .timeout ∧ ∃ n, run w (n + 2) (.iter m slot f pos body) s = (r, s') := by
  induction h with
  | finish he => exact ⟨nofun, 0, by rw [run_iter hq hs.obj, he]; rfl⟩
  | @turn k s v s1 x p obj s2 vs fin r s' he hst hb _ ih =>
    obtain ⟨hh, hv⟩ := hq.hidden k s v hs he
    have h1 := hides_store (ix := slot) hv _ hh nofun
    rw [hst] at h1
    obtain ⟨hbt, nb, hb⟩ := hb
    have h2 := (hides_run w nb).hides (.block m none body) trivial s1 h1.1 nofun
    rw [hb] at h2
    obtain ⟨hrt, n, hn⟩ := ih h2.1
    refine ⟨hrt, max nb (n + 2), ?_⟩
    rw [run_iter hq hs.obj, he]
    simp only [Bind.bind, M.andThen, hst]
    rw [run_more (n' := max nb (n + 2) + 1) hb nofun (by omega)]
    exact run_more (n' := max nb (n + 2) + 1) hn hrt (by omega)
  | broken he hst hb =>
    obtain ⟨hbt, nb, hb⟩ := hb
    refine ⟨nofun, nb, ?_⟩
    rw [run_iter hq hs.obj, he]
    simp only [Bind.bind, M.andThen, hst]
    rw [run_more (n' := nb + 1) hb nofun (by omega)]
    rfl
  | returned he hst hb =>
    obtain ⟨hbt, nb, hb⟩ := hb
    refine ⟨nofun, nb, ?_⟩
    rw [run_iter hq hs.obj, he]
    simp only [Bind.bind, M.andThen, hst]
    rw [run_more (n' := nb + 1) hb nofun (by omega)]
    rfl
  | stopped he hst hb =>
    obtain ⟨hbt, nb, hb⟩ := hb
    refine ⟨hbt, nb, ?_⟩
    rw [run_iter hq hs.obj, he]
    simp only [Bind.bind, M.andThen, hst]
    rw [run_more (n' := nb + 1) hb hbt (by omega)]
  | @noVariable k s v e s1 he hst =>
    refine ⟨?_, 0, ?_⟩
    · intro h
      cases h
      unfold store at hst
      split at hst <;> cases hst
    · rw [run_iter hq hs.obj, he]
      simp only [Bind.bind, M.andThen, hst]

theorem ends_iter {w : World} {m slot f pos body it q st} (hq : Supplies w m pos f it q st) {k s r s'}
    (hs : Hid (.native it) (some (.native (st k))) s) :
    Ends w (.iter m slot f pos body) s r s' ↔ ∃ vs fin, Visits w m slot body q k s vs fin r s' := by
  constructor
  · rintro ⟨hr, n, hn⟩
    exact visits_of_run hq n k s r s' hs hn hr
  · rintro ⟨vs, fin, h⟩
    obtain ⟨hr, n, hn⟩ := run_of_visits hq h hs
    exact ⟨hr, _, hn⟩


/-- The names of native functions that are not library functions of `Verif/Model/Lib.lean`. -/
def Special (name : Bytes) : Prop :=
  name = bs "std.catch" ∨ name = bs "std.bind<impl>" ∨ name = bs "std.import" ∨ name = bs "<command>.join"

instance (name : Bytes) : Decidable (Special name) := by unfold Special; infer_instance

theorem take_length_le {s : RState} {start} (h : start ≤ s.args.length) : ¬ s.args.length < start := Nat.not_lt.2 h

/-- A call of a library function. -/
theorem run_libcall {w : World} {n m obj name it start pos} {s : RState} (hname : ¬ Special name) (hstart : start ≤ s.args.length) {v h}
    (hc : Lib.call w name ⟨n, it, s.args.drop start, pos, s.argv⟩ s.heap = some (.ok (v, h))) :
    run w (n + 1) (.call m obj (.native name it) start pos) s =
      (.ok (.value v pos), { s with heap := h, args := s.args.take start }) := by
  simp only [Special, not_or] at hname
  show stepCall w n (run w n) m obj (.native name it) start pos s = _
  unfold stepCall
  rw [if_neg (take_length_le hstart)]
  simp only [Bind.bind, M.andThen, finally_, nativeCall, M.get]
  rw [if_neg hname.1, if_neg hname.2.1, if_neg hname.2.2.1, if_neg hname.2.2.2]
  simp only [callLib, hc]
  rfl

theorem iteration_next {h : Heap} {v : Option Value} {n pos} :
    nextValue (Lib.iteration h v).2 (n + 1) (Lib.iteration h v).1 pos = .ok v := by
  cases v with
  | none =>
    simp [Lib.iteration, Heap.newDict, nextValue, dictGet, Heap.dict, lookupWith, findM, optAnd, sameHash, valueEq, Lib.kFinished]
  | some v =>
    have h1 : (bs "value" == bs "finished") = false := by decide
    simp [Lib.iteration, Heap.newDict, nextValue, dictGet, Heap.dict, lookupWith, findM, optAnd, sameHash, valueEq, Lib.kFinished, Lib.kValue, h1]

theorem native_of_object {h : Heap} {it st} (ho : object h (.native it) = some (.native st)) : h.native it = st := by
  simp only [object, Option.map_eq_some_iff, Object.native.injEq] at ho
  obtain ⟨x, h1, rfl⟩ := ho
  simp [Heap.native, List.getD_eq_getElem?_getD, h1]

theorem asked_iteration {it st} {s : RState} {v : Option Value} :
    ({ s with heap := (Lib.iteration (match v with | none => s.heap | some _ => s.heap.setNative it st) v).2, args := s.args.take s.args.length } : RState)
      = asked it st s v := by
  rw [List.take_length]
  cases v <;> rfl

/-- A call of an iterator. -/
theorem called_of_lib {w : World} {m name it pos st} {v : Option Value} {s : RState} (hname : ¬ Special name)
    (hc : ∀ n, Lib.call w name ⟨n, it, [], pos, s.argv⟩ s.heap =
      some (.ok (Lib.iteration (match v with | none => s.heap | some _ => s.heap.setNative it st) v))) : ∃ d,
    (∀ n, run w (n + 1) (.call m .nil (.native name it) s.args.length pos) s = (.ok (.value (.dict d) pos), asked it st s v)) ∧
    (∀ n, nextValue (asked it st s v).heap (n + 1) (.dict d) pos = .ok v) := by
  refine ⟨s.heap.dicts.length, fun n => ?_, fun n => ?_⟩
  · have h1 := hc n
    rw [← List.drop_length (l := s.args)] at h1
    rw [run_libcall hname (Nat.le_refl _) h1, List.take_length]
    cases v <;> rfl
  · rw [← asked_iteration]
    have := @iteration_next (match v with | none => s.heap | some _ => s.heap.setNative it st) v n pos
    cases v <;> exact this

/-- The private state of an iterator moves on. -/
theorem hid_private {it st st'} {s : RState} (hs : Hid (.native it) (some (.native st)) s) (h : ¬ StateNames (.native it) st') :
    Hid (.native it) (some (.native st')) (withPrivate it st' s) := by
  have ho := hs.obj
  simp only [object, Option.map_eq_some_iff] at ho
  obtain ⟨x, h1, _⟩ := ho
  have hl := (List.getElem?_eq_some_iff.1 h1).1
  obtain ⟨⟨hp, a, b, c, d, e⟩, _⟩ := hs
  refine ⟨⟨⟨hp.arrays, hp.dicts, hp.cells, hp.contexts, ?_⟩, a, b, c, d, e⟩, ?_⟩
  · intro y hy
    rcases List.mem_or_eq_of_mem_set hy with hy | rfl
    · exact hp.natives y hy
    · exact h
  · simp [object, withPrivate, List.getElem?_set_self hl]

theorem hid_dict {r c es} {s : RState} (hs : Hid r (some c) s) (h : ∀ e ∈ es, ¬ Names r e.1 ∧ ¬ Names r e.2) : Hid r (some c) (withDicts [es] s) :=
  hs.heap (vhid_newDict hs.hh h nofun).2

theorem hid_asked {it st st'} {s : RState} {v} (hs : Hid (.native it) (some (.native st)) s) (h : ¬ StateNames (.native it) st')
    (hv : ¬ Names (.native it) v) : Hid (.native it) (some (.native st')) (asked it st' s (some v)) := by
  refine hid_dict (hid_private hs h) ?_
  intro e he
  simp only [List.mem_cons, List.not_mem_nil, or_false] at he
  rcases he with rfl | rfl
  · exact ⟨clean_string _ _, clean_bool _ _⟩
  · exact ⟨clean_string _ _, hv⟩

theorem lib_iterImpl {w : World} {n it pos argv h} :
    Lib.call w (bs "std.iter<impl>") ⟨n, it, [], pos, argv⟩ h = Lib.iterImpl w ⟨n, it, [], pos, argv⟩ h := rfl
theorem lib_rangeImpl {w : World} {n it pos argv h} :
    Lib.call w (bs "std.range<impl>") ⟨n, it, [], pos, argv⟩ h = Lib.rangeImpl w ⟨n, it, [], pos, argv⟩ h := rfl

theorem supplies_array (w : World) (m : Nat) (pos : Pos) (it a : Nat) :
    Supplies w m pos (.native (bs "std.iter<impl>") it) it (arraySource it a) (fun k => .arrayIter a k) := by
  refine ⟨fun k s hs => called_of_lib (by decide) fun n => ?_, fun k s v hs he => ?_⟩
  · rw [lib_iterImpl]
    simp only [Lib.iterImpl, List.isEmpty_nil, Bool.not_true, Bool.false_eq_true, if_false, native_of_object hs]
    cases (s.heap.array a)[k]? <;> rfl
  · have hv : ¬ Names (.native it) v := hs.hh.array (List.mem_of_getElem? he)
    refine ⟨?_, hv⟩
    simp only [arraySource] at he ⊢
    rw [he]
    exact hid_asked hs (by simp [StateNames, Names]) hv

theorem supplies_string (w : World) (m : Nat) (pos : Pos) (it : Nat) (x : Bytes) :
    Supplies w m pos (.native (bs "std.iter<impl>") it) it (stringSource it x) (fun k => .stringIter x k) := by
  refine ⟨fun k s hs => called_of_lib (by decide) fun n => ?_, fun k s v hs he => ?_⟩
  · rw [lib_iterImpl]
    simp only [Lib.iterImpl, List.isEmpty_nil, Bool.not_true, Bool.false_eq_true, if_false, native_of_object hs]
    cases x[k]? <;> rfl
  · have hv : ¬ Names (.native it) v := by
      simp only [stringSource, Option.map_eq_some_iff] at he
      obtain ⟨y, _, rfl⟩ := he
      exact clean_byte _ _
    refine ⟨?_, hv⟩
    simp only [stringSource] at he ⊢
    rw [he]
    exact hid_asked hs (by simp [StateNames]) hv

theorem range_step_fits {a b st : Int} {k : Nat} (ha : Is64 a) (hb : Is64 (b + st)) {i} (h : rangeElement a b st k = some i) :
    i = a + k * st ∧ isI64 (a + k * st + st) = true := by
  simp only [rangeElement] at h
  split at h
  · rename_i hc
    cases h
    refine ⟨rfl, ?_⟩
    simp only [Is64] at ha hb
    simp only [isI64, decide_eq_true_eq]
    rcases hc with ⟨h1, h2⟩ | ⟨h1, h2⟩
    · have : (0 : Int) ≤ k * st := Int.mul_nonneg (by omega) (by omega)
      omega
    · have : (k : Int) * st ≤ 0 := Int.mul_nonpos_of_nonneg_of_nonpos (by omega) (by omega)
      omega
  · cases h

theorem supplies_range (w : World) (m : Nat) (pos : Pos) (it : Nat) {a b st : Int} (ha : Is64 a) (hb : Is64 (b + st)) :
    Supplies w m pos (.native (bs "std.range<impl>") it) it (rangeSource it a b st) (fun k => .intRange (a + k * st) b st) := by
  refine ⟨fun k s hs => called_of_lib (by decide) fun n => ?_, fun k s v hs he => ?_⟩
  · rw [lib_rangeImpl]
    simp only [Lib.rangeImpl, List.isEmpty_nil, Bool.not_true, Bool.false_eq_true, if_false, native_of_object hs]
    cases he : rangeElement a b st k with
    | none =>
      rw [if_pos]
      · rfl
      · simp only [rangeElement] at he
        split at he
        · cases he
        · rename_i hc
          split <;> omega
    | some i =>
      obtain ⟨rfl, h2⟩ := range_step_fits ha hb he
      rw [if_neg]
      · simp only [World.arith, h2, if_true]
        rw [show a + (↑k + 1) * st = a + ↑k * st + st by rw [Int.add_mul, Int.one_mul, ← Int.add_assoc]]
        rfl
      · simp only [rangeElement] at he
        split at he
        · rename_i hc
          split <;> omega
        · cases he
  · have hv : ¬ Names (.native it) v := by
      simp only [rangeSource, Option.map_eq_some_iff] at he
      obtain ⟨y, _, rfl⟩ := he
      exact clean_int _ _
    refine ⟨?_, hv⟩
    simp only [rangeSource] at he ⊢
    rw [he]
    exact hid_asked hs (by simp [StateNames]) hv

theorem supplies_entries (w : World) (m : Nat) (pos : Pos) (it : Nat) (es : List (Value × Value)) :
    Supplies w m pos (.native (bs "std.iter<impl>") it) it (entriesSource it es) (fun k => .dictIter (es.reverse.drop k).reverse) := by
  refine ⟨fun k s hs => ?_, fun k s v hs he => ?_⟩
  · have hl : (es.reverse.drop k).reverse.getLast? = es.reverse[k]? := by
      rw [List.getLast?_reverse, List.head?_drop]
    cases he : es.reverse[k]? with
    | none =>
      obtain ⟨d, h1, h2⟩ := @called_of_lib w m (bs "std.iter<impl>") it pos .none none s (by decide) (fun n => by
        rw [lib_iterImpl]
        simp only [Lib.iterImpl, List.isEmpty_nil, Bool.not_true, Bool.false_eq_true, if_false, native_of_object hs, hl, he])
      refine ⟨d, ?_, ?_⟩
      · simp only [entriesSource, he]; exact h1
      · simp only [entriesSource, he]; exact h2
    | some e =>
      have hd : (es.reverse.drop k).reverse.dropLast = (es.reverse.drop (k + 1)).reverse := by
        rw [List.dropLast_reverse, List.tail_drop]
      refine ⟨s.heap.dicts.length + 1, fun n => ?_, fun n => ?_⟩
      · rw [run_libcall (by decide) (Nat.le_refl _) (by
          rw [List.drop_length, lib_iterImpl]
          simp only [Lib.iterImpl, List.isEmpty_nil, Bool.not_true, Bool.false_eq_true, if_false, native_of_object hs, hl, he, hd]
          rfl)]
        rw [List.take_length]
        simp only [entriesSource, he]
        simp [Lib.iteration, Heap.newDict, Heap.setNative, withDicts, withPrivate]
        exact ⟨⟨rfl, rfl⟩, rfl, rfl⟩
      · have := @iteration_next ((s.heap.setNative it (.dictIter (es.reverse.drop (k + 1)).reverse)).newDict [(Lib.kKey, e.1), (Lib.kValue, e.2)]).2
          (some (.dict s.heap.dicts.length)) n pos
        simp only [entriesSource, he, Option.map_some]
        rw [← this]
        simp [Lib.iteration, Heap.newDict, Heap.setNative, withDicts, withPrivate]
        rfl
  · simp only [entriesSource] at he
    cases hk : es.reverse[k]? with
    | none => simp [hk] at he
    | some e =>
      simp only [hk, Option.map_some, Option.some.injEq] at he
      subst he
      have hlast : e ∈ (es.reverse.drop k).reverse := by
        rw [List.mem_reverse]
        exact List.mem_of_getElem? (i := 0) (by rw [List.getElem?_drop]; exact hk)
      have hst := hs.hh.native it
      rw [native_of_object hs.obj] at hst
      have hc : ∀ x ∈ (es.reverse.drop k).reverse, ¬ Names (.native it) x.1 ∧ ¬ Names (.native it) x.2 := fun x hx =>
        ⟨fun h => hst ⟨x, hx, .inl h⟩, fun h => hst ⟨x, hx, .inr h⟩⟩
      refine ⟨?_, by simp [Names]⟩
      simp only [entriesSource, hk]
      have h1 : Hid (.native it) (some (.native (.dictIter (es.reverse.drop (k + 1)).reverse))) (withPrivate it (.dictIter (es.reverse.drop (k + 1)).reverse) s) := by
        refine hid_private hs ?_
        rintro ⟨x, hx, h⟩
        have hx' : x ∈ (es.reverse.drop k).reverse := by
          rw [List.mem_reverse] at hx ⊢
          rw [← List.tail_drop] at hx
          exact List.mem_of_mem_tail hx
        exact h.elim (hc x hx').1 (hc x hx').2
      have h2 := hid_dict (es := [(keyKey, e.1), (valueKey, e.2)]) h1 (by
        intro x hx
        simp only [List.mem_cons, List.not_mem_nil, or_false] at hx
        rcases hx with rfl | rfl
        · exact ⟨clean_string _ _, (hc e hlast).1⟩
        · exact ⟨clean_string _ _, (hc e hlast).2⟩)
      have h3 := hid_dict (es := [(finishedKey, .bool false), (valueKey, .dict s.heap.dicts.length)]) h2 (by
        intro x hx
        simp only [List.mem_cons, List.not_mem_nil, or_false] at hx
        rcases hx with rfl | rfl
        · exact ⟨clean_string _ _, clean_bool _ _⟩
        · exact ⟨clean_string _ _, by simp [Names]⟩)
      simp only [withDicts, List.append_assoc, List.cons_append, List.nil_append] at h3 ⊢
      exact h3

end Hush

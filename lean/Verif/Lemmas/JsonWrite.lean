import Verif.Lemmas.JsonRead
import Verif.Lemmas.Library

/-!
Which values have a text, and how deep the reader goes.
-/

namespace Hush
open Hush.Spec

theorem calls_panic_at {w : World} {name args h k} (n : Nat) (hname : ¬ Special name)
    (hc : ∀ addr pos argv, Lib.call w name ⟨n, addr, args, pos, argv⟩ h = some (.error (.panic ⟨k, pos⟩))) :
    Calls w name args h (.error k) h := by
  rintro m obj addr start pos s hs rfl rfl
  exact ⟨nofun, n + 1, run_libpanic hname hs (hc addr pos s.argv)⟩

theorem encodeAll_ok {α : Type} {f : α → Except Json.EncStop Bytes} {l : List α} (h : ∀ x ∈ l, ∃ t, f x = .ok t) : ∃ ts, Json.encodeAll f l = .ok ts := by
  induction l with
  | nil => exact ⟨[], rfl⟩
  | cons x l ih =>
    obtain ⟨t, ht⟩ := h x List.mem_cons_self
    obtain ⟨ts, hts⟩ := ih fun y hy => h y (List.mem_cons_of_mem _ hy)
    exact ⟨t :: ts, by rw [Json.encodeAll, ht]; dsimp only; rw [hts]⟩

theorem encodeAll_refused {α : Type} {f : α → Except Json.EncStop Bytes} {l : List α} (h : ∀ x ∈ l, (∃ t, f x = .ok t) ∨ f x = .error .refused)
    (hx : ∃ x ∈ l, f x = .error .refused) : Json.encodeAll f l = .error .refused := by
  induction l with
  | nil => obtain ⟨x, hx, -⟩ := hx; exact absurd hx (List.not_mem_nil)
  | cons y l ih =>
    rw [Json.encodeAll]
    rcases h y List.mem_cons_self with ⟨t, ht⟩ | he
    · rw [ht]
      dsimp only
      rw [ih (fun z hz => h z (List.mem_cons_of_mem _ hz))]
      obtain ⟨x, hx, he⟩ := hx
      rcases List.mem_cons.1 hx with rfl | hx
      · rw [ht] at he
        cases he
      · exact ⟨x, hx, he⟩
    · rw [he]

/-- A number that is enough for all elements. -/
theorem bound_each {α : Type} {p : Nat → α → Prop} {l : List α} (h : ∀ x ∈ l, ∃ N, ∀ n, N ≤ n → p n x) : ∃ N, ∀ n, N ≤ n → ∀ x ∈ l, p n x := by
  induction l with
  | nil => exact ⟨0, fun _ _ _ hx => absurd hx List.not_mem_nil⟩
  | cons y l ih =>
    obtain ⟨N1, h1⟩ := h y List.mem_cons_self
    obtain ⟨N2, h2⟩ := ih fun z hz => h z (List.mem_cons_of_mem _ hz)
    refine ⟨max N1 N2, fun n hn x hx => ?_⟩
    rcases List.mem_cons.1 hx with rfl | hx
    · exact h1 n (by omega)
    · exact h2 n (by omega) x hx

theorem encode_total {w : World} {h : Heap} {v : Value} (hv : Grounded h v) :
    ∃ N, ∀ n, N ≤ n → ∀ d, (Unwritable h v → Json.encode w h n d v = .error .refused) ∧ (¬ Unwritable h v → ∃ t, Json.encode w h n d v = .ok t) := by
  induction hv with
  | @array a _ ih =>
    obtain ⟨N, hN⟩ := bound_each ih
    refine ⟨N + 1, fun n hn d => ?_⟩
    obtain ⟨n, rfl⟩ : ∃ k, n = k + 1 := ⟨n - 1, by omega⟩
    have hN := hN n (by omega)
    constructor
    · intro hu
      cases hu with
      | @item _ v hm hu =>
        have := encodeAll_refused (f := Json.encode w h n (d + 1)) (l := h.array a) (fun x hx => by
          by_cases hx' : Unwritable h x
          · exact .inr ((hN x hx (d + 1)).1 hx')
          · exact .inl ((hN x hx (d + 1)).2 hx')) ⟨v, hm, (hN v hm (d + 1)).1 hu⟩
        rw [Json.encode, this]
    · intro hu
      obtain ⟨ts, hts⟩ := encodeAll_ok (f := Json.encode w h n (d + 1)) (l := h.array a)
        fun x hx => (hN x hx (d + 1)).2 fun hx' => hu (.item hx hx')
      exact ⟨_, by rw [Json.encode, hts]⟩
  | @dict a _ _ _ ih =>
    obtain ⟨N, hN⟩ := bound_each ih
    refine ⟨N + 1, fun n hn d => ?_⟩
    obtain ⟨n, rfl⟩ : ∃ k, n = k + 1 := ⟨n - 1, by omega⟩
    have hN := hN n (by omega)
    have entry : ∀ e ∈ h.dict a, (((∀ s, e.1 ≠ .string s) ∨ Unwritable h e.2) → Json.encodeEntry (Json.encode w h n (d + 1)) e = .error .refused) ∧
        (¬ ((∀ s, e.1 ≠ .string s) ∨ Unwritable h e.2) → ∃ t, Json.encodeEntry (Json.encode w h n (d + 1)) e = .ok t) := by
      rintro ⟨k, x⟩ hx
      by_cases hk : ∃ s, k = .string s
      · obtain ⟨s, rfl⟩ := hk
        constructor
        · rintro (h' | h')
          · exact absurd rfl (h' s)
          · rw [Json.encodeEntry, (hN _ hx (d + 1)).1 h']
        · intro h'
          obtain ⟨t, ht⟩ := (hN _ hx (d + 1)).2 fun hu => h' (.inr hu)
          exact ⟨_, by rw [Json.encodeEntry, ht]⟩
      · refine ⟨fun _ => ?_, fun h' => absurd (.inl fun s hs => hk ⟨s, hs⟩) h'⟩
        unfold Json.encodeEntry
        dsimp only
        split
        · exact absurd ⟨_, rfl⟩ hk
        · rfl
    have bad : Unwritable h (.dict a) ↔ ∃ e ∈ h.dict a, (∀ s, e.1 ≠ .string s) ∨ Unwritable h e.2 := by
      constructor
      · intro hu
        cases hu with
        | key hm hk => exact ⟨_, hm, .inl hk⟩
        | value hm hk => exact ⟨_, hm, .inr hk⟩
      · rintro ⟨⟨k, x⟩, hm, hk | hk⟩
        · exact .key hm hk
        · exact .value hm hk
    rw [bad]
    constructor
    · rintro ⟨e, hm, he⟩
      have := encodeAll_refused (f := Json.encodeEntry (Json.encode w h n (d + 1))) (l := h.dict a) (fun x hx => by
        by_cases hx' : (∀ s, x.1 ≠ .string s) ∨ Unwritable h x.2
        · exact .inr ((entry x hx).1 hx')
        · exact .inl ((entry x hx).2 hx')) ⟨e, hm, (entry e hm).1 he⟩
      rw [Json.encode, this]
    · intro hu
      obtain ⟨ts, hts⟩ := encodeAll_ok (f := Json.encodeEntry (Json.encode w h n (d + 1))) (l := h.dict a)
        fun x hx => (entry x hx).2 fun hx' => hu ⟨x, hx, hx'⟩
      exact ⟨_, by rw [Json.encode, hts]⟩
  | @other v h1 h2 =>
    refine ⟨1, fun n hn d => ?_⟩
    obtain ⟨n, rfl⟩ : ∃ k, n = k + 1 := ⟨n - 1, by omega⟩
    cases v with
    | array a => exact absurd rfl (h1 a)
    | dict a => exact absurd rfl (h2 a)
    | function f => exact ⟨fun _ => by rw [Json.encode], fun hu => absurd (.function f) hu⟩
    | error e c => exact ⟨fun _ => by rw [Json.encode], fun hu => absurd (.error e c) hu⟩
    | _ => exact ⟨(fun hu => nomatch hu), fun _ => ⟨_, by rw [Json.encode]⟩⟩

/-- Lists in lists. -/
def nest : Nat → Data
  | 0 => .list []
  | n + 1 => .list [nest n]

theorem nest_proper (w : World) : ∀ n, Proper w (nest n)
  | 0 => by rw [nest, Proper, ProperItems]; trivial
  | n + 1 => by rw [nest, Proper, ProperItems, ProperItems]; exact ⟨nest_proper w n, trivial⟩

theorem nest_depth : ∀ n, (nest n).depth = n + 1
  | 0 => by rw [nest, Data.depth, depthItems]
  | n + 1 => by rw [nest, Data.depth, depthItems, depthItems, nest_depth n]; omega

theorem value_shallow {w : World} {n d : Nat} {s : Bytes} (hd : d ≤ 1) : Json.value w n d (91 :: s) = none := by
  cases n with
  | zero => rw [Json.value]
  | succ n =>
    rw [Json.value]
    show (if d ≤ 1 then none else _) = _
    rw [if_pos hd]

theorem nest_start (w : World) (k d : Nat) : ∃ t, dataText w d (nest k) = 91 :: t := by
  cases k with
  | zero => exact ⟨_, rfl⟩
  | succ k => exact ⟨_, rfl⟩

theorem nest_unread {w : World} : ∀ (k n dep d : Nat) (rest : Bytes), dep ≤ k + 1 → Json.value w n dep (dataText w d (nest k) ++ rest) = none
  | k, 0, dep, d, rest, _ => by rw [Json.value]
  | 0, n + 1, dep, d, rest, h => by
    obtain ⟨t, ht⟩ := nest_start w 0 d
    rw [ht]
    exact value_shallow h
  | k + 1, n + 1, dep, d, rest, h => by
    by_cases hd : dep ≤ 1
    · obtain ⟨t, ht⟩ := nest_start w (k + 1) d
      rw [ht]
      exact value_shallow hd
    · obtain ⟨t, ht⟩ := nest_start w k (d + 1)
      rw [nest, dataText, itemTexts, layout_cons, value_items (c := 91) (t := t ++ afterFirst d 93 (itemTexts w d []) rest) (by omega)
        (by rw [skip_newline, ht]; exact skip_start _ (by decide)) (by decide), ← List.cons_append, ← ht]
      have hi : Json.items w n (dep - 1) (dataText w (d + 1) (nest k) ++ afterFirst d 93 (itemTexts w d []) rest) = none := by
        cases n with
        | zero => rw [Json.items]
        | succ n => rw [Json.items, nest_unread k n (dep - 1) (d + 1) _ (by omega)]
      rw [hi]
      rfl

end Hush

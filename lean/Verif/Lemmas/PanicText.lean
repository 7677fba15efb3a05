import Verif.Model.PanicText
import Verif.Spec.PanicText
import Verif.Lemmas.Reports

/-!
Lemmas for C77: the texts of values exist exactly if these are not part of themselves; and what reports of panics tell.
-/

namespace Hush
open Spec

/-! ### Values -/

theorem showAll_some {f : α → Option Bytes} : ∀ {l : List α}, (∀ x ∈ l, ∃ t, f x = some t) → ∃ ts, Show.all f l = some ts
  | [], _ => ⟨[], rfl⟩
  | x :: l, h => by
    obtain ⟨t, ht⟩ := h x List.mem_cons_self
    obtain ⟨ts, hts⟩ := showAll_some (fun y hy => h y (List.mem_cons_of_mem _ hy))
    exact ⟨t :: ts, by simp only [Show.all, ht, hts]⟩

theorem showAll_inv {f : α → Option Bytes} : ∀ {l : List α} {ts : List Bytes}, Show.all f l = some ts → (∀ x ∈ l, ∃ t, f x = some t) ∧ ∀ t ∈ ts, ∃ x ∈ l, f x = some t
  | [], ts, h => by
    injection h with h
    subst h
    exact ⟨fun _ hx => (List.not_mem_nil hx).elim, fun _ hx => (List.not_mem_nil hx).elim⟩
  | x :: l, ts, h => by
    rw [Show.all] at h
    split at h
    · cases h
    · rename_i t ht
      split at h
      · cases h
      · rename_i ts' hts
        injection h with h
        subst h
        obtain ⟨h1, h2⟩ := showAll_inv hts
        refine ⟨fun y hy => ?_, fun y hy => ?_⟩
        · rcases List.mem_cons.1 hy with rfl | hy
          · exact ⟨t, ht⟩
          · exact h1 y hy
        · rcases List.mem_cons.1 hy with rfl | hy
          · exact ⟨x, List.mem_cons_self, ht⟩
          · obtain ⟨x, hx, e⟩ := h2 y hy
            exact ⟨x, List.mem_cons_of_mem _ hx, e⟩

theorem showAll_mono {f g : α → Option Bytes} (hfg : ∀ x t, f x = some t → g x = some t) : ∀ {l : List α} {ts : List Bytes},
    Show.all f l = some ts → Show.all g l = some ts
  | [], _, h => h
  | x :: l, ts, h => by
    rw [Show.all] at h ⊢
    split at h
    · cases h
    · rename_i t ht
      split at h
      · cases h
      · rename_i ts' hts
        rw [hfg x t ht, showAll_mono hfg hts]
        exact h

theorem shown_mono {w : World} {h : Heap} : ∀ {n : Nat} {v : Value} {t : Bytes}, Show.value w h n v = some t → Show.value w h (n + 1) v = some t
  | 0, _, _, e => by cases e
  | n + 1, v, t, e => by
    cases v with
    | array a =>
      simp only [Show.value, Option.map_eq_some_iff] at e ⊢
      obtain ⟨ts, h1, h2⟩ := e
      exact ⟨ts, showAll_mono (fun _ _ hx => shown_mono hx) h1, h2⟩
    | dict d =>
      simp only [Show.value, Option.map_eq_some_iff] at e ⊢
      obtain ⟨ts, h1, h2⟩ := e
      refine ⟨ts, showAll_mono (fun x t hx => ?_) h1, h2⟩
      split at hx
      · cases hx
      · rename_i k hk
        simp only [Option.map_eq_some_iff] at hx
        obtain ⟨u, hu, e⟩ := hx
        have e1 := shown_mono hk
        have e2 := shown_mono hu
        simp only [Show.value] at e1 e2
        simp only [e1, e2, Option.map_some, e]
    | error x c =>
      simp only [Show.value, Option.map_eq_some_iff] at e ⊢
      obtain ⟨u, h1, h2⟩ := e
      exact ⟨u, shown_mono h1, h2⟩
    | _ => exact e

theorem show_le {w : World} {h : Heap} {n m : Nat} {v : Value} {t : Bytes} (hle : n ≤ m) (e : Show.value w h n v = some t) : Show.value w h m v = some t := by
  induction hle with
  | refl => exact e
  | step _ ih => exact shown_mono ih

/-- A bound for all elements of a list. -/
theorem common_bound {p : Nat → α → Prop} (hp : ∀ n m x, n ≤ m → p n x → p m x) : ∀ {l : List α}, (∀ x ∈ l, ∃ n, p n x) → ∃ n, ∀ x ∈ l, p n x
  | [], _ => ⟨0, fun _ hx => (List.not_mem_nil hx).elim⟩
  | x :: l, h => by
    obtain ⟨n, hn⟩ := h x List.mem_cons_self
    obtain ⟨m, hm⟩ := common_bound hp (fun y hy => h y (List.mem_cons_of_mem _ hy))
    refine ⟨max n m, fun y hy => ?_⟩
    rcases List.mem_cons.1 hy with rfl | hy
    · exact hp _ _ _ (Nat.le_max_left _ _) hn
    · exact hp _ _ _ (Nat.le_max_right _ _) (hm y hy)

theorem shown_of {w : World} {h : Heap} {P : Value → Prop} {v : Value} (hv : AllThrough P h v) : ∃ n t, Show.value w h n v = some t := by
  have up : ∀ (n m : Nat) (v : Value), n ≤ m → (∃ t, Show.value w h n v = some t) → ∃ t, Show.value w h m v = some t :=
    fun _ _ _ hle ⟨t, ht⟩ => ⟨t, show_le hle ht⟩
  induction hv with
  | plain _ h1 h2 h3 =>
    rename_i v _
    refine ⟨1, ?_⟩
    cases v with
    | array a => exact absurd rfl (h1 a)
    | dict d => exact absurd rfl (h2 d)
    | error x c => exact absurd rfl (h3 x c)
    | _ => exact ⟨_, rfl⟩
  | array _ _ ih =>
    rename_i a _ _
    obtain ⟨n, hn⟩ := common_bound (p := fun n v => ∃ t, Show.value w h n v = some t) up ih
    obtain ⟨ts, hts⟩ := showAll_some hn
    exact ⟨n + 1, _, by simp only [Show.value, hts, Option.map_some]; rfl⟩
  | dict _ _ _ ih1 ih2 =>
    rename_i d _ _ _
    obtain ⟨n, hn⟩ := common_bound (p := fun n (e : Value × Value) => (∃ t, Show.value w h n e.1 = some t) ∧ ∃ t, Show.value w h n e.2 = some t)
      (fun n m x hle hx => ⟨up n m _ hle hx.1, up n m _ hle hx.2⟩) (l := h.dict d) (fun e he => by
        obtain ⟨n, hn⟩ := ih1 e he
        obtain ⟨m, hm⟩ := ih2 e he
        exact ⟨max n m, up _ _ _ (Nat.le_max_left _ _) hn, up _ _ _ (Nat.le_max_right _ _) hm⟩)
    refine ⟨n + 1, ?_⟩
    simp only [Show.value]
    obtain ⟨ts, hts⟩ := showAll_some (l := h.dict d) (fun e he => by
      obtain ⟨⟨k, hk⟩, t, ht⟩ := hn e he
      exact ⟨k ++ [58, 32] ++ t, show (match Show.value w h n e.1 with
        | none => none
        | some k => (Show.value w h n e.2).map (fun t => k ++ [58, 32] ++ t)) = some _ by simp only [hk, ht]; rfl⟩)
    exact ⟨_, congrArg (Option.map (Show.list [64, 91])) hts⟩
  | error _ _ ih =>
    obtain ⟨n, t, ht⟩ := ih
    exact ⟨n + 1, _, by simp only [Show.value, ht, Option.map_some]; rfl⟩

theorem notCyclic_of_shown {w : World} {h : Heap} : ∀ {n : Nat} {v : Value} {t : Bytes}, Show.value w h n v = some t → NotCyclic h v
  | 0, _, _, e => by cases e
  | n + 1, v, t, e => by
    cases v with
    | array a =>
      simp only [Show.value, Option.map_eq_some_iff] at e
      obtain ⟨ts, h1, _⟩ := e
      exact .array trivial fun x hx => by
        obtain ⟨u, hu⟩ := (showAll_inv h1).1 x hx
        exact notCyclic_of_shown hu
    | dict d =>
      simp only [Show.value, Option.map_eq_some_iff] at e
      obtain ⟨ts, h1, _⟩ := e
      have key : ∀ x ∈ h.dict d, (∃ u, Show.value w h n x.1 = some u) ∧ ∃ u, Show.value w h n x.2 = some u := by
        intro x hx
        obtain ⟨u, hu⟩ := (showAll_inv h1).1 x hx
        split at hu
        · cases hu
        · rename_i k hk
          simp only [Option.map_eq_some_iff] at hu
          obtain ⟨t, ht, _⟩ := hu
          exact ⟨⟨k, hk⟩, t, ht⟩
      exact .dict trivial (fun x hx => by obtain ⟨⟨u, hu⟩, _⟩ := key x hx; exact notCyclic_of_shown hu)
        (fun x hx => by obtain ⟨_, u, hu⟩ := key x hx; exact notCyclic_of_shown hu)
    | error x c =>
      simp only [Show.value, Option.map_eq_some_iff] at e
      obtain ⟨u, h1, _⟩ := e
      exact .error trivial (notCyclic_of_shown h1)
    | _ => exact .plain trivial (fun _ => by simp) (fun _ => by simp) (fun _ _ => by simp)

theorem printable_string (w : World) (s : Bytes) : Printable (Show.string w s) :=
  printable_append (s := [34]) (by decide) (printable_append (printable_escape w _) (by decide))

theorem printable_list {opening : Bytes} (ho : Printable opening) {ts : List Bytes} (ht : ∀ t ∈ ts, Printable t) : Printable (Show.list opening ts) := by
  cases ts with
  | nil => exact printable_append ho (by decide)
  | cons t ts =>
    have h1 : Printable (32 :: t) := printable_append (s := [32]) (by decide) (ht t List.mem_cons_self)
    have h2 : Printable (ts.flatMap (fun t => 44 :: 32 :: t)) := printable_flatMap fun a ha =>
      printable_append (s := [44, 32]) (by decide) (ht a (List.mem_cons_of_mem _ ha))
    exact printable_append (printable_append (printable_append ho h1) h2) (by decide)

theorem printable_value {w : World} (hf : ∀ x, Printable (w.floatText x)) (hm : ∀ m, Printable (w.pathText m)) {h : Heap} :
    ∀ {n : Nat} {v : Value} {t : Bytes}, AllThrough Mild h v → Show.value w h n v = some t → Printable t
  | 0, _, _, _, e => by cases e
  | n + 1, v, t, hv, e => by
    cases hv with
    | plain hp h1 h2 h3 =>
      cases v with
      | array a => exact absurd rfl (h1 a)
      | dict d => exact absurd rfl (h2 d)
      | error x c => exact absurd rfl (h3 x c)
      | byte b => exact hp.elim
      | nil => injection e with e; subst e; decide
      | bool b => injection e with e; subst e; cases b <;> decide
      | int i => injection e with e; subst e; exact printable_int i
      | float x => injection e with e; subst e; exact hf x
      | string s => injection e with e; subst e; exact printable_string w s
      | function f =>
        injection e with e
        subst e
        cases f with
        | hush a =>
          exact printable_append (printable_append (printable_append (printable_append (printable_append (printable_append (by decide) (hm _)) (by decide))
            (printable_nat _)) (by decide)) (printable_nat _)) (by decide)
        | native name d => exact hp
    | array _ ha =>
      simp only [Show.value, Option.map_eq_some_iff] at e
      obtain ⟨ts, h1, rfl⟩ := e
      refine printable_list (by decide) fun t ht => ?_
      obtain ⟨x, hx, e⟩ := (showAll_inv h1).2 t ht
      exact printable_value hf hm (ha x hx) e
    | dict _ hk hv =>
      simp only [Show.value, Option.map_eq_some_iff] at e
      obtain ⟨ts, h1, rfl⟩ := e
      refine printable_list (by decide) fun t ht => ?_
      obtain ⟨x, hx, e⟩ := (showAll_inv h1).2 t ht
      split at e
      · cases e
      · rename_i k hk'
        simp only [Option.map_eq_some_iff] at e
        obtain ⟨u, hu, rfl⟩ := e
        exact printable_append (printable_append (printable_value hf hm (hk x hx) hk') (by decide)) (printable_value hf hm (hv x hx) hu)
    | error _ hc =>
      simp only [Show.value, Option.map_eq_some_iff] at e
      obtain ⟨u, h1, rfl⟩ := e
      exact printable_append (printable_append (printable_append (printable_append (by decide) (printable_string w _)) (by decide)) (printable_value hf hm hc h1)) (by decide)

/-! ### Reports -/

open PanicText

theorem text_some {w : World} {debug : Bytes → Bytes} {h : Heap} {n : Nat} {path : Bytes} {p : Panic} {t : Bytes} (e : text w debug h n path p = some t) :
    ∃ c, cause w debug h n p.kind = some c ∧ t = bs "Panic in " ++ located w path p.pos ++ bs ": " ++ c := by
  simp only [text, Option.map_eq_some_iff] at e
  obtain ⟨c, h1, h2⟩ := e
  exact ⟨c, h1, h2.symm⟩

theorem cause_exists {w : World} {debug : Bytes → Bytes} {h : Heap} {k : PanicKind} (hk : ∀ v, aboutValue k = some v → NotCyclic h v) :
    ∃ n c, cause w debug h n k = some c := by
  cases hv : aboutValue k with
  | none => cases k <;> first | exact ⟨0, _, rfl⟩ | cases hv
  | some v =>
    obtain ⟨n, t, ht⟩ := shown_of (w := w) (hk v hv)
    refine ⟨n, ?_⟩
    cases k <;> first | (cases hv; done) | (injection hv with hv; subst hv; exact ⟨_, by simp only [cause, ht, Option.map_some]; rfl⟩)

theorem cause_value {w : World} {debug : Bytes → Bytes} {h : Heap} {k : PanicKind} {n : Nat} {c : Bytes} (hc : cause w debug h n k = some c) {v : Value}
    (hv : aboutValue k = some v) : ∃ t rest, Show.value w h n v = some t ∧ c = bs (heading k) ++ t ++ rest := by
  cases k with
  | indexOutOfBounds x | invalidCall x | invalidCondition x | assignToReadonlyField x | user x =>
    injection hv with hv
    subst hv
    simp only [cause, Option.map_eq_some_iff] at hc
    obtain ⟨t, h1, rfl⟩ := hc
    exact ⟨t, _, h1, rfl⟩
  | typeError x y | valueError x y =>
    injection hv with hv
    subst hv
    simp only [cause, Option.map_eq_some_iff] at hc
    obtain ⟨t, h1, rfl⟩ := hc
    exact ⟨t, _, h1, List.append_assoc _ _ _⟩
  | _ => cases hv

theorem cause_heading {w : World} {debug : Bytes → Bytes} {h : Heap} {k : PanicKind} {n : Nat} {c : Bytes} (hc : cause w debug h n k = some c) (hk : OfHush k) :
    ∃ o rest, c = o ++ bs (heading k) ++ rest ∧ ((∃ x i, k = .invalidCommandArgs x i ∧ ∃ y ∈ expanded, o = bs y) ∨ ((∀ x i, k ≠ .invalidCommandArgs x i) ∧ o = [])) := by
  cases hv : aboutValue k with
  | some v =>
    obtain ⟨t, rest, _, e⟩ := cause_value hc hv
    refine ⟨[], t ++ rest, by rw [e]; simp, .inr ⟨fun x i e => ?_, rfl⟩⟩
    subst e
    cases hv
  | none =>
    cases k with
    | indexOutOfBounds x | invalidCall x | invalidCondition x | assignToReadonlyField x | user x => cases hv
    | typeError x y | valueError x y => cases hv
    | invalidArgs a b =>
      injection hc with hc; subst hc
      refine ⟨[], bs " -- supplied " ++ natDigits a ++ bs ", expected " ++ natDigits b, ?_, .inr ⟨fun _ _ => by simp, rfl⟩⟩
      rw [show bs "incorrect amount of function parameters -- supplied " = bs "incorrect amount of function parameters" ++ bs " -- supplied " by decide +kernel]
      simp only [heading, List.append_assoc, List.nil_append]
    | invalidCommandArgs x i =>
      injection hc with hc; subst hc
      obtain ⟨y, hy, e⟩ := hk
      exact ⟨x, natDigits i ++ bs " items", by simp only [heading, List.append_assoc], .inl ⟨_, _, rfl, y, hy, e⟩⟩
    | io e => exact hk.elim
    | unsupportedFd i =>
      injection hc with hc; subst hc
      exact ⟨[], natDigits i ++ bs ")", by simp only [heading, List.append_assoc, List.nil_append], .inr ⟨fun _ _ => by simp, rfl⟩⟩
    | invalidPattern x =>
      injection hc with hc; subst hc
      exact ⟨[], debug x ++ bs ") has invalid UTF-8", by simp only [heading, List.append_assoc, List.nil_append], .inr ⟨fun _ _ => by simp, rfl⟩⟩
    | importFailed x =>
      injection hc with hc; subst hc
      exact ⟨[], AstFmt.symbol w x ++ bs ")", by simp only [heading, List.append_assoc, List.nil_append], .inr ⟨fun _ _ => by simp, rfl⟩⟩
    | _ => injection hc with hc; subst hc; exact ⟨[], [], by simp [heading], .inr ⟨fun _ _ => by simp, rfl⟩⟩

/-- The beginnings of reports. -/
def beginnings (s : String) : List Bytes := if s = " expansion resulted in " then expanded.map (fun o => bs o ++ bs s) else [bs s]

def headings : List String :=
  ["stack overflow", "integer overflow", "division by zero", "index (", "collection is empty", "attempt to call (", "incorrect amount of function parameters", "condition (",
    "value (", "invalid value (", " expansion resulted in ", "unsupported file descriptor (", "pattern (", "attempt to assign field (", "assertion failed",
    "failed to import module (", "attempt to call join more than once", "std.panic("]

set_option maxRecDepth 100000 in
theorem headings_differ : ∀ a ∈ headings, ∀ b ∈ headings, a ≠ b → ∀ x ∈ beginnings a, ∀ y ∈ beginnings b, x.isPrefixOf y = false := by
  decide +kernel

theorem heading_listed {k : PanicKind} (hk : OfHush k) : heading k ∈ headings := by
  cases k <;> first | exact hk.elim | (simp [heading, headings])

theorem cause_begins {w : World} {debug : Bytes → Bytes} {h : Heap} {k : PanicKind} {n : Nat} {c : Bytes} (hc : cause w debug h n k = some c) (hk : OfHush k) :
    ∃ x ∈ beginnings (heading k), x <+: c := by
  obtain ⟨o, rest, e, ⟨x, i, rfl, y, hy, rfl⟩ | ⟨h1, rfl⟩⟩ := cause_heading hc hk
  · exact ⟨bs y ++ bs " expansion resulted in ", by simp only [beginnings, heading, if_pos]; exact List.mem_map_of_mem hy, rest, e.symm⟩
  · refine ⟨bs (heading k), ?_, rest, by rw [e]; rfl⟩
    unfold beginnings
    rw [if_neg (by cases k <;> first | (intro e; exact h1 _ _ rfl) | (simp [heading]))]
    exact List.mem_singleton.2 rfl

theorem same_heading {w w' : World} {debug debug' : Bytes → Bytes} {h h' : Heap} {k k' : PanicKind} {n n' : Nat} {c : Bytes} (hc : cause w debug h n k = some c)
    (hc' : cause w' debug' h' n' k' = some c) (hk : OfHush k) (hk' : OfHush k') : heading k = heading k' := by
  obtain ⟨x, hx, e⟩ := cause_begins hc hk
  obtain ⟨y, hy, e'⟩ := cause_begins hc' hk'
  by_cases hd : heading k = heading k'
  · exact hd
  · rcases List.prefix_or_prefix_of_prefix e e' with g | g
    · have := headings_differ _ (heading_listed hk) _ (heading_listed hk') hd x hx y hy
      rw [List.isPrefixOf_iff_prefix.2 g] at this
      cases this
    · have := headings_differ _ (heading_listed hk') _ (heading_listed hk) (Ne.symm hd) y hy x hx
      rw [List.isPrefixOf_iff_prefix.2 g] at this
      cases this

theorem located_cut {w : World} {path : Bytes} {p p' : Pos} {s t : Bytes} (h : located w path p ++ s = located w path p' ++ t) : p = p' ∧ s = t := by
  unfold located at h
  simp only [List.append_assoc, List.append_cancel_left_eq] at h
  obtain ⟨h1, h2⟩ := digits_cut (c := 44) rfl h
  have h3 := List.append_cancel_left (as := [32, 99, 111, 108, 117, 109, 110, 32]) h2
  obtain ⟨h4, h5⟩ := digits_cut (c := 41) rfl h3
  cases p; cases p'
  exact ⟨congr (congrArg Pos.mk h1) h4, h5⟩

theorem printable_located (w : World) (path : Bytes) (p : Pos) : Printable (located w path p) :=
  printable_append (printable_append (printable_append (printable_append (printable_append (printable_escape w _) (by decide)) (printable_nat _)) (by decide))
    (printable_nat _)) (by decide)

theorem printable_cause {w : World} (hf : ∀ x, Printable (w.floatText x)) (hm : ∀ m, Printable (w.pathText m)) {debug : Bytes → Bytes} (hd : ∀ s, Printable (debug s))
    {h : Heap} {k : PanicKind} (hk : MildMessage k) (hv : ∀ v, aboutValue k = some v → AllThrough Mild h v) {n : Nat} {c : Bytes}
    (hc : cause w debug h n k = some c) : Printable c := by
  have val : ∀ {v t}, aboutValue k = some v → Show.value w h n v = some t → Printable t := fun hv' ht => printable_value hf hm (hv _ hv') ht
  cases k with
  | indexOutOfBounds v | invalidCall v | invalidCondition v | assignToReadonlyField v | user v =>
    simp only [cause, Option.map_eq_some_iff] at hc
    obtain ⟨t, ht, rfl⟩ := hc
    exact printable_append (printable_append (by decide) (val rfl ht)) (by decide)
  | typeError v x | valueError v x =>
    simp only [cause, Option.map_eq_some_iff] at hc
    obtain ⟨t, ht, rfl⟩ := hc
    exact printable_append (printable_append (printable_append (by decide) (val rfl ht)) (by decide)) hk
  | invalidArgs a b =>
    injection hc with hc; subst hc
    exact printable_append (printable_append (printable_append (by decide) (printable_nat _)) (by decide)) (printable_nat _)
  | invalidCommandArgs o i =>
    injection hc with hc; subst hc
    exact printable_append (printable_append (printable_append hk (by decide)) (printable_nat _)) (by decide)
  | io e => injection hc with hc; subst hc; exact hk
  | unsupportedFd i =>
    injection hc with hc; subst hc
    exact printable_append (printable_append (by decide) (printable_nat _)) (by decide)
  | invalidPattern s =>
    injection hc with hc; subst hc
    exact printable_append (printable_append (by decide) (hd _)) (by decide)
  | importFailed s =>
    injection hc with hc; subst hc
    exact printable_append (printable_append (by decide) (printable_escape w _)) (by decide)
  | _ => injection hc with hc; subst hc; decide

end Hush

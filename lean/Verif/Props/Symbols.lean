import Verif.Model.Symbols
import Verif.Spec.Symbols

/-!
Property C82: symbols are as good as their texts.
-/

namespace Hush.Props
open Hush Hush.Spec Hush.Symbols

/-- The map is the inverse of the list. -/
structure TableOk (t : Interner) : Prop where
  length : t.map.length = t.vec.length
  lookup : ∀ b i, t.map.lookup b = some i ↔ t.vec[i]? = some b

theorem tableOk_empty : TableOk ⟨[], []⟩ := ⟨rfl, by simp⟩

theorem tableOk_intern {t t' : Interner} {b : Bytes} {i : Nat} (h : TableOk t) (hi : t.intern b = some (i, t')) :
    TableOk t' ∧ t'.vec[i]? = some b ∧ (∃ more, t'.vec = t.vec ++ more) ∧ t'.vec.length ≤ t.vec.length + 1 := by
  unfold Interner.intern at hi
  cases hl : t.map.lookup b with
  | some j =>
    simp only [hl, Option.some.injEq, Prod.mk.injEq] at hi
    obtain ⟨rfl, rfl⟩ := hi
    exact ⟨h, (h.lookup _ _).1 hl, ⟨[], by simp⟩, Nat.le_succ _⟩
  | none =>
    simp only [hl] at hi
    split at hi
    · simp only [Option.some.injEq, Prod.mk.injEq] at hi
      obtain ⟨rfl, rfl⟩ := hi
      refine ⟨⟨by simp [h.length], fun c j => ?_⟩, by simp [h.length], ⟨[b], rfl⟩, by simp⟩
      rw [List.lookup_cons]
      by_cases hc : c = b
      · subst hc
        simp only [BEq.rfl, Option.some.injEq, h.length]
        constructor
        · rintro rfl; simp
        · intro hj
          rw [List.getElem?_append] at hj
          split at hj
          · rw [(h.lookup _ _).2 hj] at hl; cases hl
          · rename_i hlt
            have := (List.getElem?_eq_some_iff.1 hj).1
            simp at this
            omega
      · have : (c == b) = false := by simpa using hc
        simp only [this]
        rw [h.lookup, List.getElem?_append]
        split
        · rfl
        · rename_i hlt
          rw [List.getElem?_eq_none (by omega)]
          constructor
          · nofun
          · intro hj
            rcases hk : j - t.vec.length with _ | k
            · rw [hk] at hj; simp at hj; exact absurd hj.symm hc
            · rw [hk] at hj; simp at hj
    · cases hi

/-- C82: obtaining a symbol gives one that resolves to the text, and all symbols keep their texts. -/
theorem intern_resolves {t t' : Interner} {b : Bytes} {i : Nat} (h : TableOk t) (hi : t.intern b = some (i, t')) :
    TableOk t' ∧ t'.resolve i = some b ∧ ∀ j c, t.resolve j = some c → t'.resolve j = some c := by
  obtain ⟨h1, h2, ⟨more, h3⟩, _⟩ := tableOk_intern h hi
  refine ⟨h1, h2, fun j c hj => ?_⟩
  unfold Interner.resolve at hj ⊢
  rw [h3, List.getElem?_append_left (List.getElem?_eq_some_iff.1 hj).1]
  exact hj

theorem resolve_injective {t : Interner} (h : TableOk t) {i j : Nat} {b : Bytes} (hi : t.resolve i = some b) (hj : t.resolve j = some b) : i = j :=
  Option.some.inj (((h.lookup _ _).2 hi).symm.trans ((h.lookup _ _).2 hj))

/-- The session is the one with texts. -/
structure Stands (s : Session) (got : List Bytes) : Prop where
  table : TableOk s.table
  first : s.table.resolve 0 = some invalidSymbol
  length : s.got.length = got.length
  each : ∀ (k i : Nat), s.got[k]? = some i → s.table.resolve i = got[k]?

theorem stands_get {s : Session} {got : List Bytes} (h : Stands s got) (k : Nat) :
    (s.got[k]? = none ∧ got[k]? = none) ∨ ∃ i b, s.got[k]? = some i ∧ got[k]? = some b ∧ s.table.resolve i = some b := by
  by_cases hk : k < got.length
  · right
    have h1 : s.got[k]? = some (s.got[k]'(h.length ▸ hk)) := List.getElem?_eq_getElem _
    exact ⟨_, _, h1, List.getElem?_eq_getElem hk, (h.each _ _ h1).trans (List.getElem?_eq_getElem hk)⟩
  · left
    exact ⟨List.getElem?_eq_none (by have := h.length; omega), List.getElem?_eq_none (by omega)⟩

theorem use_stands {escape : Bytes → Bytes} {number : Nat → Bytes} {s s' : Session} {got : List Bytes} {u : Use} {x : Seen} (h : Stands s got)
    (hu : use escape number s u = some (x, s')) :
    (useText escape got u).1 = x ∧ Stands s' (useText escape got u).2 ∧ s'.table.vec.length ≤ s.table.vec.length + 1 := by
  cases u with
  | obtain b =>
    simp only [use, Option.map_eq_some_iff, Prod.mk.injEq] at hu
    obtain ⟨⟨i, t⟩, h1, rfl, rfl⟩ := hu
    obtain ⟨h2, h3, h4⟩ := intern_resolves h.table h1
    refine ⟨rfl, ⟨h2, h4 _ _ h.first, by simp [useText, h.length], fun k j hk => ?_⟩, (tableOk_intern h.table h1).2.2.2⟩
    dsimp only [useText] at hk ⊢
    rw [List.getElem?_append] at hk ⊢
    rw [h.length] at hk
    split at hk
    · rename_i hlt
      rw [if_pos hlt]
      have := h.each _ _ hk
      rw [List.getElem?_eq_getElem hlt] at this ⊢
      exact h4 _ _ this
    · rename_i hlt
      rw [if_neg hlt]
      rcases he : k - got.length with _ | e
      · rw [he] at hk
        simp at hk
        subst hk
        simpa using h3
      · rw [he] at hk; simp at hk
  | same i j =>
    simp only [use, Option.some.injEq, Prod.mk.injEq] at hu
    obtain ⟨rfl, rfl⟩ := hu
    refine ⟨?_, h, Nat.le_succ _⟩
    simp only [useText, Seen.same.injEq]
    rcases stands_get h i with ⟨h1, h2⟩ | ⟨a, b, h1, h2, h3⟩ <;> rcases stands_get h j with ⟨g1, g2⟩ | ⟨c, d, g1, g2, g3⟩ <;> rw [h1, h2, g1, g2]
    · rfl
    · rfl
    · rfl
    · by_cases hbd : b = d
      · subst hbd
        rw [resolve_injective h.table h3 g3]
        simp
      · have : a ≠ c := by
          rintro rfl
          rw [h3] at g3
          exact hbd (Option.some.inj g3)
        rw [beq_eq_false_iff_ne.2 (by simpa using hbd), beq_eq_false_iff_ne.2 (by simpa using this)]
  | resolve i =>
    simp only [use, Option.some.injEq, Prod.mk.injEq] at hu
    obtain ⟨rfl, rfl⟩ := hu
    refine ⟨?_, h, Nat.le_succ _⟩
    simp only [useText, Seen.resolved.injEq]
    rcases stands_get h i with ⟨h1, h2⟩ | ⟨a, b, h1, h2, h3⟩ <;> rw [h1, h2]
    · rfl
    · exact h3.symm
  | text i =>
    simp only [use, Option.some.injEq, Prod.mk.injEq] at hu
    obtain ⟨rfl, rfl⟩ := hu
    refine ⟨?_, h, Nat.le_succ _⟩
    simp only [useText, Seen.text.injEq]
    rcases stands_get h i with ⟨h1, h2⟩ | ⟨a, b, h1, h2, h3⟩ <;> rw [h1, h2]
    · rfl
    · simp only [Option.map_some, Option.some.injEq, Interner.text]
      by_cases ha : a = 0
      · subst ha
        rw [h.first] at h3
        rw [if_pos (show b = bs "<invalid symbol>" from (Option.some.inj h3).symm), if_pos (show 0 = defaultSymbol from rfl)]
      · rw [if_neg, if_neg (show ¬ a = defaultSymbol from ha), h3]
        rintro rfl
        exact ha (resolve_injective h.table h3 h.first)

theorem use_some {escape : Bytes → Bytes} {number : Nat → Bytes} {s : Session} (u : Use) (h : s.table.map.length < 2 ^ 32) :
    ∃ x s', use escape number s u = some (x, s') := by
  cases u with
  | obtain b =>
    simp only [use, Interner.intern]
    cases s.table.map.lookup b with
    | some i => exact ⟨_, _, rfl⟩
    | none => dsimp only; rw [if_pos h]; exact ⟨_, _, rfl⟩
  | _ => exact ⟨_, _, rfl⟩

theorem observe_stands {escape : Bytes → Bytes} {number : Nat → Bytes} (code : Code) (n : Nat) : ∀ {seen : List Seen} {s : Session} {got : List Bytes},
    Stands s got → (∀ r, observe escape number code n seen s = some r → r = observeText escape code n seen got) ∧
      (s.table.vec.length + n ≤ 2 ^ 32 → ∃ r, observe escape number code n seen s = some r) := by
  induction n with
  | zero => exact fun _ => ⟨fun r hr => (Option.some.inj hr).symm, fun _ => ⟨_, rfl⟩⟩
  | succ n ih =>
    intro seen s got h
    unfold observe observeText
    cases code seen with
    | none => exact ⟨fun r hr => (Option.some.inj hr).symm, fun _ => ⟨_, rfl⟩⟩
    | some u =>
      dsimp only
      cases hu : use escape number s u with
      | none =>
        refine ⟨nofun, fun hl => ?_⟩
        obtain ⟨x, s', h1⟩ := use_some (escape := escape) (number := number) (s := s) u (by have := h.table.length; omega)
        rw [hu] at h1
        cases h1
      | some r =>
        obtain ⟨x, s'⟩ := r
        obtain ⟨h1, h2, h3⟩ := use_stands h hu
        dsimp only
        rw [h1]
        exact ⟨(ih h2).1, fun hl => (ih h2).2 (by omega)⟩

/-- A new table. -/
def newTable : Interner := ⟨[(invalidSymbol, 0)], [invalidSymbol]⟩

/-- C82: code that obtains, compares, resolves and shows symbols, in any way, sees what it would see if symbols were texts: two symbols are equal
exactly if their texts are, a symbol resolves to its text always, and is shown as it; only the text of the default symbol is shown differently. It
aborts only if more than 2^32 symbols are used. -/
theorem symbols_are_texts (escape : Bytes → Bytes) (number : Nat → Bytes) (code : Code) (n : Nat) :
    ∃ t, Interner.new = some t ∧
      (∀ seen, observe escape number code n [] ⟨t, [defaultSymbol]⟩ = some seen → seen = observeText escape code n [] [bs "<invalid symbol>"]) ∧
      (n < 2 ^ 32 → ∃ seen, observe escape number code n [] ⟨t, [defaultSymbol]⟩ = some seen) := by
  have h1 : Interner.new = some newTable := by decide
  have h2 : TableOk newTable := (tableOk_intern tableOk_empty (show Interner.intern ⟨[], []⟩ invalidSymbol = some (0, newTable) by decide)).1
  have h3 : Stands ⟨newTable, [defaultSymbol]⟩ [bs "<invalid symbol>"] := by
    refine ⟨h2, rfl, rfl, fun k i hk => ?_⟩
    cases k with
    | zero => cases hk; rfl
    | succ k => cases hk
  refine ⟨_, h1, (observe_stands code n h3).1, fun hn => (observe_stands code n h3).2 ?_⟩
  show 1 + n ≤ _
  omega

/-! ### Examples -/

/-- Code that obtains `a`, `b`, `a`, and looks at them. -/
def threeNames : Code := fun seen =>
  [Use.obtain (bs "a"), .obtain (bs "b"), .obtain (bs "a"), .same 1 2, .same 1 3, .resolve 3, .text 0, .text 2][seen.length]?

-- What it sees.
example : observe id (fun _ => []) threeNames 8 [] ⟨newTable, [defaultSymbol]⟩ =
    some [.obtained, .obtained, .obtained, .same false, .same true, .resolved (some (bs "a")), .text (some (bs "***ill-formed***")), .text (some (bs "b"))] := by
  decide

-- A path that is shown differently: a script may have this name, src/main.rs:69.
example : observeText id (fun seen => [Use.obtain (bs "<invalid symbol>"), .text 1][seen.length]?) 2 [] [bs "<invalid symbol>"] =
    [.obtained, .text (some (bs "***ill-formed***"))] := by decide

end Hush.Props

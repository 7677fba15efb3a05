import Verif.Lemmas.Args

/-! Argument expansion computes the product of the alternatives. -/

namespace Hush
open Args
open Spec (Atom Alternatives Means Shown combos)

/-- The text of an atom; wildcards have none. -/
def atomText : Atom → Bytes
  | .text s => s
  | _ => []

/-- Whether an atom is a wildcard. -/
def isWild : Atom → Bool
  | .text _ => false
  | _ => true

/-- The state of `build_argument` after parts with the given alternatives. -/
def argState (alts : List (List Atom)) : Args :=
  if alts.any (fun p => p.any isWild) then
    .patterns ((combos alts).map (fun w => w.flatMap Atom.pattern))
  else .literals ((combos alts).map (fun w => w.flatMap atomText))

theorem flatMap_snoc {f : α → List β} (l : List α) (x : α) : (l ++ [x]).flatMap f = l.flatMap f ++ f x := by
  simp

theorem shown_build {env : ArgEnv} {v : Value} {s : Bytes} (h : Shown env v s) (pos : Pos) :
    buildBasicValue env v pos = .ok s := by
  cases h with
  | nil => rfl
  | true_ => rfl
  | false_ => rfl
  | int h => rw [buildBasicValue, intNumeral_unique h (intText_numeral _)]
  | float => rfl
  | byte => rfl
  | string => rfl

theorem build_shown {env : ArgEnv} {v : Value} {s : Bytes} {pos : Pos} (h : buildBasicValue env v pos = .ok s) :
    Shown env v s := by
  cases v with
  | nil => cases h; exact .nil
  | bool b => cases b <;> cases h; exacts [.false_, .true_]
  | int i => cases h; exact .int (intText_numeral i)
  | float f => cases h; exact .float
  | byte b => cases h; exact .byte
  | string s => cases h; exact .string
  | array _ => cases h
  | dict _ => cases h
  | function _ => cases h
  | error _ _ => cases h

theorem collect_ok {f : α → Except Stop β} {l : List α} {r : List β} :
    collect f l = .ok r ↔ List.Forall₂ (fun x y => f x = .ok y) l r := by
  induction l generalizing r with
  | nil => simp [collect, eq_comm]
  | cons x xs ih =>
    rw [collect]
    constructor
    · intro h
      split at h
      · cases h
      · rename_i y hy
        split at h
        · cases h
        · rename_i ys hys
          cases h
          exact .cons hy (ih.1 hys)
    · intro h
      cases h with
      | cons hx hxs => simp [hx, ih.2 hxs]

theorem unitText_build {env : ArgEnv} {u : Prog.ArgUnit} {s : Bytes} :
    buildUnit env u = .ok s ↔ Spec.UnitText env u s := by
  constructor
  · intro h
    cases u with
    | literal l => cases h; exact .literal
    | dollar x pos =>
      simp only [buildUnit, ArgEnv.get] at h
      cases hf : env.fetch x with
      | none => simp [hf] at h
      | some v => rw [hf] at h; exact .dollar hf (build_shown h)
  · intro h
    cases h with
    | literal => rfl
    | dollar hf hs => simp [buildUnit, ArgEnv.get, hf, shown_build hs]

theorem home_text {h : Option Bytes} {s : Bytes} : Spec.HomeDir h s ↔ homeText h = s := by
  constructor
  · intro hh
    cases hh with
    | none => rfl
    | empty => rfl
    | slash => simp [homeText]
    | plain hb => simp [homeText, hb]
  · rintro rfl
    cases h with
    | none => exact .none
    | some h =>
      rcases List.eq_nil_or_concat h with rfl | ⟨l, b, rfl⟩
      · exact .empty
      · by_cases hb : b = 47
        · subst hb; simp only [List.concat_eq_append]
          have : homeText (some (l ++ [47])) = l ++ [47] := by simp [homeText]
          rw [this]; exact .slash
        · simp only [List.concat_eq_append]
          have : homeText (some (l ++ [b])) = l ++ [b, 47] := by simp [homeText, hb]
          rw [this]; exact .plain hb

theorem range_texts {a b : Int} {ss : List Bytes} :
    (ss.length = (b + 1 - a).toNat ∧ ∀ (k : Nat) s, ss[k]? = some s → Spec.IntNumeral (a + k) s)
      ↔ rangeTexts a b = ss := by
  constructor
  · rintro ⟨hl, hs⟩
    apply List.ext_getElem?
    intro k
    unfold rangeTexts
    rw [List.getElem?_map]
    by_cases hk : k < ss.length
    · rw [List.getElem?_range (by omega)]
      rw [List.getElem?_eq_getElem hk]
      have := hs k ss[k] (List.getElem?_eq_getElem hk)
      simp [intNumeral_unique this (intText_numeral _)]
    · rw [List.getElem?_eq_none (by omega : ss.length ≤ k), List.getElem?_eq_none (by simp; omega)]
      rfl
  · rintro rfl
    refine ⟨by simp [rangeTexts], fun k s hk => ?_⟩
    unfold rangeTexts at hk
    rw [List.getElem?_map] at hk
    cases hr : (List.range (b + 1 - a).toNat)[k]? with
    | none => rw [hr] at hk; cases hk
    | some j =>
      rw [hr] at hk
      have := List.getElem?_eq_some_iff.1 hr
      obtain ⟨_, hj⟩ := this
      simp at hj
      subst hj
      simp at hk
      subst hk
      exact intText_numeral _

/-- No wildcards in a list of text alternatives. -/
theorem texts_any (ss : List Bytes) : (ss.map Atom.text).any isWild = false := by
  simp [isWild]

theorem words_plain {alts : List (List Atom)} (h : alts.any (fun p => p.any isWild) = false) {w : List Atom}
    (hw : w ∈ combos alts) : ∀ a ∈ w, isWild a = false := by
  have := mem_combos.1 hw
  clear hw
  induction this with
  | nil => simp
  | cons hx _ ih =>
    simp only [List.any_cons, Bool.or_eq_false_iff] at h
    intro a ha
    rcases List.mem_cons.1 ha with rfl | ha
    · have := h.1
      simp only [List.any_eq_false] at this
      simpa using this _ hx
    · exact ih h.2 a ha

theorem escape_words {w : List Atom} (h : ∀ a ∈ w, isWild a = false) :
    escape (w.flatMap atomText) = w.flatMap Atom.pattern := by
  induction w with
  | nil => rfl
  | cons a w ih =>
    rw [List.flatMap_cons, List.flatMap_cons, escape_append, ih (fun b hb => h b (by simp [hb]))]
    cases a with
    | text s => simp only [atomText, Atom.pattern, escape_eq]
    | _ => simp [isWild] at h

theorem argState_init : Args.literals [[]] = argState [] := rfl

theorem orEmpty_combos {alts : List (List Atom)} (h : ∀ p ∈ alts, p ≠ []) (f : List Atom → Bytes) :
    orEmpty ((combos alts).map f) = (combos alts).map f :=
  orEmpty_of_ne (by simpa using combos_ne_nil h)

theorem argState_literal {alts : List (List Atom)} (h : ∀ p ∈ alts, p ≠ []) (s : Bytes) :
    (argState alts).pushLiteral s = argState (alts ++ [[.text s]]) := by
  unfold argState
  by_cases hw : (alts.any fun p => p.any isWild) = true
  · simp only [hw, if_true, List.any_append, Bool.true_or, pushLiteral, orEmpty_combos h]
    congr 1
    rw [combos_snoc, escape_eq]
    simp [Function.comp_def, Atom.pattern]
  · have hw := Bool.eq_false_iff.2 hw
    simp only [hw, List.any_append, List.any_cons, List.any_nil, isWild, Bool.or_false, Bool.false_eq_true, if_false,
      pushLiteral, orEmpty_combos h]
    congr 1
    rw [combos_snoc]
    simp [Function.comp_def, atomText]

theorem argState_literals {alts : List (List Atom)} (h : ∀ p ∈ alts, p ≠ []) {ss : List Bytes} (hs : ss ≠ []) :
    (argState alts).pushLiterals ss = argState (alts ++ [ss.map .text]) := by
  unfold argState
  by_cases hw : (alts.any fun p => p.any isWild) = true
  · simp only [hw, if_true, List.any_append, Bool.true_or, pushLiterals, pushAll_eq _ _ hs, orEmpty_combos h]
    congr 1
    rw [combos_snoc]
    simp [Function.comp_def, Atom.pattern, List.map_flatMap, List.flatMap_map, escape_eq]
  · have hw := Bool.eq_false_iff.2 hw
    simp only [hw, List.any_append, List.any_cons, List.any_nil, texts_any, Bool.or_false, Bool.false_eq_true, if_false,
      pushLiterals, pushAll_eq _ _ hs, orEmpty_combos h]
    congr 1
    rw [combos_snoc]
    simp [Function.comp_def, atomText, List.map_flatMap, List.flatMap_map]

theorem argState_pattern {alts : List (List Atom)} (h : ∀ p ∈ alts, p ≠ []) {a : Atom} (ha : isWild a = true) :
    (argState alts).pushPattern a.pattern = argState (alts ++ [[a]]) := by
  unfold argState
  have e : ((alts ++ [[a]]).any fun p => p.any isWild) = true := by simp [ha]
  rw [e]
  by_cases hw : (alts.any fun p => p.any isWild) = true
  · simp only [hw, if_true, pushPattern, orEmpty_combos h]
    congr 1
    rw [combos_snoc]
    simp [Function.comp_def]
  · have hw := Bool.eq_false_iff.2 hw
    simp only [hw, Bool.false_eq_true, if_false, if_true, pushPattern, orEmpty_combos h]
    congr 1
    rw [combos_snoc]
    simp only [List.flatMap_cons, List.flatMap_nil, List.append_nil, List.map_map]
    apply List.map_congr_left
    intro w hw'
    simp [escape_words (words_plain hw hw')]

theorem pushPattern_append (a : Args) (p q : Bytes) :
    (a.pushPattern p).pushPattern q = a.pushPattern (p ++ q) := by
  cases a with
  | patterns l =>
    simp only [pushPattern]
    rw [orEmpty_of_ne (l := (orEmpty l).map _) (by simpa using orEmpty_ne l)]
    simp
  | literals l =>
    simp only [pushPattern]
    rw [orEmpty_of_ne (l := (orEmpty l).map _) (by simpa using orEmpty_ne l)]
    simp

theorem forall2_shown {env : ArgEnv} {vs : List Value} {ss : List Bytes} (pos : Pos)
    (h : List.Forall₂ (Shown env) vs ss) : collect (fun v => buildBasicValue env v pos) vs = .ok ss :=
  collect_ok.2 (h.imp (fun _ _ h => shown_build h pos))

/-- One part. -/
theorem addPart_state {env : ArgEnv} {alts : List (List Atom)} (h : ∀ p ∈ alts, p ≠ []) {part : Prog.ArgPart}
    {new : List Atom} (hp : Alternatives env part new) (hn : new ≠ []) :
    addPart env (argState alts) part = .ok (argState (alts ++ [new])) := by
  cases hp with
  | literal => rw [addPart, argState_literal h]
  | value hf hs =>
    have hb := shown_build hs
    rw [← argState_literal h]
    simp only [addPart, ArgEnv.get, hf]
    cases hs <;> simp_all
  | array ss hf hs =>
    simp only [addPart, ArgEnv.get, hf, forall2_shown _ hs]
    rw [argState_literals h (by simpa using hn)]
  | home hh => rw [addPart, home_text.1 hh, argState_literal h]
  | range ss hl hs =>
    rw [addPart, range_texts.1 ⟨hl, hs⟩, argState_literals h (by simpa using hn)]
  | collection ss hs =>
    have : collect (buildUnit env) _ = .ok ss := collect_ok.2 (hs.imp (fun _ _ h => unitText_build.2 h))
    rw [addPart, this]
    simp only
    rw [argState_literals h (by simpa using hn)]
  | star => rw [addPart, ← argState_pattern h (a := .anyText) rfl]; rfl
  | percent => rw [addPart, ← argState_pattern h (a := .anyChar) rfl]; rfl
  | charClass =>
    rw [addPart, ← argState_pattern h (a := .oneOf _) rfl, pushPattern_append, pushPattern_append]; rfl

theorem addParts_state {env : ArgEnv} {alts news : List (List Atom)} (h : ∀ p ∈ alts, p ≠ [])
    {parts : List Prog.ArgPart} (hp : List.Forall₂ (Alternatives env) parts news) (hn : ∀ p ∈ news, p ≠ []) :
    addParts env (argState alts) parts = .ok (argState (alts ++ news)) := by
  induction hp generalizing alts with
  | nil => simp [addParts]
  | cons hx _ ih =>
    rename_i part new _ _ _
    rw [addParts, addPart_state h hx (hn _ (by simp))]
    simp only
    rw [ih (alts := alts ++ [new])]
    · simp
    · intro p hp
      rcases List.mem_append.1 hp with hp | hp
      · exact h p hp
      · rw [List.mem_singleton] at hp; subst hp; exact hn _ (by simp)
    · exact fun p hp => hn p (by simp [hp])

/-- The initial state has no argument at all; the first non-empty part makes it one. -/
theorem addPart_init {env : ArgEnv} {part : Prog.ArgPart} {new : List Atom} (hp : Alternatives env part new)
    (hn : new ≠ []) : addPart env (.literals []) part = addPart env (.literals [[]]) part := by
  cases hp with
  | literal => rfl
  | value hf hs => simp only [addPart, ArgEnv.get, hf]; cases hs <;> rfl
  | array ss hf hs =>
    simp only [addPart, ArgEnv.get, hf, forall2_shown _ hs, pushLiterals]
    rw [pushAll_eq _ _ (by simpa using hn), pushAll_eq _ _ (by simpa using hn)]; rfl
  | home => rfl
  | range ss hl hs =>
    rw [addPart, addPart, range_texts.1 ⟨hl, hs⟩]
    simp only [pushLiterals]
    rw [pushAll_eq _ _ (by simpa using hn), pushAll_eq _ _ (by simpa using hn)]; rfl
  | collection ss hs =>
    have : collect (buildUnit env) _ = .ok ss := collect_ok.2 (hs.imp (fun _ _ h => unitText_build.2 h))
    rw [addPart, addPart, this]
    simp only [pushLiterals]
    rw [pushAll_eq _ _ (by simpa using hn), pushAll_eq _ _ (by simpa using hn)]; rfl
  | star => rfl
  | percent => rfl
  | charClass => rfl

theorem build_state {env : ArgEnv} {news : List (List Atom)} {parts : List Prog.ArgPart}
    (hp : List.Forall₂ (Alternatives env) parts news) (hn : ∀ p ∈ news, p ≠ []) (h0 : parts ≠ []) :
    addParts env (.literals []) parts = .ok (argState news) := by
  have := addParts_state (alts := []) (by simp) hp hn
  rw [List.nil_append, ← argState_init] at this
  rw [← this]
  cases hp with
  | nil => exact absurd rfl h0
  | cons hx _ =>
    rw [addParts, addParts, addPart_init hx (hn _ (by simp))]

/-- The alternatives of one part are all wildcards or all texts. -/
theorem alternatives_uniform {env : ArgEnv} {part : Prog.ArgPart} {new : List Atom} (h : Alternatives env part new) :
    (∀ a ∈ new, isWild a = true) ∨ (∀ a ∈ new, isWild a = false) := by
  cases h <;> simp [isWild]

theorem argState_means (alts : List (List Atom))
    (hu : ∀ p ∈ alts, (∀ a ∈ p, isWild a = true) ∨ (∀ a ∈ p, isWild a = false)) : List.Forall₂ Means (argState alts).toList (combos alts) := by
  unfold argState
  by_cases hw : (alts.any fun p => p.any isWild) = true
  · rw [if_pos hw, Args.toList, List.map_map]
    rw [List.forall₂_map_left_iff, List.forall₂_same]
    intro w hm
    refine .pattern w ?_
    have hm := mem_combos.1 hm
    clear * - hw hm hu
    have : ∃ a ∈ w, isWild a = true := by
      induction hm with
      | nil => simp at hw
      | cons hx _ ih =>
        rename_i a p _ _ _
        by_cases hp : p.any isWild = true
        · rcases hu p (by simp) with h | h
          · exact ⟨a, by simp, h a hx⟩
          · obtain ⟨b, hb, hb'⟩ := List.any_eq_true.1 hp
            rw [h b hb] at hb'; cases hb'
        · simp only [List.any_cons, hp, Bool.false_or] at hw
          obtain ⟨b, hb, hb'⟩ := ih (fun q hq => hu q (by simp [hq])) (by simpa using hw)
          exact ⟨b, by simp [hb], hb'⟩
    obtain ⟨a, ha, h⟩ := this
    refine ⟨a, ha, fun s e => ?_⟩
    rw [e] at h; cases h
  · rw [if_neg hw, Args.toList, List.map_map]
    rw [List.forall₂_map_left_iff, List.forall₂_same]
    intro w hm
    have hp := words_plain (Bool.eq_false_iff.2 hw) hm
    have : w = (w.map atomText).map .text := by
      rw [List.map_map]
      conv => lhs; rw [← List.map_id w]
      apply List.map_congr_left
      intro a ha
      have := hp a ha
      cases a <;> simp_all [isWild, atomText]
    have e : (ExArg.literal ∘ fun w : List Atom => w.flatMap atomText) w = .literal ((w.map atomText).flatten) := by
      simp [List.flatMap_def]
    rw [e]
    conv => rhs; rw [this]
    exact .literal _

end Hush

import Verif.Lemmas.Expansion
import Verif.Lemmas.Glob
import Verif.Props.Semantic

/-!
Properties C30–C34: from the parts of a command argument to the arguments of the program. The meaning of the parts is
that of `Verif/Spec/Expansion.lean`.
-/

namespace Hush.Props
open Hush Hush.Spec

/-- The argument expands to these arguments. -/
def Expands (env : ArgEnv) (parts : List Prog.ArgPart) (args : List ExArg) : Prop :=
  ∀ p, buildArgument env ⟨parts, p⟩ = .ok args

/-! ### C32 -/

/-- If expansion succeeds, every part offers alternatives. -/
theorem part_alternatives {env : ArgEnv} {part : Prog.ArgPart} {a b : Args} (h : addPart env a part = .ok b) :
    ∃ alts, Alternatives env part alts := by
  cases part with
  | unit u =>
    cases u with
    | literal s => exact ⟨_, .literal⟩
    | dollar x pos =>
      simp only [addPart, ArgEnv.get] at h
      cases hf : env.fetch x with
      | none => rw [hf] at h; cases h
      | some v =>
        rw [hf] at h
        by_cases hv : ∃ a, v = .array a
        · obtain ⟨a, rfl⟩ := hv
          simp only at h
          split at h
          · cases h
          · rename_i lits hc
            exact ⟨_, .array lits hf ((collect_ok.1 hc).imp (fun _ _ h => build_shown h))⟩
        · cases hb : buildBasicValue env v pos with
          | ok s => exact ⟨_, .value hf (build_shown hb)⟩
          | error e =>
            cases v <;> first | exact absurd ⟨_, rfl⟩ hv | (simp only [hb] at h; cases h)
  | home => exact ⟨_, .home (home_text.2 rfl)⟩
  | range a b =>
    have := range_texts.2 (rfl : rangeTexts a b = _)
    exact ⟨_, .range _ this.1 this.2⟩
  | collection items =>
    simp only [addPart] at h
    split at h
    · cases h
    · rename_i lits hc
      exact ⟨_, .collection lits ((collect_ok.1 hc).imp (fun _ _ h => unitText_build.1 h))⟩
  | star => exact ⟨_, .star⟩
  | percent => exact ⟨_, .percent⟩
  | charClass cls => exact ⟨_, .charClass⟩

/-- **C32** (see `expansion_product_violated`), the part that says what each piece contributes: whenever the expansion
of an argument succeeds, every piece has a list of alternatives. -/
theorem expansion_has_alternatives {env : ArgEnv} {parts : List Prog.ArgPart} {args : List ExArg}
    (h : Expands env parts args) : ∃ alts, List.Forall₂ (Alternatives env) parts alts := by
  replace h : ∃ r, addParts env (.literals []) parts = .ok r := by
    have := h ⟨0, 0⟩
    unfold buildArgument at this
    split at this
    · cases this
    · exact ⟨_, by assumption⟩
  generalize Args.literals [] = a0 at h
  obtain ⟨r, h⟩ := h
  induction parts generalizing a0 with
  | nil => exact ⟨[], .nil⟩
  | cons p ps ih =>
    rw [addParts] at h
    split at h
    · cases h
    · rename_i a1 h1
      obtain ⟨x, hx⟩ := part_alternatives h1
      obtain ⟨xs, hxs⟩ := ih (a0 := a1) h
      exact ⟨_, .cons hx hxs⟩

/-- **C32**, for arguments with at least one piece and pieces with at least one alternative each: the argument expands to one
argument per combination of alternatives, in order. Missing: an array without elements, for which the property is false
(`expansion_product_violated`), and the argument without pieces (`""`, see C31). -/
theorem expansion_product_partial {env : ArgEnv} {parts : List Prog.ArgPart} {alts : List (List Atom)}
    (h0 : parts ≠ []) (hp : List.Forall₂ (Alternatives env) parts alts) (hn : ∀ p ∈ alts, p ≠ []) :
    ∃ args, Expands env parts args ∧ List.Forall₂ Means args (combos alts) := by
  refine ⟨(argState alts).toList, fun p => ?_, argState_means alts ?_⟩
  · simp only [buildArgument, build_state hp hn h0]
  · intro p hm
    obtain ⟨q, hq⟩ : ∃ q, Alternatives env q p := by
      clear hn h0
      induction hp with
      | nil => cases hm
      | cons h _ ih =>
        rcases List.mem_cons.1 hm with rfl | hm
        · exact ⟨_, h⟩
        · exact ih hm
    exact alternatives_uniform hq

/-- The combinations are the ways to choose one alternative for each piece, -/
theorem combos_are_choices {alts : List (List α)} {t : List α} :
    t ∈ combos alts ↔ List.Forall₂ (fun x p => x ∈ p) t alts := mem_combos

/-- each listed once when the alternatives of each piece are distinct, -/
theorem combos_distinct {alts : List (List α)} (h : ∀ p ∈ alts, p.Nodup) : (combos alts).Nodup := combos_nodup alts h

/-- and the number of arguments is the product of the numbers of alternatives. -/
theorem expansion_count_partial {env : ArgEnv} {parts : List Prog.ArgPart} {alts : List (List Atom)}
    (h0 : parts ≠ []) (hp : List.Forall₂ (Alternatives env) parts alts) (hn : ∀ p ∈ alts, p ≠ []) {args : List ExArg}
    (h : Expands env parts args) : args.length = (alts.map List.length).foldr (· * ·) 1 := by
  obtain ⟨args', h1, h2⟩ := expansion_product_partial h0 hp hn
  have := (h ⟨0, 0⟩).symm.trans (h1 ⟨0, 0⟩)
  cases this
  rw [h2.length_eq, combos_length]

section Examples
/-- Variable 1 holds an empty array, variable 2 the array `["1", true]`, variable 3 the string `*b c`. -/
def sampleEnv : ArgEnv :=
  { fetch := fun x => [some (.array 0), some (.array 0), some (.array 1), some (.string (bs "*b c"))].getD x none
    array := fun a => if a = 1 then [.string (bs "1"), .bool true] else []
    home := some (bs "/root")
    floatText := fun _ => [] }

-- `f$y~$y` with `y` in slot 2 has four combinations.
example : List.Forall₂ (Alternatives sampleEnv)
    [.unit (.literal (bs "f")), .unit (.dollar 2 (q 0)), .home, .unit (.dollar 2 (q 0))]
    [[.text (bs "f")], [bs "1", bs "true"].map .text, [.text (bs "/root/")], [bs "1", bs "true"].map .text] := by
  have h2 : List.Forall₂ (Shown sampleEnv) (sampleEnv.array 1) [bs "1", bs "true"] :=
    .cons .string (.cons .true_ .nil)
  exact .cons .literal (.cons (.array _ (a := 1) rfl h2)
    (.cons (.home (HomeDir.plain (b := 116) (h := bs "/roo") (by decide))) (.cons (.array _ (a := 1) rfl h2) .nil)))
example : Expands sampleEnv [.unit (.literal (bs "f")), .unit (.dollar 2 (q 0)), .home, .unit (.dollar 2 (q 0))]
    [.literal (bs "f1/root/1"), .literal (bs "ftrue/root/1"), .literal (bs "f1/root/true"), .literal (bs "ftrue/root/true")] :=
  fun _ => rfl
end Examples

/-- C32 is violated: `a$x`, where `x` is an array without elements, has no combination, but expands to the argument `a`. -/
theorem expansion_product_violated :
    ∃ env parts alts, parts ≠ [] ∧ List.Forall₂ (Alternatives env) parts alts ∧ combos alts = [] ∧
      Expands env parts [.literal (bs "a")] :=
  ⟨sampleEnv, [.unit (.literal (bs "a")), .unit (.dollar 1 (q 0))], [[.text (bs "a")], ([] : List Bytes).map .text], by simp,
    .cons .literal (.cons (.array _ (a := 0) rfl .nil) .nil), rfl, fun _ => rfl⟩

/-! ### C30 -/

theorem addParts_append {env : ArgEnv} {a : Args} {ps qs : List Prog.ArgPart} :
    addParts env a (ps ++ qs) = (addParts env a ps).bind (fun b => addParts env b qs) := by
  induction ps generalizing a with
  | nil => rfl
  | cons p ps ih =>
    rw [List.cons_append, addParts, addParts]
    split
    · rfl
    · exact ih

/-- **C30.** A variable that holds a string, number, bool, byte or nil behaves exactly like its text written as a literal in its
place, whatever the other pieces are. -/
theorem scalar_variable_as_literal {env : ArgEnv} {x : Nat} {v : Value} {s : Bytes} (hx : env.fetch x = some v)
    (hs : Shown env v s) (pre post : List Prog.ArgPart) (pos p : Pos) :
    buildArgument env ⟨pre ++ .unit (.dollar x pos) :: post, p⟩
      = buildArgument env ⟨pre ++ .unit (.literal s) :: post, p⟩ := by
  have e : ∀ a, addPart env a (.unit (.dollar x pos)) = addPart env a (.unit (.literal s)) := by
    intro a
    have := shown_build hs pos
    simp only [addPart, ArgEnv.get, hx]
    cases hs <;> simp_all
  simp only [buildArgument, addParts_append]
  cases addParts env (.literals []) pre with
  | error e => rfl
  | ok a => simp only [Except.bind, addParts, e]

/-- **C30.** If the other pieces of the argument are single alternatives, the variable makes exactly one argument, of which its text is a
literal part: neither split into words nor taken as a pattern (`Means` puts special characters in brackets where
there are wildcards, see C33). -/
theorem scalar_variable_one_argument {env : ArgEnv} {x : Nat} {v : Value} {s : Bytes} (hx : env.fetch x = some v)
    (hs : Shown env v s) {pre post : List Prog.ArgPart} {apre apost : List Atom}
    (hpre : List.Forall₂ (fun p a => Alternatives env p [a]) pre apre)
    (hpost : List.Forall₂ (fun p a => Alternatives env p [a]) post apost) (pos : Pos) :
    ∃ arg, Expands env (pre ++ .unit (.dollar x pos) :: post) [arg] ∧ Means arg (apre ++ .text s :: apost) := by
  have hall : List.Forall₂ (fun p a => Alternatives env p [a]) (pre ++ .unit (.dollar x pos) :: post)
      (apre ++ .text s :: apost) :=
    List.rel_append hpre (.cons (.value hx hs) hpost)
  generalize apre ++ .text s :: apost = w at hall
  have h2 : List.Forall₂ (Alternatives env) (pre ++ .unit (.dollar x pos) :: post) (w.map fun a => [a]) :=
    List.forall₂_map_right_iff.2 hall
  obtain ⟨args, h3, h4⟩ := expansion_product_partial (by simp) h2 (by simp)
  have e : ∀ l : List Atom, combos (l.map fun a => [a]) = [l] := by
    intro l
    induction l with
    | nil => rfl
    | cons a l ih => rw [List.map_cons, combos, ih]; rfl
  rw [e] at h4
  cases h4 with
  | cons hm ht => cases ht; exact ⟨_, h3, hm⟩

/-- **C30.** With pieces that have several alternatives, every resulting argument has the text of the variable as a literal part in its
place. -/
theorem scalar_variable_in_product {env : ArgEnv} {x : Nat} {v : Value} {s : Bytes} (hx : env.fetch x = some v)
    (hs : Shown env v s) {pre post : List Prog.ArgPart} {apre apost : List (List Atom)}
    (hpre : List.Forall₂ (Alternatives env) pre apre) (hpost : List.Forall₂ (Alternatives env) post apost)
    (hn : ∀ p ∈ apre ++ apost, p ≠ []) (pos : Pos) :
    ∃ args, Expands env (pre ++ .unit (.dollar x pos) :: post) args ∧
      ∀ arg ∈ args, ∃ w w', w ∈ combos apre ∧ w' ∈ combos apost ∧ Means arg (w ++ .text s :: w') := by
  obtain ⟨args, h3, h4⟩ := expansion_product_partial (by simp)
    (List.rel_append hpre (.cons (Alternatives.value (pos := pos) hx hs) hpost))
    (by
      intro p hp
      rcases List.mem_append.1 hp with hp | hp
      · exact hn p (by simp [hp])
      · rcases List.mem_cons.1 hp with rfl | hp
        · simp
        · exact hn p (by simp [hp]))
  refine ⟨args, h3, fun arg ha => ?_⟩
  obtain ⟨w, hw, hm⟩ : ∃ w ∈ combos (apre ++ [.text s] :: apost), Means arg w := by
    clear h3
    revert h4
    generalize combos _ = ws
    intro h4
    induction h4 with
    | nil => cases ha
    | cons h _ ih =>
      rcases List.mem_cons.1 ha with rfl | ha
      · exact ⟨_, .head _, h⟩
      · obtain ⟨w, hw, hm⟩ := ih ha
        exact ⟨w, .tail _ hw, hm⟩
  rw [mem_combos] at hw
  obtain ⟨w1, w2, rfl, h1, h2⟩ : ∃ w1 w2, w = w1 ++ w2 ∧ List.Forall₂ (fun x p => x ∈ p) w1 apre ∧
      List.Forall₂ (fun x p => x ∈ p) w2 ([.text s] :: apost) := by
    clear hm h4 hn hpre
    induction apre generalizing w with
    | nil => exact ⟨[], w, rfl, .nil, hw⟩
    | cons p ps ih =>
      rw [List.cons_append] at hw
      cases hw with
      | cons h ht =>
        obtain ⟨w1, w2, rfl, h1, h2⟩ := ih _ ht
        exact ⟨_ :: w1, w2, rfl, .cons h h1, h2⟩
  cases h2 with
  | cons h h2 =>
    rw [List.mem_singleton] at h
    subst h
    exact ⟨w1, _, mem_combos.2 h1, mem_combos.2 h2, hm⟩

-- The variable in slot 3 holds `*b c`; next to a wildcard its star is put in brackets.
example : Shown sampleEnv (.string (bs "*b c")) (bs "*b c") := .string
example : Expands sampleEnv [.star, .unit (.dollar 3 (q 0))] [.pattern (bs "*[*]b c")] := fun _ => rfl
example : Expands sampleEnv [.unit (.dollar 3 (q 0)), .unit (.literal (bs "!"))] [.literal (bs "*b c!")] := fun _ => rfl

/-! ### C33 -/

/-- **C33.** The pattern of a word with wildcards matches a file name exactly if the name fits the word: its text parts match
byte for byte. Missing: words with two adjacent `*` (possible by `*$x*` with `x` empty), which the `glob` crate rejects or takes as
the recursive wildcard (see below), and character classes (which cannot be written in source text: the lexer ends
in `todo!()`, C02). Patterns that are not valid UTF-8 make the code panic and match nothing. -/
theorem glob_text_literal_partial {p : Bytes} {w : List Atom} (hm : Means (.pattern p) w)
    (hc : ∀ a ∈ w, ∀ cls, a ≠ .oneOf cls) (hss : ¬ StarStar w) (hu : (Glob.chars p).isSome = true) (name : Bytes) :
    Glob.MatchesName p name ↔ Fits w name := by
  cases hm with
  | pattern _ _ => exact Glob.pattern_matches hc hss hu name

/-- **C33**, the direction of the property, also for adjacent `*`: if no text of the word contains a `/`, only names match in which the texts
are byte for byte. -/
theorem glob_only_literal_partial {p : Bytes} {w : List Atom} (hm : Means (.pattern p) w) (hc : ∀ a ∈ w, ∀ cls, a ≠ .oneOf cls)
    (hs : ∀ s, .text s ∈ w → 47 ∉ s) {name : Bytes} (h : Glob.MatchesName p name) : Fits w name := by
  cases hm with
  | pattern _ _ => exact Glob.pattern_fits hc hs h

/-- An environment where all variables are the empty text. -/
def blankEnv : ArgEnv := { sampleEnv with fetch := fun _ => some (.string []) }

set_option maxRecDepth 10000 in
/-- **C33** is violated by an empty variable between two stars, which makes them the recursive wildcard: `*$x*/b` matches the file `b`, though
the text `/b` of the word is not in the name. And `a*$x*` is an invalid pattern then: it matches no file, not even `ab`, which fits the word. -/
theorem glob_text_literal_violated :
    (Expands blankEnv [.star, .unit (.dollar 0 (q 0)), .star, .unit (.literal (bs "/b"))] [.pattern (bs "**/b")] ∧
      Glob.MatchesName (bs "**/b") (bs "b") ∧ ¬ (bs "/b") <:+: bs "b") ∧
    (Expands blankEnv [.unit (.literal (bs "a")), .star, .unit (.dollar 0 (q 0)), .star] [.pattern (bs "a**")] ∧
      (∀ name, ¬ Glob.MatchesName (bs "a**") name) ∧ Fits [.text (bs "a"), .anyText, .text [], .anyText] (bs "ab")) := by
  refine ⟨⟨fun _ => rfl, ?_, by decide⟩, fun _ => rfl, ?_, ?_⟩
  · exact ⟨[[42], [42], [47], [98]], [.anyRecursive, .char [98]], [[98]], by decide +kernel, by decide +kernel, by decide +kernel,
      .anyRecursive [] (.inl rfl) (.char .nil)⟩
  · rintro name ⟨pc, ts, nc, h1, h2, _, _⟩
    have h : Glob.chars (bs "a**") = some [[97], [42], [42]] := by decide +kernel
    rw [h] at h1
    cases h1
    have h : Glob.tokens 3 true [[97], [42], [42]] = none := by decide +kernel
    exact absurd (h.symm.trans h2) nofun
  · exact .text (s := [97]) (.anyText [98] rfl (.text (s := []) (.anyText [] rfl .nil)))

/-- **C33**, the direction of the property, for one variable or literal between two wildcards: a name that matches contains the text
byte for byte between the parts that match its neighbours. -/
theorem glob_variable_literal_partial {env : ArgEnv} {x : Nat} {v : Value} {s : Bytes} (hx : env.fetch x = some v)
    (hs : Shown env v s) {pre post : List Prog.ArgPart} {apre apost : List Atom}
    (hpre : List.Forall₂ (fun p a => Alternatives env p [a]) pre apre)
    (hpost : List.Forall₂ (fun p a => Alternatives env p [a]) post apost) (pos : Pos)
    (hc : ∀ a ∈ apre ++ apost, ∀ cls, a ≠ .oneOf cls) (hss : ¬ StarStar (apre ++ .text s :: apost)) {p : Bytes}
    (h : Expands env (pre ++ .unit (.dollar x pos) :: post) [.pattern p]) (hu : (Glob.chars p).isSome = true) {name : Bytes}
    (hname : Glob.MatchesName p name) :
    ∃ n1 n2, name = n1 ++ s ++ n2 ∧ Fits apre n1 ∧ Fits apost n2 := by
  obtain ⟨arg, h1, h2⟩ := scalar_variable_one_argument hx hs hpre hpost pos
  have := (h ⟨0, 0⟩).symm.trans (h1 ⟨0, 0⟩)
  cases this
  have hf := (glob_text_literal_partial h2 (by
    intro a ha cls
    rcases List.mem_append.1 ha with ha | ha
    · exact hc a (by simp [ha]) cls
    · rcases List.mem_cons.1 ha with rfl | ha
      · simp
      · exact hc a (by simp [ha]) cls) hss hu name).1 hname
  clear h1 h2 h hname hss hc hu hpre
  induction apre generalizing name with
  | nil =>
    rw [List.nil_append] at hf
    cases hf with
    | text hf => exact ⟨[], _, rfl, .nil, hf⟩
  | cons a apre ih =>
    rw [List.cons_append] at hf
    cases hf with
    | text hf =>
      obtain ⟨n1, n2, rfl, h1, h2⟩ := ih hf
      exact ⟨_, n2, by simp, .text h1, h2⟩
    | anyText pre hp hf =>
      obtain ⟨n1, n2, rfl, h1, h2⟩ := ih hf
      exact ⟨_, n2, by simp, .anyText pre hp h1, h2⟩
    | anyChar hp hf =>
      obtain ⟨n1, n2, rfl, h1, h2⟩ := ih hf
      exact ⟨_, n2, by simp, .anyChar hp h1, h2⟩

section Examples
-- `glob_only_literal_partial` for `*$x*` with `x` empty, which is only the pattern `**`.
example : Means (.pattern (bs "**")) [.anyText, .text [], .anyText] ∧ Glob.MatchesName (bs "**") (bs "a/") :=
  ⟨Means.pattern [.anyText, .text [], .anyText] ⟨.anyText, by simp, by simp⟩, [[42], [42]], [.anyRecursive], [[97], [47]], by decide +kernel, by decide +kernel, by decide +kernel,
    .anyRecursive [[97], [47]] (.inr rfl) .nil⟩
-- `*$x` with the string `*b c` matches `a*b c` but not `ab c`.
example : Glob.MatchesName (bs "*[*]b c") (bs "a*b c") :=
  ⟨[[42], [91], [42], [93], [98], [32], [99]],
    [.anySequence, .anyWithin [.single [42]], .char [98], .char [32], .char [99]], [[97], [42], [98], [32], [99]],
    by decide +kernel, by decide +kernel, by decide +kernel,
    .anySequence [[97]] (.anyWithin ⟨.single [42], .head _, rfl⟩ (.char (.char (.char .nil))))⟩
example : ¬ Glob.MatchesName (bs "*[*]b c") (bs "ab c") := by
  have e : bs "*[*]b c" = [Atom.anyText, .text (bs "*b c")].flatMap Atom.pattern := by decide
  rw [e, Glob.pattern_matches (by simp) _ (by decide)]
  · intro h
    obtain ⟨pre, n, e, h⟩ : ∃ pre n, bs "ab c" = pre ++ n ∧ Fits [.text (bs "*b c")] n := by
      generalize bs "ab c" = m at h
      cases h with | anyText pre _ h => exact ⟨_, _, rfl, h⟩
    cases h with
    | text h =>
      cases h
      have : (42 : UInt8) ∈ bs "ab c" := by rw [e]; exact List.mem_append_right _ (by decide)
      exact absurd this (by decide)
  · rintro ⟨pre, mid, post, e, -⟩
    have := congrArg (List.countP (fun a => decide (a = Atom.anyText))) e
    simp at this
    omega
end Examples

/-! ### C31 -/

/-- `{ echo "" }` -/
def emptyArgProgram : Ast.Block :=
  [.expr (.command ⟨.synchronous,
    ⟨⟨⟨[.unit (.literal (bs "echo"))], q 2⟩, [], [⟨[], q 7⟩], [], true, q 2⟩, []⟩, []⟩ (q 0))]

/-- It is the syntax tree of that text: the argument `""` has no parts. -/
theorem emptyArg_source : syntaxAnalysis (bs "{ echo \"\" }") = some ⟨emptyArgProgram, [], []⟩ := by
  have hl : lex (bs "{ echo \"\" }") = .done
      [.ok ⟨.command, q 0⟩, .ok ⟨.argument [.unquoted (.literal (bs "echo"))], q 2⟩,
       .ok ⟨.argument [.doubleQuoted []], q 7⟩, .ok ⟨.closeCommand, q 10⟩] := by rfl
  have hb : Basic ⟨⟨[.unit (.literal (bs "echo"))], q 2⟩, [], [⟨[], q 7⟩], [], true, q 2⟩
      ([] ++ (⟨.argument [.unquoted (.literal (bs "echo"))], q 2⟩ :: ([⟨.argument [.doubleQuoted []], q 7⟩] ++ ([] ++ [])))) :=
    .mk .nil (.mk (ps := [.unquoted (.literal (bs "echo"))])) rfl (.cons (ts' := []) (ArgTok.mk (ps := [.doubleQuoted []])) .nil) .nil
      (fun _ h => by cases h) rfl (Or.inl ⟨rfl, rfl⟩)
  have hd : Derives (.primary _) _ := .command (.one (kind := .synchronous) (p := q 0) (p' := q 10) (.mk hb .nil))
  have hp : IsProgram emptyArgProgram _ :=
    ⟨_, .blockLast (.exprStmt (.up (.up (.up (.up (.up (.up (.up (.noPrefix (.noPostfix hd)))))))))), rfl⟩
  have := parse_complete hp
  unfold syntaxAnalysis
  rw [hl]
  simp only [List.filterMap, okToken]
  simp only [List.cons_append, List.nil_append, openTok] at this
  rw [this]
  rfl

/-- C31 is violated: in `{ echo "" }` the program gets no argument. -/
theorem empty_string_argument_violated :
    syntaxAnalysis (bs "{ echo \"\" }") = some ⟨emptyArgProgram, [], []⟩ ∧
    ∃ head slots, analyze emptyArgProgram = .ok ⟨[.expr (.command ⟨.synchronous, head, []⟩ (q 0))], slots⟩ ∧
      ∀ env, buildBlock env head [] =
        .ok ⟨.external ⟨.literal (bs "echo"), [], [], [], true, q 2⟩ [], []⟩ :=
  by
  refine ⟨emptyArg_source, .external ⟨⟨[.unit (.literal (bs "echo"))], q 2⟩, [], [⟨[], q 7⟩], [], true, q 2⟩ [], 1, rfl, ?_⟩
  intro env
  rfl

/-- The text of an argument written with quoted and unquoted text only. -/
inductive PlainText : List ArgPart → Bytes → Prop where
  | nil : PlainText [] []
  | single : PlainText ps t → PlainText (.singleQuoted s :: ps) (s ++ t)
  | double (ss : List Bytes) : PlainText ps t → PlainText (.doubleQuoted (ss.map .literal) :: ps) (ss.flatten ++ t)
  | unquoted : PlainText ps t → PlainText (.unquoted (.literal s) :: ps) (s ++ t)

theorem plain_parts {ps : List ArgPart} {t : Bytes} (h : PlainText ps t) (lit : Bytes) :
    buildParts ps lit = if (lit ++ t).isEmpty then [] else [.unit (.literal (lit ++ t))] := by
  induction h generalizing lit with
  | nil => simp [buildParts]
  | single _ ih => rw [buildParts, ih, List.append_assoc]
  | unquoted _ ih => rw [buildParts, ih, List.append_assoc]
  | double ss _ ih =>
    rw [buildParts]
    induction ss generalizing lit with
    | nil => rw [List.map_nil, buildUnits, ih]; simp
    | cons s ss ihs =>
      rw [List.map_cons, buildUnits, ihs]
      simp

/-- **C31**, for text that is not empty: an argument written with quotes and plain text, empty quotes included, is one argument with the
text. Missing: the argument with empty text, for which the property is false
(`empty_string_argument_violated`): it always disappears (`empty_text_disappears`). -/
theorem quoted_argument_partial {ps : List ArgPart} {t : Bytes} (h : PlainText ps t) (ht : t ≠ []) (p : Pos) :
    (buildArg ps p).parts = [.unit (.literal t)] ∧ ∀ env, Expands env [.unit (.literal t)] [.literal t] := by
  constructor
  · rw [buildArg, plain_parts h, List.nil_append, if_neg (by cases t <;> simp_all)]
  · intro env p; rfl

theorem empty_text_disappears {ps : List ArgPart} (h : PlainText ps []) (p : Pos) :
    (buildArg ps p).parts = [] ∧ ∀ env, Expands env [] [] := by
  constructor
  · rw [buildArg, plain_parts h]; rfl
  · intro env p; rfl

-- `''a"b" ""c`
example : PlainText [.singleQuoted [], .unquoted (.literal (bs "a")), .doubleQuoted ([bs "b"].map .literal)] (bs "ab") :=
  .single (s := []) (.unquoted (s := bs "a") (.double [bs "b"] .nil))

/-! ### C34 -/

/-- **C34**: a redirection target (etc.) must expand to exactly one item; otherwise the panic reports one item less than there
are. So the count is right only if there are none. Missing: the right count for two or more items, where the
property is false (`arity_count_violated`). -/
theorem arity_count_partial {env : ArgEnv} {object : Bytes} {arg : Prog.Argument} {args : List ExArg}
    (h : buildArgument env arg = .ok args) :
    (∃ a, args = [a] ∧ buildSingle env object arg = .ok a) ∨
    (args.length ≠ 1 ∧
      buildSingle env object arg = .error (.panic ⟨.invalidCommandArgs object (args.length - 1), arg.pos⟩)) := by
  unfold buildSingle
  rw [h]
  rcases args with _ | ⟨a, _ | ⟨b, l⟩⟩
  · right; exact ⟨by simp, rfl⟩
  · left; exact ⟨a, rfl, rfl⟩
  · right
    refine ⟨by simp, ?_⟩
    simp only [List.getLast?_cons_cons]
    cases hl : (b :: l).getLast? with
    | none => simp at hl
    | some c => simp

/-- In particular no items are reported as no items. -/
theorem arity_zero_partial {env : ArgEnv} {object : Bytes} {arg : Prog.Argument} (h : buildArgument env arg = .ok []) :
    buildSingle env object arg = .error (.panic ⟨.invalidCommandArgs object 0, arg.pos⟩) := by
  rcases arity_count_partial (object := object) h with ⟨a, h, -⟩ | ⟨-, h⟩
  · cases h
  · exact h

/-- C34 is violated: a target that expands to the two items `1` and `true` is reported as one item. -/
theorem arity_count_violated :
    ∃ env arg, buildArgument env arg = .ok [.literal (bs "1"), .literal (bs "true")] ∧
      ∀ object, buildSingle env object arg = .error (.panic ⟨.invalidCommandArgs object 1, arg.pos⟩) :=
  ⟨sampleEnv, ⟨[.unit (.dollar 2 (q 0))], q 0⟩, rfl, fun _ => rfl⟩

end Hush.Props

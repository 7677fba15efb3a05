import Verif.Lemmas.LexOrder
import Verif.Lemmas.ErrorOrder
import Verif.Lemmas.Reports
import Verif.Lemmas.LexDigits
import Verif.Props.Places
import Verif.Props.Main

/-!
Properties C73 and C74: the reports of errors that are found before a script is executed.
-/

namespace Hush.Props
open Hush Hush.Spec Hush.Report

/-! ### C73: what is reported, and in which order -/

/-- C73: the errors of the lexer are reported in the order of their places in the text. -/
theorem lexical_errors_in_order (src : Bytes) (a : SyntaxAnalysis) (h : syntaxAnalysis src = some a) :
    ∃ ks : List Nat, List.Forall₂ (fun (e : LexError) k => k ≤ src.length ∧ e.pos = lineCol src k) a.lexErrors ks ∧ ks.Pairwise (· ≤ ·) := by
  have := lex_order src
  unfold syntaxAnalysis at h
  split at h
  · rename_i outs hl
    rw [hl] at this
    split at h
    · injection h with h
      subst h
      exact this
    · cases h
  · cases h

example : (syntaxAnalysis (bs "x = \"a\\zb\" ^\n; '\\q'")).map (·.lexErrors) =
    some [⟨.invalidEscapeSequence (bs "\\z"), q 6⟩, ⟨.unexpected 94, q 11⟩, ⟨.unexpected 59, ⟨2, 0⟩⟩, ⟨.invalidEscapeSequence (bs "\\q"), ⟨2, 3⟩⟩] := by
  decide +kernel

/-- C73: the errors of the parser are reported in the order of the tokens that they are about; that the text ends too early comes last (possibly more than once). -/
theorem syntax_errors_in_order (src : Bytes) (a : SyntaxAnalysis) (h : syntaxAnalysis src = some a) :
    ∃ ks : List Nat, List.Forall₂ (PlacedAt src) a.parseErrors ks ∧ ks.Pairwise (· ≤ ·) := by
  obtain ⟨offs, h1, h2, h3⟩ := lexer_positions src
  exact errors_order h h1 h2 h3

example : (syntaxAnalysis (bs "let 1\nlet x = { }\nif x y end f(")).map (·.parseErrors) =
    some [.unexpected ⟨.literal (.int 1), q 4⟩ (.msg "identifier"), .emptyCommandBlock ⟨2, 10⟩,
      .unexpected ⟨.identifier (bs "y"), ⟨3, 5⟩⟩ (.token (.keyword .then_)), .unexpectedEof, .unexpectedEof] := by decide +kernel

theorem listing_all (what : Bytes) (max : Nat) : ∀ (ts : List Bytes) (ix : Nat), ix + ts.length ≤ max → listing what max ix ts = errorLines ts
  | [], _, _ => rfl
  | t :: ts, ix, h => by
    rw [List.length_cons] at h
    rw [listing, if_neg (by omega), listing_all what max ts (ix + 1) (by omega)]
    rfl

theorem listing_some (what : Bytes) (max : Nat) : ∀ (ts : List Bytes) (ix : Nat), ix ≤ max → max < ix + ts.length →
    listing what max ix ts = errorLines (ts.take (max - ix)) ++ (natDigits max ++ bs " more supressed " ++ what ++ bs " errors\n")
  | [], ix, h, h' => by simp only [List.length_nil] at h'; omega
  | t :: ts, ix, h, h' => by
    rw [List.length_cons] at h'
    rw [listing]
    by_cases hm : max ≤ ix
    · rw [if_pos hm, show max - ix = 0 by omega]
      rfl
    · rw [if_neg hm, listing_some what max ts (ix + 1) (by omega) (by omega), show max - ix = (max - (ix + 1)) + 1 by omega, List.take_succ_cons]
      simp only [errorLines, List.flatMap_cons, List.append_assoc]

/-- C73, partially: up to twenty errors are all reported, in their order, one after the other; of more errors the first twenty are reported, and then a line says
that there are more. The number in that line is not that of the errors left out, see `left_out_violated`. -/
theorem errors_reported_partial (w : World) (path : Bytes) (es : List SyntaxError) (sem : List SemError) :
    (es.length ≤ 20 → syntaxReport w path es = errorLines (es.map (syntaxError w path))) ∧
    (20 < es.length → syntaxReport w path es = errorLines ((es.take 20).map (syntaxError w path)) ++ bs "20 more supressed syntax errors\n") ∧
    (sem.length ≤ 20 → semanticReport w path sem = errorLines (sem.map (semError w path))) ∧
    (20 < sem.length → semanticReport w path sem = errorLines ((sem.take 20).map (semError w path)) ++ bs "20 more supressed semantic errors\n") := by
  refine ⟨fun h => ?_, fun h => ?_, fun h => ?_, fun h => ?_⟩
  · exact listing_all _ _ _ _ (by simpa using h)
  · rw [List.map_take]
    refine (listing_some _ _ _ _ (by decide) (by simpa using h)).trans ?_
    rw [show natDigits 20 ++ bs " more supressed " ++ bs "syntax" ++ bs " errors\n" = bs "20 more supressed syntax errors\n" by decide +kernel]
  · exact listing_all _ _ _ _ (by simpa using h)
  · rw [List.map_take]
    refine (listing_some _ _ _ _ (by decide) (by simpa using h)).trans ?_
    rw [show natDigits 20 ++ bs " more supressed " ++ bs "semantic" ++ bs " errors\n" = bs "20 more supressed semantic errors\n" by decide +kernel]

example : semanticReport nilWorld (bs "f.hsh") [⟨.undeclaredVariable (bs "x"), ⟨3, 14⟩⟩, ⟨.breakOutsideLoop, ⟨5, 0⟩⟩] =
    bs "Error: f.hsh (line 3, column 14) - undeclared variable 'x'\nError: f.hsh (line 5, column 0) - break statement outside loop\n" := by decide +kernel

example : syntaxReport nilWorld (bs "f.hsh") [.parser (.unexpected ⟨.literal (.int 1), q 4⟩ (.msg "identifier")), .lexer ⟨.unexpected 9, q 5⟩] =
    bs "Error: f.hsh (line 1, column 4) - unexpected '1', expected identifier\nError: f.hsh (line 1, column 5) - unexpected '\\t'.\n" := by decide +kernel

/-- Twenty-one breaks. -/
def manyBreaks : Bytes := (List.replicate 21 (bs "break\n")).flatten

/-- C73 is violated: 21 errors are found in this script, and 20 are shown; the report ends by saying that there are 20 more. (The number printed is that of the errors
that are shown, src/syntax/error/fmt.rs:38 and src/semantic/error/fmt.rs:87; it is right only if there are 40 errors.) -/
theorem left_out_violated : ∃ src a sem, syntaxAnalysis src = some a ∧ analyze a.ast = .errors sem ∧ sem.length - 20 = 1 ∧
    ∀ w path, semanticReport w path sem = errorLines ((sem.take 20).map (semError w path)) ++ bs "20 more supressed semantic errors\n" := by
  have h : ((syntaxAnalysis manyBreaks).bind fun a => match analyze a.ast with | .errors es => some es.length | _ => none) = some 21 := by
    decide +kernel
  cases ha : syntaxAnalysis manyBreaks with
  | none => rw [ha] at h; cases h
  | some a =>
    rw [ha] at h
    simp only [Option.bind_some] at h
    split at h
    · rename_i es he
      injection h with h
      exact ⟨manyBreaks, a, es, ha, he, by omega, fun w path => (errors_reported_partial w path [] es).2.2.2 (by omega)⟩
    · cases h

/-- C73 is violated: one malformed escape in an argument of a command is reported once for each character that follows it, as the lexer stays in the escape after the
error (src/syntax/lexer/automata/argument.rs:63-67; in strings it does not, src/syntax/lexer/automata/string.rs:121-130). -/
theorem reported_once_violated : ∃ src a p, syntaxAnalysis src = some a ∧ src.count 92 = 1 ∧ a.parseErrors = [] ∧ a.lexErrors =
    [⟨.invalidEscapeSequence (bs "\\d"), p⟩, ⟨.invalidEscapeSequence (bs "\\da"), p⟩, ⟨.invalidEscapeSequence (bs "\\day"), p⟩] := by
  have h : (syntaxAnalysis (bs "{ date \\day }")).map (fun a => (a.lexErrors, a.parseErrors)) =
      some ([⟨.invalidEscapeSequence (bs "\\d"), q 7⟩, ⟨.invalidEscapeSequence (bs "\\da"), q 7⟩, ⟨.invalidEscapeSequence (bs "\\day"), q 7⟩], []) := by decide +kernel
  cases ha : syntaxAnalysis (bs "{ date \\day }") with
  | none => rw [ha] at h; cases h
  | some a =>
    rw [ha] at h
    injection h with h
    injection h with h1 h2
    exact ⟨_, a, q 7, ha, by decide +kernel, h2, h1⟩

/-- C73: a script is rejected exactly if something is reported. So no script is rejected silently, and nothing is reported for a script that is executed. -/
theorem rejected_iff_reported (w : World) (path src : Bytes) (a : SyntaxAnalysis) (h : syntaxAnalysis src = some a) (es : List SyntaxError)
    (hf : Found a es) : staticReport w path es a.ast ≠ [] ↔ ∀ p, ¬ Spec.Accepts src p := by
  have hne : ∀ what (t : Bytes) ts, listing what 20 0 (t :: ts) ≠ [] := by
    intro what t ts
    rw [listing, if_neg (by decide)]
    exact fun h => by cases h
  have hempty : es = [] ↔ a.isOk = true := by
    constructor
    · rintro rfl
      have h1 := hf.parser
      have h2 := hf.all h1.symm
      simp only [List.filterMap_nil] at h1 h2
      simp [SyntaxAnalysis.isOk, ← h1, ← h2]
    · intro ho
      simp only [SyntaxAnalysis.isOk, Bool.and_eq_true, List.isEmpty_iff] at ho
      have h1 := hf.parser
      have h2 := hf.all ho.2
      rw [ho.1] at h2
      rw [ho.2] at h1
      cases es with
      | nil => rfl
      | cons e es =>
        cases e with
        | lexer e => simp [ofLexer] at h2
        | parser e => simp [ofParser] at h1
  constructor
  · rintro hr p ⟨a', h1, h2, h3⟩
    rw [h] at h1
    injection h1 with h1
    subst h1
    apply hr
    rw [hempty.2 h2, staticReport, h3]
    rfl
  · intro hr
    by_cases he : es = []
    · have ho := hempty.1 he
      have hw := source_is_written src a h ho
      rcases analyze_spec a.ast hw with ⟨⟨p, hp⟩, -⟩ | ⟨sem, hs, hn, -⟩
      · exact absurd ⟨a, h, ho, hp⟩ (hr p)
      · rw [staticReport, hs]
        cases sem with
        | nil => exact absurd rfl hn
        | cons e sem => exact fun hx => hne _ _ _ (List.append_eq_nil_iff.1 hx).2
    · rw [staticReport]
      cases es with
      | nil => exact absurd rfl he
      | cons e es => exact fun hx => hne _ _ _ (List.append_eq_nil_iff.1 hx).1

/-- C73: such a script ends with the exit status 2, without being executed, whether or not it is only to be checked. -/
theorem reported_exit_status (w : World) (n : Nat) (check : Bool) (argv : List Bytes) (path src : Bytes) (a : SyntaxAnalysis) (h : syntaxAnalysis src = some a)
    (es : List SyntaxError) (hf : Found a es) (hr : staticReport w path es a.ast ≠ []) : Main.runSource w n check argv path src = (.exited 2, none) := by
  refine (runSource_rejected ((rejected_iff_reported w path src a h es hf).1 hr)).2.1 ?_
  unfold syntaxAnalysis at h
  split at h
  · rename_i outs hl; exact fun _ hc => by rw [hl] at hc; cases hc
  · cases h

example : ∃ a es, syntaxAnalysis (bs "let 1 ^") = some a ∧ Found a es ∧
    es = [.parser (.unexpected ⟨.literal (.int 1), q 4⟩ (.msg "identifier")), .lexer ⟨.unexpected 94, q 6⟩] := by
  have h : (syntaxAnalysis (bs "let 1 ^")).map (fun a => (a.lexErrors, a.parseErrors)) =
      some ([⟨.unexpected 94, q 6⟩], [.unexpected ⟨.literal (.int 1), q 4⟩ (.msg "identifier")]) := by decide +kernel
  cases ha : syntaxAnalysis (bs "let 1 ^") with
  | none => rw [ha] at h; cases h
  | some a =>
    rw [ha] at h
    injection h with h
    injection h with h1 h2
    refine ⟨a, [.parser (.unexpected ⟨.literal (.int 1), q 4⟩ (.msg "identifier")), .lexer ⟨.unexpected 94, q 6⟩], rfl, ⟨h2.symm, ?_, fun h => ?_⟩, rfl⟩
    · rw [show a.lexErrors = _ from h1]; exact List.prefix_refl _
    · rw [show a.parseErrors = _ from h2] at h; cases h

theorem placed_not_ill {src : Bytes} {p : Pos} (h : InText src p) : p ≠ Ast.illPos := by
  obtain ⟨k, -, rfl⟩ := h
  intro h
  have : (lineCol src k).line = 0 := by rw [h]; rfl
  unfold lineCol at this
  simp at this

/-- C73: the place of an error can be read from the report: if two errors found in a text are reported in the same way, they are at the same place. -/
theorem place_readable (w : World) (path src : Bytes) (a : SyntaxAnalysis) (h : syntaxAnalysis src = some a) (es : List SyntaxError) (hf : Found a es)
    (e e' : SyntaxError) (he : e ∈ es) (he' : e' ∈ es) (p p' : Pos) (hp : placeOf e = some p) (hp' : placeOf e' = some p')
    (ht : syntaxError w path e = syntaxError w path e') : p = p' := by
  obtain ⟨h1, h2, h3⟩ := syntax_errors_placed src a h
  have split : ∀ e ∈ es, ∀ p, placeOf e = some p → InText src p ∧ ∃ s, syntaxError w path e = position w path p ++ s := by
    intro e he p hp
    cases e with
    | lexer e =>
      injection hp with hp
      subst hp
      refine ⟨h1 e (hf.lexer.subset (List.mem_filterMap.2 ⟨_, he, rfl⟩)), bs " - " ++ (lexKind w e.error ++ bs "."), ?_⟩
      simp only [syntaxError, lexError, List.append_assoc]
    | parser e =>
      have hm : e ∈ a.parseErrors := hf.parser ▸ List.mem_filterMap.2 ⟨_, he, rfl⟩
      cases e with
      | unexpectedEof => cases hp
      | unexpected t x =>
        injection hp with hp
        subst hp
        refine ⟨(h2 t x hm).2, bs " - unexpected '" ++ (token w t.kind ++ (bs "', expected " ++ expected w x)), ?_⟩
        simp only [syntaxError, parseError, List.append_assoc]
      | emptyCommandBlock q =>
        injection hp with hp
        subst hp
        exact ⟨(h3 q hm).2, _, rfl⟩
  obtain ⟨g1, s, g2⟩ := split e he p hp
  obtain ⟨g1', s', g2'⟩ := split e' he' p' hp'
  rw [g2, g2'] at ht
  exact position_cut (placed_not_ill g1) (placed_not_ill g1') ht

/-! ### C74: no control characters in reports -/

/-- C74, partially: the reports of syntax errors by the parser and of semantic errors are free of control characters (so each is on one line), whatever the names and
literals in the script and the path of the script are, and the report of a lexical error is so exactly when the malformed escape or identifier that it contains is; other
lexical errors, also those for malformed numbers, never contain control characters. (The text of a float is chosen by the standard library, which prints digits.) -/
theorem reports_printable_partial (w : World) (hw : ∀ x, Printable (w.floatDisplay x)) (path src : Bytes) (a : SyntaxAnalysis) (h : syntaxAnalysis src = some a) :
    (∀ e ∈ a.parseErrors, Printable (parseError w path e)) ∧
    (∀ sem, analyze a.ast = .errors sem → ∀ e ∈ sem, Printable (semError w path e)) ∧
    ∀ e ∈ a.lexErrors, (Printable (lexError w path e) ↔ ∀ s, e.error = .invalidEscapeSequence s ∨ e.error = .invalidIdentifier s → Printable s) := by
  refine ⟨fun _ he => printable_parseError hw path fun t x hx => messages_fixed h t x (hx ▸ he), fun _ _ _ _ => printable_semError path _,
    fun e he => printable_lex_iff path ?_⟩
  unfold syntaxAnalysis at h
  split at h
  · rename_i outs hl
    have h' : a.lexErrors = outs.filterMap errOutput := by
      split at h
      · cases h; rfl
      · cases h
    rw [h'] at he
    obtain ⟨o, ho, he⟩ := List.mem_filterMap.1 he
    cases o with
    | ok t => cases he
    | error e' => cases he; exact lex_digits src outs hl e ho
  · cases h

/-- A number that is too large, and an identifier in braces with an escape character in it. -/
example : (syntaxAnalysis (bs "99999999999999999999")).map (fun a => a.lexErrors.map (lexError nilWorld (bs "f"))) =
    some [bs "f (line 1, column 0) - invalid number '99999999999999999999'."] ∧
    (syntaxAnalysis (bs "{ ${a\u001b} }")).map (fun a => a.lexErrors.map (·.error)) = some [.invalidIdentifier [97, 27]] := by decide +kernel

/-- A string with an escape character in it, where an identifier is expected. -/
example : (syntaxAnalysis (bs "let \"a\u001bb\"")).map (fun a => a.parseErrors.map (parseError nilWorld (bs "f\n"))) =
    some [bs "f\\n (line 1, column 4) - unexpected '\"a\\u{1b}b\"', expected identifier"] := by decide +kernel

/-- C74 is violated: a malformed escape is reported as it is (src/syntax/lexer/error/fmt.rs:17-23), also when it consists of a backslash and an escape character, which
is the beginning of a control sequence of terminals, or of a backslash and a line end. -/
theorem printable_violated : ∃ src a e, syntaxAnalysis src = some a ∧ e ∈ a.lexErrors ∧ ∀ w path, ¬ Printable (lexError w path e) ∧ 27 ∈ lexError w path e := by
  have h : (syntaxAnalysis (bs "\"\\\u001b[2J\"")).map (·.lexErrors) = some [⟨.invalidEscapeSequence [92, 27], q 1⟩] := by decide +kernel
  cases ha : syntaxAnalysis (bs "\"\\\u001b[2J\"") with
  | none => rw [ha] at h; cases h
  | some a =>
    rw [ha] at h
    injection h with h
    refine ⟨_, a, _, ha, by rw [show a.lexErrors = _ from h]; exact List.mem_singleton.2 rfl, fun w path => ?_⟩
    have : (27 : UInt8) ∈ lexError w path ⟨.invalidEscapeSequence [92, 27], q 1⟩ := by
      unfold lexError
      refine List.mem_append_left _ (List.mem_append_right _ ?_)
      show (27 : UInt8) ∈ bs "invalid escape sequence '" ++ utf8Lossy [92, 27] ++ bs "'"
      decide +kernel
    exact ⟨fun hp => absurd (hp 27 this).1 (by decide), this⟩

/-- C74 is violated by malformed identifiers as well: what is between the braces of `${...}` is reported as it is (src/syntax/lexer/error/fmt.rs:29-31), so that a script can
erase the report of its own error from the screen. -/
theorem printable_identifier_violated : ∃ src a e s, syntaxAnalysis src = some a ∧ e ∈ a.lexErrors ∧ e.error = .invalidIdentifier s ∧ ∀ w path, 27 ∈ lexError w path e := by
  have h : (syntaxAnalysis (bs "{ ${\u001b[2K} }")).map (·.lexErrors) = some [⟨.invalidIdentifier [27, 91, 50, 75], q 2⟩] := by decide +kernel
  cases ha : syntaxAnalysis (bs "{ ${\u001b[2K} }") with
  | none => rw [ha] at h; cases h
  | some a =>
    rw [ha] at h
    injection h with h
    refine ⟨_, a, _, _, ha, by rw [show a.lexErrors = _ from h]; exact List.mem_singleton.2 rfl, rfl, fun w path => ?_⟩
    unfold lexError
    refine List.mem_append_left _ (List.mem_append_right _ ?_)
    show (27 : UInt8) ∈ bs "invalid identifier '" ++ utf8Lossy [27, 91, 50, 75] ++ bs "'"
    decide +kernel

end Hush.Props

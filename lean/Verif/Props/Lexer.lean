import Verif.Lemmas.LexCrash
import Verif.Lemmas.LexBounds

/-!
Properties C01–C07: the lexer.

`lex src` is the lexer run on a whole source (`Verif/Model/Lexer.lean`); `.kinds` forgets positions;
the texts of tokens, layouts and line/column numbers are specified in `Verif/Spec/`.
-/

namespace Hush.Props
open Hush Hush.Spec

/-! ### C01 -/

/-- C01 (termination): lexing any source ends, with all its outputs, after at most `20·n + 20` iterations of the
automaton's loop, and any larger number of iterations gives the same result. -/
theorem lexer_terminates (src : Bytes) :
    lex src ≠ .timeout ∧ ∀ n ≥ lexBudget src, (LexSt.init src).run n = lex src := by
  have h : lex src ≠ .timeout := lexFrom_not_timeout (s := .root) trivial src
  refine ⟨h, fun n hn => ?_⟩
  obtain ⟨k, rfl⟩ := Nat.exists_eq_add_of_le hn
  exact run_mono _ _ h k

/-- C01 (progress): the tokens of any source start at strictly increasing offsets inside the source, and carry the
line and column of their first byte. -/
theorem lexer_positions (src : Bytes) :
    ∃ offs : List Nat, offs.Pairwise (· < ·) ∧ (∀ k ∈ offs, k < src.length) ∧
      (tokensOf (lex src).outputs).map Token.pos = offs.map (lineCol src) := by
  have h := run_positions (src := src) (lexBudget src) (lo := 0) (off := 0) (st := .root) (Nat.zero_le _) (Nat.zero_le _)
  obtain ⟨offs, h1, h2, h3⟩ := h
  refine ⟨offs, h1, fun k hk => (h2 k hk).2, ?_⟩
  have e : cursorAt src 0 = Cursor.start src := by simp [cursorAt, Cursor.start, lineCol]
  rw [e] at h3
  exact h3

/-- C01 (bounds): in every state the lexer goes through, the cursor is at an offset of the source, not past its end,
and all start offsets it remembers (for slicing out token texts) are at or before the cursor. -/
theorem lexer_in_bounds (src : Bytes) (s : LexSt) (h : Reachable src s) :
    s.cursor.offset ≤ src.length ∧ s.cursor.rest = src.drop s.cursor.offset ∧
      ∀ c ∈ s.state.stored, c.offset ≤ s.cursor.offset ∧ c.rest = src.drop c.offset := by
  obtain ⟨off, h1, h2, h3, _⟩ := reachable_bounds h
  rw [h1]
  refine ⟨h2, rfl, fun c hc => ?_⟩
  obtain ⟨j, rfl, hj⟩ := h3 c hc
  exact ⟨hj, rfl⟩

example : (tokensOf (lex (bs "let x =\n  1")).outputs).map Token.pos = [⟨1, 0⟩, ⟨1, 4⟩, ⟨1, 6⟩, ⟨2, 2⟩] := by decide
example : Reachable (bs "ab") (LexSt.init (bs "ab")) := .start

/-! ### C02 -/

/-- C02 is violated: this source makes the lexer abort (`todo!()` at `[` in an unquoted argument). -/
theorem lexer_never_aborts_violated :
    ∃ src os, lex src = .crash os := ⟨bs "{ ls [ab]* }", _, rfl⟩

/-- C02 (partial): what is missing is exactly this: the lexer aborts only inside a command block that is still open
(some opener with no closer after it), and only at a `[` or `{` after all tokens read so far. -/
theorem lexer_never_aborts_partial (src : Bytes) (os : List Output) (h : lex src = .crash os) :
    (∃ pre o post, os = pre ++ o :: post ∧
      (o.kind = .ok .command ∨ o.kind = .ok .asyncCommand ∨ o.kind = .ok .captureCommand) ∧
      ∀ o' ∈ post, o'.kind ≠ .ok .closeCommand) ∧
    ∃ (offs : List Nat) (j : Nat), (src[j]? = some cOpenBracket ∨ src[j]? = some cOpenBrace) ∧
      (∀ k ∈ offs, k < j) ∧ (tokensOf os).map Token.pos = offs.map (lineCol src) := by
  have e : cursorAt src 0 = Cursor.start src := by simp [cursorAt, Cursor.start, lineCol]
  have h' : (⟨.root, cursorAt src 0⟩ : LexSt).run (lexBudget src) = .crash os := by rw [e]; exact h
  obtain ⟨h1, offs, j, x, h2, h3, h4, h5, h6, h7⟩ :=
    run_crash (src := src) (lexBudget src) (lo := 0) (b := false) (Nat.zero_le _) (Nat.zero_le _)
      (by simp [State.Inv]) (by simp [State.inCommand]) h'
  refine ⟨?_, offs, j, ?_, fun k hk => (h6 k hk).2, h7⟩
  · -- the last opener
    have key : ∀ (os : List Output) (b : Bool), os.foldl openStep b = true →
        (b = true ∧ ∀ o ∈ os, o.kind ≠ .ok .closeCommand) ∨
        ∃ pre o post, os = pre ++ o :: post ∧
          (o.kind = .ok .command ∨ o.kind = .ok .asyncCommand ∨ o.kind = .ok .captureCommand) ∧
          ∀ o' ∈ post, o'.kind ≠ .ok .closeCommand := by
      intro os
      induction os with
      | nil => intro b hb; exact Or.inl ⟨hb, by simp⟩
      | cons o os ih =>
        intro b hb
        rcases ih _ hb with ⟨hb', hno⟩ | ⟨pre, o', post, rfl, ho, hp⟩
        · have : (o.kind = .ok .command ∨ o.kind = .ok .asyncCommand ∨ o.kind = .ok .captureCommand) ∨
              (b = true ∧ o.kind ≠ .ok .closeCommand) := by
            revert hb'
            rcases o with e | ⟨k, p⟩
            · intro hb'; right; exact ⟨hb', by simp [Output.kind]⟩
            · cases k <;> simp [openStep, Output.kind, TokenKind.erase]
          rcases this with ho | ⟨hb1, ho⟩
          · exact Or.inr ⟨[], o, os, rfl, ho, hno⟩
          · refine Or.inl ⟨hb1, ?_⟩
            intro o' ho'
            rcases List.mem_cons.1 ho' with rfl | ho'
            · exact ho
            · exact hno o' ho'
        · exact Or.inr ⟨o :: pre, o', post, rfl, ho, hp⟩
    rcases key os false h1 with ⟨h, _⟩ | h
    · cases h
    · exact h
  · rcases h3 with rfl | rfl
    · exact Or.inl h2
    · exact Or.inr h2

example : ∃ os, lex (bs "let a = 1 { ls {a,b} }") = .crash os := ⟨_, rfl⟩

/-- C02 (partial): a source that writes down legal tokens, in any layout, is lexed without aborting and without any
lexical error. -/
theorem lexer_accepts_written_partial (ks : List TokenKind) (src : Bytes) (hk : ToksOk .code ks .code)
    (hw : Written ks [] src) :
    (lex src).kinds = some (true, ks.map (fun k => .ok k.erase)) := by
  have := written_lex hw hk
  rw [show lexFrom (modeState .code) [] = lexFrom .root [] from rfl, lexFrom_nil_code] at this
  refine Eq.trans (b := (lexFrom (modeState .code) src).kinds) rfl ?_
  simpa [prependKinds] using this

/-- `let x = 1 # c` / `{ echo 'a b' }` -/
example : Written [.keyword .let_, .identifier (bs "x"), .operator .assign, .literal (.int 1), .command,
    .argument [.unquoted (.literal (bs "echo"))], .argument [.singleQuoted (bs "a b")], .closeCommand] []
    (bs "let x=1 # c\n{echo 'a b'}") := by
  refine .cons (w := []) (t := bs " x=1 # c\n{echo 'a b'}") .nil (by decide) ?_
  refine .cons (w := bs " ") (t := bs "=1 # c\n{echo 'a b'}") (.space (by decide) .nil) (by decide) ?_
  refine .cons (w := []) (t := bs "1 # c\n{echo 'a b'}") .nil (by decide) ?_
  have h1 : natText 1 = [49] := by simp [natText]
  have : bs "1 # c\n{echo 'a b'}" = [] ++ (tokenText (.literal (.int 1)) ++ bs " # c\n{echo 'a b'}") := by
    simp only [tokenText]; rw [show Int.toNat 1 = 1 from rfl, h1]; rfl
  rw [this]
  refine .cons (w := []) (t := bs " # c\n{echo 'a b'}") .nil (by decide) ?_
  refine .cons (w := bs " # c\n") (t := bs "echo 'a b'}")
    (.space (by decide) (.comment (body := bs " c") (w := []) (by decide) .nil)) (by decide) ?_
  refine .cons (w := []) (t := bs " 'a b'}") .nil (by decide) ?_
  refine .cons (w := bs " ") (t := bs "}") (.space (by decide) .nil) (by decide) ?_
  refine .cons (w := []) (t := []) .nil (by decide) ?_
  exact .nil (w := []) .nil

/-! ### C03 -/

/-- C03: for every byte string `s`, the literal `stringText s` is lexed as exactly one string token with value `s`,
and what follows it is lexed as if it stood alone; `ks` are any tokens before it. -/
theorem string_literal_roundtrip (s post : Bytes) (ks : List TokenKind) (pre : Bytes)
    (hk : ToksOk .code ks .code) (hw : Written ks (stringText s ++ post) pre) :
    (lex pre).kinds =
      prependKinds (ks.map (fun k => .ok k.erase) ++ [.ok (.literal (.string s))]) (lex post).kinds := by
  have h1 := written_lex hw hk
  have h2 := (reach_string (s := s) (c := Cursor.start (stringText s ++ post)) (r := post) rfl).emits.lex
    (st := .root) (st' := .root) trivial trivial rfl
  rw [prependKinds_append]
  exact h1.trans (by rw [show modeState .code = State.root from rfl, h2]; rfl)

/-- Without anything before it. -/
theorem string_literal_roundtrip' (s post : Bytes) :
    (lex (stringText s ++ post)).kinds = prependKinds [.ok (.literal (.string s))] (lex post).kinds := by
  have := string_literal_roundtrip s post [] (stringText s ++ post) .nil (.nil (w := []) .nil)
  simpa using this

example : stringText (bs "a\"b\n") = bs "\"a\\\"b\\n\"" := by decide

/-! ### C04 -/

/-- C04: a run of decimal digits that is not continued by a digit, `.`, `e` or `E` is lexed to its value if that is
below `2^63`, and otherwise to an error; it is never truncated or wrapped. (After the error, the byte that ended the
run is dropped.) -/
theorem int_literal_exact (ds post : Bytes) (hne : ds ≠ []) (hd : ds.all isDigit = true)
    (hpost : post.head?.all (fun y => !isDigit y && y != cDot && y != cE && y != cUE) = true) :
    (decimalValue ds < 2 ^ 63 →
      (lex (ds ++ post)).kinds = prependKinds [.ok (.literal (.int (decimalValue ds)))] (lex post).kinds) ∧
    (2 ^ 63 ≤ decimalValue ds →
      (lex (ds ++ post)).kinds = prependKinds [.error (.invalidNumber ds)] (lex post.tail).kinds) := by
  have hp : post.head?.all endsInt = true := by
    cases h : post.head? with
    | none => rfl
    | some y =>
      simp only [h, Option.all_some, Bool.and_eq_true, Bool.not_eq_true', bne_iff_ne] at hpost
      simp [endsInt, hpost]
  refine ⟨fun hv => ?_, fun hv => ?_⟩
  · exact (emits_int hd hne hp hv (c := Cursor.start (ds ++ post)) rfl).lex (st := .root) (st' := .root) trivial trivial rfl
  · exact (emits_int_overflow hd hne hp (by omega) (c := Cursor.start (ds ++ post)) rfl).lex (st := .root) (st' := .root)
      trivial trivial rfl

example : decimalValue (bs "9223372036854775807") < 2 ^ 63 ∧ 2 ^ 63 ≤ decimalValue (bs "9223372036854775808") := by
  decide

/-! ### C05 -/

/-- C05: two layouts of the same tokens, with any whitespace and any comments between them (or nothing at all where
the tokens cannot run together), followed by the same text, are lexed the same. -/
theorem layout_irrelevant (ks : List TokenKind) (rest t t' : Bytes) (hk : ToksOk .code ks .code)
    (h : Written ks rest t) (h' : Written ks rest t') : (lex t).kinds = (lex t').kinds :=
  (written_lex h hk).trans (written_lex h' hk).symm

/-- C05, in the form of the property: inserting whitespace or a comment between two tokens changes nothing. `k` is a
token of ordinary code (not an opener of a command block), `ks` the tokens before it, `post` any text such that `k` ends
where `post` begins. -/
theorem filler_insertion (ks : List TokenKind) (k : TokenKind) (w post t t' : Bytes)
    (hk : ToksOk .code (ks ++ [k]) .code) (hw : Filler w)
    (ht : Written ks (tokenText k ++ post) t) (ht' : Written ks (tokenText k ++ (w ++ post)) t')
    (he : ends k post.head? = true) (he' : ends k (w ++ post).head? = true) :
    (lex t').kinds = (lex t).kinds := by
  have join : ∀ {ks k r t}, Written ks (tokenText k ++ r) t → ends k r.head? = true → Written (ks ++ [k]) r t := by
    intro ks k r t h he
    generalize hr : tokenText k ++ r = r' at h
    induction h with
    | nil hf => subst hr; exact .cons hf he (.nil (w := []) .nil)
    | cons hf h1 _ ih => exact .cons hf h1 (ih hr)
  have e1 := written_lex (join ht he) hk
  have e2 := written_lex (join ht' he') hk
  rw [Filler.lex .code hw] at e2
  exact e2.trans e1.symm

/-- `a+b` and `a # x` newline `+b` -/
example : Filler (bs " # x\n") ∧ ends (.identifier (bs "a")) (bs "+b").head? = true ∧
    ends (.identifier (bs "a")) (bs " # x\n+b").head? = true :=
  ⟨.space (by decide) (.comment (body := bs " x") (w := []) (by decide) .nil), by decide, by decide⟩

/-! ### C06 -/

/-- C06: in a command block, a single-quoted argument is one literal part with exactly the quoted bytes, whatever
they are; `as`/`bs` are any other parts of the same argument, `ks` the tokens before it. -/
theorem single_quoted_literal (s post pre : Bytes) (ks : List TokenKind) (as bs : List ArgPart) (y : UInt8)
    (hk : ToksOk .code ks .command) (hok : ArgOk (as ++ .singleQuoted s :: bs)) (hy : endsArg y = true)
    (hw : Written ks (argText as ++ ([cSQuote] ++ s.flatMap sqByte ++ [cSQuote]) ++ argText bs ++ y :: post) pre) :
    (lex pre).kinds =
      prependKinds (ks.map (fun k => .ok k.erase) ++
        [.ok (.argument (as.map ArgPart.erase ++ .singleQuoted s :: bs.map ArgPart.erase))])
        (lexFrom .command (y :: post)).kinds := by
  have h1 := written_lex hw hk
  have e : argText as ++ ([cSQuote] ++ s.flatMap sqByte ++ [cSQuote]) ++ argText bs ++ y :: post =
      argText (as ++ .singleQuoted s :: bs) ++ y :: post := by simp [argText, partText]
  rw [e] at h1
  have h2 := (emits_argument hok hy (c := Cursor.start (argText (as ++ .singleQuoted s :: bs) ++ y :: post)) rfl).lex
    trivial trivial rfl
  rw [prependKinds_append]
  refine h1.trans ?_
  rw [show modeState .command = State.command from rfl, h2]
  simp [ArgPart.erase]

example : ArgOk ([] ++ .singleQuoted (bs "$x | * # ~/") :: []) := by simp [ArgOk, PartsOk]
example : (lex (bs "{ echo '$x | * # ~/' }")).kinds = some (true, [.ok .command,
    .ok (.argument [.unquoted (.literal (bs "echo"))]), .ok (.argument [.singleQuoted (bs "$x | * # ~/")]),
    .ok .closeCommand]) := by decide

/-! ### C07 -/

/-- C07 is violated: without whitespace before it, the pipe becomes part of the argument. -/
theorem pipe_separates_violated :
    (lex (bs "{ echo foo|cat }")).kinds = some (true, [.ok .command,
      .ok (.argument [.unquoted (.literal (bs "echo"))]), .ok (.argument [.unquoted (.literal (bs "foo|cat"))]),
      .ok .closeCommand]) := by decide

/-- C07 (partial): after whitespace or a comment (or an operator or closing quote followed by whitespace), `|` is a
pipe, whether or not whitespace follows it. Missing: a pipe directly after an argument. -/
theorem pipe_separates_partial (ks : List TokenKind) (w post t : Bytes) (hk : ToksOk .code ks .command) (hw : Filler w)
    (ht : Written ks (w ++ cPipe :: post) t) :
    (lex t).kinds = prependKinds (ks.map (fun k => .ok k.erase) ++ [.ok .pipe]) (lexFrom .command post).kinds := by
  have h1 := written_lex ht hk
  rw [Filler.lex .command hw] at h1
  have h2 := (tok_emits .pipe (r := post) rfl (c := Cursor.start (cPipe :: post)) rfl).lex trivial trivial rfl
  rw [prependKinds_append]
  refine h1.trans ?_
  rw [h2]; rfl

example : (lex (bs "{ echo foo |cat }")).kinds = some (true, [.ok .command,
      .ok (.argument [.unquoted (.literal (bs "echo"))]), .ok (.argument [.unquoted (.literal (bs "foo"))]), .ok .pipe,
      .ok (.argument [.unquoted (.literal (bs "cat"))]), .ok .closeCommand]) := by decide

end Hush.Props

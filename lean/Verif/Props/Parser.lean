import Verif.Lemmas.ParseTop
import Verif.Lemmas.LexPos

/-!
Properties C08–C10: the parser.

`parse ts` is the parser run on a whole token sequence; the final state holds the tokens left over and the errors
reported. `Derives`/`IsProgram` is the grammar (`Verif/Spec/Grammar.lean`).
-/

namespace Hush.Props
open Hush Hush.Spec
open Hush.Ast (Expr Lit Stmt Block)

/-- The parser accepts: all tokens are read and no error is reported. -/
def Accepts (ts : List Token) (b : Block) : Prop := parse ts = .ok b ⟨[], []⟩

/-! ### C08 -/

/-- C08: every expression tree, written with parentheses only where precedence and left associativity need them, is
parsed back to the same tree. -/
theorem expression_roundtrip (t : Tree) : Accepts t.write [.expr t.expr] :=
  parse_complete (write_program t)

/-- C08 (all programs): every token sequence that the grammar derives is accepted with the tree it derives; in
particular the grammar is not ambiguous. -/
theorem grammar_accepted (ts : List Token) (b : Block) (h : IsProgram b ts) : Accepts ts b := parse_complete h

theorem grammar_unambiguous (ts : List Token) (b b' : Block) (h : IsProgram b ts) (h' : IsProgram b' ts) : b = b' := by
  have h1 := parse_complete h
  rw [parse_complete h'] at h1
  cases h1; rfl

section Examples
private def i (n : Nat) : Tree := .lit (.int n) ⟨1, n⟩
private def v (s : String) : Tree := .ident (bs s) ⟨1, 0⟩
private def p0 : Pos := ⟨2, 0⟩

/-- `a - (b - c) * -f(x)?.y[1] and not (p or q)` -/
private def sample : Tree :=
  .bin (.bin (v "a") .minus (.bin (.bin (v "b") .minus (v "c") p0) .times
    (.neg (.index (.dot (.try_ (.call (v "f") [v "x"] p0) p0) (bs "y") p0 p0) (i 1) p0) p0) p0) p0) .and
    (.not (.bin (v "p") .or (v "q") p0) p0) p0

-- Exactly two pairs of parentheses besides the call's.
example : sample.write.length = 26 ∧ (sample.write.filter (fun t => t.kind == .openParens)).length = 3 := by decide
example : Accepts sample.write [.expr sample.expr] := expression_roundtrip sample
-- Both associations of the same operator are kept apart.
example : (Tree.bin (.bin (i 1) .minus (i 2) p0) .minus (i 3) p0).write ≠
    (Tree.bin (i 1) .minus (.bin (i 2) .minus (i 3) p0) p0).write := by decide
end Examples

/-! ### C09 -/

private def tk (k : TokenKind) : Token := ⟨k, ⟨1, 0⟩⟩

private def tkAt (c : Nat) (k : TokenKind) : Token := ⟨k, ⟨1, c⟩⟩

/-- A source with a top-level `return` that is not the last statement. -/
def droppedSource : Bytes := bs "let x = 1 return x let y = 2"

/-- Its tokens. -/
def droppedTokens : List Token :=
  [tkAt 0 (.keyword .let_), tkAt 4 (.identifier (bs "x")), tkAt 6 (.operator .assign), tkAt 8 (.literal (.int 1)),
   tkAt 10 (.keyword .return_), tkAt 17 (.identifier (bs "x")),
   tkAt 19 (.keyword .let_), tkAt 23 (.identifier (bs "y")), tkAt 25 (.operator .assign), tkAt 27 (.literal (.int 2))]

/-- C09 is violated: `let x = 1 return x let y = 2` is accepted without an error, but as the program `let y = 2`. -/
theorem statements_kept_violated :
    lex droppedSource = .done (droppedTokens.map .ok) ∧
    Accepts droppedTokens [.let_ (bs "y") (.lit (.int 2) ⟨1, 27⟩) ⟨1, 23⟩] ∧
    ¬ IsProgram [.let_ (bs "y") (.lit (.int 2) ⟨1, 27⟩) ⟨1, 23⟩] droppedTokens := by
  refine ⟨by rfl, by rfl, ?_⟩
  rintro ⟨f, h, _⟩
  generalize hb : [Stmt.let_ (bs "y") (.lit (.int 2) ⟨1, 27⟩) ⟨1, 23⟩] = b at h
  generalize hts : droppedTokens = ts at h
  generalize hn : Phrase.block b f = nd at h
  cases h with
  | blockLast h =>
    cases hn; cases hb
    generalize hn : Phrase.stmt _ _ = nd at h
    cases h with
    | let_ => cases hn
    | letInit h =>
      cases hn
      have : (droppedTokens.drop 1).head? = some (tkAt 4 (.identifier (bs "x"))) := rfl
      rw [hts] at this
      exact absurd this (by simp [tkAt])
    | letFun => cases hn
    | _ => cases hn
  | blockCons h _ h' hne =>
    cases hn; cases hb
    exact absurd (block_nil h') hne
  | _ => cases hn <;> cases hb
where
  block_nil {f : Follow} {ts : List Token} (h : Derives (.block [] f) ts) : ts = [] := by
    generalize hn : Phrase.block [] f = nd at h
    cases h with
    | blockNil => rfl
    | _ => cases hn

/-- C09 (partial): what an accepted source loses is exactly the blocks that end in a top-level `return` with further
tokens after it. The source is a sequence of such blocks followed by the block returned as the program, and every token
of that last block is accounted for in the grammar, in order. Missing: nothing is lost at all (false, see above). -/
theorem statements_kept_partial (ts : List Token) (b : Block) (h : Accepts ts b) :
    ∃ bs pre ts', ts = pre ++ ts' ∧ IsProgram b ts' ∧
      Many (fun b ts => (∃ f, Derives (.block b f) ts) ∧ ∃ s, b.getLast? = some s ∧ isRet s = true) bs pre := by
  obtain ⟨bs, pre, ts', h1, h2, h3⟩ := parse_sound h
  refine ⟨bs, pre, ts', h1, h3, ?_⟩
  clear h1 h
  induction h2 with
  | nil => exact .nil
  | cons ha _ ih =>
    obtain ⟨f, h1, h2⟩ := ha
    exact .cons ⟨⟨f, h1⟩, h2⟩ ih

/-- C09 (the common case): a source without the keyword `return` is accepted exactly when the grammar derives it, with
the program the grammar derives. -/
theorem statements_kept_without_return (ts : List Token) (b : Block) (hr : ∀ t ∈ ts, t.kind ≠ .keyword .return_) :
    Accepts ts b ↔ IsProgram b ts := by
  refine ⟨fun h => ?_, parse_complete⟩
  obtain ⟨bs, pre, ts', rfl, h2, h3⟩ := parse_sound h
  cases h2 with
  | nil => exact h3
  | @cons b0 bs ts0 ts1 ha _ =>
    exfalso
    obtain ⟨f, hd, s, hl, hs⟩ := ha
    obtain ⟨t, ht, hk⟩ := ret_tok hd s hl hs
    exact hr t (by simp [ht]) hk
where
  ret_stmt {s : Stmt} {f : Follow} {ts : List Token} (h : Derives (.stmt s f) ts) (hs : isRet s = true) :
      ∃ t ∈ ts, t.kind = .keyword .return_ := by
    cases h <;> first | exact ⟨_, List.mem_cons_self, rfl⟩ | cases hs
  ret_tok {b : Block} {f : Follow} {ts : List Token} (h : Derives (.block b f) ts) :
      ∀ s, b.getLast? = some s → isRet s = true → ∃ t ∈ ts, t.kind = .keyword .return_ := by
    generalize hn : Phrase.block b f = nd at h
    induction h generalizing b f with
    | blockNil => cases hn; intro s h; cases h
    | blockLast h =>
      cases hn
      intro s hs hr
      simp at hs
      subst hs
      exact ret_stmt h hr
    | @blockCons s0 f0 ts0 b1 g ts1 h hret hb hne _ _ ih =>
      cases hn
      intro s hs hr
      cases b1 with
      | nil => simp at hs; subst hs; rw [hret] at hr; cases hr
      | cons c b1 =>
        rw [List.getLast?_cons_cons] at hs
        obtain ⟨t, ht, hk⟩ := ih rfl s hs hr
        exact ⟨t, by simp [ht], hk⟩
    | _ => cases hn

/-! ### C10 -/

/-- C10: the parser finishes on every token sequence, errors or not, with a (possibly ill-formed) program; in the end
nothing is left to read. It never panics. -/
theorem parser_terminates (ts : List Token) : ∃ b es, parse ts = .ok b ⟨[], es⟩ := parse_total ts

/-- C10 (order): on every input, with whatever errors, parsing an expression or a block leaves a suffix of the tokens and
keeps the errors already reported. -/
theorem parser_in_order (n : Nat) (st : PState) :
    (∀ e st', parseExpr n st = .ok e st' → st'.toks <:+ st.toks ∧ st.errors <:+ st'.errors) ∧
    (∀ e s st', parseExpr n st = .err e s st' → st'.toks <:+ st.toks ∧ st.errors <:+ st'.errors) ∧
    (∀ b st', parseBlock n st = .ok b st' → st'.toks <:+ st.toks ∧ st.errors <:+ st'.errors) ∧
    (∀ e s st', parseBlock n st = .err e s st' → st'.toks <:+ st.toks ∧ st.errors <:+ st'.errors) := by
  have he := (sound_both n).1 st
  have hb := (sound_both n).2 st
  refine ⟨fun e st' h => ?_, fun e s st' h => ?_, fun e st' h => ?_, fun e s st' h => ?_⟩
  · rw [h] at he; exact he.1
  · rw [h] at he; exact he
  · rw [h] at hb; exact hb.1
  · rw [h] at hb; exact hb

-- Error recovery: `let = ) 1 end end` is rejected, with everything read.
example : ∃ b es, parse [tk (.keyword .let_), tk (.operator .assign), tk .closeParens, tk (.literal (.int 1)),
    tk (.keyword .end_), tk (.keyword .end_)] = .ok b ⟨[], es⟩ ∧ es.length = 3 := ⟨_, _, rfl, rfl⟩

end Hush.Props

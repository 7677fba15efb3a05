import Verif.Model.AstFmt
import Verif.Spec.AstFmt
import Verif.Spec.Grammar
import Verif.Lemmas.ShowParse

/-!
The text of syntax trees: it is made of tokens.
-/

namespace Hush
open Spec Ast

/-! ### The tokens -/

/-- Phrases separated by commas. -/
def commaKinds : List (List TokenKind) → List TokenKind
  | [] => []
  | k :: ks => k ++ ks.flatMap (.comma :: ·)

mutual
/-- The tokens of the text of an expression. -/
def exprKinds (w : World) : Expr → List TokenKind
  | .illFormed => []
  | .self_ _ => [.keyword .self_]
  | .ident s _ => [.identifier s]
  | .lit l _ => literalKinds w l
  | .unary .try_ e _ => .openParens :: (exprKinds w e ++ [.operator .try_, .closeParens])
  | .unary .minus e _ => .openParens :: .operator .minus :: (exprKinds w e ++ [.closeParens])
  | .unary .not e _ => .openParens :: .operator .not :: (exprKinds w e ++ [.closeParens])
  | .binary l op r _ => .openParens :: (exprKinds w l ++ .operator (binToken op) :: (exprKinds w r ++ [.closeParens]))
  | .if_ c t e _ =>
    .keyword .if_ :: (exprKinds w c ++ .keyword .then_ :: (blockKinds w t ++ ((if e.isEmpty then [] else .keyword .else_ :: blockKinds w e) ++
      [.keyword .end_])))
  | .access o (.lit (.ident s) _) _ => exprKinds w o ++ [.operator .dot, .identifier s]
  | .access o f _ => exprKinds w o ++ .openBracket :: (exprKinds w f ++ [.closeBracket])
  | .call f as _ => exprKinds w f ++ .openParens :: (commaKinds (exprsKinds w as) ++ [.closeParens])
  | .command .. => []
/-- Those of a literal. -/
def literalKinds (w : World) : Lit → List TokenKind
  | .nil => [.literal .nil]
  | .bool b => [.literal (if b then .true_ else .false_)]
  | .int i => [.literal (.int i)]
  | .float t => [.literal (.float (w.floatDisplay (w.parseFloat t)))]
  | .byte b => [.literal (.byte b)]
  | .string s => [.literal (.string s)]
  | .array es => .openBracket :: (commaKinds (exprsKinds w es) ++ [.closeBracket])
  | .dict is => .openDict :: (commaKinds (itemsKinds w is) ++ [.closeBracket])
  | .function ps b =>
    .keyword .function :: .openParens :: (commaKinds (ps.map (fun p => [.identifier p.1])) ++ .closeParens :: (blockKinds w b ++ [.keyword .end_]))
  | .ident s => [.identifier s]
/-- Those of expressions. -/
def exprsKinds (w : World) : List Expr → List (List TokenKind)
  | [] => []
  | e :: es => exprKinds w e :: exprsKinds w es
/-- Those of entries. -/
def itemsKinds (w : World) : List ((Sym × Pos) × Expr) → List (List TokenKind)
  | [] => []
  | ((k, _), e) :: is => (.identifier k :: .colon :: exprKinds w e) :: itemsKinds w is
/-- Those of a statement. -/
def stmtKinds (w : World) : Stmt → List TokenKind
  | .illFormed => []
  | .let_ s e _ => .keyword .let_ :: .identifier s :: .operator .assign :: exprKinds w e
  | .assign l r _ => exprKinds w l ++ .operator .assign :: exprKinds w r
  | .return_ e _ => .keyword .return_ :: exprKinds w e
  | .break_ _ => [.keyword .break_]
  | .while_ c b _ => .keyword .while_ :: (exprKinds w c ++ .keyword .do_ :: (blockKinds w b ++ [.keyword .end_]))
  | .for_ s e b _ =>
    .keyword .for_ :: .identifier s :: .keyword .in_ :: (exprKinds w e ++ .keyword .do_ :: (blockKinds w b ++ [.keyword .end_]))
  | .expr e => exprKinds w e
/-- Those of a block. -/
def blockKinds (w : World) : List Stmt → List TokenKind
  | [] => []
  | s :: ss => stmtKinds w s ++ blockKinds w ss
end

/-! ### Lexing -/

/-- What the lexer makes of a text. -/
def toks (t : Bytes) : Option (Bool × List (Except LexErrorKind TokenKind)) := (lexFrom .root t).kinds

/-- With tokens in front. -/
def prior : List TokenKind → Option (Bool × List (Except LexErrorKind TokenKind)) → Option (Bool × List (Except LexErrorKind TokenKind))
  | [], x => x
  | k :: ks, x => prependKinds [.ok k] (prior ks x)

theorem prior_append : ∀ (a b : List TokenKind) (x), prior (a ++ b) x = prior a (prior b x)
  | [], _, _ => rfl
  | k :: a, b, x => congrArg (prependKinds [.ok k]) (prior_append a b x)

/-- A byte that may follow an expression; a dot only if `dot`. -/
def sepByte (dot : Bool) (y : UInt8) : Bool :=
  y == 32 || y == 10 || y == 40 || y == 41 || y == 44 || y == 91 || y == 93 || y == 58 || (dot && y == 46)

/-- What may follow an expression. -/
def EndsExpr (dot : Bool) (r : Bytes) : Prop := r.head?.all (sepByte dot) = true

/-- The text is read as the tokens. -/
def LexesTo (dot : Bool) (t : Bytes) (ks : List TokenKind) : Prop := ∀ r, EndsExpr dot r → toks (t ++ r) = prior ks (toks r)

theorem toks_tok {k : TokenKind} {r : Bytes} (h : TokOk .code k .code) (hk : k.erase = k) (he : ends k r.head? = true) :
    toks (tokenText k ++ r) = prior [k] (toks r) := by
  have := lex_tok h he
  rw [hk] at this
  exact this

theorem toks_fill {t : Bytes} (h : Filler t) (r : Bytes) : toks (t ++ r) = toks r := Filler.lex .code h r

theorem filler_tabs (n : Nat) : Filler (AstFmt.tabs n) := by
  unfold AstFmt.tabs
  induction n with
  | zero => exact .nil
  | succ n ih => exact .space (by decide) ih

theorem filler_nl (n : Nat) : Filler (10 :: AstFmt.tabs n) := .space (by decide) (filler_tabs n)

theorem toks_sp (r : Bytes) : toks (bs " " ++ r) = toks r := toks_fill (.space (by decide) .nil) r
theorem toks_step (c : Option Nat) (r : Bytes) : toks (AstFmt.step c ++ r) = toks r := by
  cases c with
  | none => exact toks_sp r
  | some n => exact toks_fill (filler_nl n) r
theorem toks_line (c : Option Nat) (r : Bytes) : toks (AstFmt.line c ++ r) = toks r := by
  cases c with
  | none => exact toks_sp r
  | some n => exact toks_fill (t := [10]) (.space (by decide) .nil) r
theorem toks_newline (c : Option Nat) (r : Bytes) : toks (AstFmt.newline c ++ r) = toks r := by
  cases c with
  | none => rfl
  | some n => exact toks_fill (t := [10]) (.space (by decide) .nil) r
theorem toks_margin (c : Option Nat) (r : Bytes) : toks (AstFmt.margin c ++ r) = toks r := by
  cases c with
  | none => rfl
  | some n => exact toks_fill (filler_tabs n) r
theorem toks_before (c : Option Nat) (r : Bytes) : toks (AstFmt.before c ++ r) = toks r := by
  cases c with
  | none => exact toks_sp r
  | some n => exact toks_fill (filler_tabs n) r
theorem toks_between (n : Nat) (r : Bytes) : toks (AstFmt.between (some n) ++ r) = toks r :=
  toks_fill (t := [10]) (.space (by decide) .nil) r

theorem ended_step (d : Bool) (c : Option Nat) (r : Bytes) : EndsExpr d (AstFmt.step c ++ r) := by
  cases c <;> rfl
theorem ended_line (d : Bool) (c : Option Nat) (r : Bytes) : EndsExpr d (AstFmt.line c ++ r) := by
  cases c <;> rfl

theorem toks_open (r : Bytes) : toks (bs "(" ++ r) = prior [.openParens] (toks r) := toks_tok .openParens rfl rfl
theorem toks_close (r : Bytes) : toks (bs ")" ++ r) = prior [.closeParens] (toks r) := toks_tok .closeParens rfl rfl
theorem toks_bracket (r : Bytes) : toks (bs "[" ++ r) = prior [.openBracket] (toks r) := toks_tok .openBracket rfl rfl
theorem toks_unbracket (r : Bytes) : toks (bs "]" ++ r) = prior [.closeBracket] (toks r) := toks_tok .closeBracket rfl rfl
theorem toks_dict (r : Bytes) : toks (bs "@[" ++ r) = prior [.openDict] (toks r) := toks_tok .openDict rfl rfl
theorem toks_comma (r : Bytes) : toks (bs "," ++ r) = prior [.comma] (toks r) := toks_tok .comma rfl rfl
theorem toks_colon (r : Bytes) : toks (bs ":" ++ r) = prior [.colon] (toks r) := toks_tok .colon rfl rfl
theorem toks_dot (r : Bytes) : toks (bs "." ++ r) = prior [.operator .dot] (toks r) := toks_tok (k := .operator .dot) .operator rfl rfl
theorem toks_op (o : Operator) (r : Bytes) : toks (operatorText o ++ (bs " " ++ r)) = prior [.operator o] (toks (bs " " ++ r)) :=
  toks_tok (k := .operator o) .operator rfl (by cases o <;> rfl)
theorem toks_try (r : Bytes) : toks (bs " ?" ++ r) = prior [.operator .try_] (toks r) :=
  (toks_sp _).trans (toks_tok (k := .operator .try_) (r := r) .operator rfl rfl)
theorem toks_assign (r : Bytes) : toks (bs " = " ++ r) = prior [.operator .assign] (toks r) := by
  refine (toks_sp _).trans ((toks_op .assign r).trans ?_)
  rw [toks_sp]

theorem ended_word {r : Bytes} {d : Bool} (h : EndsExpr d r) : r.head?.all (fun y => !isWord y) = true := by
  unfold EndsExpr at h
  cases hr : r.head? with
  | none => rfl
  | some y =>
    rw [hr] at h
    have key : ∀ y : UInt8, sepByte true y = true → (!isWord y) = true := forall_byte (by decide +kernel)
    refine key y ?_
    cases d with
    | true => exact h
    | false =>
      simp only [Option.all_some, sepByte, Bool.false_and, Bool.or_false] at h
      simp only [sepByte, h, Bool.true_or]

theorem EndsExpr.weaken {r : Bytes} {d : Bool} (h : EndsExpr d r) : EndsExpr true r := by
  unfold EndsExpr at h ⊢
  cases hr : r.head? with
  | none => rfl
  | some y =>
    rw [hr] at h
    cases d with
    | true => exact h
    | false =>
      simp only [Option.all_some, sepByte, Bool.false_and, Bool.or_false] at h
      simp only [Option.all_some, sepByte, h, Bool.true_or]

theorem ended_int {r : Bytes} (h : EndsExpr false r) : r.head?.all (fun y => !isDigit y && y != cDot && y != cE && y != cUE) = true := by
  unfold EndsExpr at h
  cases hr : r.head? with
  | none => rfl
  | some y =>
    rw [hr] at h
    have key : ∀ y : UInt8, sepByte false y = true → (!isDigit y && y != cDot && y != cE && y != cUE) = true := forall_byte (by decide +kernel)
    exact key y h

theorem ended_float {r : Bytes} (h : EndsExpr true r) : r.head?.all (fun y => !isDigit y && y != cE && y != cUE) = true := by
  unfold EndsExpr at h
  cases hr : r.head? with
  | none => rfl
  | some y =>
    rw [hr] at h
    have key : ∀ y : UInt8, sepByte true y = true → (!isDigit y && y != cE && y != cUE) = true := forall_byte (by decide +kernel)
    exact key y h

theorem toks_kw (k : Keyword) {r : Bytes} {d : Bool} (h : EndsExpr d r) : toks (keywordText k ++ r) = prior [.keyword k] (toks r) :=
  toks_tok (k := .keyword k) .keyword rfl (ended_word h)

/-! ### Names -/

theorem word_ascii {b : UInt8} (h : isWord b = true) : b.toNat < 128 ∧ (Char.ofNat b.toNat).toNat = b.toNat := by
  have key : ∀ b : UInt8, isWord b = true → (b.toNat < 128 ∧ (Char.ofNat b.toNat).toNat = b.toNat) := forall_byte (by decide +kernel)
  exact key b h

theorem word_escape (w : World) (first : Bool) {b : UInt8} (h : isWord b = true) : Show.escapeChar w first [b] = [b] := by
  have key : ∀ b : UInt8, isWord b = true → (b ≠ 0 ∧ b ≠ 9 ∧ b ≠ 10 ∧ b ≠ 13 ∧ b ≠ 34 ∧ b ≠ 39 ∧ b ≠ 92 ∧ 32 ≤ b ∧ b < 127) := forall_byte (by decide +kernel)
  obtain ⟨h1, h2, h3, h4, h5, h6, h7, h8, h9⟩ := key b h
  simp only [Show.escapeChar, h1, h2, h3, h4, h5, h6, h7, h8, h9, or_self, and_self, if_true, if_false]

theorem word_char {b : UInt8} (h : isWord b = true) : String.utf8EncodeChar (Char.ofNat b.toNat) = [b] := by
  obtain ⟨h1, h2⟩ := word_ascii h
  rw [char_ascii (by omega), h2]
  simp

theorem word_utf8 : ∀ {s : Bytes}, s.all isWord = true → utf8 (s.map (fun b => Char.ofNat b.toNat)) = s
  | [], _ => rfl
  | b :: s, h => by
    rw [List.all_cons, Bool.and_eq_true] at h
    have e : utf8 ((b :: s).map (fun b => Char.ofNat b.toNat)) = String.utf8EncodeChar (Char.ofNat b.toNat) ++ utf8 (s.map (fun b => Char.ofNat b.toNat)) :=
      List.flatMap_cons
    rw [e, word_utf8 h.2, word_char h.1]
    rfl

theorem escapeOf_word (w : World) : ∀ (s : Bytes) (n : Nat) (first : Bool), s.length ≤ n → s.all isWord = true → Show.escapeOf w n first s = s
  | [], 0, _, _, _ => rfl
  | [], n + 1, _, _, _ => rfl
  | b :: s, 0, _, h, _ => by simp at h
  | b :: s, n + 1, first, h, hs => by
    rw [List.all_cons, Bool.and_eq_true] at hs
    have hc : utf8Chunk (b :: s) = (true, 1) := by
      have := chunk_char (Char.ofNat b.toNat) s
      rw [word_char hs.1] at this
      exact this
    rw [Show.escapeOf.eq_3 _ _ _ _ (by simp), hc]
    show Show.escapeChar w first [b] ++ Show.escapeOf w n false s = _
    rw [word_escape w first hs.1, escapeOf_word w s n false (by simpa using h) hs.2]
    rfl

theorem symbol_name (w : World) {s : Sym} (h : IsIdent s) : AstFmt.symbol w s = s := by
  obtain ⟨⟨x, xs, rfl, h1, h2⟩, -⟩ := h
  have hs : (x :: xs).all isWord = true := by
    rw [List.all_cons, h2, Bool.and_true]
    have key : ∀ b : UInt8, isWordStart b = true → isWord b = true := forall_byte (by decide +kernel)
    exact key x h1
  have hl : utf8Lossy (x :: xs) = x :: xs := by
    have := lossy_utf8 ((x :: xs).map (fun b => Char.ofNat b.toNat))
    rwa [word_utf8 hs] at this
  rw [AstFmt.symbol, hl]
  exact escapeOf_word w _ _ _ (Nat.le_refl _) hs

theorem toks_name (w : World) {s : Sym} (h : IsIdent s) {r : Bytes} {d : Bool} (hr : EndsExpr d r) :
    toks (AstFmt.symbol w s ++ r) = prior [.identifier s] (toks r) := by
  rw [symbol_name w h]
  exact toks_tok (k := .identifier s) (.ident h) rfl (ended_word hr)

/-! ### Literals -/

theorem toks_string {w : World} {cs : List Char} (h : QuotableText w cs) (r : Bytes) :
    toks (Show.string w (utf8 cs) ++ r) = prior [.literal (.string (utf8 cs))] (toks r) := by
  obtain ⟨t, h1, h2⟩ := text_quoted (w := w) (s := cs) h
  rw [h1, List.cons_append, List.append_assoc]
  exact lex_quoted h2

theorem lex_dquote_byte (r : Bytes) : toks ([39, 92, 34, 39] ++ r) = prior [.literal (.byte 34)] (toks r) := by
  have key : Reach .root (Cursor.start ([39, 92, 34, 39] ++ r)) [cSQuote, cBackslash, cDQuote, cSQuote] r
      [.ok ⟨.literal (.byte 34), (Cursor.start ([39, 92, 34, 39] ++ r)).pos⟩] .root := by
    generalize hcur : Cursor.start ([39, 92, 34, 39] ++ r) = c
    have hc : c.rest = cSQuote :: (cBackslash :: cDQuote :: cSQuote :: r) := by rw [← hcur]; rfl
    refine Reach.bind (txt := [cSQuote]) (txt' := [cBackslash, cDQuote, cSQuote]) (o := []) (.fwd hc (st' := .byteLit none none c.pos) ?_) ?_
    · simp only [State.visit, visitRoot, Cursor.peek_cons hc]; rfl
    intro c1 _ hc1
    refine Reach.bind (txt := [cBackslash]) (txt' := [cDQuote, cSQuote]) (o := []) (.fwd hc1 (st' := .byteLit none (some c1) c.pos) ?_) ?_
    · simp only [State.visit, visitByteLit, Cursor.peek_cons hc1]; rfl
    intro c2 _ hc2
    refine Reach.bind (txt := [cDQuote]) (txt' := [cSQuote]) (o := []) (.fwd hc2 (st' := .byteLit (some 34) none c.pos) ?_) ?_
    · simp only [State.visit, visitByteLit, Cursor.peek_cons hc2]; rfl
    intro c3 _ hc3
    refine .fwdEmit hc3 ?_
    simp only [State.visit, visitByteLit, Cursor.peek_cons hc3]; rfl
  exact key.emits.lex (st := .root) (st' := .root) trivial trivial rfl

theorem toks_byte (w : World) {b : UInt8} (h : QuotableByte b) (r : Bytes) :
    toks (bs "'" ++ (Show.escapeChar w true (utf8Encode b.toNat) ++ (bs "'" ++ r))) = prior [.literal (.byte b)] (toks r) := by
  have hb : b.toNat < 128 := by
    have key : ∀ b : UInt8, (b = 0 ∨ b = 9 ∨ b = 10 ∨ (32 ≤ b ∧ b < 127)) → b.toNat < 128 := forall_byte (by decide +kernel)
    exact key b h
  have he : utf8Encode b.toNat = [b] := by
    unfold utf8Encode
    rw [if_pos hb]
    simp
  rw [he]
  by_cases h34 : b = 34
  · subst h34
    exact lex_dquote_byte r
  · have hx : bs "'" ++ (Show.escapeChar w true [b] ++ (bs "'" ++ r)) = tokenText (.literal (.byte b)) ++ r := by
      have : Show.escapeChar w true [b] = if b = cSQuote then [cBackslash, cSQuote] else if b = cDQuote then [b] else strByte b := by
        by_cases h39 : b = 39
        · subst h39; rfl
        · rw [if_neg h39, if_neg h34]
          unfold strByte
          rw [if_neg h34]
          by_cases h0 : b = 0
          · subst h0; rfl
          by_cases h9 : b = 9
          · subst h9; rfl
          by_cases h10 : b = 10
          · subst h10; rfl
          by_cases h92 : b = 92
          · subst h92; rfl
          have hb : 32 ≤ b ∧ b < 127 := by
            rcases h with h | h | h | h
            · exact absurd h h0
            · exact absurd h h9
            · exact absurd h h10
            · exact h
          have h13 : b ≠ 13 := by rintro rfl; exact absurd hb.1 (by decide)
          rw [if_neg h92, if_neg h10, if_neg h9, if_neg h0]
          simp only [Show.escapeChar, h0, h9, h10, h13, h34, h39, h92, or_self, if_false, hb, and_self, if_true]
      rw [this]
      simp only [tokenText, byteText, List.append_assoc]
      rfl
    rw [hx]
    exact toks_tok .byte rfl rfl

/-! ### Lists -/

theorem lex_sepBy {sep : Bytes} (h1 : ∀ r, toks (sep ++ r) = prior [.comma] (toks r)) (h2 : ∀ r, EndsExpr false (sep ++ r)) {r : Bytes} (hr : EndsExpr false r) :
    ∀ {ts : List Bytes} {ks : List (List TokenKind)}, List.Forall₂ (LexesTo false) ts ks →
    toks (AstFmt.sepBy sep ts ++ r) = prior (commaKinds ks) (toks r) := by
  have key : ∀ {ts : List Bytes} {ks : List (List TokenKind)}, List.Forall₂ (LexesTo false) ts ks →
      toks (ts.flatMap (sep ++ ·) ++ r) = prior (ks.flatMap (.comma :: ·)) (toks r) ∧ EndsExpr false (ts.flatMap (sep ++ ·) ++ r) := by
    intro ts ks h
    induction h with
    | nil => exact ⟨rfl, hr⟩
    | cons ht _ ih =>
      simp only [List.flatMap_cons, List.append_assoc]
      refine ⟨?_, h2 _⟩
      rw [h1, ht _ ih.2, ih.1, prior_append]
      rfl
  intro ts ks h
  cases h with
  | nil => exact rfl
  | cons ht hts =>
    simp only [AstFmt.sepBy, commaKinds, List.append_assoc]
    rw [ht _ (key hts).2, (key hts).1, prior_append]

/-! ### Expressions and statements -/

theorem indent_none (c : Option Nat) : (AstFmt.indent c).isNone = c.isNone := by cases c <;> rfl

theorem lex_params (w : World) : ∀ {ps : List (Sym × Pos)}, (∀ p ∈ ps, IsIdent p.1) →
    List.Forall₂ (LexesTo false) (ps.map (fun p => AstFmt.symbol w p.1)) (ps.map (fun p => [TokenKind.identifier p.1]))
  | [], _ => .nil
  | p :: ps, h => .cons (fun _ hr => toks_name w (h p (by simp)) hr) (lex_params w (fun q hq => h q (by simp [hq])))

theorem lex_steps (c : Option Nat) : ∀ {ts : List Bytes} {ks : List (List TokenKind)}, List.Forall₂ (LexesTo false) ts ks →
    List.Forall₂ (LexesTo false) (ts.map (AstFmt.step c ++ ·)) ks
  | _, _, .nil => .nil
  | _, _, .cons h hs => .cons (fun r hr => by rw [List.append_assoc, toks_step]; exact h r hr) (lex_steps c hs)

theorem toks_commasp (r : Bytes) : toks (bs ", " ++ r) = prior [.comma] (toks r) := by
  refine (toks_comma (bs " " ++ r)).trans ?_
  rw [toks_sp]

theorem toks_colonsp (r : Bytes) : toks (bs ": " ++ r) = prior [.colon] (toks r) := by
  refine (toks_colon (bs " " ++ r)).trans ?_
  rw [toks_sp]

theorem binOp_text (op : BinOp) : AstFmt.binOp op = operatorText (binToken op) := by
  cases op <;> rfl

theorem LexesTo.strong {t : Bytes} {ks : List TokenKind} {d : Bool} (h : LexesTo d t ks) : LexesTo false t ks :=
  fun r hr => h r (by cases d with | true => exact hr.weaken | false => exact hr)

theorem ended_then (w : World) (c : Option Nat) (x : Stmt) (xs : List Stmt) (r : Bytes) :
    EndsExpr false (AstFmt.newline c ++ (AstFmt.block w (AstFmt.indent c) (x :: xs) ++ r)) := by
  cases c with
  | some n => rfl
  | none => cases xs <;> rfl

theorem lex_then (w : World) (c : Option Nat) (t : List Stmt) (h : c.isNone = true → t ≠ []) {u r : Bytes} :
    EndsExpr false (AstFmt.newline c ++ ((if t.isEmpty then [] else AstFmt.block w (AstFmt.indent c) t ++ u) ++ r)) := by
  cases t with
  | nil =>
    cases c with
    | none => exact absurd rfl (h rfl)
    | some n => rfl
  | cons x xs =>
    simp only [List.isEmpty_cons, if_false, List.append_assoc, Bool.false_eq_true]
    exact ended_then w c x xs _

theorem ended_close {α : Type} (l : List α) (c : Option Nat) (r : Bytes) (hr : EndsExpr false r) : EndsExpr false ((if l.isEmpty then [] else AstFmt.step c) ++ r) := by
  cases l with
  | nil => exact hr
  | cons => exact ended_step _ _ _

theorem toks_closing {α : Type} (l : List α) (c : Option Nat) (r : Bytes) : toks ((if l.isEmpty then [] else AstFmt.step c) ++ r) = toks r := by
  cases l with
  | nil => rfl
  | cons => exact toks_step c r

/-- Discharges the side conditions about what follows. -/
local macro "ended" : tactic => `(tactic| all_goals try (show EndsExpr _ _; rfl))

/-- Compares the tokens. -/
local macro "close" : tactic => `(tactic| try (simp only [prior_append, prior, blockKinds]))

mutual
theorem lex_expr (w : World) (c : Option Nat) : ∀ (e : Expr), PrintsExpr w c.isNone e → LexesTo (!isInteger e) (AstFmt.expr w c e) (exprKinds w e)
  | .illFormed, h => h.elim
  | .self_ _, _ => fun r hr => toks_kw .self_ hr
  | .ident s _, h => fun r hr => toks_name w h hr
  | .lit l p, h => lex_lit w c l p h
  | .unary .try_ e _, h => fun r hr => by
    simp only [AstFmt.expr, exprKinds, List.append_assoc]
    rw [toks_open, (lex_expr w none e h).strong _ ?_, toks_try, toks_close]
    ended
    close
  | .unary .minus e _, h => fun r hr => by
    simp only [AstFmt.expr, exprKinds, List.append_assoc]
    rw [toks_open, show AstFmt.unOp .minus = operatorText .minus from rfl, toks_op, toks_sp, (lex_expr w none e h).strong _ ?_, toks_close]
    ended
    close
  | .unary .not e _, h => fun r hr => by
    simp only [AstFmt.expr, exprKinds, List.append_assoc]
    rw [toks_open, show AstFmt.unOp .not = operatorText .not from rfl, toks_op, toks_sp, (lex_expr w none e h).strong _ ?_, toks_close]
    ended
    close
  | .binary l op e _, h => fun r hr => by
    simp only [AstFmt.expr, exprKinds, List.append_assoc]
    rw [toks_open, (lex_expr w none l h.1).strong _ ?_, toks_sp, binOp_text, toks_op, toks_sp, (lex_expr w none e h.2).strong _ ?_, toks_close]
    ended
    close
  | .if_ a t e _, h => fun r hr => by
    obtain ⟨h1, h2, h3, h4⟩ := h
    simp only [AstFmt.expr, exprKinds, List.append_assoc]
    rw [show bs "if" = keywordText .if_ from rfl, toks_kw .if_ (d := false) ?_, toks_sp, (lex_expr w none a h1).strong _ ?_, toks_sp,
      show bs "then" = keywordText .then_ from rfl, toks_kw .then_ (d := false) (lex_then w c t h4), toks_newline]
    ended
    have hE : toks ((if e.isEmpty then [] else bs "else" ++ (AstFmt.newline c ++ (AstFmt.block w (AstFmt.indent c) e ++ (AstFmt.line c ++ AstFmt.margin c)))) ++
        (bs "end" ++ r)) = prior (if e.isEmpty then [] else .keyword .else_ :: blockKinds w e) (prior [.keyword .end_] (toks r)) := by
      cases e with
      | nil => exact (toks_kw .end_ hr)
      | cons x xs =>
        simp only [List.isEmpty_cons, if_false, List.append_assoc, Bool.false_eq_true]
        rw [show bs "else" = keywordText .else_ from rfl, toks_kw .else_ (d := false) (ended_then w c x xs _), toks_newline,
          lex_block w (AstFmt.indent c) (x :: xs) (by rw [indent_none]; exact h3) _ (ended_line _ _ _), toks_line, toks_margin,
          show bs "end" = keywordText .end_ from rfl, toks_kw .end_ hr]
        close
    cases t with
    | nil =>
      simp only [List.isEmpty_nil, if_true, List.nil_append]
      rw [toks_margin, hE]
      close
    | cons x xs =>
      simp only [List.isEmpty_cons, if_false, List.append_assoc, Bool.false_eq_true]
      rw [lex_block w (AstFmt.indent c) (x :: xs) (by rw [indent_none]; exact h2) _ (ended_line _ _ _), toks_line, toks_margin, hE]
      close
  | .access o f p, h => by
    by_cases hf : ∃ s q, f = .lit (.ident s) q
    · obtain ⟨s, q, rfl⟩ := hf
      obtain ⟨h1, h2, h3⟩ := h
      intro r hr
      have ho := lex_expr w none o h1
      rw [h3] at ho
      simp only [AstFmt.expr, exprKinds, List.append_assoc]
      rw [ho _ ?_, toks_dot, toks_name w h2 hr]
      ended
      close
    · have hf' : ∀ s q, f = .lit (.ident s) q → False := fun s q e => hf ⟨s, q, e⟩
      simp only [PrintsExpr] at h
      intro r hr
      simp only [AstFmt.expr, exprKinds, List.append_assoc]
      rw [(lex_expr w none o h.1).strong _ ?_, toks_bracket, (lex_expr w none f h.2).strong _ ?_, toks_unbracket]
      ended
      close
  | .call f as _, h => fun r hr => by
    simp only [AstFmt.expr, exprKinds, List.append_assoc]
    rw [(lex_expr w none f h.1).strong _ ?_, toks_open, lex_sepBy toks_commasp (fun _ => rfl) ?_ (lex_exprs w none as h.2), toks_close]
    ended
    close
  | .command .., h => h.elim
theorem lex_lit (w : World) (c : Option Nat) : ∀ (l : Lit) (p : Pos), PrintsLit w c.isNone l →
    LexesTo (!isInteger (.lit l p)) (AstFmt.lit w c l) (literalKinds w l)
  | .nil, _, _ => fun r hr => toks_tok (k := .literal .nil) (by constructor) rfl (ended_word hr)
  | .bool true, _, _ => fun r hr => toks_tok (k := .literal .true_) (by constructor) rfl (ended_word hr)
  | .bool false, _, _ => fun r hr => toks_tok (k := .literal .false_) (by constructor) rfl (ended_word hr)
  | .int i, _, h => fun r hr => by
    have h : 0 ≤ i ∧ i < 2 ^ 63 := h
    obtain ⟨n, rfl⟩ : ∃ n : Nat, i = n := ⟨i.toNat, by omega⟩
    have e : AstFmt.lit w c (.int n) = natText n := by
      rw [← natDigits_eq]
      simp only [AstFmt.lit, intText, Int.natAbs_natCast]
      rw [if_neg (by omega)]
    rw [e]
    exact toks_tok (k := .literal (.int n)) (r := r) (.int (by omega)) rfl (ended_int hr)
  | .float t, _, h => fun r hr => toks_tok (k := .literal (.float _)) (.float h.1) rfl (ended_float hr)
  | .byte b, _, h => fun r hr => by
    simp only [AstFmt.lit, literalKinds, List.append_assoc]
    exact toks_byte w h r
  | .string s, _, h => fun r hr => by
    obtain ⟨cs, rfl, h⟩ := h
    exact toks_string h r
  | .array es, _, h => fun r hr => by
    simp only [AstFmt.lit, literalKinds, List.append_assoc]
    rw [toks_bracket, lex_sepBy toks_comma (fun _ => rfl) (ended_close es c _ ?_) (lex_steps _ (lex_exprs w (AstFmt.indent c) es (by rw [indent_none]; exact h))),
      toks_closing, toks_unbracket]
    ended
    close
  | .dict is, _, h => fun r hr => by
    simp only [AstFmt.lit, literalKinds, List.append_assoc]
    rw [toks_dict, lex_sepBy toks_comma (fun _ => rfl) (ended_close is c _ ?_) (lex_steps _ (lex_items w (AstFmt.indent c) is (by rw [indent_none]; exact h))),
      toks_closing, toks_unbracket]
    ended
    close
  | .function ps b, _, h => fun r hr => by
    simp only [AstFmt.lit, literalKinds, List.append_assoc]
    rw [show bs "function" = keywordText .function from rfl, toks_kw .function (d := false) ?_, toks_open,
      lex_sepBy toks_commasp (fun _ => rfl) ?_ (lex_params w h.1), toks_close, toks_newline,
      lex_block w (AstFmt.indent c) b (by rw [indent_none]; exact h.2) _ (ended_step _ _ _), toks_step, show bs "end" = keywordText .end_ from rfl,
      toks_kw .end_ hr]
    ended
    close
  | .ident _, _, h => h.elim
theorem lex_exprs (w : World) (c : Option Nat) : ∀ (es : List Expr), PrintsExprs w c.isNone es →
    List.Forall₂ (LexesTo false) (AstFmt.exprs w c es) (exprsKinds w es)
  | [], _ => .nil
  | e :: es, h => .cons (lex_expr w c e h.1).strong (lex_exprs w c es h.2)
theorem lex_items (w : World) (c : Option Nat) : ∀ (is : List ((Sym × Pos) × Expr)), PrintsItems w c.isNone is →
    List.Forall₂ (LexesTo false) (AstFmt.items w c is) (itemsKinds w is)
  | [], _ => .nil
  | ((k, _), e) :: is, h => .cons (fun r hr => by
      simp only [List.append_assoc]
      rw [toks_name w h.1 (d := false) ?_, toks_colonsp, (lex_expr w c e h.2.1).strong _ hr]
      ended
      close) (lex_items w c is h.2.2)
theorem lex_stmt (w : World) (c : Option Nat) : ∀ (s : Stmt), PrintsStmt w c.isNone s → LexesTo false (AstFmt.stmt w c s) (stmtKinds w s)
  | .illFormed, h => h.elim
  | .let_ s e _, h => fun r hr => by
    simp only [AstFmt.stmt, stmtKinds, List.append_assoc]
    rw [show bs "let" = keywordText .let_ from rfl, toks_kw .let_ (d := false) ?_, toks_sp, toks_name w h.1 (d := false) ?_, toks_assign,
      (lex_expr w c e h.2).strong _ hr]
    ended
    close
  | .assign l e _, h => fun r hr => by
    simp only [AstFmt.stmt, stmtKinds, List.append_assoc]
    rw [(lex_expr w none l h.1).strong _ ?_, toks_assign, (lex_expr w c e h.2).strong _ hr]
    ended
    close
  | .return_ e _, h => fun r hr => by
    simp only [AstFmt.stmt, stmtKinds, List.append_assoc]
    rw [show bs "return" = keywordText .return_ from rfl, toks_kw .return_ (d := false) ?_, toks_sp, (lex_expr w c e h).strong _ hr]
    ended
    close
  | .break_ _, h => fun r hr => toks_kw .break_ hr
  | .while_ a b _, h => fun r hr => by
    simp only [AstFmt.stmt, stmtKinds, List.append_assoc]
    rw [show bs "while" = keywordText .while_ from rfl, toks_kw .while_ (d := false) ?_, toks_sp, (lex_expr w none a h.1).strong _ ?_, toks_sp,
      show bs "do" = keywordText .do_ from rfl, toks_kw .do_ (ended_line false _ _), toks_line]
    ended
    cases b with
    | nil =>
      simp only [List.isEmpty_nil, if_true, List.nil_append]
      rw [toks_margin, show bs "end" = keywordText .end_ from rfl, toks_kw .end_ hr]
      close
    | cons x xs =>
      simp only [List.isEmpty_cons, if_false, List.append_assoc, Bool.false_eq_true]
      rw [lex_block w (AstFmt.indent c) (x :: xs) (by rw [indent_none]; exact h.2) _ (ended_line _ _ _), toks_line, toks_margin,
        show bs "end" = keywordText .end_ from rfl, toks_kw .end_ hr]
      close
  | .for_ s e b _, h => fun r hr => by
    simp only [AstFmt.stmt, stmtKinds, List.append_assoc]
    rw [show bs "for" = keywordText .for_ from rfl, toks_kw .for_ (d := false) ?_, toks_sp, toks_name w h.1 (d := false) ?_, toks_sp,
      show bs "in" = keywordText .in_ from rfl, toks_kw .in_ (d := false) ?_, toks_sp, (lex_expr w none e h.2.1).strong _ ?_, toks_sp,
      show bs "do" = keywordText .do_ from rfl, toks_kw .do_ (ended_line false _ _), toks_line]
    ended
    cases b with
    | nil =>
      simp only [List.isEmpty_nil, if_true, List.nil_append]
      rw [toks_margin, show bs "end" = keywordText .end_ from rfl, toks_kw .end_ hr]
      close
    | cons x xs =>
      simp only [List.isEmpty_cons, if_false, List.append_assoc, Bool.false_eq_true]
      rw [lex_block w (AstFmt.indent c) (x :: xs) (by rw [indent_none]; exact h.2.2) _ (ended_line _ _ _), toks_line, toks_margin,
        show bs "end" = keywordText .end_ from rfl, toks_kw .end_ hr]
      close
  | .expr e, h => (lex_expr w c e h).strong
theorem lex_block (w : World) (c : Option Nat) : ∀ (b : List Stmt), PrintsBlock w c.isNone b → LexesTo false (AstFmt.block w c b) (blockKinds w b)
  | [], _ => fun r hr => rfl
  | [s], h => fun r hr => by
    simp only [AstFmt.block, blockKinds, List.append_assoc, List.append_nil]
    rw [toks_before, lex_stmt w c s h.1 _ hr]
  | s :: x :: ss, h => fun r hr => by
    obtain ⟨h1, h2, -, h3⟩ := h
    cases c with
    | none => exact absurd (h2 (by simp)).1 (by simp)
    | some n =>
      simp only [AstFmt.block, blockKinds, List.append_assoc]
      rw [toks_before, lex_stmt w _ s h1 _ ?_, toks_between]
      ended
      have := lex_block w (some n) (x :: ss) h3 r hr
      simp only [blockKinds] at this
      rw [this]
      close
end

end Hush

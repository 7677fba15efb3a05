import Verif.Lemmas.ShowLex
import Verif.Spec.Grammar
import Verif.Model.Analyzer

/-!
The text of data: it is an expression.
-/

namespace Hush
open Spec

mutual
/-- The text of data. -/
def litText (w : World) : Data → Bytes
  | .nil => bs "nil"
  | .bool b => boolText b
  | .int i => intText i
  | .float f => w.floatText f
  | .text s => Show.string w (utf8 s)
  | .list js => Show.list [91] (litTexts w js)
  | .record _ => []
/-- The texts of the items. -/
def litTexts (w : World) : List Data → List Bytes
  | [] => []
  | j :: js => litText w j :: litTexts w js
end

/-- The tokens of a number with an optional minus sign. -/
def signedKinds (f : Bytes → TokLit) : Bytes → List TokenKind
  | 45 :: t => [.operator .minus, .literal (f t)]
  | t => [.literal (f t)]

mutual
/-- The tokens of the text. -/
def litKinds (w : World) : Data → List TokenKind
  | .nil => [.literal .nil]
  | .bool b => [.literal (if b then .true_ else .false_)]
  | .int i => if i < 0 then [.operator .minus, .literal (.int i.natAbs)] else [.literal (.int i.natAbs)]
  | .float f => signedKinds .float (w.floatText f)
  | .text s => [.literal (.string (utf8 s))]
  | .list js => .openBracket :: (itemKinds w js ++ [.closeBracket])
  | .record _ => []
/-- The tokens of the items of a list. -/
def itemKinds (w : World) : List Data → List TokenKind
  | [] => []
  | j :: js => litKinds w j ++ moreKinds w js
/-- The tokens of the items after the first one. -/
def moreKinds (w : World) : List Data → List TokenKind
  | [] => []
  | j :: js => .comma :: (litKinds w j ++ moreKinds w js)
end

/-! ### Tokens -/

theorem lex_tok {k : TokenKind} {r : Bytes} (h : TokOk .code k .code) (he : ends k r.head? = true) :
    (lexFrom .root (tokenText k ++ r)).kinds = prependKinds [.ok k.erase] (lexFrom .root r).kinds :=
  (tok_emits h he (c := Cursor.start (tokenText k ++ r)) rfl).lex (modeState_between _) (modeState_between _) rfl

theorem lex_space (r : Bytes) : (lexFrom .root (32 :: r)).kinds = (lexFrom .root r).kinds :=
  Filler.lex .code (w := [32]) (.space (by decide) .nil) r

theorem natDigits_eq (n : Nat) : natDigits n = Spec.natText n := by
  induction n using natDigits.induct with
  | case1 n h => rw [natDigits, Spec.natText, if_pos h, if_pos h]
  | case2 n h ih => rw [natDigits, Spec.natText, if_neg h, if_neg h, ih]

/-- What may follow the text of data. -/
def TextEnds (r : Bytes) : Prop := r.head?.all (fun y => y == 44 || y == 32) = true

theorem stop_ends {r : Bytes} (h : TextEnds r) (f : UInt8 → Bool) (h1 : f 44 = true) (h2 : f 32 = true) : r.head?.all f = true := by
  unfold TextEnds at h
  cases hr : r.head? with
  | none => rfl
  | some y =>
    rw [hr] at h
    simp only [Option.all_some, Bool.or_eq_true, beq_iff_eq] at h ⊢
    rcases h with rfl | rfl <;> assumption

theorem lex_int {n : Nat} (hn : n < 2 ^ 63) {r : Bytes} (h : TextEnds r) :
    (lexFrom .root (natDigits n ++ r)).kinds = prependKinds [.ok (.literal (.int n))] (lexFrom .root r).kinds := by
  rw [natDigits_eq]
  exact lex_tok (k := .literal (.int n)) (.int hn) (stop_ends h _ (by decide) (by decide))

theorem lex_minus (r : Bytes) : (lexFrom .root (45 :: r)).kinds = prependKinds [.ok (.operator .minus)] (lexFrom .root r).kinds :=
  lex_tok (k := .operator .minus) .operator rfl

theorem floatText_digit {t : Bytes} (h : FloatText t) : ∀ x, t.head? = some x → isDigit x = true := by
  have key : ∀ (a b : Bytes), a ≠ [] → a.all isDigit = true → ∀ x, (a ++ b).head? = some x → isDigit x = true := by
    intro a b ha hd x hx
    cases a with
    | nil => exact absurd rfl ha
    | cons y a =>
      cases hx
      exact (List.all_eq_true.1 hd) _ List.mem_cons_self
  cases h with
  | frac a b ha _ hd _ => exact key a _ ha hd
  | exp a b ha _ hd _ => exact key a _ ha hd
  | fracExp a b e ha _ _ hd _ _ => exact key a _ ha hd

theorem signed_plain {f : Bytes → TokLit} {t : Bytes} (h : FloatText t) : signedKinds f t = [.literal (f t)] := by
  unfold signedKinds
  split
  · exact absurd (floatText_digit h _ rfl) (by decide)
  · rfl

theorem lex_float {w : World} {f : UInt64} (hf : FloatReads w f) {r : Bytes} (h : TextEnds r) :
    (lexFrom .root (w.floatText f ++ r)).kinds = prependKinds ((signedKinds .float (w.floatText f)).map .ok) (lexFrom .root r).kinds := by
  rcases hf with ⟨h1, -⟩ | ⟨t, h1, h2, -⟩
  · rw [signed_plain h1]
    exact lex_tok (k := .literal (.float (w.floatText f))) (.float h1) (stop_ends h _ (by decide) (by decide))
  · rw [h1]
    have := lex_tok (k := .literal (.float t)) (r := r) (.float h2) (stop_ends h _ (by decide) (by decide))
    rw [List.cons_append, lex_minus]
    refine Eq.trans (congrArg _ this) ?_
    rw [← prependKinds_append]
    rfl

mutual
theorem lex_data {w : World} : ∀ (d : Data), Readable w d → ∀ r, TextEnds r →
    (lexFrom .root (litText w d ++ r)).kinds = prependKinds ((litKinds w d).map .ok) (lexFrom .root r).kinds
  | .nil, _, r, h => lex_tok (k := .literal .nil) .nil (stop_ends h _ (by decide) (by decide))
  | .bool true, _, r, h => lex_tok (k := .literal .true_) .true_ (stop_ends h _ (by decide) (by decide))
  | .bool false, _, r, h => lex_tok (k := .literal .false_) .false_ (stop_ends h _ (by decide) (by decide))
  | .int i, hi, r, h => by
    have hi : -2 ^ 63 < i ∧ i < 2 ^ 63 := hi
    unfold litText litKinds intText
    by_cases h0 : i < 0
    · rw [if_pos h0, if_pos h0, List.cons_append, lex_minus, lex_int (by omega) h, ← prependKinds_append]
      rfl
    · rw [if_neg h0, if_neg h0, lex_int (by omega) h]
      rfl
  | .float f, hf, r, h => lex_float hf h
  | .text s, hs, r, h => by
    obtain ⟨t, h1, h2⟩ := text_quoted (w := w) (s := s) hs
    unfold litText
    rw [h1, List.cons_append, List.append_assoc]
    exact lex_quoted h2
  | .list [], _, r, h => by
    have e : litText w (.list []) ++ r = tokenText .openBracket ++ (32 :: (tokenText .closeBracket ++ r)) := rfl
    rw [e, lex_tok .openBracket rfl, lex_space, lex_tok .closeBracket rfl, ← prependKinds_append]
    rfl
  | .list (j :: js), hj, r, h => by
    have hj : Readable w j ∧ ReadableItems w js := hj
    have e : litText w (.list (j :: js)) ++ r = tokenText .openBracket ++ (32 :: (litText w j ++
        ((litTexts w js).flatMap (fun t => 44 :: 32 :: t) ++ (32 :: (tokenText .closeBracket ++ r))))) := by
      show Show.list [91] (litText w j :: litTexts w js) ++ r = _
      simp only [Show.list, List.append_assoc, List.cons_append, List.nil_append, tokenText]
      rfl
    have h1 := lex_more js hj.2 (32 :: (tokenText .closeBracket ++ r)) rfl
    have h2 : TextEnds ((litTexts w js).flatMap (fun t => 44 :: 32 :: t) ++ (32 :: (tokenText .closeBracket ++ r))) := by
      cases js <;> rfl
    rw [e, lex_tok .openBracket rfl, lex_space, lex_data j hj.1 _ h2, h1, lex_space, lex_tok .closeBracket rfl]
    simp only [← prependKinds_append]
    congr 1
    simp [litKinds, itemKinds, TokenKind.erase]
  | .record _, h, _, _ => absurd h (by simp [Readable])
theorem lex_more {w : World} : ∀ (js : List Data), ReadableItems w js → ∀ r, TextEnds r →
    (lexFrom .root ((litTexts w js).flatMap (fun t => 44 :: 32 :: t) ++ r)).kinds = prependKinds ((moreKinds w js).map .ok) (lexFrom .root r).kinds
  | [], _, r, _ => by
    cases h : (lexFrom .root r).kinds with
    | none => simp [litTexts, h, prependKinds]
    | some x => simp [litTexts, moreKinds, h, prependKinds]
  | j :: js, hj, r, h => by
    have hj : Readable w j ∧ ReadableItems w js := hj
    have e : (litTexts w (j :: js)).flatMap (fun t => 44 :: 32 :: t) ++ r =
        tokenText .comma ++ (32 :: (litText w j ++ ((litTexts w js).flatMap (fun t => 44 :: 32 :: t) ++ r))) := by
      show (litText w j :: litTexts w js).flatMap (fun t => 44 :: 32 :: t) ++ r = _
      simp only [List.flatMap_cons, List.append_assoc, List.cons_append, tokenText]
      rfl
    have h2 : TextEnds ((litTexts w js).flatMap (fun t => 44 :: 32 :: t) ++ r) := by
      cases js with
      | nil => exact h
      | cons _ _ => rfl
    rw [e, lex_tok .comma rfl, lex_space, lex_data j hj.1 _ h2, lex_more js hj.2 r h]
    simp only [← prependKinds_append]
    congr 1
    simp [moreKinds, TokenKind.erase]
end

/-! ### Syntax trees -/

mutual
/-- The expression is that of the data, at some positions. -/
def LitExpr (w : World) : Data → Ast.Expr → Prop
  | .nil, e => ∃ p, e = .lit .nil p
  | .bool b, e => ∃ p, e = .lit (.bool b) p
  | .int i, e => (0 ≤ i ∧ ∃ p, e = .lit (.int i) p) ∨ (i < 0 ∧ ∃ p p', e = .unary .minus (.lit (.int (-i)) p) p')
  | .float f, e => (∃ p t, e = .lit (.float t) p ∧ w.parseFloat t = f) ∨ ∃ p p' t, e = .unary .minus (.lit (.float t) p) p' ∧ w.fneg (w.parseFloat t) = f
  | .text s, e => ∃ p, e = .lit (.string (utf8 s)) p
  | .list js, e => ∃ p es, e = .lit (.array es) p ∧ LitExprs w js es
  | .record _, _ => False
/-- All of them. -/
def LitExprs (w : World) : List Data → List Ast.Expr → Prop
  | [], es => es = []
  | j :: js, es => ∃ e rest, es = e :: rest ∧ LitExpr w j e ∧ LitExprs w js rest
end

theorem derives_lift {e : Ast.Expr} {ts : List Token} (h : Derives (.level 0 e) ts) : Derives (.level 7 e) ts :=
  .up (.up (.up (.up (.up (.up (.up h))))))

theorem derives_primary {e : Ast.Expr} {ts : List Token} (h : Derives (.primary e) ts) : Derives (.level 7 e) ts :=
  derives_lift (.noPrefix (.noPostfix h))

theorem map_kind_one {ts : List Token} {k : TokenKind} (h : ts.map (·.kind) = [k]) : ∃ p, ts = [⟨k, p⟩] := by
  match ts, h with
  | [⟨k', p⟩], h => cases h; exact ⟨p, rfl⟩

theorem map_kind_cons {ts : List Token} {k : TokenKind} {ks : List TokenKind} (h : ts.map (·.kind) = k :: ks) :
    ∃ p ts', ts = ⟨k, p⟩ :: ts' ∧ ts'.map (·.kind) = ks := by
  match ts, h with
  | ⟨k', p⟩ :: ts', h => cases h; exact ⟨p, ts', rfl, rfl⟩

theorem map_kind_append {ts : List Token} {ks ks' : List TokenKind} (h : ts.map (·.kind) = ks ++ ks') :
    ∃ t1 t2, ts = t1 ++ t2 ∧ t1.map (·.kind) = ks ∧ t2.map (·.kind) = ks' := List.map_eq_append_iff.1 h

theorem derives_lit {l : TokLit} {ts : List Token} (h : ts.map (·.kind) = [.literal l]) :
    ∃ p, Derives (.level 7 (.lit (litValue l) p)) ts := by
  obtain ⟨p, rfl⟩ := map_kind_one h
  exact ⟨p, derives_primary .lit⟩

theorem derives_neg {l : TokLit} {ts : List Token} (h : ts.map (·.kind) = [.operator .minus, .literal l]) :
    ∃ p p', Derives (.level 7 (.unary .minus (.lit (litValue l) p) p')) ts := by
  obtain ⟨p', ts', rfl, h2⟩ := map_kind_cons h
  obtain ⟨p, rfl⟩ := map_kind_one h2
  exact ⟨p, p', derives_lift (.minus (.noPrefix (.noPostfix .lit)))⟩

mutual
theorem parse_data {w : World} : ∀ (d : Data), Readable w d → ∀ ts : List Token, ts.map (·.kind) = litKinds w d →
    ∃ e, Derives (.level 7 e) ts ∧ LitExpr w d e
  | .nil, _, ts, h => by
    obtain ⟨p, hp⟩ := derives_lit h
    exact ⟨_, hp, p, rfl⟩
  | .bool b, _, ts, h => by
    obtain ⟨p, hp⟩ := derives_lit h
    exact ⟨_, hp, p, by cases b <;> rfl⟩
  | .int i, _, ts, h => by
    unfold litKinds at h
    by_cases h0 : i < 0
    · rw [if_pos h0] at h
      obtain ⟨p, p', hp⟩ := derives_neg h
      refine ⟨_, hp, .inr ⟨h0, p, p', ?_⟩⟩
      show Ast.Expr.unary _ (.lit (.int (i.natAbs : Int)) p) p' = _
      rw [show (i.natAbs : Int) = -i by omega]
    · rw [if_neg h0] at h
      obtain ⟨p, hp⟩ := derives_lit h
      refine ⟨_, hp, .inl ⟨by omega, p, ?_⟩⟩
      show Ast.Expr.lit (.int (i.natAbs : Int)) p = _
      rw [show (i.natAbs : Int) = i by omega]
  | .float f, hf, ts, h => by
    unfold litKinds at h
    rcases hf with ⟨h1, h2⟩ | ⟨t, h1, h2, h3⟩
    · rw [signed_plain h1] at h
      obtain ⟨p, hp⟩ := derives_lit h
      exact ⟨_, hp, .inl ⟨p, _, rfl, h2⟩⟩
    · rw [h1] at h
      obtain ⟨p, p', hp⟩ := derives_neg h
      exact ⟨_, hp, .inr ⟨p, p', _, rfl, h3⟩⟩
  | .text s, _, ts, h => by
    obtain ⟨p, hp⟩ := derives_lit h
    exact ⟨_, hp, p, rfl⟩
  | .list js, hj, ts, h => by
    obtain ⟨p, ts', rfl, h0⟩ := map_kind_cons h
    obtain ⟨t1, t2, rfl, h1, h2⟩ := map_kind_append h0
    obtain ⟨p', rfl⟩ := map_kind_one h2
    obtain ⟨es, he, hl⟩ : ∃ es, Derives (.exprs es) t1 ∧ LitExprs w js es := by
      match js, hj, h1 with
      | [], _, h1 =>
        have : t1 = [] := by simpa [itemKinds] using h1
        subst this
        exact ⟨[], .exprsNil, rfl⟩
      | j :: js, hj, h1 =>
        obtain ⟨u1, u2, rfl, g1, g2⟩ := map_kind_append h1
        obtain ⟨e, he, hl⟩ := parse_data j hj.1 u1 g1
        rcases parse_more js hj.2 u2 g2 with ⟨rfl, rfl⟩ | ⟨q, u3, es, rfl, hes, hls⟩
        · refine ⟨[e], ?_, e, [], rfl, hl, rfl⟩
          rw [List.append_nil]
          exact .exprsLast he
        · exact ⟨e :: es, .exprsCons he hes, e, es, rfl, hl, hls⟩
    exact ⟨_, derives_primary (.array he), p, es, rfl, hl⟩
  | .record _, h, _, _ => absurd h (by simp [Readable])
theorem parse_more {w : World} : ∀ (js : List Data), ReadableItems w js → ∀ ts : List Token, ts.map (·.kind) = moreKinds w js →
    (ts = [] ∧ js = []) ∨ ∃ q u es, ts = ⟨.comma, q⟩ :: u ∧ Derives (.exprs es) u ∧ LitExprs w js es
  | [], _, ts, h => by
    have : ts = [] := by simpa [moreKinds] using h
    exact .inl ⟨this, rfl⟩
  | j :: js, hj, ts, h => by
    obtain ⟨q, ts', rfl, h0⟩ := map_kind_cons h
    obtain ⟨u1, u2, rfl, g1, g2⟩ := map_kind_append h0
    obtain ⟨e, he, hl⟩ := parse_data j hj.1 u1 g1
    rcases parse_more js hj.2 u2 g2 with ⟨rfl, rfl⟩ | ⟨q', u3, es, rfl, hes, hls⟩
    · refine .inr ⟨q, _, [e], rfl, ?_, e, [], rfl, hl, rfl⟩
      rw [List.append_nil]
      exact .exprsLast he
    · exact .inr ⟨q, _, e :: es, rfl, .exprsCons he hes, e, es, rfl, hl, hls⟩
end

/-! ### Programs -/

mutual
/-- The same for expressions of programs. -/
def LitProg (w : World) : Data → Prog.Expr → Prop
  | .nil, e => ∃ p, e = .lit .nil p
  | .bool b, e => ∃ p, e = .lit (.bool b) p
  | .int i, e => (0 ≤ i ∧ ∃ p, e = .lit (.int i) p) ∨ (i < 0 ∧ ∃ p p', e = .unary .minus (.lit (.int (-i)) p) p')
  | .float f, e => (∃ p t, e = .lit (.float t) p ∧ w.parseFloat t = f) ∨ ∃ p p' t, e = .unary .minus (.lit (.float t) p) p' ∧ w.fneg (w.parseFloat t) = f
  | .text s, e => ∃ p, e = .lit (.string (utf8 s)) p
  | .list js, e => ∃ p es, e = .lit (.array es) p ∧ LitProgs w js es
  | .record _, _ => False
/-- All of them. -/
def LitProgs (w : World) : List Data → List Prog.Expr → Prop
  | [], es => es = []
  | j :: js, es => ∃ e rest, es = e :: rest ∧ LitProg w j e ∧ LitProgs w js rest
end

mutual
theorem analyze_data {w : World} (fl : Flags) (st : AState) : ∀ (d : Data) (e : Ast.Expr), LitExpr w d e →
    ∃ e', analyzeExpr fl e st = (some e', st) ∧ LitProg w d e'
  | .nil, e, h => by obtain ⟨p, rfl⟩ := h; exact ⟨_, rfl, p, rfl⟩
  | .bool b, e, h => by obtain ⟨p, rfl⟩ := h; exact ⟨_, rfl, p, rfl⟩
  | .int i, e, h => by
    rcases h with ⟨h0, p, rfl⟩ | ⟨h0, p, p', rfl⟩
    · exact ⟨_, rfl, .inl ⟨h0, p, rfl⟩⟩
    · exact ⟨_, rfl, .inr ⟨h0, p, p', rfl⟩⟩
  | .float f, e, h => by
    rcases h with ⟨p, t, rfl, h⟩ | ⟨p, p', t, rfl, h⟩
    · exact ⟨_, rfl, .inl ⟨p, t, rfl, h⟩⟩
    · exact ⟨_, rfl, .inr ⟨p, p', t, rfl, h⟩⟩
  | .text s, e, h => by obtain ⟨p, rfl⟩ := h; exact ⟨_, rfl, p, rfl⟩
  | .list js, e, h => by
    obtain ⟨p, es, rfl, h⟩ := h
    obtain ⟨es', h1, h2⟩ := analyze_datas fl st js es h
    refine ⟨.lit (.array es') p, ?_, p, es', rfl, h2⟩
    simp [analyzeExpr, analyzeLit, A.map, h1]
  | .record _, e, h => absurd h (by simp [LitExpr])
theorem analyze_datas {w : World} (fl : Flags) (st : AState) : ∀ (js : List Data) (es : List Ast.Expr), LitExprs w js es →
    ∃ es', analyzeExprs fl es st = (some es', st) ∧ LitProgs w js es'
  | [], es, h => by cases h; exact ⟨[], rfl, rfl⟩
  | j :: js, es, h => by
    obtain ⟨e, rest, rfl, h1, h2⟩ := h
    obtain ⟨e', g1, g2⟩ := analyze_data fl st j e h1
    obtain ⟨es', g3, g4⟩ := analyze_datas fl st js rest h2
    refine ⟨e' :: es', ?_, e', es', rfl, g2, g4⟩
    simp [analyzeExprs, A.map, A.zip, g1, g3]
end

end Hush

import Verif.Lemmas.ProgramRead

/-!
The text of an analysed program is read back as the program without positions.
-/

namespace Hush.ProgramRead
open Hush Hush.Spec Hush.Prog

/-! ### Parts -/

theorem takeWhile_split {p : UInt8 → Bool} {a r : Bytes} (ha : a.all p = true) (hr : r.head?.all (fun y => !p y) = true) :
    (a ++ r).takeWhile p = a ∧ (a ++ r).dropWhile p = r := by
  induction a with
  | nil =>
    cases r with
    | nil => exact ⟨rfl, rfl⟩
    | cons x r =>
      have : p x = false := by simpa using hr
      simp [this]
  | cons x a ih =>
    rw [List.all_cons, Bool.and_eq_true] at ha
    have := ih ha.2
    simp [ha.1, this.1, this.2]

theorem number_digits (n : Nat) {r : Bytes} (hr : r.head?.all (fun y => !isDigit y) = true) :
    number (natDigits n ++ r) = n ∧ behindDigits (natDigits n ++ r) = r := by
  have h := takeWhile_split (p := isDigit) (a := natDigits n) (r := r) (by rw [List.all_eq_true]; exact natDigits_digits n) hr
  exact ⟨by rw [number, digits, h.1, natDigits_decimal], h.2⟩

theorem skip_seps {s b : Bytes} (h : s.all isSep = true) : skip (s ++ b) = skip b := by
  induction s with
  | nil => rfl
  | cons x s ih =>
    rw [List.all_cons, Bool.and_eq_true] at h
    rw [← ih h.2]
    simp [skip, h.1]

theorem skip_start {x : UInt8} {b : Bytes} (h : isSep x = false) : skip (x :: b) = x :: b := by simp [skip, h]

theorem skip_skip (b : Bytes) : skip (skip b) = skip b := by
  induction b with
  | nil => rfl
  | cons x b ih =>
    by_cases h : isSep x = true
    · have : skip (x :: b) = skip b := by simp [skip, h]
      rw [this, ih]
    · have : skip (x :: b) = x :: b := skip_start (by simpa using h)
      rw [this, this]

theorem rNode_skip (b : Bytes) : rNode (skip b) = rNode b := by rw [rNode, rNode, skip_skip]

theorem rNode_seps {s b : Bytes} (h : s.all isSep = true) : rNode (s ++ b) = rNode b := by rw [rNode, rNode, skip_seps h]

theorem rList_seps {c : UInt8} {s b : Bytes} (h : s.all isSep = true) : rList c (s ++ b) = rList c b := by rw [rList, rList, skip_seps h]
theorem rItems_seps {s b : Bytes} (h : s.all isSep = true) : rItems (s ++ b) = rItems b := by rw [rItems, rItems, skip_seps h]
theorem rBlock_seps {s b : Bytes} (h : s.all isSep = true) : rBlock (s ++ b) = rBlock b := by rw [rBlock, rBlock, skip_seps h]

/-- The text goes on behind an expression, perhaps with an access or a call. -/
def After (r : Bytes) : Prop := r.head?.all (fun y => !isWord y) = true ∧ ∀ d x, r = 46 :: d :: x → isDigit d = false

/-- The text goes on behind an expression, without access or call. -/
def Done (r : Bytes) : Prop := r.head?.all (fun y => !isWord y && y != 40 && y != 91 && y != 46) = true

theorem Done.after {r : Bytes} (h : Done r) : After r := by
  cases r with
  | nil => exact ⟨rfl, fun _ _ h => by cases h⟩
  | cons y r =>
    simp only [Done, List.head?_cons, Option.all_some, Bool.and_eq_true, bne_iff_ne] at h
    exact ⟨by simpa using h.1.1.1, fun d x e => by cases e; exact absurd rfl h.2⟩

theorem isWord_of_digit : ∀ b : UInt8, isDigit b = true → isWord b = true := forall_byte (by decide +kernel)

theorem After.digit {r : Bytes} (h : After r) : r.head?.all (fun y => !isDigit y) = true := by
  cases r with
  | nil => rfl
  | cons y r =>
    have h1 := h.1
    simp only [List.head?_cons, Option.all_some, Bool.not_eq_true'] at h1 ⊢
    cases hd : isDigit y with
    | false => rfl
    | true => rw [isWord_of_digit y hd] at h1; cases h1

theorem rSuffix_done {x : Node} {r : Bytes} (h : Done r) : rSuffix x r = some (x, r) := by
  rw [rSuffix.eq_def]
  split
  · rename_i f y r
    simp only [Done, List.head?_cons, Option.all_some, Bool.and_eq_true, bne_iff_ne] at h
    rw [if_neg h.1.1.2, if_neg h.1.2, if_neg h.2]
  · rfl

theorem rSuffix_other {x : Node} {r : Bytes} (h : ∀ e, x ≠ .e e) : rSuffix x r = some (x, r) := by
  rw [rSuffix.eq_def]
  split
  · rename_i f y r
    exact absurd rfl (h f)
  · rfl

/-! ### Words -/

theorem rNode_word {t r : Bytes} {x : UInt8} {xs : Bytes} (ht : t = x :: xs) (hx : isWordStart x = true) (hw : t.all isWord = true)
    (hr : r.head?.all (fun y => !isWord y) = true) : rNode (t ++ r) = rWord t r >>= fun y => rSuffix y.1 y.2 := by
  have key : ∀ x : UInt8, isWordStart x = true → isSep x = false ∧ x ≠ 35 ∧ x ≠ 34 ∧ x ≠ 39 ∧ x ≠ 91 ∧ x ≠ 64 ∧ x ≠ 45 ∧ x ≠ 40 ∧ isDigit x = false :=
    forall_byte (by decide +kernel)
  obtain ⟨h1, h2, h3, h4, h5, h6, h7, h8, h9⟩ := key x hx
  have hs := takeWhile_split (p := isWord) (a := t) (r := r) hw hr
  rw [rNode]
  have e : skip (t ++ r) = t ++ r := by rw [ht]; exact skip_start h1
  rw [e]
  have : rAtom (t ++ r) = rWord t r := by
    have h0 : t ++ r = x :: (xs ++ r) := by rw [ht]; rfl
    rw [rAtom.eq_def, h0]
    dsimp only
    rw [if_neg h2, if_neg h3, if_neg h4, if_neg h5, if_neg h6, if_neg h7, if_neg h8, if_neg (by simp [h9]), if_pos hx, ← h0]
    rw [word, behindWord, hs.1, hs.2]
  rw [this]

theorem word_ident {w : World} {x : Sym} (h : IsIdent x) {r : Bytes} (hr : r.head?.all (fun y => !isWord y) = true) :
    rNode (AstFmt.symbol w x ++ r) = rSuffix (.e (.lit (.ident x) noPos)) r := by
  rw [symbol_name w h]
  obtain ⟨⟨y, ys, hx, h1, h2⟩, h3⟩ := h
  have key : ∀ b : UInt8, isWordStart b = true → isWord b = true := forall_byte (by decide +kernel)
  rw [rNode_word hx h1 (by rw [hx, List.all_cons, h2, key y h1]; rfl) hr]
  have n : ∀ t ∈ reserved, x ≠ t := fun t ht e => h3 (e ▸ ht)
  have : rWord x r = some (.e (.lit (.ident x) noPos), r) := by
    rw [rWord.eq_def, if_neg (n _ (by decide)), if_neg (n _ (by decide)), if_neg (n _ (by decide)), if_neg (n _ (by decide)), if_neg (n _ (by decide)),
      if_neg (n _ (by decide)), if_neg (n _ (by decide)), if_neg (n _ (by decide)), if_neg (n _ (by decide)), if_neg (n _ (by decide)),
      if_neg (n _ (by decide)), if_neg (n _ (by decide)), if_neg (n _ (by decide))]
  rw [this]
  rfl

theorem word_split {w : World} {x : Sym} (h : IsIdent x) {r : Bytes} (hr : r.head?.all (fun y => !isWord y) = true) :
    word (AstFmt.symbol w x ++ r) = x ∧ behindWord (AstFmt.symbol w x ++ r) = r ∧ ∃ y z, AstFmt.symbol w x ++ r = y :: z ∧ isWordStart y = true := by
  rw [symbol_name w h]
  obtain ⟨⟨y, ys, hx, h1, h2⟩, h3⟩ := h
  have key : ∀ b : UInt8, isWordStart b = true → isWord b = true := forall_byte (by decide +kernel)
  have := takeWhile_split (p := isWord) (a := x) (r := r) (by rw [hx, List.all_cons, h2, key y h1]; rfl) hr
  exact ⟨this.1, this.2, y, ys ++ r, by rw [hx]; rfl, h1⟩

theorem rNode_kw {t r : Bytes} (hx : t.head?.any isWordStart = true) (hw : t.all isWord = true)
    (hr : r.head?.all (fun y => !isWord y) = true) : rNode (t ++ r) = rWord t r >>= fun y => rSuffix y.1 y.2 := by
  cases t with
  | nil => cases hx
  | cons x xs => exact rNode_word rfl (by simpa using hx) hw hr

/-- A keyword. -/
macro "keyword " h:term : tactic => `(tactic| (rw [rNode_kw (by decide) (by decide) $h, rWord.eq_def]; rfl))

theorem rNode_end {r : Bytes} (h : r.head?.all (fun y => !isWord y) = true) : rNode (bs "end" ++ r) = some (.end_, r) := by
  rw [rNode_kw (by decide) (by decide) h, show rWord (bs "end") r = some (.end_, r) by rw [rWord.eq_def]; rfl]
  exact rSuffix_other (by intro _ e; cases e)
theorem rNode_else {r : Bytes} (h : r.head?.all (fun y => !isWord y) = true) : rNode (bs "else" ++ r) = some (.else_, r) := by
  rw [rNode_kw (by decide) (by decide) h, show rWord (bs "else") r = some (.else_, r) by rw [rWord.eq_def]; rfl]
  exact rSuffix_other (by intro _ e; cases e)
theorem rNode_nil {r : Bytes} (h : r.head?.all (fun y => !isWord y) = true) : rNode (bs "nil" ++ r) = rSuffix (.e (.lit .nil noPos)) r := by
  keyword h
theorem rNode_true {r : Bytes} (h : r.head?.all (fun y => !isWord y) = true) : rNode (bs "true" ++ r) = rSuffix (.e (.lit (.bool true) noPos)) r := by
  keyword h
theorem rNode_false {r : Bytes} (h : r.head?.all (fun y => !isWord y) = true) : rNode (bs "false" ++ r) = rSuffix (.e (.lit (.bool false) noPos)) r := by
  keyword h
theorem rNode_not (r : Bytes) : rNode (bs "not" ++ 32 :: r) = (do
    let (e, r) ← rNode (32 :: r)
    some (.e (.unary .not e.expr noPos), r)) >>= fun y => rSuffix y.1 y.2 := by
  keyword rfl
theorem rNode_if (r : Bytes) : rNode (bs "if" ++ 32 :: r) = (do
    let (a, r) ← rNode (32 :: r)
    let (t, r) ← rBlock ((skip r).drop 4)
    if t.2 = true then do
      let (e, r) ← rBlock r
      some (.e (.if_ a.expr (stmtsOf t.1) (stmtsOf e.1) noPos), r)
    else some (.e (.if_ a.expr (stmtsOf t.1) [] noPos), r)) >>= fun y => rSuffix y.1 y.2 := by
  keyword rfl
theorem rNode_function (r : Bytes) : rNode (bs "function" ++ 40 :: r) = (do
    let (b, r') ← rBlock ((behindDigits r).drop 1)
    some (.e (.lit (.function (number r) (frameOf b.1) (stmtsOf b.1)) noPos), r')) >>= fun y => rSuffix y.1 y.2 := by
  keyword rfl
theorem rNode_let (r : Bytes) : rNode (bs "let" ++ 32 :: 35 :: r) = rSuffix (slotLine r).1 (slotLine r).2 := by
  keyword rfl
theorem rNode_return (r : Bytes) : rNode (bs "return" ++ 32 :: r) = (do
    let (e, r) ← rNode (32 :: r)
    some (.s (.return_ e.expr), r)) >>= fun y => rSuffix y.1 y.2 := by
  keyword rfl
theorem rNode_break {r : Bytes} (h : r.head?.all (fun y => !isWord y) = true) : rNode (bs "break" ++ r) = some (.s .break_, r) := by
  rw [rNode_kw (by decide) (by decide) h, show rWord (bs "break") r = some (.s .break_, r) by rw [rWord.eq_def]; rfl]
  exact rSuffix_other (by intro _ e; cases e)
theorem rNode_while (r : Bytes) : rNode (bs "while" ++ 32 :: r) = (do
    let (a, r) ← rNode (32 :: r)
    let (b, r) ← rBlock ((skip r).drop 2)
    some (.s (.while_ a.expr (stmtsOf b.1)), r)) >>= fun y => rSuffix y.1 y.2 := by
  keyword rfl
theorem rNode_for (r : Bytes) : rNode (bs "for" ++ 32 :: 35 :: r) = (do
    let (e, r') ← rNode ((skip (behindDigits r)).drop 2)
    let (b, r') ← rBlock ((skip r').drop 2)
    some (.s (.for_ (number r) e.expr (stmtsOf b.1)), r')) >>= fun y => rSuffix y.1 y.2 := by
  keyword rfl

/-! ### Literals -/

theorem rNode_slot (n : Nat) {r : Bytes} (h : After r) : rNode (ProgramFmt.slot n ++ r) = rSuffix (.e (.ident n noPos)) r := by
  have hn := number_digits n h.digit
  rw [rNode]
  show (rAtom (skip (35 :: (natDigits n ++ r))) >>= fun y => rSuffix y.1 y.2) = _
  rw [skip_start (by decide), rAtom.eq_def]
  dsimp only
  rw [if_pos rfl, hn.1, hn.2]
  rfl

theorem digit_start : ∀ x : UInt8, isDigit x = true → isSep x = false ∧ x ≠ 35 ∧ x ≠ 34 ∧ x ≠ 39 ∧ x ≠ 91 ∧ x ≠ 64 ∧ x ≠ 45 ∧ x ≠ 40 :=
  forall_byte (by decide +kernel)

theorem rNode_numeral {t r : Bytes} (ht : t ≠ []) (hd : t.head?.all isDigit = true) :
    rNode (t ++ r) = rSuffix (.e (.lit (numeral (t ++ r)).1 noPos)) (numeral (t ++ r)).2 := by
  cases t with
  | nil => exact absurd rfl ht
  | cons x xs =>
    have hx : isDigit x = true := by simpa using hd
    obtain ⟨h1, h2, h3, h4, h5, h6, h7, h8⟩ := digit_start x hx
    rw [rNode, List.cons_append, skip_start h1, rAtom.eq_def]
    dsimp only
    rw [if_neg h2, if_neg h3, if_neg h4, if_neg h5, if_neg h6, if_neg h7, if_neg h8, if_pos hx]
    rfl

theorem fraction_none {r : Bytes} (h : After r) : fraction r = ([], r) := by
  unfold fraction
  split
  · rename_i x d r
    rw [if_neg]
    rintro ⟨rfl, hd⟩
    have := h.2 d r rfl
    rw [hd] at this
    cases this
  · rfl

theorem exponent_none {r : Bytes} (h : r.head?.all (fun y => !isWord y) = true) : exponent r = ([], r) := by
  unfold exponent
  split
  · rename_i x r
    rw [if_neg]
    rintro rfl
    exact absurd h (by simp [show isWord 101 = true from rfl])
  · rfl

theorem rNode_int {i : Int} (hi : 0 ≤ i) {r : Bytes} (h : After r) : rNode (intText i ++ r) = rSuffix (.e (.lit (.int i) noPos)) r := by
  have hn := number_digits i.natAbs h.digit
  rw [intText, if_neg (by omega)]
  rw [rNode_numeral (natDigits_ne _)]
  · have : numeral (natDigits i.natAbs ++ r) = (.int i, r) := by
      unfold numeral
      dsimp only
      rw [hn.2, fraction_none h]
      dsimp only
      rw [exponent_none h.1]
      dsimp only
      rw [if_pos (List.append_nil _), hn.1]
      congr 1
      congr 1
      omega
    rw [this]
  · cases e : natDigits i.natAbs with
    | nil => rfl
    | cons x xs => exact natDigits_digits i.natAbs x (by rw [e]; exact List.mem_cons_self)

theorem head_digit {a b : Bytes} (ha : a ≠ []) (hd : a.all isDigit = true) : (a ++ b).head?.all isDigit = true := by
  cases a with
  | nil => exact absurd rfl ha
  | cons x xs => rw [List.all_cons, Bool.and_eq_true] at hd; simpa using hd.1

theorem fraction_some {b r : Bytes} (hb : b ≠ []) (hd : b.all isDigit = true) (hr : r.head?.all (fun y => !isDigit y) = true) :
    fraction (46 :: (b ++ r)) = (46 :: b, r) := by
  cases b with
  | nil => exact absurd rfl hb
  | cons x xs =>
    have := takeWhile_split hd hr
    have hx : isDigit x = true := by rw [List.all_cons, Bool.and_eq_true] at hd; exact hd.1
    unfold fraction
    simp only [List.cons_append, hx, and_self, if_true]
    rw [digits, behindDigits, ← List.cons_append, this.1, this.2]

theorem exponent_some {b r : Bytes} (hd : b.all isDigit = true) (hr : r.head?.all (fun y => !isDigit y) = true) :
    exponent (101 :: (b ++ r)) = (101 :: b, r) := by
  have := takeWhile_split hd hr
  unfold exponent
  simp only [if_true]
  rw [digits, behindDigits, this.1, this.2]

theorem rNode_float {t : Bytes} (ht : FloatText t) {r : Bytes} (h : After r) : rNode (t ++ r) = rSuffix (.e (.lit (.float t) noPos)) r := by
  have key : t ≠ [] ∧ t.head?.all isDigit = true ∧ numeral (t ++ r) = (.float t, r) := by
    cases ht with
    | frac a b ha hb ha' hb' =>
      refine ⟨by simp, head_digit ha ha', ?_⟩
      have hs := takeWhile_split (r := cDot :: (b ++ r)) ha' rfl
      unfold numeral
      simp only [digits, behindDigits, List.append_assoc, List.cons_append, hs.1, hs.2]
      rw [show cDot = 46 from rfl, fraction_some hb hb' h.digit]
      dsimp only
      rw [exponent_none h.1]
      simp
    | exp a b ha hb ha' hb' =>
      refine ⟨by simp, head_digit ha ha', ?_⟩
      have hs := takeWhile_split (r := cE :: (b ++ r)) ha' rfl
      unfold numeral
      simp only [digits, behindDigits, List.append_assoc, List.cons_append, hs.1, hs.2]
      have : fraction (cE :: (b ++ r)) = ([], cE :: (b ++ r)) := by
        unfold fraction
        split
        · rename_i x d r' e
          rw [if_neg]
          rintro ⟨rfl, -⟩
          cases e
        · rfl
      rw [this]
      dsimp only
      rw [show cE = 101 from rfl, exponent_some hb' h.digit]
      simp
    | fracExp a b e ha hb he ha' hb' he' =>
      refine ⟨by simp, head_digit ha ha', ?_⟩
      have hs := takeWhile_split (r := cDot :: (b ++ (cE :: (e ++ r)))) ha' rfl
      unfold numeral
      simp only [digits, behindDigits, List.append_assoc, List.cons_append, hs.1, hs.2]
      rw [show cDot = 46 from rfl, fraction_some hb hb' rfl]
      dsimp only
      rw [show cE = 101 from rfl, exponent_some he' h.digit]
      simp
  rw [rNode_numeral key.1 key.2.1, key.2.2]

theorem quoted_text {s t : Bytes} (h : QuotedAs s t) (r : Bytes) : quoted (t ++ 34 :: r) = (s, r) := by
  induction h with
  | nil => rw [List.nil_append, quoted.eq_def]; rfl
  | @cons b u s t hu _ ih =>
    cases u with
    | raw c =>
      obtain ⟨h1, h2, rfl⟩ := hu
      show quoted (b :: (t ++ 34 :: r)) = _
      rw [quoted.eq_def]
      dsimp only
      rw [if_neg (by simpa using h1), if_neg h2, ih]
    | esc c =>
      show quoted (cBackslash :: c :: (t ++ 34 :: r)) = _
      rw [quoted.eq_def]
      dsimp only
      rw [if_neg (by decide), if_pos rfl, ih, show validateEscape c = some b from hu]
      rfl

theorem rNode_string {w : World} {cs : List Char} (h : QuotableText w cs) (r : Bytes) :
    rNode (Show.string w (utf8 cs) ++ r) = rSuffix (.e (.lit (.string (utf8 cs)) noPos)) r := by
  obtain ⟨t, h1, h2⟩ := text_quoted (w := w) (s := cs) h
  rw [h1, List.cons_append, List.append_assoc, rNode, skip_start (by decide), rAtom.eq_def]
  dsimp only
  rw [if_neg (by decide), if_pos rfl, show [34] ++ r = 34 :: r from rfl, quoted_text h2]
  rfl

theorem rNode_byte {w : World} {b : UInt8} (h : QuotableByte b) (r : Bytes) :
    rNode (bs "'" ++ (Show.escapeChar w true (utf8Encode b.toNat) ++ (bs "'" ++ r))) = rSuffix (.e (.lit (.byte b) noPos)) r := by
  have hb : b.toNat < 128 := by
    have key : ∀ b : UInt8, (b = 0 ∨ b = 9 ∨ b = 10 ∨ (32 ≤ b ∧ b < 127)) → b.toNat < 128 := forall_byte (by decide +kernel)
    exact key b h
  have he : utf8Encode b.toNat = [b] := by
    unfold utf8Encode
    rw [if_pos hb]
    simp
  rw [he, show bs "'" = [39] from rfl]
  have key : byte (Show.escapeChar w true [b] ++ 39 :: r) = (b, r) := by
    rcases ascii_quoted w true b h with ⟨x, h1, h2⟩ | ⟨h1, -, h2⟩
    · rw [h1]
      show byte (cBackslash :: x :: 39 :: r) = _
      rw [byte.eq_def]
      dsimp only
      rw [if_pos rfl, h2]
      rfl
    · rw [h1]
      show byte (b :: 39 :: r) = _
      rw [byte.eq_def]
      dsimp only
      rw [if_neg h2]
      rfl
  show rNode (39 :: (Show.escapeChar w true [b] ++ 39 :: r)) = _
  rw [rNode, skip_start (by decide), rAtom.eq_def]
  dsimp only
  rw [if_neg (by decide), if_neg (by decide), if_pos rfl, key]
  rfl

theorem operator_text (op : BinOp) (r : Bytes) : operator (AstFmt.binOp op ++ 32 :: r) = some (op, 32 :: r) := by
  have : ∀ y ∈ AstFmt.binOp op, (y != 32) = true := by cases op <;> decide
  have hs := takeWhile_split (p := (· != 32)) (a := AstFmt.binOp op) (r := 32 :: r) (by rw [List.all_eq_true]; exact this) (by simp)
  unfold operator
  rw [hs.1, hs.2]
  cases op <;> rfl

/-! ### Blocks -/

/-- What is read, before the rest. -/
def more (ns : List Node) (r : Bytes) : Option ((List Node × Bool) × Bytes) :=
  rBlock r >>= fun x => some ((ns ++ x.1.1, x.1.2), x.2)

theorem more_nil (r : Bytes) : more [] r = rBlock r := by
  unfold more
  cases rBlock r <;> rfl

theorem more_more {ns ns' : List Node} {r r' : Bytes} (h : rBlock r = more ns' r') : more ns r = more (ns ++ ns') r' := by
  unfold more at *
  rw [h]
  cases rBlock r' with
  | none => rfl
  | some x => simp

/-- The text goes on behind a statement or a line of a slot. -/
def Quiet (r : Bytes) : Prop := Done r ∧ r.take 2 ≠ [32, 61] ∧ r.take 2 ≠ [32, 115]

theorem rBlock_cons {b : Bytes} {x : UInt8} {xs : Bytes} (h : skip b = x :: xs) : rNode (x :: xs) = rNode b := by rw [← h, rNode_skip]

theorem rNode_some {b : Bytes} {y : Node × Bytes} (h : rNode b = some y) : ∃ x xs, skip b = x :: xs := by
  cases e : skip b with
  | nil => rw [rNode, e, rAtom.eq_def] at h; cases h
  | cons x xs => exact ⟨x, xs, rfl⟩

theorem rBlock_node {b r : Bytes} {n : Node} (h : rNode b = some (n, r)) (h1 : n ≠ .end_) (h2 : n ≠ .else_) (h3 : r.take 2 ≠ [32, 61]) :
    rBlock b = more [n] r := by
  obtain ⟨x, xs, e⟩ := rNode_some h
  rw [rBlock, e]
  dsimp only
  rw [rBlock_cons e, h]
  cases n with
  | end_ => exact absurd rfl h1
  | else_ => exact absurd rfl h2
  | e _ => simp only [Option.bind_eq_bind, Option.bind_some, if_neg h3]; rfl
  | s _ => simp only [Option.bind_eq_bind, Option.bind_some, if_neg h3]; rfl
  | slot _ _ _ => simp only [Option.bind_eq_bind, Option.bind_some, if_neg h3]; rfl

theorem rBlock_assign {b r r' : Bytes} {e e' : Expr} (h : rNode b = some (.e e, 32 :: 61 :: r)) (h' : rNode r = some (.e e', r')) :
    rBlock b = more [.s (.assign (lval e) e')] r' := by
  obtain ⟨x, xs, he⟩ := rNode_some h
  rw [rBlock, he]
  dsimp only
  rw [rBlock_cons he, h]
  simp only [Option.bind_eq_bind, Option.bind_some, List.take_succ_cons, List.take_zero, if_true, List.drop_succ_cons, List.drop_zero, h']
  rfl

theorem rBlock_end {r : Bytes} (h : r.head?.all (fun y => !isWord y) = true) : rBlock (bs "end" ++ r) = some (([], false), r) := by
  have h := rNode_end h
  obtain ⟨x, xs, e⟩ := rNode_some h
  rw [rBlock, e]
  dsimp only
  rw [rBlock_cons e, h]
  rfl

theorem rBlock_else {r : Bytes} (h : r.head?.all (fun y => !isWord y) = true) : rBlock (bs "else" ++ r) = some (([], true), r) := by
  have h := rNode_else h
  obtain ⟨x, xs, e⟩ := rNode_some h
  rw [rBlock, e]
  dsimp only
  rw [rBlock_cons e, h]
  rfl

end Hush.ProgramRead

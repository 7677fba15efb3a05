import Verif.Lemmas.LexArg

/-! Every token, written down and followed by a whitespace character, is a piece. -/

namespace Hush
open Spec

deriving instance DecidableEq for Except

/-- The state between tokens in each mode. -/
def modeState : Mode → State
  | .code => .root
  | .command => .command

theorem modeState_between (m : Mode) : (modeState m).between := by
  cases m <;> simp [modeState, State.between]

/-- From `st` at `c`, stepping over exactly `txt` (followed by `r`, possibly nothing) gives one output of kind `k`
and leads to `st'`. -/
def Emits (st : State) (c : Cursor) (r : Bytes) (k : Except LexErrorKind TokenKind) (st' : State) : Prop :=
  ∃ o c', Steps ⟨st, c⟩ [o] ⟨st', c'⟩ ∧ c'.rest = r ∧ o.kind = k

theorem Reach.emits {st c txt r o st'} (h : Reach st c txt r [o] st') : Emits st c r o.kind st' := by
  obtain ⟨c', _, h2, h3⟩ := h
  exact ⟨o, c', h3.steps, h2, rfl⟩

/-- Reading, and then producing without moving, possibly at the end of the input. -/
theorem Reach.emits_res {st c txt r st' o st''} (h : Reach st c txt r [] st')
    (hv : ∀ c', Adv c c' txt → c'.rest = r → st'.visit c' = some ⟨st'', .resume, some o⟩) :
    Emits st c r o.kind st'' := by
  obtain ⟨c', h1, h2, h3⟩ := h
  refine ⟨o, c', h3.steps.trans (Steps.emit ?_ (.refl _)), h2, rfl⟩
  simp [LexSt.step, hv c' h1 h2, Step.apply]

/-! ### Words -/

theorem toToken_erase (w : Bytes) : (toToken w).erase = toToken w := by
  have h : ∀ (c : Prop) [Decidable c] (a b : TokenKind), a.erase = a → b.erase = b →
      (if c then a else b).erase = if c then a else b := by
    intro c _ a b ha hb; split <;> assumption
  unfold toToken
  repeat' (first | rfl | refine h _ _ _ rfl ?_)

theorem emits_word {w c r} (hw : IsName w) (hy : r.head?.all (fun y => !isWord y) = true) (hc : c.rest = w ++ r) :
    Emits .root c r (.ok (toToken w)) .root := by
  have := (reach_name hw hc).emits_res (o := .ok ⟨toToken w, c.pos⟩) (st'' := .root) (fun c' h1 h2 => ?_)
  · simpa [Output.kind, toToken_erase] using this
  · simp only [State.visit, visitWord, h1.slice, Cursor.peek, h2]
    cases hr : r.head? with
    | none => rfl
    | some y => simp [hr] at hy; simp [hy, Transition.resumeProduce]

theorem isName_keyword (k : Keyword) : IsName (keywordText k) := by
  cases k <;> exact ⟨_, _, rfl, by decide, by decide⟩

theorem toToken_keyword (k : Keyword) : toToken (keywordText k) = .keyword k := by
  cases k <;> decide

/-! ### Numbers -/

theorem natText_ne (n : Nat) : natText n ≠ [] := by
  unfold natText; split_ifs <;> simp

theorem digit_ofNat {n : Nat} (h : n < 10) : isDigit (UInt8.ofNat (48 + n)) = true ∧ (UInt8.ofNat (48 + n)).toNat = 48 + n := by
  have : ∀ n : Fin 10, isDigit (UInt8.ofNat (48 + n.1)) = true ∧ (UInt8.ofNat (48 + n.1)).toNat = 48 + n.1 := by decide
  exact this ⟨n, h⟩

theorem natText_digits (n : Nat) : (natText n).all isDigit = true := by
  induction n using Nat.strongRecOn with
  | _ n ih =>
    unfold natText
    split_ifs with h
    · rw [List.all_cons, (digit_ofNat h).1]; rfl
    · have h2 := (digit_ofNat (Nat.mod_lt n (by decide : 0 < 10))).1
      rw [List.all_append, ih (n / 10) (by omega)]
      rw [List.all_cons, h2]; rfl

theorem natText_value (n : Nat) : decimalValue (natText n) = n := by
  induction n using Nat.strongRecOn with
  | _ n ih =>
    unfold natText
    split_ifs with h
    · simp only [decimalValue, (digit_ofNat h).2, List.length_nil]; omega
    · rw [decimalValue_append, ih (n / 10) (by omega)]
      have h2 := (digit_ofNat (Nat.mod_lt n (by decide : 0 < 10))).2
      simp only [decimalValue, List.length_cons, List.length_nil, h2]
      omega

theorem emits_int {ds c r} (hd : ds.all isDigit = true) (hne : ds ≠ []) (hy : r.head?.all endsInt = true)
    (hv : decimalValue ds < 2 ^ 63) (hc : c.rest = ds ++ r) :
    Emits .root c r (.ok (.literal (.int (decimalValue ds)))) .root := by
  refine (reach_number_start hd hne hc).emits_res (o := .ok ⟨.literal (.int (decimalValue ds)), c.pos⟩) (fun c' h1 h2 => ?_)
  simp only [State.visit]
  rw [visit_number_end h1 ?_ (by simp) (by simp)]
  · simp only [Option.isSome_none, Bool.or_self, Bool.false_eq_true, if_false, hv, if_true, Transition.resumeProduce]
  · simp only [Cursor.peek, h2]
    cases hr : r.head? with
    | none => rfl
    | some y => simp [hr, endsInt] at hy; simp [hy]

/-- A run of digits too large for an integer: an error; the byte after it is swallowed. -/
theorem emits_int_overflow {ds c r} (hd : ds.all isDigit = true) (hne : ds ≠ []) (hy : r.head?.all endsInt = true)
    (hv : ¬ decimalValue ds < 2 ^ 63) (hc : c.rest = ds ++ r) :
    Emits .root c r.tail (.error (.invalidNumber ds)) .root := by
  obtain ⟨c', h1, h2, h3⟩ := reach_number_start hd hne hc
  refine ⟨.error ⟨.invalidNumber ds, c.pos⟩, c'.step, h3.steps.trans (Steps.emit ?_ (.refl _)), ?_, rfl⟩
  · have : (State.number c none none).visit c' = some ⟨.root, .forward, some (.error ⟨.invalidNumber ds, c.pos⟩)⟩ := by
      simp only [State.visit]
      rw [visit_number_end h1 ?_ (by simp) (by simp)]
      · simp only [Option.isSome_none, Bool.or_self, Bool.false_eq_true, if_false, hv, Transition.error]
      · simp only [Cursor.peek, h2]
        cases hr : r.head? with
        | none => rfl
        | some y => simp [hr, endsInt] at hy; simp [hy]
    simp [LexSt.step, this, Step.apply]
  · simp only [Cursor.step, h2]
    cases r <;> simp [h2]

/-- Digits with a fraction and or exponent. -/
theorem emits_float {t c r} (ht : FloatText t)
    (hy : r.head?.all (fun y => !isDigit y && y != cE && y != cUE) = true) (hc : c.rest = t ++ r) :
    Emits .root c r (.ok (.literal (.float t))) .root := by
  -- reading up to the end
  have key : ∃ d e, d ≠ some false ∧ e ≠ some false ∧ (d.isSome || e.isSome) = true ∧
      Reach .root c t r [] (.number c d e) := by
    cases ht with
    | frac a b ha hb had hbd =>
      refine ⟨some true, none, by simp, by simp, rfl, ?_⟩
      have hc' : c.rest = a ++ cDot :: (b ++ r) := by simp [hc]
      refine Reach.bind (o := []) (reach_number_start had ha hc') ?_
      intro c1 _ hc1
      refine Reach.bind (txt := [cDot]) (o := []) (.fwd hc1 (st' := .number c (some false) none) ?_) ?_
      · simp only [State.visit, visitNumber, Cursor.peek_cons hc1]; rfl
      intro c2 _ hc2
      simpa using reach_digits b (s := c) (d := some false) (e := none) hbd hb hc2
    | exp a b ha hb had hbd =>
      refine ⟨none, some true, by simp, by simp, rfl, ?_⟩
      have hc' : c.rest = a ++ cE :: (b ++ r) := by simp [hc]
      refine Reach.bind (o := []) (reach_number_start had ha hc') ?_
      intro c1 _ hc1
      refine Reach.bind (txt := [cE]) (o := []) (.fwd hc1 (st' := .number c none (some false)) ?_) ?_
      · simp only [State.visit, visitNumber, Cursor.peek_cons hc1]; rfl
      intro c2 _ hc2
      simpa using reach_digits b (s := c) (d := none) (e := some false) hbd hb hc2
    | fracExp a b e ha hb he had hbd hed =>
      refine ⟨some true, some true, by simp, by simp, rfl, ?_⟩
      have hc' : c.rest = a ++ cDot :: (b ++ cE :: (e ++ r)) := by simp [hc]
      refine Reach.bind (o := []) (reach_number_start had ha hc') ?_
      intro c1 _ hc1
      refine Reach.bind (txt := [cDot]) (o := []) (.fwd hc1 (st' := .number c (some false) none) ?_) ?_
      · simp only [State.visit, visitNumber, Cursor.peek_cons hc1]; rfl
      intro c2 _ hc2
      refine Reach.bind (o := []) (reach_digits b (s := c) (d := some false) (e := none) hbd hb hc2) ?_
      intro c3 _ hc3
      refine Reach.bind (txt := [cE]) (o := []) (.fwd hc3 (st' := .number c (some true) (some false)) ?_) ?_
      · simp only [State.visit, visitNumber, Cursor.peek_cons hc3]; rfl
      intro c4 _ hc4
      simpa using reach_digits e (s := c) (d := some true) (e := some false) hed he hc4
  obtain ⟨d, e, hd, he, hde, hr⟩ := key
  refine hr.emits_res (o := .ok ⟨.literal (.float t), c.pos⟩) (fun c' h1 h2 => ?_)
  simp only [State.visit]
  rw [visit_number_end h1 ?_ hd he]
  · simp only [hde, if_true, Transition.resumeProduce]
  · simp only [Cursor.peek, h2]
    cases hr : r.head? with
    | none => rfl
    | some y =>
      simp only [hr, Option.all_some, Bool.and_eq_true, Bool.not_eq_true', bne_iff_ne] at hy
      simp [hy, hde]

/-! ### Byte literals -/

theorem reach_byte {b c r} (hc0 : c.rest = byteText b ++ r) :
    Reach .root c (byteText b) r [.ok ⟨.literal (.byte b), c.pos⟩] .root := by
  have hb : byteText b = [cSQuote] ++ sqByte b ++ [cSQuote] := by simp [byteText, sqByte]
  obtain ⟨u, hu, hm⟩ := sqByte_unit b
  rw [hb, ← hu] at hc0 ⊢
  have hc : c.rest = cSQuote :: (u.text ++ cSQuote :: r) := by simp [hc0]
  rw [List.append_assoc]
  refine Reach.bind (o := []) (.fwd hc (st' := .byteLit none none c.pos) ?_) ?_
  · simp only [State.visit, visitRoot, Cursor.peek_cons hc]; rfl
  intro c1 _ hc1
  cases u with
  | raw y =>
    obtain ⟨h1, h2, rfl⟩ := hm
    have hc1' : c1.rest = b :: (cSQuote :: r) := hc1
    refine Reach.bind (txt := [b]) (o := []) (.fwd hc1' (st' := .byteLit (some b) none c.pos) ?_) ?_
    · have h1' : b ≠ cSQuote := by simpa [sqIsWord] using h1
      simp [State.visit, visitByteLit, Cursor.peek_cons hc1', h2, h1', Transition.fwd]
    intro c2 _ hc2
    refine .fwdEmit hc2 ?_
    simp only [State.visit, visitByteLit, Cursor.peek_cons hc2]; rfl
  | esc y =>
    have hc1' : c1.rest = cBackslash :: y :: (cSQuote :: r) := hc1
    refine Reach.bind (txt := [cBackslash]) (o := []) (txt' := [y, cSQuote])
      (.fwd hc1' (st' := .byteLit none (some c1) c.pos) ?_) ?_
    · simp only [State.visit, visitByteLit, Cursor.peek_cons hc1']; rfl
    intro c2 _ hc2
    refine Reach.bind (txt := [y]) (txt' := [cSQuote]) (o := []) (.fwd hc2 (st' := .byteLit (some b) none c.pos) ?_) ?_
    · have hv : ∀ y : UInt8, (sqValidateEscape y).all (fun b => validateEscape y == some b) = true :=
        forall_byte (by decide +kernel)
      have hv := hv y
      simp only [StrUnit.Denotes] at hm
      simp only [hm, Option.all_some, beq_iff_eq] at hv
      simp [State.visit, visitByteLit, Cursor.peek_cons hc2, hv, Transition.fwd]
    intro c3 _ hc3
    refine .fwdEmit hc3 ?_
    simp only [State.visit, visitByteLit, Cursor.peek_cons hc3]; rfl

/-! ### Arguments -/

/-- Starting an argument. -/
theorem reach_arg_start {c y ys} (hc : c.rest = y :: ys) (h1 : isWs y = false) (h2 : y ≠ cHash)
    (h3 : y ≠ cCloseBrace) (h4 : SymbolChar.commandFromFirst y = .none) :
    Reach .command c [] (y :: ys) [] (.argument (ArgSt.at c)) := by
  refine .res hc ?_
  simp [State.visit, visitCommand, Cursor.peek_cons hc, h1, h2, h3, h4, Transition.resume]

/-- Bytes that start an argument. -/
def startsArg (y : UInt8) : Bool :=
  !isWs y && y != cHash && y != cCloseBrace && (SymbolChar.commandFromFirst y == .none)

theorem argOk_start {ps} (h : ArgOk ps) (r : Bytes) : ∃ y ys, argText ps ++ r = y :: ys ∧ startsArg y = true := by
  cases ps with
  | nil => exact absurd h (by simp [ArgOk])
  | cons q ps =>
    match q, h with
    | .expansion .home, h => exact ⟨cTilde, _, by simp [argText, partText]; rfl, by decide⟩
    | .unquoted (.literal []), h => exact absurd rfl h.1
    | .unquoted (.literal (c :: s)), ⟨hp, hok⟩ =>
      have hb : unqForbidden c = false := by
        have := hok.2.1
        simp only [List.all_cons, Bool.and_eq_true] at this
        simpa using this.1
      obtain ⟨y, ys, hy, he, hw⟩ := unq_head (s := s) (argText ps ++ r) hb
      refine ⟨y, ys, by simpa [argText, partText] using hy, ?_⟩
      have hyp : y ≠ cPipe := by
        rcases he with rfl | rfl
        · exact hp
        · decide
      have : ∀ y : UInt8, argIsWord y = true → y ≠ cPipe → startsArg y = true := forall_byte (by decide +kernel)
      exact this y hw.1 hyp
    | .unquoted (.dollar s p), h => exact ⟨cDollar, _, by simp [argText, partText]; rfl, by decide⟩
    | .singleQuoted s, h => exact ⟨cSQuote, _, by simp [argText, partText]; rfl, by decide⟩
    | .doubleQuoted us, h => exact ⟨cDQuote, _, by simp [argText, partText]; rfl, by decide⟩
    | .expansion .star, h => exact ⟨cStar, _, by simp [argText, partText]; rfl, by decide⟩
    | .expansion .percent, h => exact ⟨cPercent, _, by simp [argText, partText]; rfl, by decide⟩
    | .envAssign, h => exact ⟨cEq, _, by simp [argText, partText]; rfl, by decide⟩

theorem argOk_reach {ps} (h : ArgOk ps) {x} (hx : endsArg x = true) (r : Bytes) (c p) (hc : c.rest = argText ps ++ x :: r) :
    ∃ st, IsArg p ps st ∧ Reach (.argument ⟨[], true, p⟩) c (argText ps) (x :: r) [] st := by
  cases ps with
  | nil => exact absurd h (by simp [ArgOk])
  | cons q ps =>
    have gen : PartsOk (q :: ps) → ∃ st, IsArg p (q :: ps) st ∧
        Reach (.argument ⟨[], true, p⟩) c (argText (q :: ps)) (x :: r) [] st := fun hok => by
      simpa using (reach_parts (q :: ps) x hx r hok).1 ⟨[], true, p⟩ c hc
    match q, h with
    | .expansion .home, h =>
      have := Reach.ex_bind (P := IsArg p (.expansion .home :: ps)) (txt' := argText ps) (r' := x :: r)
        (reach_arg_home (a := ⟨[], true, p⟩) (c := c) (r := argText ps ++ x :: r) rfl
          (by simpa [argText, partText] using hc)) ?_
      · simpa [argText, partText] using this
      · intro c' _ hc'
        obtain ⟨st, h1, h2⟩ := (reach_parts ps x hx r h).1 ⟨[.expansion .home], false, p⟩ c' hc'
        exact ⟨st, h1.congr (by simp), h2⟩
    | .unquoted (.literal []), h => exact absurd rfl h.1
    | .unquoted (.literal (c :: s)), ⟨_, hok⟩ => exact gen hok
    | .unquoted (.dollar s p), h => exact gen h
    | .singleQuoted s, h => exact gen h
    | .doubleQuoted us, h => exact gen h
    | .expansion .star, h => exact gen h
    | .expansion .percent, h => exact gen h
    | .envAssign, h => exact gen h

theorem emits_argument {ps} (h : ArgOk ps) {x} (hx : endsArg x = true) {c r} (hc : c.rest = argText ps ++ x :: r) :
    Emits .command c (x :: r) (.ok (.argument (ps.map ArgPart.erase))) .command := by
  obtain ⟨y, ys, hy, hst⟩ := argOk_start h (x :: r)
  simp only [startsArg, Bool.and_eq_true, Bool.not_eq_true', bne_iff_ne, beq_iff_eq] at hst
  obtain ⟨c0, a0, hc0, rd0⟩ := reach_arg_start (hc.trans hy) hst.1.1.1 hst.1.1.2 hst.1.2 hst.2
  rw [← hy] at hc0
  obtain ⟨st, ⟨ps', b, rfl, he⟩, c1, a1, hc1, rd1⟩ := argOk_reach h hx r c0 c.pos hc0
  have fx : ∀ x : UInt8, endsArg x = true → argIsWord x = false ∧ isExpansionStart x = false ∧ x ≠ cDollar ∧ x ≠ cSQuote ∧
      x ≠ cDQuote ∧ x ≠ cEq := forall_byte (by decide +kernel)
  obtain ⟨f1, f2, f3, f4, f5, f6⟩ := fx x hx
  have r2 : Reach (.argument ⟨ps', b, c.pos⟩) c1 [] (x :: r) [.ok ⟨.argument ps', c.pos⟩] .command := by
    refine .resEmit hc1 ?_
    simp [State.visit, visitArgument, Cursor.peek_cons hc1, f1, f2, f3, f4, f5, f6, Transition.resumeProduce]
  obtain ⟨c2, a2, hc2, rd2⟩ := r2
  refine ⟨_, c2, ((rd0.trans rd1).trans rd2).steps, hc2, ?_⟩
  simp [Output.kind, TokenKind.erase, he]

/-! ### All tokens -/

/-- One-byte symbols. -/
theorem emits_sym1 {st : State} {x c r} {o : Output} {st'} (hc : c.rest = x :: r)
    (hv : st.visit c = some ⟨st', .forward, some o⟩) : Emits st c r o.kind st' :=
  (Reach.fwdEmit hc hv).emits

/-- Two-byte symbols. -/
theorem emits_sym2 {st st1 : State} {x y c r} {o : Output} {st'} (hc : c.rest = x :: y :: r)
    (h1 : st.visit c = some ⟨st1, .forward, none⟩)
    (h2 : ∀ c' : Cursor, c'.peek = some y → st1.visit c' = some ⟨st', .forward, some o⟩) :
    Emits st c r o.kind st' := by
  have := Reach.bind (Reach.fwd hc h1) (txt' := [y]) (r' := r) (o' := [o]) (st'' := st')
    (fun c' _ hc' => Reach.fwdEmit hc' (h2 c' (Cursor.peek_cons hc')))
  exact Reach.emits (o := o) this

/-- One-byte symbols that could have been longer. -/
theorem emits_sym1' {st st1 : State} {x c r} {o : Output} {st'} (hc : c.rest = x :: r)
    (h1 : st.visit c = some ⟨st1, .forward, none⟩)
    (h2 : ∀ c' : Cursor, c'.peek = r.head? → st1.visit c' = some ⟨st', .resume, some o⟩) :
    Emits st c r o.kind st' :=
  (Reach.fwd hc h1).emits_res (fun c' _ hc' => h2 c' (by simp [Cursor.peek, hc']))

theorem ends_some_ne {b : UInt8} {r : Bytes} (h : r.head?.all (fun y => y != b) = true) : ¬ r.head? = some b := by
  intro hh; simp [hh] at h

theorem tok_emits {m k m'} (h : TokOk m k m') {c r} (hend : ends k r.head? = true) (hc : c.rest = tokenText k ++ r) :
    Emits (modeState m) c r (.ok k.erase) (modeState m') := by
  cases h with
  | @ident s hs =>
    have := emits_word (r := r) hs.1 hend hc
    rw [toToken_ident hs.2] at this
    exact this
  | @keyword k =>
    have := emits_word (r := r) (isName_keyword k) hend hc
    rw [toToken_keyword] at this
    exact this
  | nil => exact emits_word (r := r) (w := bs "nil") ⟨_, _, rfl, by decide, by decide⟩ hend hc
  | true_ => exact emits_word (r := r) (w := bs "true") ⟨_, _, rfl, by decide, by decide⟩ hend hc
  | false_ => exact emits_word (r := r) (w := bs "false") ⟨_, _, rfl, by decide, by decide⟩ hend hc
  | @int n hn =>
    have := emits_int (r := r) (natText_digits n) (natText_ne n) ?_ (by rw [natText_value]; exact hn) hc
    · rw [natText_value] at this; exact this
    · have h : r.head?.all (fun y => !isDigit y && y != cDot && y != cE && y != cUE) = true := hend
      cases hr : r.head? with
      | none => rfl
      | some y =>
        simp only [hr, Option.all_some, Bool.and_eq_true, Bool.not_eq_true', bne_iff_ne] at h
        simp [endsInt, h]
  | @float t ht => exact emits_float ht hend hc
  | byte => exact (reach_byte hc).emits
  | @string s => exact (reach_string hc).emits
  | argument ha =>
    have h : r.head?.any endsArg = true := hend
    cases r with
    | nil => cases h
    | cons x r => exact emits_argument ha (by simpa using h) hc
  | colon =>
    exact emits_sym1 (o := .ok ⟨.colon, c.pos⟩) (r := r) hc (by
          simp only [modeState, State.visit, visitRoot, Cursor.peek_cons (xs := r) hc]; rfl)
  | comma =>
    exact emits_sym1 (o := .ok ⟨.comma, c.pos⟩) (r := r) hc (by
          simp only [modeState, State.visit, visitRoot, Cursor.peek_cons (xs := r) hc]; rfl)
  | openParens =>
    exact emits_sym1 (o := .ok ⟨.openParens, c.pos⟩) (r := r) hc (by
          simp only [modeState, State.visit, visitRoot, Cursor.peek_cons (xs := r) hc]; rfl)
  | closeParens =>
    exact emits_sym1 (o := .ok ⟨.closeParens, c.pos⟩) (r := r) hc (by
          simp only [modeState, State.visit, visitRoot, Cursor.peek_cons (xs := r) hc]; rfl)
  | openBracket =>
    exact emits_sym1 (o := .ok ⟨.openBracket, c.pos⟩) (r := r) hc (by
          simp only [modeState, State.visit, visitRoot, Cursor.peek_cons (xs := r) hc]; rfl)
  | closeBracket =>
    exact emits_sym1 (o := .ok ⟨.closeBracket, c.pos⟩) (r := r) hc (by
          simp only [modeState, State.visit, visitRoot, Cursor.peek_cons (xs := r) hc]; rfl)
  | command =>
    exact emits_sym1 (o := .ok ⟨.command, c.pos⟩) (r := r) hc (by
          simp only [modeState, State.visit, visitRoot, Cursor.peek_cons (xs := r) hc]; rfl)
  | closeCommand =>
    exact emits_sym1 (o := .ok ⟨.closeCommand, c.pos⟩) (r := r) hc (by
          simp only [modeState, State.visit, visitCommand, Cursor.peek_cons (xs := r) hc]; rfl)
  | semicolon =>
    exact emits_sym1 (o := .ok ⟨.semicolon, c.pos⟩) (r := r) hc (by
          simp only [modeState, State.visit, visitCommand, Cursor.peek_cons (xs := r) hc]; rfl)
  | pipe =>
    exact emits_sym1 (o := .ok ⟨.pipe, c.pos⟩) (r := r) hc (by
          simp only [modeState, State.visit, visitCommand, Cursor.peek_cons (xs := r) hc]; rfl)
  | openDict =>
    exact emits_sym2 (st1 := .symbol cAt c.pos) (o := .ok ⟨.openDict, c.pos⟩) (r := r) hc (by
          simp only [modeState, State.visit, visitRoot, Cursor.peek_cons hc]; rfl)
          (fun c' h' => by simp only [State.visit, visitSymbol, h']; rfl)
  | asyncCommand =>
    exact emits_sym2 (st1 := .symbol cAmp c.pos) (o := .ok ⟨.asyncCommand, c.pos⟩) (r := r) hc (by
          simp only [modeState, State.visit, visitRoot, Cursor.peek_cons hc]; rfl)
          (fun c' h' => by simp only [State.visit, visitSymbol, h']; rfl)
  | captureCommand =>
    exact emits_sym2 (st1 := .symbol cDollar c.pos) (o := .ok ⟨.captureCommand, c.pos⟩) (r := r) hc (by
          simp only [modeState, State.visit, visitRoot, Cursor.peek_cons hc]; rfl)
          (fun c' h' => by simp only [State.visit, visitSymbol, h']; rfl)
  | @cmdOperator o =>
    rcases o with (_ | _) | (_ | _) | _
    · exact emits_sym1' (st1 := .commandSymbol cGt c.pos) (o := .ok ⟨.cmdOperator (.output false), c.pos⟩) (r := r) hc (by
          simp only [modeState, State.visit, visitCommand, Cursor.peek_cons (xs := r) hc]; rfl)
          (fun c' h' => by simp only [State.visit, visitCommandSymbol, h', ends_some_ne hend]; rfl)
    · exact emits_sym2 (st1 := .commandSymbol cGt c.pos) (o := .ok ⟨.cmdOperator (.output true), c.pos⟩) (r := r) hc (by
          simp only [modeState, State.visit, visitCommand, Cursor.peek_cons hc]; rfl)
          (fun c' h' => by simp only [State.visit, visitCommandSymbol, h']; rfl)
    · exact emits_sym1' (st1 := .commandSymbol cLt c.pos) (o := .ok ⟨.cmdOperator (.input false), c.pos⟩) (r := r) hc (by
          simp only [modeState, State.visit, visitCommand, Cursor.peek_cons (xs := r) hc]; rfl)
          (fun c' h' => by simp only [State.visit, visitCommandSymbol, h', ends_some_ne hend]; rfl)
    · exact emits_sym2 (st1 := .commandSymbol cLt c.pos) (o := .ok ⟨.cmdOperator (.input true), c.pos⟩) (r := r) hc (by
          simp only [modeState, State.visit, visitCommand, Cursor.peek_cons hc]; rfl)
          (fun c' h' => by simp only [State.visit, visitCommandSymbol, h']; rfl)
    · exact emits_sym1 (o := .ok ⟨.cmdOperator .try_, c.pos⟩) (r := r) hc (by
          simp only [modeState, State.visit, visitCommand, Cursor.peek_cons (xs := r) hc]; rfl)
  | @operator o =>
    cases o with
    | minus =>
     exact emits_sym1 (o := .ok ⟨.operator .minus, c.pos⟩) (r := r) hc (by
          simp only [modeState, State.visit, visitRoot, Cursor.peek_cons (xs := r) hc]; rfl)
    | times =>
     exact emits_sym1 (o := .ok ⟨.operator .times, c.pos⟩) (r := r) hc (by
          simp only [modeState, State.visit, visitRoot, Cursor.peek_cons (xs := r) hc]; rfl)
    | div =>
     exact emits_sym1 (o := .ok ⟨.operator .div, c.pos⟩) (r := r) hc (by
          simp only [modeState, State.visit, visitRoot, Cursor.peek_cons (xs := r) hc]; rfl)
    | mod =>
     exact emits_sym1 (o := .ok ⟨.operator .mod, c.pos⟩) (r := r) hc (by
          simp only [modeState, State.visit, visitRoot, Cursor.peek_cons (xs := r) hc]; rfl)
    | dot =>
     exact emits_sym1 (o := .ok ⟨.operator .dot, c.pos⟩) (r := r) hc (by
          simp only [modeState, State.visit, visitRoot, Cursor.peek_cons (xs := r) hc]; rfl)
    | try_ =>
     exact emits_sym1 (o := .ok ⟨.operator .try_, c.pos⟩) (r := r) hc (by
          simp only [modeState, State.visit, visitRoot, Cursor.peek_cons (xs := r) hc]; rfl)
    | equals =>
     exact emits_sym2 (st1 := .symbol cEq c.pos) (o := .ok ⟨.operator .equals, c.pos⟩) (r := r) hc (by
          simp only [modeState, State.visit, visitRoot, Cursor.peek_cons hc]; rfl)
          (fun c' h' => by simp only [State.visit, visitSymbol, h']; rfl)
    | notEquals =>
     exact emits_sym2 (st1 := .symbol cBang c.pos) (o := .ok ⟨.operator .notEquals, c.pos⟩) (r := r) hc (by
          simp only [modeState, State.visit, visitRoot, Cursor.peek_cons hc]; rfl)
          (fun c' h' => by simp only [State.visit, visitSymbol, h']; rfl)
    | greaterEquals =>
     exact emits_sym2 (st1 := .symbol cGt c.pos) (o := .ok ⟨.operator .greaterEquals, c.pos⟩) (r := r) hc (by
          simp only [modeState, State.visit, visitRoot, Cursor.peek_cons hc]; rfl)
          (fun c' h' => by simp only [State.visit, visitSymbol, h']; rfl)
    | lowerEquals =>
     exact emits_sym2 (st1 := .symbol cLt c.pos) (o := .ok ⟨.operator .lowerEquals, c.pos⟩) (r := r) hc (by
          simp only [modeState, State.visit, visitRoot, Cursor.peek_cons hc]; rfl)
          (fun c' h' => by simp only [State.visit, visitSymbol, h']; rfl)
    | concat =>
     exact emits_sym2 (st1 := .symbol cPlus c.pos) (o := .ok ⟨.operator .concat, c.pos⟩) (r := r) hc (by
          simp only [modeState, State.visit, visitRoot, Cursor.peek_cons hc]; rfl)
          (fun c' h' => by simp only [State.visit, visitSymbol, h']; rfl)
    | greater =>
     exact emits_sym1' (st1 := .symbol cGt c.pos) (o := .ok ⟨.operator .greater, c.pos⟩) (r := r) hc (by
          simp only [modeState, State.visit, visitRoot, Cursor.peek_cons (xs := r) hc]; rfl)
          (fun c' h' => by simp only [State.visit, visitSymbol, h', ends_some_ne hend]; rfl)
    | lower =>
     exact emits_sym1' (st1 := .symbol cLt c.pos) (o := .ok ⟨.operator .lower, c.pos⟩) (r := r) hc (by
          simp only [modeState, State.visit, visitRoot, Cursor.peek_cons (xs := r) hc]; rfl)
          (fun c' h' => by simp only [State.visit, visitSymbol, h', ends_some_ne hend]; rfl)
    | plus =>
     exact emits_sym1' (st1 := .symbol cPlus c.pos) (o := .ok ⟨.operator .plus, c.pos⟩) (r := r) hc (by
          simp only [modeState, State.visit, visitRoot, Cursor.peek_cons (xs := r) hc]; rfl)
          (fun c' h' => by simp only [State.visit, visitSymbol, h', ends_some_ne hend]; rfl)
    | assign =>
     exact emits_sym1' (st1 := .symbol cEq c.pos) (o := .ok ⟨.operator .assign, c.pos⟩) (r := r) hc (by
          simp only [modeState, State.visit, visitRoot, Cursor.peek_cons (xs := r) hc]; rfl)
          (fun c' h' => by simp only [State.visit, visitSymbol, h', ends_some_ne hend]; rfl)
    | not => exact emits_word (r := r) (w := bs "not") ⟨_, _, rfl, by decide, by decide⟩ hend hc
    | and => exact emits_word (r := r) (w := bs "and") ⟨_, _, rfl, by decide, by decide⟩ hend hc
    | or => exact emits_word (r := r) (w := bs "or") ⟨_, _, rfl, by decide, by decide⟩ hend hc

theorem Emits.lex {st c r k st'} (h : Emits st c r k st') (hs : st.between) (hs' : st'.between) {t}
    (hc : c = Cursor.start t) : (lexFrom st t).kinds = prependKinds [k] (lexFrom st' r).kinds := by
  subst hc
  obtain ⟨o, c', h1, h2, h3⟩ := h
  rw [h1.lex hs hs', h2]; simp [h3]

theorem Filler.lex (m : Mode) {w} (hw : Filler w) (r : Bytes) :
    (lexFrom (modeState m) (w ++ r)).kinds = (lexFrom (modeState m) r).kinds := by
  obtain ⟨c', _, h2, h3⟩ := reach_filler (modeState_between m) hw (c := Cursor.start (w ++ r)) (r := r) rfl
  rw [h3.steps.lex (modeState_between m) (modeState_between m), h2]; simp

/-- Lexing a text that writes down some tokens and continues with `rest`. -/
theorem written_lex {ks rest t} (hw : Written ks rest t) : ∀ {m m'}, ToksOk m ks m' →
    (lexFrom (modeState m) t).kinds =
      prependKinds (ks.map (fun k => .ok k.erase)) (lexFrom (modeState m') rest).kinds := by
  induction hw with
  | nil hf => intro m m' h; cases h; rw [Filler.lex _ hf]; simp
  | @cons k ks w rest t hf he _ ih =>
    intro m m' h
    cases h with
    | @cons _ m1 _ _ _ h1 h2 =>
      rw [Filler.lex _ hf, (tok_emits h1 he (c := Cursor.start (tokenText k ++ t)) rfl).lex
        (modeState_between _) (modeState_between _) rfl, ih h2, ← prependKinds_append]
      rfl

theorem lexFrom_nil_code : (lexFrom .root []).kinds = some (true, []) := by decide

end Hush

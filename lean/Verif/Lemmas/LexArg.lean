import Verif.Lemmas.LexPiece

/-! Reading command arguments. -/

namespace Hush
open Spec

/-! ### Quoted words -/

/-- A quoted byte as a unit. -/
theorem sqByte_unit (b : UInt8) : ∃ u : StrUnit, u.text = sqByte b ∧
    u.Denotes (fun c => !sqIsWord c) sqValidateEscape b := by
  unfold sqByte strByte
  split_ifs with h1 h2 h3 h4 h5 h6
  · exact ⟨.esc cSQuote, rfl, by subst h1; rfl⟩
  · exact ⟨.raw b, rfl, by subst h2; exact ⟨by decide, by decide, rfl⟩⟩
  · exact ⟨.esc cBackslash, rfl, by subst h3; rfl⟩
  · exact ⟨.esc cN, rfl, by subst h4; rfl⟩
  · exact ⟨.esc cT, rfl, by subst h5; rfl⟩
  · exact ⟨.esc cZero, rfl, by subst h6; rfl⟩
  · refine ⟨.raw b, rfl, ?_, h3, rfl⟩
    simp [sqIsWord]; exact h1

theorem dqByte_unit (b : UInt8) : ∃ u : StrUnit, u.text = dqByte b ∧
    u.Denotes (fun c => !dqIsWord c) dqValidateEscape b := by
  unfold dqByte strByte
  split_ifs with h1 h2 h3 h4 h5 h6
  · exact ⟨.esc cDollar, rfl, by subst h1; rfl⟩
  · exact ⟨.esc cDQuote, rfl, by subst h2; rfl⟩
  · exact ⟨.esc cBackslash, rfl, by subst h3; rfl⟩
  · exact ⟨.esc cN, rfl, by subst h4; rfl⟩
  · exact ⟨.esc cT, rfl, by subst h5; rfl⟩
  · exact ⟨.esc cZero, rfl, by subst h6; rfl⟩
  · refine ⟨.raw b, rfl, ?_, h3, rfl⟩
    simp [dqIsWord]; exact ⟨h2, h1⟩

/-- Escape sequences of unquoted text stand for the escaped byte itself, apart from the control
characters. -/
theorem unqByte_unit (b : UInt8) (h : unqForbidden b = false) : ∃ u : StrUnit, u.text = unqByte b ∧
    u.Denotes (fun c => !(argIsWord c && !isExpansionStart c)) argValidateEscape b := by
  unfold unqByte
  split_ifs with h1
  · refine ⟨.esc b, rfl, ?_⟩
    have : ∀ b : UInt8, unqSpecial b = true → argValidateEscape b = some b := forall_byte (by decide +kernel)
    exact this b h1
  · refine ⟨.raw b, rfl, ?_, ?_, rfl⟩
    · have : ∀ b : UInt8, unqForbidden b = false → ¬ unqSpecial b = true →
        (!(argIsWord b && !isExpansionStart b)) = false := forall_byte (by decide +kernel)
      exact this b h h1
    · have : ∀ b : UInt8, ¬ unqSpecial b = true → b ≠ cBackslash := forall_byte (by decide +kernel)
      exact this b h1

/-- One unit of a word, in any context. -/
theorem reach_word_unit {u : StrUnit} {b : UInt8} {v c r}
    {st : WordSt → State} {isW : UInt8 → Bool} {esc : UInt8 → Option UInt8}
    {es : Cursor → WordSt → UInt8 → Option Transition} {done : Bytes → Transition}
    (hst : ∀ w c, (st w).visit c = some (visitArgWord w st isW esc (es c) done c))
    {q : UInt8 → Bool} (hq : ∀ x, q x = false → isW x = true ∧ ∀ c w, es c w x = none)
    (hu : u.Denotes q esc b) (hc : c.rest = u.text ++ r) :
    Reach (st ⟨v, none, true⟩) c u.text r [] (st ⟨v ++ [b], none, true⟩) := by
  cases u with
  | raw x =>
    obtain ⟨h1, h2, rfl⟩ := hu
    have hc' : c.rest = b :: r := hc
    obtain ⟨g1, g2⟩ := hq b h1
    refine .fwd hc' ?_
    rw [hst]
    have : (b == cBackslash) = false := by simpa using h2
    simp only [visitArgWord, Cursor.peek_cons hc', this, g1, g2, Transition.fwd]; rfl
  | esc x =>
    have hc' : c.rest = cBackslash :: x :: r := hc
    refine Reach.bind (o := []) (txt := [cBackslash]) (txt' := [x]) (st' := st ⟨v, some c, true⟩)
      (.fwd hc' ?_) ?_
    · rw [hst]
      simp only [visitArgWord, Cursor.peek_cons hc', Transition.fwd]; rfl
    intro c' _ hc''
    refine .fwd hc'' ?_
    rw [hst]
    simp only [StrUnit.Denotes] at hu
    simp only [visitArgWord, Cursor.peek_cons hc'', Transition.fwd, hu]

theorem reach_word_units (s : Bytes) {enc : UInt8 → Bytes} {ok : UInt8 → Prop}
    {st : WordSt → State} {isW : UInt8 → Bool} {esc : UInt8 → Option UInt8}
    {es : Cursor → WordSt → UInt8 → Option Transition} {done : Bytes → Transition}
    (hst : ∀ w c, (st w).visit c = some (visitArgWord w st isW esc (es c) done c))
    {q : UInt8 → Bool} (hq : ∀ x, q x = false → isW x = true ∧ ∀ c w, es c w x = none)
    (henc : ∀ b, ok b → ∃ u : StrUnit, u.text = enc b ∧ u.Denotes q esc b) :
    ∀ {v c r}, (∀ b ∈ s, ok b) → c.rest = s.flatMap enc ++ r →
    Reach (st ⟨v, none, true⟩) c (s.flatMap enc) r [] (st ⟨v ++ s, none, true⟩) := by
  induction s with
  | nil => intro v c r _ hc; simpa using Reach.refl (by simpa using hc)
  | cons b s ih =>
    intro v c r hok hc
    obtain ⟨u, hu, hm⟩ := henc b (hok b (by simp))
    rw [List.flatMap_cons, ← hu]
    refine Reach.bind (o := []) (reach_word_unit hst hq hm (r := s.flatMap enc ++ r) (by simp [hc, hu])) ?_
    intro c' _ hc'
    have := ih (v := v ++ [b]) (c := c') (r := r) (fun x hx => hok x (by simp [hx])) hc'
    simpa using this

theorem reach_sq_body (s : Bytes) {v p a c r} (hc : c.rest = s.flatMap sqByte ++ r) :
    Reach (.singleQuotedWord ⟨v, none, true⟩ p a) c (s.flatMap sqByte) r [] (.singleQuotedWord ⟨v ++ s, none, true⟩ p a) := by
  refine reach_word_units s (ok := fun _ => True) (st := fun w => .singleQuotedWord w p a)
    (isW := sqIsWord) (esc := sqValidateEscape) (es := fun _ _ _ => none) (fun _ _ => rfl)
    (q := fun c => !sqIsWord c) ?_ (fun b _ => sqByte_unit b) (fun _ _ => trivial) hc
  intro x hx; exact ⟨by simpa using hx, fun _ _ => rfl⟩

theorem reach_dq_body (s : Bytes) {v p a c r} (hc : c.rest = s.flatMap dqByte ++ r) :
    Reach (.doubleQuotedWord ⟨v, none, true⟩ p a) c (s.flatMap dqByte) r [] (.doubleQuotedWord ⟨v ++ s, none, true⟩ p a) := by
  refine reach_word_units s (ok := fun _ => True) (st := fun w => .doubleQuotedWord w p a)
    (isW := dqIsWord) (esc := dqValidateEscape) (es := fun _ _ _ => none) (fun _ _ => rfl)
    (q := fun c => !dqIsWord c) ?_ (fun b _ => dqByte_unit b) (fun _ _ => trivial) hc
  intro x hx; exact ⟨by simpa using hx, fun _ _ => rfl⟩

theorem reach_unq_body (s : Bytes) {v a c r} (hs : s.all (fun c => !unqForbidden c) = true)
    (hc : c.rest = s.flatMap unqByte ++ r) :
    Reach (.unquotedWord ⟨v, none, true⟩ a) c (s.flatMap unqByte) r [] (.unquotedWord ⟨v ++ s, none, true⟩ a) := by
  refine reach_word_units s (ok := fun b => unqForbidden b = false) (st := fun w => .unquotedWord w a)
    (isW := argIsWord) (esc := argValidateEscape)
    (es := fun cur w c => if isExpansionStart c then some (.resume (.expansionWord ⟨cur, false, false⟩ w a)) else none)
    (fun _ _ => rfl)
    (q := fun c => !(argIsWord c && !isExpansionStart c)) ?_ (fun b hb => unqByte_unit b hb) ?_ hc
  · intro x hx
    simp only [Bool.not_eq_false', Bool.and_eq_true, Bool.not_eq_true'] at hx
    refine ⟨hx.1, fun c w => ?_⟩
    simp [hx.2]
  · intro b hb
    have := List.all_eq_true.1 hs b hb
    simpa using this

/-- A single-quoted part. -/
theorem reach_singleQuoted {s a c r} (hc : c.rest = [cSQuote] ++ s.flatMap sqByte ++ [cSQuote] ++ r) :
    Reach (.argument a) c ([cSQuote] ++ s.flatMap sqByte ++ [cSQuote]) r []
      (.argument { a with allowHome := false, parts := a.parts ++ [.singleQuoted s] }) := by
  have hc1 : c.rest = cSQuote :: (s.flatMap sqByte ++ cSQuote :: r) := by simp [hc]
  rw [List.append_assoc]
  refine Reach.bind (o := []) (.fwd hc1 (st' := .singleQuoted [] { a with allowHome := false }) ?_) ?_
  · simp only [State.visit, visitArgument, Cursor.peek_cons hc1]; rfl
  intro c1 _ hc1'
  cases s with
  | nil =>
    refine .fwd hc1' ?_
    simp only [State.visit, visitSingleQuoted, Cursor.peek_cons hc1']; rfl
  | cons b s =>
    obtain ⟨u, hu, hm⟩ := sqByte_unit b
    have hhead : ∃ y ys, c1.rest = y :: ys ∧ (y == cSQuote) = false := by
      cases u with
      | raw x =>
        refine ⟨x, s.flatMap sqByte ++ cSQuote :: r, by simp [hc1', ← hu, StrUnit.text], ?_⟩
        have := hm.1
        simpa [sqIsWord] using this
      | esc x =>
        exact ⟨cBackslash, x :: (s.flatMap sqByte ++ cSQuote :: r), by simp [hc1', ← hu, StrUnit.text], by decide⟩
    obtain ⟨y, ys, hy, hyq⟩ := hhead
    refine Reach.bind (txt := []) (o := []) (.res hy (st' := .singleQuotedWord .fresh [] { a with allowHome := false }) ?_) ?_
    · simp [State.visit, visitSingleQuoted, Cursor.peek_cons hy, hyq, Transition.resume]
    intro c2 h2 hc2
    have h3 : c2.rest = (b :: s).flatMap sqByte ++ cSQuote :: r := by
      have := h2.rest; simp at this; rw [← this, hc1']
    refine Reach.bind (o := []) (reach_sq_body (b :: s) h3) ?_
    intro c3 _ hc3
    refine Reach.bind (txt := []) (o := []) (.res hc3 (st' := .singleQuoted (b :: s) { a with allowHome := false }) ?_) ?_
    · simp only [State.visit, visitArgWord, Cursor.peek_cons hc3]; rfl
    intro c4 h4 hc4
    refine .fwd hc4 ?_
    simp only [State.visit, visitSingleQuoted, Cursor.peek_cons hc4]; rfl

/-! ### Dollars -/

/-- Reading `${name}` after the dollar, in any context. -/
theorem reach_dollar {s c r p} {mk : DollarSt → State} {add : Sym → State} {ctx : State}
    (hmk : ∀ d c, d.pos = p → (mk d).visit c = some (visitDollar d mk add ctx c)) (hs : IsIdent s)
    (hc : c.rest = cOpenBrace :: (s ++ cCloseBrace :: r)) :
    Reach (mk ⟨none, none, false, p⟩) c (cOpenBrace :: (s ++ [cCloseBrace])) r [] (add s) := by
  obtain ⟨⟨x, xs, rfl, hx, hxs⟩, hres⟩ := hs
  refine Reach.bind (txt := [cOpenBrace]) (o := []) (.fwd hc (st' := mk ⟨none, some true, false, p⟩) ?_) ?_
  · rw [hmk _ _ rfl]; simp only [visitDollar, Cursor.peek_cons hc]; rfl
  intro c1 _ hc1
  have hc1' : c1.rest = x :: (xs ++ cCloseBrace :: r) := hc1
  have hx' : x ≠ cCloseBrace := by
    rintro rfl; revert hx; decide
  refine Reach.bind (txt := [x]) (o := []) (.fwd hc1' (st' := mk ⟨some c1, some true, false, p⟩) ?_) ?_
  · rw [hmk _ _ rfl]
    simp [visitDollar, Cursor.peek_cons hc1', hx', hx, Transition.fwd]
  intro c2 h2 hc2
  have body : ∀ (ys : Bytes), ys.all isWord = true → ∀ c2 : Cursor, c2.rest = ys ++ cCloseBrace :: r →
      Reach (mk ⟨some c1, some true, false, p⟩) c2 ys (cCloseBrace :: r) [] (mk ⟨some c1, some true, false, p⟩) := by
    intro ys
    induction ys with
    | nil => intro _ c2 h; exact .refl (by simpa using h)
    | cons y ys ih =>
      intro hy c2 h
      simp only [List.all_cons, Bool.and_eq_true] at hy
      have h' : c2.rest = y :: (ys ++ cCloseBrace :: r) := h
      have hy' : y ≠ cCloseBrace := by
        rintro rfl; have := hy.1; revert this; decide
      refine Reach.bind (txt := [y]) (o := []) (.fwd h' (st' := mk ⟨some c1, some true, false, p⟩) ?_) ?_
      · rw [hmk _ _ rfl]
        simp [visitDollar, Cursor.peek_cons h', hy', hy.1, Transition.fwd]
      · intro c3 _ hc3
        exact ih hy.2 c3 hc3
  refine Reach.bind (o := []) (body xs hxs c2 hc2) ?_
  intro c3 h3 hc3
  refine .fwd hc3 ?_
  rw [hmk _ _ rfl]
  have hsl : c1.slice c3 = x :: xs := by
    have := h2.trans h3
    simpa using this.slice
  simp only [visitDollar, Cursor.peek_cons hc3, dollarProduce, DollarSt.ident, hsl, toToken_ident hres]
  rfl

theorem reach_unq_dollar {s a c r} (hs : IsIdent s)
    (hc : c.rest = [cDollar, cOpenBrace] ++ s ++ [cCloseBrace] ++ r) :
    Reach (.argument a) c ([cDollar, cOpenBrace] ++ s ++ [cCloseBrace]) r []
      (.argument { a with allowHome := false, parts := a.parts ++ [.unquoted (.dollar s c.pos)] }) := by
  have hc1 : c.rest = cDollar :: (cOpenBrace :: (s ++ cCloseBrace :: r)) := by simp [hc]
  have : [cDollar, cOpenBrace] ++ s ++ [cCloseBrace] = [cDollar] ++ (cOpenBrace :: (s ++ [cCloseBrace])) := by simp
  rw [this]
  refine Reach.bind (o := []) (.fwd hc1
    (st' := .dollar ⟨none, none, false, c.pos⟩ { a with allowHome := false }) ?_) ?_
  · simp only [State.visit, visitArgument, Cursor.peek_cons hc1]; rfl
  intro c1 _ hc1'
  have := reach_dollar (p := c.pos) (mk := fun d => .dollar d { a with allowHome := false })
    (add := fun s => .argument { a with allowHome := false, parts := a.parts ++ [.unquoted (.dollar s c.pos)] })
    (ctx := .argument { a with allowHome := false }) (fun d c' hd => by simp [State.visit, hd]) hs hc1'
  exact this

theorem reach_quoted_dollar {s ps a c r} (hs : IsIdent s)
    (hc : c.rest = [cDollar, cOpenBrace] ++ s ++ [cCloseBrace] ++ r) :
    Reach (.doubleQuoted ps a) c ([cDollar, cOpenBrace] ++ s ++ [cCloseBrace]) r []
      (.doubleQuoted (ps ++ [.dollar s c.pos]) a) := by
  have hc1 : c.rest = cDollar :: (cOpenBrace :: (s ++ cCloseBrace :: r)) := by simp [hc]
  have : [cDollar, cOpenBrace] ++ s ++ [cCloseBrace] = [cDollar] ++ (cOpenBrace :: (s ++ [cCloseBrace])) := by simp
  rw [this]
  refine Reach.bind (o := []) (.fwd hc1 (st' := .quotedDollar ⟨none, none, false, c.pos⟩ ps a) ?_) ?_
  · simp only [State.visit, visitDoubleQuoted, Cursor.peek_cons hc1]; rfl
  intro c1 _ hc1'
  exact reach_dollar (p := c.pos) (mk := fun d => .quotedDollar d ps a)
    (add := fun s => .doubleQuoted (ps ++ [.dollar s c.pos]) a)
    (ctx := .doubleQuoted ps a) (fun d c' hd => by simp [State.visit, hd]) hs hc1'

/-! ### Double quotes -/

theorem unitText_head (u : ArgUnit) (r) (hu : ∀ s, u ≠ .literal s) : ∃ ys, unitText u ++ r = cDollar :: ys := by
  cases u with
  | literal s => exact absurd rfl (hu s)
  | dollar s p => exact ⟨cOpenBrace :: (s ++ cCloseBrace :: r), by simp [unitText]⟩

theorem dq_lit_head {b s r} : ∃ y ys, (b :: s).flatMap dqByte ++ r = y :: ys ∧ dqIsWord y = true := by
  obtain ⟨u, hu, hm⟩ := dqByte_unit b
  cases u with
  | raw x =>
    refine ⟨x, s.flatMap dqByte ++ r, by simp [← hu, StrUnit.text], ?_⟩
    have := hm.1
    simpa using this
  | esc x => exact ⟨cBackslash, x :: (s.flatMap dqByte ++ r), by simp [← hu, StrUnit.text], by decide⟩

/-- The inside of double quotes, up to the closing quote. -/
theorem reach_dq_units (us : List ArgUnit) : ∀ {ps a c r}, UnitsOk us →
    c.rest = us.flatMap unitText ++ cDQuote :: r →
    ∃ us', us'.map ArgUnit.erase = us.map ArgUnit.erase ∧
      Reach (.doubleQuoted ps a) c (us.flatMap unitText) (cDQuote :: r) [] (.doubleQuoted (ps ++ us') a) := by
  induction us with
  | nil => intro ps a c r _ hc; exact ⟨[], rfl, by simpa using Reach.refl (by simpa using hc)⟩
  | cons u us ih =>
    intro ps a c r hok hc
    cases u with
    | literal s =>
      obtain ⟨hne, hok', hadj⟩ := hok
      cases s with
      | nil => exact absurd rfl hne
      | cons b s =>
        have hc' : c.rest = (b :: s).flatMap dqByte ++ (us.flatMap unitText ++ cDQuote :: r) := by
          simpa [unitText] using hc
        obtain ⟨y, ys, hy, hyw⟩ := dq_lit_head (b := b) (s := s) (r := us.flatMap unitText ++ cDQuote :: r)
        have hcy : c.rest = y :: ys := by rw [hc', hy]
        have hyq : (y == cDQuote) = false ∧ (y == cDollar) = false := by
          simpa [dqIsWord] using hyw
        -- the byte after the literal
        have hnext : ∃ z zs, us.flatMap unitText ++ cDQuote :: r = z :: zs ∧ dqIsWord z = false ∧ z ≠ cBackslash := by
          cases us with
          | nil => exact ⟨cDQuote, r, rfl, by decide, by decide⟩
          | cons u' us' =>
            obtain ⟨ys, h⟩ := unitText_head u' (us'.flatMap unitText ++ cDQuote :: r)
              (fun s' h => hadj s' us' (by rw [h]))
            exact ⟨cDollar, ys, by simpa using h, by decide, by decide⟩
        obtain ⟨z, zs, hz, hzw, hzb⟩ := hnext
        have hzb' : (z == cBackslash) = false := by simpa using hzb
        -- read the literal
        have r1 : Reach (.doubleQuoted ps a) c ((b :: s).flatMap dqByte) (us.flatMap unitText ++ cDQuote :: r) []
            (.doubleQuoted (ps ++ [.literal (b :: s)]) a) := by
          refine Reach.bind (txt := []) (o := []) (.res hcy (st' := .doubleQuotedWord .fresh ps a) ?_) ?_
          · simp [State.visit, visitDoubleQuoted, Cursor.peek_cons hcy, hyq, Transition.resume]
          intro c1 h1 hc1
          have hc1' : c1.rest = (b :: s).flatMap dqByte ++ (us.flatMap unitText ++ cDQuote :: r) := by
            rw [hc1, ← hy]
          have := Reach.bind (o := []) (reach_dq_body (b :: s) (v := []) (p := ps) (a := a) hc1') (txt' := [])
            (r' := us.flatMap unitText ++ cDQuote :: r) (o' := []) (st'' := .doubleQuoted (ps ++ [.literal (b :: s)]) a) ?_
          · rw [List.append_nil] at this; exact this
          intro c2 h2 hc2
          have hc2' : c2.rest = z :: zs := by rw [hc2, hz]
          rw [hz]
          refine .res hc2' ?_
          simp only [State.visit, visitArgWord, Cursor.peek_cons hc2', hzw, hzb']; rfl
        obtain ⟨c1, a1, hr1, rd1⟩ := r1
        obtain ⟨us', he, r2⟩ := ih (ps := ps ++ [.literal (b :: s)]) (a := a) hok' hr1
        obtain ⟨c2, a2, hr2, rd2⟩ := r2
        refine ⟨.literal (b :: s) :: us', by simp [he], c2, ?_, hr2, ?_⟩
        · simpa [unitText] using a1.trans a2
        · simpa using rd1.trans rd2
    | dollar s p =>
      obtain ⟨hid, hok'⟩ := hok
      have hc' : c.rest = [cDollar, cOpenBrace] ++ s ++ [cCloseBrace] ++ (us.flatMap unitText ++ cDQuote :: r) := by
        simpa [unitText] using hc
      obtain ⟨c1, a1, hr1, rd1⟩ := reach_quoted_dollar (ps := ps) (a := a) hid hc'
      obtain ⟨us', he, r2⟩ := ih (ps := ps ++ [.dollar s c.pos]) (a := a) hok' hr1
      obtain ⟨c2, a2, hr2, rd2⟩ := r2
      refine ⟨.dollar s c.pos :: us', by simp [he, ArgUnit.erase], c2, ?_, hr2, ?_⟩
      · simpa [unitText] using a1.trans a2
      · simpa using rd1.trans rd2

theorem reach_doubleQuoted {us a c r} (hok : UnitsOk us)
    (hc : c.rest = [cDQuote] ++ us.flatMap unitText ++ [cDQuote] ++ r) :
    ∃ us', us'.map ArgUnit.erase = us.map ArgUnit.erase ∧
    Reach (.argument a) c ([cDQuote] ++ us.flatMap unitText ++ [cDQuote]) r []
      (.argument { a with allowHome := false, parts := a.parts ++ [.doubleQuoted us'] }) := by
  have hc1 : c.rest = cDQuote :: (us.flatMap unitText ++ cDQuote :: r) := by simp [hc]
  have r0 : Reach (.argument a) c [cDQuote] (us.flatMap unitText ++ cDQuote :: r) []
      (.doubleQuoted [] { a with allowHome := false }) := by
    refine .fwd hc1 ?_
    simp only [State.visit, visitArgument, Cursor.peek_cons hc1]; rfl
  obtain ⟨c1, a1, hr1, rd1⟩ := r0
  obtain ⟨us', he, c2, a2, hr2, rd2⟩ := reach_dq_units us (ps := []) (a := { a with allowHome := false }) hok hr1
  have r3 : Reach (.doubleQuoted us' { a with allowHome := false }) c2 [cDQuote] r []
      (.argument { a with allowHome := false, parts := a.parts ++ [.doubleQuoted us'] }) := by
    refine .fwd hr2 ?_
    simp only [State.visit, visitDoubleQuoted, Cursor.peek_cons hr2]; rfl
  obtain ⟨c3, a3, hr3, rd3⟩ := r3
  refine ⟨us', he, c3, ?_, hr3, ?_⟩
  · simpa using (a1.trans a2).trans a3
  · simpa using (rd1.trans rd2).trans rd3

/-! ### Whole arguments -/

/-- First byte of unquoted text. -/
theorem unq_head {b s} (r : Bytes) (h : unqForbidden b = false) :
    ∃ y ys, (b :: s).flatMap unqByte ++ r = y :: ys ∧ (y = b ∨ y = cBackslash) ∧
      argIsWord y = true ∧ isExpansionStart y = false ∧
      y ≠ cDollar ∧ y ≠ cSQuote ∧ y ≠ cDQuote ∧ y ≠ cEq := by
  by_cases hs : unqSpecial b = true
  · exact ⟨cBackslash, b :: (s.flatMap unqByte ++ r), by simp [unqByte, hs], Or.inr rfl, by decide, by decide,
      by decide, by decide, by decide, by decide⟩
  · refine ⟨b, s.flatMap unqByte ++ r, by simp [unqByte, hs], Or.inl rfl, ?_⟩
    have : ∀ b : UInt8, unqForbidden b = false → ¬ unqSpecial b = true → argIsWord b = true ∧
        isExpansionStart b = false ∧ b ≠ cDollar ∧ b ≠ cSQuote ∧ b ≠ cDQuote ∧ b ≠ cEq :=
      forall_byte (by decide +kernel)
    exact this b h hs

theorem reach_arg_eq {a c r} (hc : c.rest = cEq :: r) :
    Reach (.argument a) c [cEq] r [] (.argument { a with allowHome := false, parts := a.parts ++ [.envAssign] }) := by
  refine .fwd hc ?_
  simp only [State.visit, visitArgument, Cursor.peek_cons hc]; rfl

theorem reach_arg_star {a c r} (hc : c.rest = cStar :: r) :
    Reach (.argument a) c [cStar] r [] (.argument { a with allowHome := false, parts := a.parts ++ [.expansion .star] }) := by
  refine Reach.bind (txt := []) (o := []) (.res hc (st' := .expansion ⟨c, a.allowHome, false⟩ { a with allowHome := false }) ?_) ?_
  · simp only [State.visit, visitArgument, Cursor.peek_cons hc]; rfl
  intro c' _ hc'
  refine .fwd hc' ?_
  simp only [State.visit, visitExpansion, Cursor.peek_cons hc']; rfl

theorem reach_arg_percent {a c r} (hc : c.rest = cPercent :: r) :
    Reach (.argument a) c [cPercent] r [] (.argument { a with allowHome := false, parts := a.parts ++ [.expansion .percent] }) := by
  refine Reach.bind (txt := []) (o := []) (.res hc (st' := .expansion ⟨c, a.allowHome, false⟩ { a with allowHome := false }) ?_) ?_
  · simp only [State.visit, visitArgument, Cursor.peek_cons hc]; rfl
  intro c' _ hc'
  refine .fwd hc' ?_
  simp only [State.visit, visitExpansion, Cursor.peek_cons hc']; rfl

theorem reach_arg_home {a c r} (ha : a.allowHome = true) (hc : c.rest = cTilde :: cSlash :: r) :
    Reach (.argument a) c [cTilde, cSlash] r [] (.argument { a with allowHome := false, parts := a.parts ++ [.expansion .home] }) := by
  obtain ⟨ps, ah, p⟩ := a
  simp only at ha; subst ha
  refine Reach.bind (txt := []) (o := []) (.res hc (st' := .expansion ⟨c, true, false⟩ ⟨ps, false, p⟩) ?_) ?_
  · simp only [State.visit, visitArgument, Cursor.peek_cons hc]; rfl
  intro c' _ hc'
  refine Reach.bind (txt := [cTilde]) (o := []) (.fwd hc' (st' := .expansion ⟨c, false, true⟩ ⟨ps, false, p⟩) ?_) ?_
  · simp only [State.visit, visitExpansion, Cursor.peek_cons hc']; rfl
  intro c'' _ hc''
  refine .fwd hc'' ?_
  simp only [State.visit, visitExpansion, Cursor.peek_cons hc'']; rfl

theorem reach_word_star {v a c r} (hc : c.rest = cStar :: r) :
    Reach (.unquotedWord ⟨v, none, true⟩ a) c [cStar] r []
      (.argument { a with parts := a.parts ++ [.unquoted (.literal v), .expansion .star] }) := by
  refine Reach.bind (txt := []) (o := []) (.res hc (st' := .expansionWord ⟨c, false, false⟩ ⟨v, none, true⟩ a) ?_) ?_
  · simp only [State.visit, visitArgWord, Cursor.peek_cons hc]; rfl
  intro c' _ hc'
  refine .fwd hc' ?_
  simp only [State.visit, visitExpansion, Cursor.peek_cons hc']; rfl

theorem reach_word_percent {v a c r} (hc : c.rest = cPercent :: r) :
    Reach (.unquotedWord ⟨v, none, true⟩ a) c [cPercent] r []
      (.argument { a with parts := a.parts ++ [.unquoted (.literal v), .expansion .percent] }) := by
  refine Reach.bind (txt := []) (o := []) (.res hc (st' := .expansionWord ⟨c, false, false⟩ ⟨v, none, true⟩ a) ?_) ?_
  · simp only [State.visit, visitArgWord, Cursor.peek_cons hc]; rfl
  intro c' _ hc'
  refine .fwd hc' ?_
  simp only [State.visit, visitExpansion, Cursor.peek_cons hc']; rfl

/-- A word ends at a byte that cannot be part of it. -/
theorem reach_word_done {v a c y r} (hy : argIsWord y = false) (hc : c.rest = y :: r) :
    Reach (.unquotedWord ⟨v, none, true⟩ a) c [] (y :: r) []
      (.argument { a with parts := a.parts ++ [.unquoted (.literal v)] }) := by
  refine .res hc ?_
  have : ∀ y : UInt8, argIsWord y = false → (y == cBackslash) = false := forall_byte (by decide +kernel)
  have := this y hy
  simp only [State.visit, visitArgWord, Cursor.peek_cons hc, hy, this]; rfl

theorem Reach.ex_bind {st c txt r st' txt' r'} {P : State → Prop} (h : Reach st c txt r [] st')
    (h' : ∀ c', Adv c c' txt → c'.rest = r → ∃ st'', P st'' ∧ Reach st' c' txt' r' [] st'') :
    ∃ st'', P st'' ∧ Reach st c (txt ++ txt') r' [] st'' := by
  obtain ⟨c₁, h1, h2, h3⟩ := h
  obtain ⟨st'', hp, c₂, h4, h5, h6⟩ := h' c₁ h1 h2
  exact ⟨st'', hp, c₂, h1.trans h4, h5, h3.trans h6⟩

/-- An argument state holding the given parts (up to positions). -/
def IsArg (p : Pos) (ps : List ArgPart) (st : State) : Prop :=
  ∃ ps' b, st = .argument ⟨ps', b, p⟩ ∧ ps'.map ArgPart.erase = ps.map ArgPart.erase

theorem IsArg.congr {p ps qs st} (h : IsArg p ps st) (he : ps.map ArgPart.erase = qs.map ArgPart.erase) :
    IsArg p qs st := by
  obtain ⟨ps', b, h1, h2⟩ := h
  exact ⟨ps', b, h1, by rw [h2, he]⟩

/-- Reading the rest of an argument, up to a byte that ends it. -/
theorem reach_parts (ps : List ArgPart) (x : UInt8) (hx : endsArg x = true) (r : Bytes) : PartsOk ps →
    (∀ a c, c.rest = argText ps ++ x :: r → ∃ st, IsArg a.pos (a.parts ++ ps) st ∧
      Reach (.argument a) c (argText ps) (x :: r) [] st) ∧
    ((∀ s' r, ps ≠ .unquoted (.literal s') :: r) →
      ∀ v a c, c.rest = argText ps ++ x :: r → ∃ st, IsArg a.pos (a.parts ++ [.unquoted (.literal v)] ++ ps) st ∧
      Reach (.unquotedWord ⟨v, none, true⟩ a) c (argText ps) (x :: r) [] st) := by
  induction ps with
  | nil =>
    intro _
    refine ⟨?_, ?_⟩
    · intro a c hc
      exact ⟨.argument a, ⟨a.parts, a.allowHome, rfl, by simp⟩, .refl (by simpa [argText] using hc)⟩
    · intro _ v a c hc
      have hc' : c.rest = x :: r := by simpa [argText] using hc
      have : ∀ x : UInt8, endsArg x = true → argIsWord x = false := forall_byte (by decide +kernel)
      exact ⟨_, ⟨_, a.allowHome, rfl, by simp⟩, reach_word_done (y := x) (this x hx) hc'⟩
  | cons q ps ih =>
    intro hok
    -- from a word to an argument when the next byte ends the word
    have viaArg : (∀ a c, c.rest = argText (q :: ps) ++ x :: r → ∃ st, IsArg a.pos (a.parts ++ q :: ps) st ∧
        Reach (.argument a) c (argText (q :: ps)) (x :: r) [] st) →
        (∃ y ys, argText (q :: ps) ++ x :: r = y :: ys ∧ argIsWord y = false) →
        ∀ v a c, c.rest = argText (q :: ps) ++ x :: r →
          ∃ st, IsArg a.pos (a.parts ++ [.unquoted (.literal v)] ++ q :: ps) st ∧
          Reach (.unquotedWord ⟨v, none, true⟩ a) c (argText (q :: ps)) (x :: r) [] st := by
      intro h1 ⟨y, ys, hy, hw⟩ v a c hc
      rw [hy] at hc
      have := Reach.ex_bind (P := IsArg a.pos (a.parts ++ [.unquoted (.literal v)] ++ q :: ps))
        (txt' := argText (q :: ps)) (r' := x :: r) (reach_word_done (v := v) (a := a) hw hc) ?_
      · simpa using this
      · intro c' _ hc'
        rw [← hy] at hc'
        exact h1 { a with parts := a.parts ++ [.unquoted (.literal v)] } c' hc'
    -- from an argument, one part at a time
    have next : ∀ (q' : ArgPart) (a : ArgSt) (c : Cursor), PartsOk ps → q'.erase = q.erase →
        Reach (.argument a) c (partText q) (argText ps ++ x :: r) []
          (.argument { a with allowHome := false, parts := a.parts ++ [q'] }) →
        ∃ st, IsArg a.pos (a.parts ++ q :: ps) st ∧ Reach (.argument a) c (argText (q :: ps)) (x :: r) [] st := by
      intro q' a c hps he hr
      have := Reach.ex_bind (P := IsArg a.pos (a.parts ++ q :: ps)) (txt' := argText ps) (r' := x :: r) hr ?_
      · simpa [argText] using this
      · intro c' _ hc'
        obtain ⟨st, h1, h2⟩ := (ih hps).1 { a with allowHome := false, parts := a.parts ++ [q'] } c' hc'
        exact ⟨st, h1.congr (by simp [he]), h2⟩
    match q, hok with
    | .unquoted (.literal s), ⟨hne, hw, hps, hadj⟩ =>
      refine ⟨?_, fun h => absurd rfl (h s ps)⟩
      intro a c hc
      cases s with
      | nil => exact absurd rfl hne
      | cons b s =>
        have hb : unqForbidden b = false := by
          simp only [List.all_cons, Bool.and_eq_true] at hw
          simpa using hw.1
        obtain ⟨y, ys, hy, _, w1, w2, w3, w4, w5, w6⟩ := unq_head (s := s) (argText ps ++ x :: r) hb
        have hc1 : c.rest = (b :: s).flatMap unqByte ++ (argText ps ++ x :: r) := by
          simpa [argText, partText] using hc
        have hcy : c.rest = y :: ys := by rw [hc1, hy]
        have r1 : Reach (.argument a) c ((b :: s).flatMap unqByte) (argText ps ++ x :: r) []
            (.unquotedWord ⟨b :: s, none, true⟩ { a with allowHome := false }) := by
          refine Reach.bind (txt := []) (o := []) (.res hcy (st' := .unquotedWord .fresh { a with allowHome := false }) ?_) ?_
          · simp [State.visit, visitArgument, Cursor.peek_cons hcy, w1, w2, w3, w4, w5, w6, Transition.resume]
          intro c1 _ hc1'
          rw [← hy] at hc1'
          exact reach_unq_body (b :: s) (v := []) hw hc1'
        have := Reach.ex_bind (P := IsArg a.pos (a.parts ++ .unquoted (.literal (b :: s)) :: ps))
          (txt' := argText ps) (r' := x :: r) r1 ?_
        · have e : argText (.unquoted (.literal (b :: s)) :: ps) = (b :: s).flatMap unqByte ++ argText ps := by
            simp [argText, partText]
          rw [e]; exact this
        · intro c' _ hc'
          obtain ⟨st, h1, h2⟩ := (ih hps).2 hadj (b :: s) { a with allowHome := false } c' hc'
          exact ⟨st, h1.congr (by simp), h2⟩
    | .unquoted (.dollar s p), ⟨hid, hps⟩ =>
      have h1 : ∀ (a : ArgSt) (c : Cursor), c.rest = argText (.unquoted (.dollar s p) :: ps) ++ x :: r → ∃ st,
          IsArg a.pos (a.parts ++ .unquoted (.dollar s p) :: ps) st ∧ Reach (.argument a) c (argText (.unquoted (.dollar s p) :: ps)) (x :: r) [] st :=
        fun a c hc =>
        next (.unquoted (.dollar s c.pos)) a c hps (by simp [ArgPart.erase, ArgUnit.erase])
          (reach_unq_dollar hid (by simpa [argText, partText] using hc))
      exact ⟨h1, fun _ => viaArg h1 ⟨cDollar, _, by simp [argText, partText]; rfl, by decide⟩⟩
    | .singleQuoted s, hps =>
      have h1 : ∀ (a : ArgSt) (c : Cursor), c.rest = argText (.singleQuoted s :: ps) ++ x :: r → ∃ st,
          IsArg a.pos (a.parts ++ .singleQuoted s :: ps) st ∧ Reach (.argument a) c (argText (.singleQuoted s :: ps)) (x :: r) [] st :=
        fun a c hc =>
        next (.singleQuoted s) a c hps rfl
          (reach_singleQuoted (by simpa [argText, partText] using hc))
      exact ⟨h1, fun _ => viaArg h1 ⟨cSQuote, _, by simp [argText, partText]; rfl, by decide⟩⟩
    | .doubleQuoted us, ⟨hus, hps⟩ =>
      have h1 : ∀ a c, c.rest = argText (.doubleQuoted us :: ps) ++ x :: r → ∃ st, IsArg a.pos (a.parts ++ .doubleQuoted us :: ps) st ∧
          Reach (.argument a) c (argText (.doubleQuoted us :: ps)) (x :: r) [] st := by
        intro a c hc
        obtain ⟨us', he, hr⟩ := reach_doubleQuoted (us := us) (a := a) (c := c) (r := argText ps ++ x :: r) hus
          (by simpa [argText, partText] using hc)
        exact next (.doubleQuoted us') a c hps (by simp [ArgPart.erase, he]) hr
      exact ⟨h1, fun _ => viaArg h1 ⟨cDQuote, _, by simp [argText, partText]; rfl, by decide⟩⟩
    | .expansion .star, hps =>
      refine ⟨fun a c hc => next (.expansion .star) a c hps rfl
          (reach_arg_star (by simpa [argText, partText] using hc)), ?_⟩
      intro _ v a c hc
      have := Reach.ex_bind (P := IsArg a.pos (a.parts ++ [.unquoted (.literal v)] ++ .expansion .star :: ps))
        (txt' := argText ps) (r' := x :: r) (reach_word_star (v := v) (a := a) (c := c) (r := argText ps ++ x :: r)
          (by simpa [argText, partText] using hc)) ?_
      · simpa [argText, partText] using this
      · intro c' _ hc'
        obtain ⟨st, h1, h2⟩ := (ih hps).1 { a with parts := a.parts ++ [.unquoted (.literal v), .expansion .star] } c' hc'
        exact ⟨st, h1.congr (by simp), h2⟩
    | .expansion .percent, hps =>
      refine ⟨fun a c hc => next (.expansion .percent) a c hps rfl
          (reach_arg_percent (by simpa [argText, partText] using hc)), ?_⟩
      intro _ v a c hc
      have := Reach.ex_bind (P := IsArg a.pos (a.parts ++ [.unquoted (.literal v)] ++ .expansion .percent :: ps))
        (txt' := argText ps) (r' := x :: r) (reach_word_percent (v := v) (a := a) (c := c) (r := argText ps ++ x :: r)
          (by simpa [argText, partText] using hc)) ?_
      · simpa [argText, partText] using this
      · intro c' _ hc'
        obtain ⟨st, h1, h2⟩ := (ih hps).1 { a with parts := a.parts ++ [.unquoted (.literal v), .expansion .percent] } c' hc'
        exact ⟨st, h1.congr (by simp), h2⟩
    | .envAssign, hps =>
      have h1 : ∀ (a : ArgSt) (c : Cursor), c.rest = argText (.envAssign :: ps) ++ x :: r → ∃ st,
          IsArg a.pos (a.parts ++ .envAssign :: ps) st ∧ Reach (.argument a) c (argText (.envAssign :: ps)) (x :: r) [] st :=
        fun a c hc =>
        next .envAssign a c hps rfl (reach_arg_eq (by simpa [argText, partText] using hc))
      exact ⟨h1, fun _ => viaArg h1 ⟨cEq, _, by simp [argText, partText]; rfl, by decide⟩⟩

end Hush

import Verif.Lemmas.LexTerm

/-! The lexer's behaviour does not depend on what follows the part it has read, nor on positions:
a simulation relation between two runs. -/

namespace Hush

/-- Forget source positions. -/
def ArgUnit.erase : ArgUnit → ArgUnit
  | .literal s => .literal s
  | .dollar s _ => .dollar s ⟨0, 0⟩

/-- Forget source positions. -/
def ArgExpansion.erase : ArgExpansion → ArgExpansion
  | .collection us => .collection (us.map ArgUnit.erase)
  | e => e

/-- Forget source positions. -/
def ArgPart.erase : ArgPart → ArgPart
  | .unquoted u => .unquoted u.erase
  | .doubleQuoted us => .doubleQuoted (us.map ArgUnit.erase)
  | .expansion e => .expansion e.erase
  | p => p

/-- Forget source positions. -/
def TokenKind.erase : TokenKind → TokenKind
  | .argument ps => .argument (ps.map ArgPart.erase)
  | k => k

/-- What a lexer output says apart from source positions. -/
def Output.kind : Output → Except LexErrorKind TokenKind
  | .ok t => .ok t.kind.erase
  | .error e => .error e.error

/-- Two cursors with the same text up to the end of the first one's input. -/
structure CRel (suf : Bytes) (d N : Nat) (c c' : Cursor) : Prop where
  rest : c'.rest = c.rest ++ suf
  off : c'.offset = c.offset + d
  total : c.offset + c.rest.length = N

/-- Lift a relation to options. -/
inductive ORel (R : Cursor → Cursor → Prop) : Option Cursor → Option Cursor → Prop
  | none : ORel R none none
  | some {a b} : R a b → ORel R (some a) (some b)

/-- Argument states equal up to positions. -/
structure ARel (a a' : ArgSt) : Prop where
  parts : a'.parts.map ArgPart.erase = a.parts.map ArgPart.erase
  home : a'.allowHome = a.allowHome

section
variable (suf : Bytes) (d N : Nat)

structure WRel (w w' : WordSt) : Prop where
  value : w'.value = w.value
  esc : ORel (CRel suf d N) w.escaping w'.escaping
  allow : w'.allowExpansionStart = w.allowExpansionStart

structure DRel (w w' : DollarSt) : Prop where
  start : ORel (CRel suf d N) w.start w'.start
  braces : w'.braces = w.braces
  error : w'.error = w.error

structure ERel (w w' : ExpSt) : Prop where
  start : CRel suf d N w.start w'.start
  home : w'.allowHome = w.allowHome
  tilde : w'.tildeConsumed = w.tildeConsumed

inductive StRel : State → State → Prop
  | root : StRel .root .root
  | comment : StRel .comment .comment
  | number {s s' d' e} : CRel suf d N s s' → StRel (.number s d' e) (.number s' d' e)
  | byteLit {v e e' p p'} : ORel (CRel suf d N) e e' → StRel (.byteLit v e p) (.byteLit v e' p')
  | stringLit {v e e' p p'} : ORel (CRel suf d N) e e' → StRel (.stringLit v e p) (.stringLit v e' p')
  | word {s s'} : CRel suf d N s s' → StRel (.word s) (.word s')
  | symbol {f p p'} : StRel (.symbol f p) (.symbol f p')
  | command : StRel .command .command
  | commandComment : StRel .commandComment .commandComment
  | argument {a a'} : ARel a a' → StRel (.argument a) (.argument a')
  | expansion {e e' a a'} : ERel suf d N e e' → ARel a a' → StRel (.expansion e a) (.expansion e' a')
  | expansionWord {e e' w w' a a'} : ERel suf d N e e' → WRel suf d N w w' → ARel a a' →
      StRel (.expansionWord e w a) (.expansionWord e' w' a')
  | singleQuoted {v a a'} : ARel a a' → StRel (.singleQuoted v a) (.singleQuoted v a')
  | doubleQuoted {v v' a a'} : v'.map ArgUnit.erase = v.map ArgUnit.erase → ARel a a' →
      StRel (.doubleQuoted v a) (.doubleQuoted v' a')
  | unquotedWord {w w' a a'} : WRel suf d N w w' → ARel a a' → StRel (.unquotedWord w a) (.unquotedWord w' a')
  | singleQuotedWord {w w' v a a'} : WRel suf d N w w' → ARel a a' →
      StRel (.singleQuotedWord w v a) (.singleQuotedWord w' v a')
  | doubleQuotedWord {w w' v v' a a'} : WRel suf d N w w' → v'.map ArgUnit.erase = v.map ArgUnit.erase →
      ARel a a' → StRel (.doubleQuotedWord w v a) (.doubleQuotedWord w' v' a')
  | dollar {d₁ d₂ a a'} : DRel suf d N d₁ d₂ → ARel a a' → StRel (.dollar d₁ a) (.dollar d₂ a')
  | quotedDollar {d₁ d₂ v v' a a'} : DRel suf d N d₁ d₂ → v'.map ArgUnit.erase = v.map ArgUnit.erase →
      ARel a a' → StRel (.quotedDollar d₁ v a) (.quotedDollar d₂ v' a')
  | commandSymbol {f p p'} : StRel (.commandSymbol f p) (.commandSymbol f p')

/-- Related transitions, from related cursors. -/
structure TRel (c c' : Cursor) (t t' : Transition) : Prop where
  state : StRel suf d N t.state t'.state
  cursor : CRel suf d N (t.step.apply c) (t'.step.apply c')
  output : t'.output.map Output.kind = t.output.map Output.kind

end

variable {suf : Bytes} {d N : Nat} {c c' : Cursor}

theorem CRel.step (h : CRel suf d N c c') (hp : c'.peek = c.peek) : CRel suf d N c.step c'.step := by
  obtain ⟨h1, h2, h3⟩ := h
  obtain ⟨r, o, p⟩ := c
  obtain ⟨r', o', p'⟩ := c'
  simp only at h1 h2 h3
  subst h1 h2
  cases r with
  | nil =>
    cases suf with
    | nil => exact ⟨rfl, rfl, h3⟩
    | cons x xs => simp [Cursor.peek] at hp
  | cons x xs =>
    refine ⟨by simp [Cursor.step], by simp [Cursor.step]; omega, by simp [Cursor.step] at h3 ⊢; omega⟩

theorem CRel.slice {s s' : Cursor} (hs : CRel suf d N s s') (h : CRel suf d N c c') :
    s'.slice c' = s.slice c := by
  unfold Cursor.slice
  rw [hs.rest, hs.off, h.off, List.take_append_of_le_length]
  · congr 1; omega
  · have := hs.total; have := h.total; omega

theorem CRel.sliceIncl {s s' : Cursor} (hs : CRel suf d N s s') (h : CRel suf d N c c') {x}
    (hp : c.peek = some x) : s'.sliceIncl c' = s.sliceIncl c := by
  unfold Cursor.sliceIncl
  rw [hs.rest, hs.off, h.off, List.take_append_of_le_length]
  · congr 1; omega
  · have := hs.total; have := h.total; have := Cursor.peek_some_len hp; omega

theorem TRel.fwd {s s' : State} {o o'} (h : CRel suf d N c c') (hp : c'.peek = c.peek)
    (hs : StRel suf d N s s') (ho : o'.map Output.kind = o.map Output.kind) :
    TRel suf d N c c' ⟨s, .forward, o⟩ ⟨s', .forward, o'⟩ := ⟨hs, h.step hp, ho⟩

theorem TRel.res {s s' : State} {o o'} (h : CRel suf d N c c')
    (hs : StRel suf d N s s') (ho : o'.map Output.kind = o.map Output.kind) :
    TRel suf d N c c' ⟨s, .resume, o⟩ ⟨s', .resume, o'⟩ := ⟨hs, h, ho⟩

theorem TRel.roll {s s' : State} {k k'} (h : CRel suf d N k k')
    (hs : StRel suf d N s s') :
    TRel suf d N c c' ⟨s, .rollback k, none⟩ ⟨s', .rollback k', none⟩ := ⟨hs, h, rfl⟩

theorem ARel.push {a a' : ArgSt} (h : ARel a a') {p p' : List ArgPart}
    (hp : p'.map ArgPart.erase = p.map ArgPart.erase) :
    ARel { a with parts := a.parts ++ p } { a' with parts := a'.parts ++ p' } :=
  ⟨by simp [h.parts, hp], h.home⟩

theorem ARel.noHome {a a' : ArgSt} (h : ARel a a') :
    ARel { a with allowHome := false } { a' with allowHome := false } := ⟨h.parts, rfl⟩

theorem WRel.fresh : WRel suf d N .fresh .fresh := ⟨rfl, .none, rfl⟩

theorem rel_root (h : CRel suf d N c c') (hp : c'.peek = c.peek) :
    TRel suf d N c c' (visitRoot c) (visitRoot c') := by
  unfold visitRoot Transition.fwd Transition.resume Transition.error Transition.produce
  rw [hp]
  cases hc : c.peek with
  | none => exact TRel.fwd h hp .root rfl
  | some x =>
    simp only
    repeat' split
    · exact TRel.fwd h hp .root rfl
    · exact TRel.fwd h hp .comment rfl
    · exact TRel.fwd h hp (.stringLit .none) rfl
    · exact TRel.fwd h hp (.byteLit .none) rfl
    · exact TRel.fwd h hp (.number h) rfl
    · exact TRel.res h (.word h) rfl
    · exact TRel.fwd h hp .root rfl
    · exact TRel.fwd h hp .command rfl
    · exact TRel.fwd h hp .root rfl
    · exact TRel.fwd h hp .symbol rfl

theorem rel_comment {s s' b b'} (hs : StRel suf d N s s') (hb : StRel suf d N b b')
    (h : CRel suf d N c c') (hp : c'.peek = c.peek) :
    TRel suf d N c c' (visitComment s b c) (visitComment s' b' c') := by
  unfold visitComment Transition.fwd Transition.resume
  rw [hp]
  split
  · exact TRel.res h hb rfl
  · exact TRel.fwd h hp hs rfl

theorem rel_number {s s' de e} (hs : CRel suf d N s s')
    (h : CRel suf d N c c') (hp : c'.peek = c.peek) :
    TRel suf d N c c' (visitNumber s de e c) (visitNumber s' de e c') := by
  unfold visitNumber Transition.fwd Transition.error Transition.resumeProduce parseNumber
  rw [hp, hs.slice h]
  simp only
  repeat' split
  all_goals first
    | exact TRel.fwd h hp (.number hs) rfl
    | exact TRel.fwd h hp .root rfl
    | exact TRel.res h .root rfl
    | skip
  all_goals simp_all

theorem rel_byte {v e e' p p'} (he : ORel (CRel suf d N) e e')
    (h : CRel suf d N c c') (hp : c'.peek = c.peek) :
    TRel suf d N c c' (visitByteLit v e p c) (visitByteLit v e' p' c') := by
  unfold visitByteLit Transition.fwd Transition.error Transition.produce
  rw [hp]
  cases hc : c.peek with
  | none => exact TRel.fwd h hp .root rfl
  | some x =>
    simp only
    cases v with
    | some v =>
      simp only
      split
      · exact TRel.fwd h hp .root rfl
      · exact TRel.fwd h hp (.byteLit he) rfl
    | none =>
      cases he with
      | none =>
        simp only
        repeat' split
        · exact TRel.fwd h hp (.byteLit (.some h)) rfl
        · exact TRel.fwd h hp .root rfl
        · exact TRel.fwd h hp (.byteLit .none) rfl
      | some he =>
        simp only
        split
        · exact TRel.fwd h hp (.byteLit .none) rfl
        · exact TRel.fwd h hp (.byteLit .none) (by simp [Output.kind, he.sliceIncl h hc])

theorem rel_string {v e e' p p'} (he : ORel (CRel suf d N) e e')
    (h : CRel suf d N c c') (hp : c'.peek = c.peek) :
    TRel suf d N c c' (visitStringLit v e p c) (visitStringLit v e' p' c') := by
  unfold visitStringLit Transition.fwd Transition.error Transition.produce
  rw [hp]
  cases hc : c.peek with
  | none => exact TRel.fwd h hp .root rfl
  | some x =>
    simp only
    cases he with
    | none =>
      simp only
      repeat' split
      · exact TRel.fwd h hp (.stringLit (.some h)) rfl
      · exact TRel.fwd h hp .root rfl
      · exact TRel.fwd h hp (.stringLit .none) rfl
    | some he =>
      simp only
      split
      · exact TRel.fwd h hp (.stringLit .none) rfl
      · exact TRel.fwd h hp (.stringLit .none) (by simp [Output.kind, he.sliceIncl h hc])

theorem rel_word {s s'} (hs : CRel suf d N s s')
    (h : CRel suf d N c c') (hp : c'.peek = c.peek) :
    TRel suf d N c c' (visitWord s c) (visitWord s' c') := by
  unfold visitWord Transition.fwd Transition.resumeProduce
  rw [hp]
  split
  · exact TRel.fwd h hp (.word hs) rfl
  · exact TRel.res h .root (by simp [Output.kind, hs.slice h])

/-- Both visits panic, or both make related transitions. -/
inductive VRel (suf : Bytes) (d N : Nat) (c c' : Cursor) : Option Transition → Option Transition → Prop
  | none : VRel suf d N c c' none none
  | some {t t'} : TRel suf d N c c' t t' → VRel suf d N c c' (some t) (some t')

theorem rel_symbol {f p p'} (h : CRel suf d N c c') (hp : c'.peek = c.peek) :
    VRel suf d N c c' (visitSymbol f p c) (visitSymbol f p' c') := by
  unfold visitSymbol Transition.resumeError Transition.resumeProduce Transition.produce
  rw [hp]
  simp only
  repeat' split
  all_goals first
    | exact VRel.none
    | exact VRel.some (TRel.fwd h hp .root rfl)
    | exact VRel.some (TRel.res h .root rfl)
    | exact VRel.some (TRel.fwd h hp .command rfl)

theorem rel_cmdsymbol {f p p'} (h : CRel suf d N c c') (hp : c'.peek = c.peek) :
    VRel suf d N c c' (visitCommandSymbol f p c) (visitCommandSymbol f p' c') := by
  unfold visitCommandSymbol Transition.resumeProduce Transition.produce
  rw [hp]
  simp only
  repeat' split
  all_goals first
    | exact VRel.none
    | exact VRel.some (TRel.fwd h hp .command rfl)
    | exact VRel.some (TRel.res h .command rfl)

theorem rel_command (h : CRel suf d N c c') (hp : c'.peek = c.peek) :
    TRel suf d N c c' (visitCommand c) (visitCommand c') := by
  unfold visitCommand Transition.fwd Transition.resume Transition.error Transition.produce
  rw [hp]
  cases hc : c.peek with
  | none => exact TRel.fwd h hp .root rfl
  | some x =>
    simp only
    repeat' split
    · exact TRel.fwd h hp .command rfl
    · exact TRel.fwd h hp .commandComment rfl
    · exact TRel.fwd h hp .root rfl
    · exact TRel.res h (.argument ⟨rfl, rfl⟩) rfl
    · exact TRel.fwd h hp .command rfl
    · exact TRel.fwd h hp .commandSymbol rfl

theorem rel_argument {a a'} (ha : ARel a a') (h : CRel suf d N c c') (hp : c'.peek = c.peek) :
    TRel suf d N c c' (visitArgument a c) (visitArgument a' c') := by
  unfold visitArgument Transition.fwd Transition.resume Transition.resumeProduce
  rw [hp]
  have hend : ∀ s s', StRel suf d N s s' → TRel suf d N c c' ⟨s, .resume, some (.ok ⟨.argument a.parts, a.pos⟩)⟩
      ⟨s', .resume, some (.ok ⟨.argument a'.parts, a'.pos⟩)⟩ :=
    fun s s' hs => TRel.res h hs (by simp [Output.kind, TokenKind.erase, ha.parts])
  cases hc : c.peek with
  | none => exact hend _ _ .command
  | some x =>
    simp only
    repeat' split
    · exact TRel.fwd h hp (.dollar ⟨.none, rfl, rfl⟩ ha.noHome) rfl
    · exact TRel.fwd h hp (.singleQuoted ha.noHome) rfl
    · exact TRel.fwd h hp (.doubleQuoted rfl ha.noHome) rfl
    · exact TRel.fwd h hp (.argument (ha.noHome.push rfl)) rfl
    · exact TRel.res h (.expansion ⟨h, ha.home, rfl⟩ ha.noHome) rfl
    · exact TRel.res h (.unquotedWord WRel.fresh ha.noHome) rfl
    · exact hend _ _ .command

theorem rel_expansion {e e' : ExpSt} {mk mk' prod prod' roll roll'} (he : ERel suf d N e e')
    (hmk : ∀ x x', ERel suf d N x x' → StRel suf d N (mk x) (mk' x'))
    (hprod : ∀ x, TRel suf d N c c' (prod x) (prod' x))
    (hroll : TRel suf d N c c' (roll e.start) (roll' e'.start))
    (h : CRel suf d N c c') (hp : c'.peek = c.peek) :
    VRel suf d N c c' (visitExpansion e mk prod roll c) (visitExpansion e' mk' prod' roll' c') := by
  unfold visitExpansion Transition.fwd
  rw [hp]
  cases hc : c.peek with
  | none => exact VRel.some hroll
  | some x =>
    simp only [he.home, he.tilde]
    repeat' split
    all_goals first
      | exact VRel.none
      | exact VRel.some hroll
      | exact VRel.some (hprod _)
      | exact VRel.some (TRel.fwd h hp (hmk _ _ ⟨he.start, rfl, rfl⟩) rfl)

theorem rel_argWord {w w' : WordSt} {mk mk' isW esc es es' done done'} (hw : WRel suf d N w w')
    (hmk : ∀ x x', WRel suf d N x x' → StRel suf d N (mk x) (mk' x'))
    (hes : ∀ x, (es w x = none ∧ es' w' x = none) ∨
      ∃ t t', es w x = some t ∧ es' w' x = some t' ∧ TRel suf d N c c' t t')
    (hdone : ∀ v, TRel suf d N c c' (done v) (done' v))
    (h : CRel suf d N c c') (hp : c'.peek = c.peek) :
    TRel suf d N c c' (visitArgWord w mk isW esc es done c) (visitArgWord w' mk' isW esc es' done' c') := by
  unfold visitArgWord Transition.fwd Transition.error
  obtain ⟨v, e, al⟩ := w
  obtain ⟨v', e', al'⟩ := w'
  obtain ⟨h1, h2, h3⟩ := hw
  simp only at h1 h2 h3
  subst h1 h3
  rw [hp]
  cases hc : c.peek with
  | none => exact hdone _
  | some x =>
    cases h2 with
    | none =>
      simp only
      split
      · exact TRel.fwd h hp (hmk _ _ ⟨rfl, .some h, rfl⟩) rfl
      split
      · rcases hes x with ⟨h1, h2⟩ | ⟨t, t', h1, h2, h3⟩
        · rw [h1, h2]; exact TRel.fwd h hp (hmk _ _ ⟨rfl, .none, rfl⟩) rfl
        · rw [h1, h2]; exact h3
      split
      · exact TRel.fwd h hp (hmk _ _ ⟨rfl, .none, rfl⟩) rfl
      · exact hdone _
    | some he =>
      simp only
      split
      · exact TRel.fwd h hp (hmk _ _ ⟨rfl, .none, rfl⟩) rfl
      · exact TRel.fwd h hp (hmk _ _ ⟨rfl, .some he, rfl⟩) (by simp [Output.kind, he.sliceIncl h hc])

theorem rel_singleQuoted {v a a'} (ha : ARel a a') (h : CRel suf d N c c') (hp : c'.peek = c.peek) :
    TRel suf d N c c' (visitSingleQuoted v a c) (visitSingleQuoted v a' c') := by
  unfold visitSingleQuoted Transition.fwd Transition.resume Transition.error
  rw [hp]
  cases hc : c.peek with
  | none => exact TRel.fwd h hp (.argument ha) rfl
  | some x =>
    simp only
    split
    · exact TRel.fwd h hp (.argument (ha.push rfl)) rfl
    · exact TRel.res h (.singleQuotedWord WRel.fresh ha) rfl

theorem rel_doubleQuoted {v v' a a'} (hv : v'.map ArgUnit.erase = v.map ArgUnit.erase) (ha : ARel a a')
    (h : CRel suf d N c c') (hp : c'.peek = c.peek) :
    TRel suf d N c c' (visitDoubleQuoted v a c) (visitDoubleQuoted v' a' c') := by
  unfold visitDoubleQuoted Transition.fwd Transition.resume Transition.error
  rw [hp]
  cases hc : c.peek with
  | none => exact TRel.fwd h hp (.argument ha) rfl
  | some x =>
    simp only
    repeat' split
    · exact TRel.fwd h hp (.argument (ha.push (by simp [ArgPart.erase, hv]))) rfl
    · exact TRel.fwd h hp (.quotedDollar ⟨.none, rfl, rfl⟩ hv ha) rfl
    · exact TRel.res h (.doubleQuotedWord WRel.fresh hv ha) rfl

theorem rel_dollar {x x' : DollarSt} {mk mk' add add' ctx ctx'} (hx : DRel suf d N x x')
    (hmk : ∀ x x', DRel suf d N x x' → StRel suf d N (mk x) (mk' x'))
    (hadd : ∀ s, StRel suf d N (add s) (add' s))
    (hctx : StRel suf d N ctx ctx')
    (h : CRel suf d N c c') (hp : c'.peek = c.peek) :
    TRel suf d N c c' (visitDollar x mk add ctx c) (visitDollar x' mk' add' ctx' c') := by
  have hprod : ∀ b, TRel suf d N c c' (dollarProduce x add ctx b c) (dollarProduce x' add' ctx' b c') := by
    intro b
    have hid : x'.ident c' = x.ident c := by
      unfold DollarSt.ident
      have := hx.start
      revert this
      cases x.start <;> cases x'.start <;> intro this
      · rfl
      · cases this
      · cases this
      · cases this; rename_i hh; exact hh.slice h
    unfold dollarProduce Transition.fwd Transition.error Transition.resume Transition.resumeError
    simp only [hid, hx.error]
    split
    · exact TRel.fwd h hp hctx rfl
    split
    · split
      · exact TRel.fwd h hp (hadd _) rfl
      · exact TRel.res h (hadd _) rfl
    · split
      · exact TRel.fwd h hp hctx rfl
      · exact TRel.res h hctx rfl
  have hsn : x'.start = none ↔ x.start = none := by
    have := hx.start
    revert this
    cases x.start <;> cases x'.start <;> intro this <;> first | (cases this; done) | simp
  unfold visitDollar Transition.fwd Transition.error
  rw [hp]
  cases hc : c.peek with
  | none =>
    simp only [hx.braces]
    split
    · exact TRel.fwd h hp hctx rfl
    · exact hprod _
  | some y =>
    simp only [hx.braces, hx.error, hsn]
    split
    · exact TRel.fwd h hp (hmk _ _ ⟨hx.start, rfl, rfl⟩) rfl
    split
    · exact hprod _
    split
    · exact TRel.fwd h hp (hmk _ _ ⟨.some h, rfl, rfl⟩) rfl
    split
    · split
      · exact hprod _
      · exact TRel.fwd h hp (hmk _ _ ⟨hx.start, hx.braces, hx.error⟩) rfl
    · exact TRel.fwd h hp (hmk _ _ ⟨hx.start, rfl, rfl⟩) rfl

theorem rel_visit {s s' : State} (hs : StRel suf d N s s') (h : CRel suf d N c c') (hp : c'.peek = c.peek) :
    VRel suf d N c c' (s.visit c) (s'.visit c') := by
  cases hs with
  | root => exact .some (rel_root h hp)
  | comment => exact .some (rel_comment .comment .root h hp)
  | number hs => exact .some (rel_number hs h hp)
  | byteLit he => exact .some (rel_byte he h hp)
  | stringLit he => exact .some (rel_string he h hp)
  | word hs => exact .some (rel_word hs h hp)
  | symbol => exact rel_symbol h hp
  | command => exact .some (rel_command h hp)
  | commandComment => exact .some (rel_comment .commandComment .command h hp)
  | argument ha => exact .some (rel_argument ha h hp)
  | expansion he ha =>
    exact rel_expansion he (fun _ _ hx => .expansion hx ha)
      (fun _ => TRel.fwd h hp (.argument (ha.push rfl)) rfl)
      (TRel.roll he.start (.unquotedWord WRel.fresh ha)) h hp
  | expansionWord he hw ha =>
    exact rel_expansion he (fun _ _ hx => .expansionWord hx hw ha)
      (fun _ => TRel.fwd h hp (.argument (ha.push (by simp [hw.value]))) rfl)
      (TRel.roll he.start (.unquotedWord ⟨hw.value, hw.esc, rfl⟩ ha)) h hp
  | singleQuoted ha => exact .some (rel_singleQuoted ha h hp)
  | doubleQuoted hv ha => exact .some (rel_doubleQuoted hv ha h hp)
  | unquotedWord hw ha =>
    refine .some (rel_argWord hw (fun _ _ hx => .unquotedWord hx ha) ?_
      (fun _ => TRel.res h (.argument (ha.push rfl)) rfl) h hp)
    intro x
    by_cases hx : isExpansionStart x
    · right
      simp only [hx, if_true]
      exact ⟨_, _, rfl, rfl, TRel.res h (.expansionWord ⟨h, rfl, rfl⟩ hw ha) rfl⟩
    · left; simp [hx]
  | singleQuotedWord hw ha =>
    exact .some (rel_argWord hw (fun _ _ hx => .singleQuotedWord hx ha) (fun _ => Or.inl ⟨rfl, rfl⟩)
      (fun _ => TRel.res h (.singleQuoted ha) rfl) h hp)
  | doubleQuotedWord hw hv ha =>
    exact .some (rel_argWord hw (fun _ _ hx => .doubleQuotedWord hx hv ha) (fun _ => Or.inl ⟨rfl, rfl⟩)
      (fun _ => TRel.res h (.doubleQuoted (by simp [hv]) ha) rfl) h hp)
  | dollar hd ha =>
    exact .some (rel_dollar hd (fun _ _ hx => .dollar hx ha)
      (fun _ => .argument (ha.push (by simp [ArgPart.erase, ArgUnit.erase]))) (.argument ha) h hp)
  | quotedDollar hd hv ha =>
    exact .some (rel_dollar hd (fun _ _ hx => .quotedDollar hx hv ha)
      (fun _ => .doubleQuoted (by simp [hv, ArgUnit.erase]) ha) (.doubleQuoted hv ha) h hp)
  | commandSymbol => exact rel_cmdsymbol h hp

/-- Related automaton states. -/
structure LRel (suf : Bytes) (d N : Nat) (s s' : LexSt) : Prop where
  state : StRel suf d N s.state s'.state
  cursor : CRel suf d N s.cursor s'.cursor

end Hush

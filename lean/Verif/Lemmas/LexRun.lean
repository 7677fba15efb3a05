import Verif.Lemmas.LexRel

/-! Runs of the lexer: composition of runs over consecutive pieces of text. -/

namespace Hush

/-- What a run of the lexer shows apart from positions: `none` for an exhausted budget, otherwise whether
it ended normally (as opposed to aborting) and the outputs. -/
def LexResult.kinds : LexResult → Option (Bool × List (Except LexErrorKind TokenKind))
  | .done l => some (true, l.map Output.kind)
  | .crash l => some (false, l.map Output.kind)
  | .timeout => none

/-- Put outputs in front. -/
def prependKinds (ks : List (Except LexErrorKind TokenKind)) :
    Option (Bool × List (Except LexErrorKind TokenKind)) → Option (Bool × List (Except LexErrorKind TokenKind))
  | some (b, l) => some (b, ks ++ l)
  | none => none

@[simp] theorem prependKinds_nil (r) : prependKinds [] r = r := by
  rcases r with _ | ⟨b, l⟩ <;> rfl

theorem prependKinds_append (a b r) : prependKinds (a ++ b) r = prependKinds a (prependKinds b r) := by
  rcases r with _ | ⟨b, l⟩ <;> simp [prependKinds]

theorem kinds_cons (o r) : (LexResult.cons o r).kinds = prependKinds [Output.kind o] r.kinds := by
  cases r <;> simp [LexResult.cons, LexResult.kinds, prependKinds]

/-- The automaton reads from one state to another without looking at the end of the input. -/
inductive Reads : LexSt → List Output → LexSt → Prop
  | refl (s) : Reads s [] s
  | cont {s s' t o} : s.cursor.rest ≠ [] → s.step = .continue s' → Reads s' o t → Reads s o t
  | emit {s s' t x o} : s.cursor.rest ≠ [] → s.step = .emit x s' → Reads s' o t → Reads s (x :: o) t

theorem Reads.trans {a b c o₁ o₂} (h : Reads a o₁ b) (h' : Reads b o₂ c) : Reads a (o₁ ++ o₂) c := by
  induction h with
  | refl => exact h'
  | cont hr hs _ ih => exact .cont hr hs (ih h')
  | emit hr hs _ ih => exact .emit hr hs (ih h')

/-- The automaton steps from one state to another, possibly at the end of the input. -/
inductive Steps : LexSt → List Output → LexSt → Prop
  | refl (s) : Steps s [] s
  | cont {s s' t o} : s.step = .continue s' → Steps s' o t → Steps s o t
  | emit {s s' t x o} : s.step = .emit x s' → Steps s' o t → Steps s (x :: o) t

theorem Reads.steps {s o t} (h : Reads s o t) : Steps s o t := by
  induction h with
  | refl => exact .refl _
  | cont _ hs _ ih => exact .cont hs ih
  | emit _ hs _ ih => exact .emit hs ih

theorem Steps.trans {a b c o₁ o₂} (h : Steps a o₁ b) (h' : Steps b o₂ c) : Steps a (o₁ ++ o₂) c := by
  induction h with
  | refl => exact h'
  | cont hs _ ih => exact .cont hs (ih h')
  | emit hs _ ih => exact .emit hs (ih h')

theorem Steps.run {s o t} (h : Steps s o t) :
    ∃ k, ∀ n, (s.run (n + k)).kinds = prependKinds (o.map Output.kind) (t.run n).kinds := by
  induction h with
  | refl => exact ⟨0, fun n => by simp⟩
  | cont hs _ ih =>
    obtain ⟨k, hk⟩ := ih
    refine ⟨k + 1, fun n => ?_⟩
    rw [← Nat.add_assoc, LexSt.run, hs]
    exact hk n
  | emit hs _ ih =>
    obtain ⟨k, hk⟩ := ih
    refine ⟨k + 1, fun n => ?_⟩
    rw [← Nat.add_assoc, LexSt.run, hs]
    simp only [List.map_cons]
    rw [kinds_cons, hk, ← prependKinds_append]; rfl

theorem run_mono (n : Nat) : ∀ s : LexSt, s.run n ≠ .timeout → ∀ k, s.run (n + k) = s.run n := by
  induction n with
  | zero => intro s h; simp [LexSt.run] at h
  | succ n ih =>
    intro s h k
    rw [show n + 1 + k = (n + k) + 1 by omega]
    simp only [LexSt.run] at h ⊢
    cases hs : s.step with
    | «continue» s' => rw [hs] at h; exact ih s' h k
    | emit o s' =>
      rw [hs] at h
      simp only at h ⊢
      rw [ih s']
      intro hc; rw [hc] at h; exact h rfl
    | stop => rfl
    | crash => rfl

theorem run_eq {s : LexSt} {n m : Nat} (hn : s.run n ≠ .timeout) (hm : s.run m ≠ .timeout) :
    s.run n = s.run m := by
  rcases Nat.le_total n m with h | h
  · obtain ⟨k, rfl⟩ := Nat.exists_eq_add_of_le h
    exact (run_mono n s hn k).symm
  · obtain ⟨k, rfl⟩ := Nat.exists_eq_add_of_le h
    exact run_mono m s hm k

theorem LRel.step {suf d N s s'} (h : LRel suf d N s s') (hp : s'.cursor.peek = s.cursor.peek) :
    match s.step with
    | .continue t => ∃ t', s'.step = .continue t' ∧ LRel suf d N t t'
    | .emit o t => ∃ o' t', s'.step = .emit o' t' ∧ Output.kind o' = Output.kind o ∧ LRel suf d N t t'
    | .stop => s'.step = .stop
    | .crash => s'.step = .crash := by
  have hv := rel_visit h.state h.cursor hp
  have he : s'.cursor.isEof = s.cursor.isEof := by
    rw [Bool.eq_iff_iff, Cursor.isEof_peek, Cursor.isEof_peek, hp]
  unfold LexSt.step
  revert hv
  cases h1 : s.state.visit s.cursor <;> cases h2 : s'.state.visit s'.cursor <;> intro hv
  · simp
  · cases hv
  · cases hv
  · cases hv
    rename_i t t' ht
    have ho := ht.output
    simp only
    cases ho1 : t.output <;> cases ho2 : t'.output
    · simp only [he]
      cases s.cursor.isEof
      · simp only [Bool.false_eq_true, if_false]; exact ⟨_, rfl, ht.state, ht.cursor⟩
      · simp
    · simp [ho1, ho2] at ho
    · simp [ho1, ho2] at ho
    · simp only [ho1, ho2, Option.map_some, Option.some.injEq] at ho
      exact ⟨_, _, rfl, ho, ht.state, ht.cursor⟩

theorem LRel.peek {suf d N s s'} (h : LRel suf d N s s') (hr : s.cursor.rest ≠ [] ∨ suf = []) :
    s'.cursor.peek = s.cursor.peek := by
  unfold Cursor.peek
  rw [h.cursor.rest]
  rcases hr with hr | rfl
  · cases h : s.cursor.rest with
    | nil => exact absurd h hr
    | cons x xs => simp
  · simp

theorem Reads.rel {suf d N s s' o t} (h : Reads s o t) (hr : LRel suf d N s s') :
    ∃ o' t', Reads s' o' t' ∧ o'.map Output.kind = o.map Output.kind ∧ LRel suf d N t t' := by
  induction h generalizing s' with
  | refl => exact ⟨[], s', .refl _, rfl, hr⟩
  | cont hne hs _ ih =>
    have := hr.step (hr.peek (Or.inl hne))
    rw [hs] at this
    obtain ⟨t', h1, h2⟩ := this
    obtain ⟨o', u, h3, h4, h5⟩ := ih h2
    refine ⟨o', u, .cont ?_ h1 h3, h4, h5⟩
    rw [hr.cursor.rest]; simp [hne]
  | emit hne hs _ ih =>
    have := hr.step (hr.peek (Or.inl hne))
    rw [hs] at this
    obtain ⟨x', t', h1, hx, h2⟩ := this
    obtain ⟨o', u, h3, h4, h5⟩ := ih h2
    refine ⟨x' :: o', u, .emit ?_ h1 h3, by simp [hx, h4], h5⟩
    rw [hr.cursor.rest]; simp [hne]

theorem run_rel {d N} (n : Nat) : ∀ {s s'}, LRel [] d N s s' → (s'.run n).kinds = (s.run n).kinds := by
  induction n with
  | zero => intros; rfl
  | succ n ih =>
    intro s s' hr
    have := hr.step (hr.peek (Or.inr rfl))
    simp only [LexSt.run]
    cases hs : s.step with
    | «continue» t =>
      rw [hs] at this; obtain ⟨t', h1, h2⟩ := this
      rw [h1]; exact ih h2
    | emit o t =>
      rw [hs] at this; obtain ⟨o', t', h1, h2, h3⟩ := this
      rw [h1]; simp only; rw [kinds_cons, kinds_cons, h2, ih h3]
    | stop => rw [hs] at this; rw [this]
    | crash => rw [hs] at this; rw [this]

/-- The two states in which the lexer is between tokens. -/
def State.between : State → Prop
  | .root => True
  | .command => True
  | _ => False

theorem State.between.rel {s : State} (h : s.between) {suf d N} : StRel suf d N s s := by
  cases s <;> simp [State.between] at h <;> constructor

theorem StRel.between {s s' : State} {suf d N} (h : StRel suf d N s s') (hs : s.between) : s' = s := by
  cases h <;> simp [State.between] at hs <;> rfl

theorem State.between.inv {s : State} (h : s.between) (c) : s.Inv c := by
  cases s <;> simp [State.between] at h <;> simp [State.Inv]

theorem State.between.measure {s : State} (h : s.between) (i : Bytes) :
    LexSt.measure ⟨s, Cursor.start i⟩ < lexBudget i := by
  have := rank_lt s (Cursor.start i).peek
  cases s <;> simp [State.between] at h <;> simp [LexSt.measure, State.baseLen, lexBudget, Cursor.start] at * <;> omega

/-- Lexing `i` from a state between tokens. -/
def lexFrom (s : State) (i : Bytes) : LexResult := (⟨s, Cursor.start i⟩ : LexSt).run (lexBudget i)

theorem lexFrom_not_timeout {s : State} (h : s.between) (i) : lexFrom s i ≠ .timeout :=
  run_not_timeout _ _ (h.inv _) (h.measure i)

/-- Text `txt` takes the lexer from between-tokens state `s` to `s'` producing exactly `ks`, whatever
follows it. -/
def Piece (s : State) (txt : Bytes) (ks : List (Except LexErrorKind TokenKind)) (s' : State) : Prop :=
  ∃ o c, Reads ⟨s, Cursor.start txt⟩ o ⟨s', c⟩ ∧ c.rest = [] ∧ o.map Output.kind = ks

theorem Piece.nil (s) : Piece s [] [] s := ⟨[], Cursor.start [], .refl _, rfl, rfl⟩

/-- Reading a piece from any position, with any continuation. -/
theorem Piece.reads {s txt ks s'} (h : Piece s txt ks s') (hs : s.between) (hs' : s'.between)
    (post : Bytes) (c : Cursor) (hc : c.rest = txt ++ post) :
    ∃ o c', Reads ⟨s, c⟩ o ⟨s', c'⟩ ∧ c'.rest = post ∧ o.map Output.kind = ks := by
  obtain ⟨o, c₁, h1, h2, h3⟩ := h
  have hr : LRel post c.offset txt.length ⟨s, Cursor.start txt⟩ ⟨s, c⟩ :=
    ⟨hs.rel, ⟨hc, by simp [Cursor.start], by simp [Cursor.start]⟩⟩
  obtain ⟨o', t', h4, h5, h6⟩ := h1.rel hr
  obtain ⟨st, c₂⟩ := t'
  have := h6.state.between hs'
  simp only at this
  subst this
  refine ⟨o', c₂, h4, ?_, by rw [h5, h3]⟩
  have := h6.cursor.rest
  simpa [h2] using this

theorem Piece.append {s₁ s₂ s₃ a b k₁ k₂} (h : Piece s₁ a k₁ s₂) (h' : Piece s₂ b k₂ s₃)
    (hs₁ : s₁.between) (hs₂ : s₂.between) (hs₃ : s₃.between) : Piece s₁ (a ++ b) (k₁ ++ k₂) s₃ := by
  obtain ⟨o₁, c₁, h1, h2, h3⟩ := h.reads hs₁ hs₂ b (Cursor.start (a ++ b)) rfl
  obtain ⟨o₂, c₂, h4, h5, h6⟩ := h'.reads hs₂ hs₃ [] c₁ (by simpa using h2)
  exact ⟨o₁ ++ o₂, c₂, h1.trans h4, h5, by simp [h3, h6]⟩

/-- Lexing from a state between tokens, when the automaton steps to another such state. -/
theorem Steps.lex {s s' i o c} (h1 : Steps ⟨s, Cursor.start i⟩ o ⟨s', c⟩) (hs : s.between)
    (hs' : s'.between) :
    (lexFrom s i).kinds = prependKinds (o.map Output.kind) (lexFrom s' c.rest).kinds := by
  obtain ⟨k, hk⟩ := h1.run
  have hr : LRel [] c.offset c.rest.length ⟨s', Cursor.start c.rest⟩ ⟨s', c⟩ :=
    ⟨hs'.rel, ⟨by simp [Cursor.start], by simp [Cursor.start], by simp [Cursor.start]⟩⟩
  have e1 := run_rel (lexBudget c.rest) hr
  have e2 := hk (lexBudget c.rest)
  rw [e1] at e2
  rw [show (lexFrom s' c.rest).kinds = ((⟨s', Cursor.start c.rest⟩ : LexSt).run (lexBudget c.rest)).kinds
    from rfl, ← e2]
  unfold lexFrom
  rw [run_eq (lexFrom_not_timeout hs _) ?_]
  intro ht
  rw [ht] at e2
  have := lexFrom_not_timeout hs' c.rest
  unfold lexFrom at this
  revert this e2
  cases (⟨s', Cursor.start c.rest⟩ : LexSt).run (lexBudget c.rest) <;> simp [LexResult.kinds, prependKinds]

/-- Lexing a piece followed by anything. -/
theorem Piece.lex {s s' txt ks} (h : Piece s txt ks s') (hs : s.between) (hs' : s'.between) (post : Bytes) :
    (lexFrom s (txt ++ post)).kinds = prependKinds ks (lexFrom s' post).kinds := by
  obtain ⟨o, c, h1, h2, h3⟩ := h.reads hs hs' post (Cursor.start (txt ++ post)) rfl
  rw [h1.steps.lex hs hs', h3, h2]

/-- Run the automaton to the end of the text, never acting at the end of the input. -/
def feed : Nat → LexSt → Option (List Output × LexSt)
  | 0, _ => none
  | n + 1, s =>
    if s.cursor.rest = [] then some ([], s)
    else match s.step with
      | .continue s' => feed n s'
      | .emit x s' => (feed n s').map (fun r => (x :: r.1, r.2))
      | _ => none

theorem feed_reads (n : Nat) : ∀ {s o t}, feed n s = some (o, t) → Reads s o t := by
  induction n with
  | zero => intro s o t h; simp [feed] at h
  | succ n ih =>
    intro s o t h
    unfold feed at h
    split at h
    · simp only [Option.some.injEq, Prod.mk.injEq] at h
      obtain ⟨rfl, rfl⟩ := h
      exact .refl _
    · rename_i hne
      cases hs : s.step with
      | «continue» s' => rw [hs] at h; exact .cont hne hs (ih h)
      | emit x s' =>
        rw [hs] at h
        simp only [Option.map_eq_some_iff, Prod.mk.injEq, Prod.exists] at h
        obtain ⟨a, b, h1, rfl, rfl⟩ := h
        exact .emit hne hs (ih h1)
      | stop => rw [hs] at h; cases h
      | crash => rw [hs] at h; cases h

/-- A piece for a concrete text can be checked by running the automaton. -/
theorem Piece.of_feed {s txt ks s'} (n : Nat)
    (h : (feed n ⟨s, Cursor.start txt⟩).map (fun r => (r.1.map Output.kind, r.2.state, r.2.cursor.rest))
      = some (ks, s', [])) : Piece s txt ks s' := by
  simp only [Option.map_eq_some_iff, Prod.mk.injEq, Prod.exists] at h
  obtain ⟨o, ⟨st, c⟩, h1, h2, h3, h4⟩ := h
  simp only at h3 h4
  subst h3
  exact ⟨o, c, feed_reads n h1, h4, h2⟩

end Hush

import Verif.Lemmas.LexPos
import Verif.Lemmas.LexCrash
import Verif.Spec.Static

/-!
Names in tokens: identifiers and variables in arguments are not empty and consist of word characters.
-/

namespace Hush
open Spec

/-- `c` is reached from `s` by reading `w`. -/
def Spans (s c : Cursor) (w : Bytes) : Prop := s.rest = w ++ c.rest ∧ c.offset = s.offset + w.length

theorem Spans.refl (s : Cursor) : Spans s s [] := ⟨by simp, by simp⟩

theorem Spans.step {s c : Cursor} {w : Bytes} {x} (h : Spans s c w) (hp : c.peek = some x) : Spans s c.step (w ++ [x]) := by
  obtain ⟨h1, h2⟩ := h
  unfold Cursor.peek at hp
  cases hr : c.rest with
  | nil => simp [hr] at hp
  | cons y ys =>
    simp [hr] at hp
    subst hp
    constructor
    · simp [Cursor.step, hr, h1]
    · simp [Cursor.step, hr, h2]; omega

theorem Spans.slice {s c : Cursor} {w : Bytes} (h : Spans s c w) : s.slice c = w := by
  obtain ⟨h1, h2⟩ := h
  unfold Cursor.slice
  rw [h1, h2, show s.offset + w.length - s.offset = w.length by omega]
  simp

theorem word_no_at (w : Bytes) (h : ∀ b ∈ w, isWord b = true) : (64 : UInt8) ∉ w := fun hm => by
  have := h _ hm
  revert this; decide

theorem wordStart_word (b : UInt8) (h : isWordStart b = true) : isWord b = true := by
  revert h; revert b; exact forall_byte (by decide +kernel)

def UnitNames (u : ArgUnit) : Prop := ∀ x ∈ unitVars u, UserName x

/-- Variables of an argument part. -/
def PartNames : ArgPart → Prop
  | .unquoted u => UnitNames u
  | .doubleQuoted us => ∀ u ∈ us, UnitNames u
  | .expansion (.collection us) => ∀ u ∈ us, UnitNames u
  | _ => True

def PartsNames (ps : List ArgPart) : Prop := ∀ p ∈ ps, PartNames p

/-- Names in a token. -/
def TokNames (t : Token) : Prop :=
  match t.kind with
  | .identifier x => UserName x
  | .argument ps => PartsNames ps
  | _ => True

def DollarNames (d : DollarSt) (c : Cursor) : Prop :=
  ∀ s, d.start = some s → d.error = false → ∃ w, Spans s c w ∧ ∀ b ∈ w, isWord b = true

def State.Names : State → Cursor → Prop
  | .word s, c => ∃ w, Spans s c w ∧ (∀ b ∈ w, isWord b = true) ∧ (w = [] → c.peek.any isWord = true)
  | .argument a, _ | .expansion _ a, _ | .expansionWord _ _ a, _ | .singleQuoted _ a, _ | .unquotedWord _ a, _
  | .singleQuotedWord _ _ a, _ => PartsNames a.parts
  | .doubleQuoted us a, _ | .doubleQuotedWord _ us a, _ => PartsNames a.parts ∧ ∀ u ∈ us, UnitNames u
  | .dollar d a, c => PartsNames a.parts ∧ DollarNames d c
  | .quotedDollar d us a, c => PartsNames a.parts ∧ (∀ u ∈ us, UnitNames u) ∧ DollarNames d c
  | _, _ => True

def Transition.NamesOk (c : Cursor) (t : Transition) : Prop :=
  t.state.Names (t.step.apply c) ∧ ∀ tok, t.output = some (.ok tok) → TokNames tok

theorem PartsNames.snoc {ps : List ArgPart} {p} (h : PartsNames ps) (hp : PartNames p) : PartsNames (ps ++ [p]) := by
  intro q hq
  rcases List.mem_append.mp hq with hq | hq
  · exact h q hq
  · simp at hq; rw [hq]; exact hp

theorem toToken_names (w : Bytes) (hw : UserName w) (p : Pos) : TokNames ⟨toToken w, p⟩ := by
  unfold toToken
  repeat refine iteInduction (motive := fun k => TokNames ⟨k, p⟩) (fun _ => trivial) (fun _ => ?_)
  exact hw

theorem toToken_ident_eq {w s : Bytes} : toToken w = .identifier s → s = w := by
  unfold toToken
  iterate 20 (apply iteInduction (motive := fun k : TokenKind => k = TokenKind.identifier s → s = w); · intro _ h; cases h
              intro _)
  intro h
  injection h with h
  exact h.symm

theorem names_argWord {w : WordSt} {mk : WordSt → State} {isW esc es done c}
    (hmk : ∀ w' c', (mk w').Names c') (hes : ∀ t x, es w x = some t → t.NamesOk c)
    (hdone : ∀ v, (done v).NamesOk c) : (visitArgWord w mk isW esc es done c).NamesOk c := by
  unfold visitArgWord
  repeat' split
  all_goals first
    | exact hdone _
    | (apply hes; assumption)
    | (refine ⟨hmk _ _, fun tok h => ?_⟩
       simp only [Transition.fwd, Transition.error] at h
       cases h)

theorem names_expansion {e : ExpSt} {mk : ExpSt → State} {prod roll c t}
    (hmk : ∀ e' c', (mk e').Names c') (hp : ∀ e, (prod e).NamesOk c ∨ ∃ us, e = .collection us)
    (hr : ∀ k, (roll k).NamesOk c)
    (ht : visitExpansion e mk prod roll c = some t) : t.NamesOk c := by
  unfold visitExpansion at ht
  simp only at ht
  split at ht
  · cases ht; exact hr _
  · repeat' (split at ht)
    all_goals first
      | (cases ht; done)
      | (cases ht; exact hr _)
      | (cases ht; rcases hp .home with h | ⟨us, h⟩; exact h; cases h)
      | (cases ht; rcases hp .star with h | ⟨us, h⟩; exact h; cases h)
      | (cases ht; rcases hp .percent with h | ⟨us, h⟩; exact h; cases h)
      | (cases ht
         refine ⟨hmk _ _, fun tok h => ?_⟩
         simp only [Transition.fwd] at h
         cases h)

theorem names_dollarProduce {d : DollarSt} {add : Sym → State} {ctx : State} {consume c} (hd : DollarNames d c)
    (hctx : ∀ c', ctx.Names c') (hadd : ∀ s c', UserName s → (add s).Names c') :
    (dollarProduce d add ctx consume c).NamesOk c := by
  unfold dollarProduce
  simp only
  split
  · refine ⟨hctx _, fun tok h => ?_⟩
    simp only [Transition.error] at h
    cases h
  · rename_i hne
    simp only [Bool.or_eq_true, not_or, Bool.not_eq_true] at hne
    have hu : UserName (d.ident c) := by
      refine ⟨by intro h; simp [h] at hne, ?_⟩
      unfold DollarSt.ident at hne ⊢
      cases hs : d.start with
      | none => simp
      | some s =>
        obtain ⟨w, hw, hb⟩ := hd s hs hne.2
        simp only [hw.slice]
        exact word_no_at w hb
    split
    · rename_i s hs
      have := toToken_ident_eq hs
      subst this
      split
      · exact ⟨hadd _ _ hu, fun tok h => by simp only [Transition.fwd] at h; cases h⟩
      · exact ⟨hadd _ _ hu, fun tok h => by simp only [Transition.resume] at h; cases h⟩
    · split
      · exact ⟨hctx _, fun tok h => by simp only [Transition.error] at h; cases h⟩
      · exact ⟨hctx _, fun tok h => by simp only [Transition.resumeError] at h; cases h⟩

theorem names_dollar {d : DollarSt} {mk : DollarSt → State} {add : Sym → State} {ctx : State} {c} (hd : DollarNames d c)
    (hmk : ∀ d' c', DollarNames d' c' → (mk d').Names c')
    (hctx : ∀ c', ctx.Names c') (hadd : ∀ s c', UserName s → (add s).Names c') :
    (visitDollar d mk add ctx c).NamesOk c := by
  unfold visitDollar
  split
  · rename_i x hx
    split
    · rename_i h
      refine ⟨hmk _ _ ?_, fun tok h => by simp only [Transition.fwd] at h; cases h⟩
      intro s hs
      simp only [h.1] at hs
      cases hs
    · split
      · exact names_dollarProduce hd hctx hadd
      · split
        · refine ⟨hmk _ _ ?_, fun tok h => by simp only [Transition.fwd] at h; cases h⟩
          intro s hs he
          simp only [Option.some.injEq] at hs
          subst hs
          simp only [Bool.or_eq_false_iff, Bool.not_eq_false'] at he
          refine ⟨[x], (Spans.refl c).step hx, ?_⟩
          intro b hb
          simp at hb
          rw [hb]
          exact wordStart_word _ he.2
        · split
          · split
            · exact names_dollarProduce hd hctx hadd
            · rename_i hw
              refine ⟨hmk _ _ ?_, fun tok h => by simp only [Transition.fwd] at h; cases h⟩
              intro s hs he
              obtain ⟨w, h1, h2⟩ := hd s hs he
              refine ⟨w ++ [x], h1.step hx, ?_⟩
              intro b hb
              simp at hb
              rcases hb with hb | hb
              · exact h2 b hb
              · rw [hb]; simpa using hw
          · refine ⟨hmk _ _ ?_, fun tok h => by simp only [Transition.fwd] at h; cases h⟩
            intro s hs he
            simp only [Bool.or_eq_false_iff, Bool.not_eq_false'] at he
            obtain ⟨w, h1, h2⟩ := hd s hs he.1
            refine ⟨w ++ [x], h1.step hx, ?_⟩
            intro b hb
            simp at hb
            rcases hb with hb | hb
            · exact h2 b hb
            · rw [hb]; exact he.2
  · split
    · exact ⟨hctx _, fun tok h => by simp only [Transition.error] at h; cases h⟩
    · exact names_dollarProduce hd hctx hadd

/-- A token without names. -/
def plainKind : TokenKind → Bool
  | .identifier _ | .argument _ => false
  | _ => true

theorem plainKind_names {k p} (h : plainKind k = true) : TokNames ⟨k, p⟩ := by
  cases k <;> trivial

theorem fromFirst_names {c k} (h : SymbolChar.fromFirst c = .single k) (p) : TokNames ⟨k, p⟩ := by
  have : ∀ c, (match SymbolChar.fromFirst c with | .single k => plainKind k | _ => true) = true :=
    forall_byte (by decide +kernel)
  have := this c
  rw [h] at this
  exact plainKind_names this

theorem commandFromFirst_names {c k} (h : SymbolChar.commandFromFirst c = .single k) (p) : TokNames ⟨k, p⟩ := by
  have : ∀ c, (match SymbolChar.commandFromFirst c with | .single k => plainKind k | _ => true) = true :=
    forall_byte (by decide +kernel)
  have := this c
  rw [h] at this
  exact plainKind_names this

theorem names_visit {st : State} {c : Cursor} {t} (h : st.Names c) (ht : st.visit c = some t) : t.NamesOk c := by
  cases st with
  | root =>
    injection ht with ht; subst ht
    unfold visitRoot
    split
    · exact ⟨trivial, fun tok h => by cases h⟩
    · rename_i x hx
      split
      · exact ⟨trivial, fun tok h => by cases h⟩
      split
      · exact ⟨trivial, fun tok h => by cases h⟩
      split
      · exact ⟨trivial, fun tok h => by cases h⟩
      split
      · exact ⟨trivial, fun tok h => by cases h⟩
      split
      · exact ⟨trivial, fun tok h => by cases h⟩
      split
      · rename_i hw
        refine ⟨⟨[], Spans.refl c, by simp, fun _ => ?_⟩, fun tok h => by cases h⟩
        simp only [Transition.resume, Step.apply, hx, Option.any_some]
        exact wordStart_word _ hw
      split
      · exact ⟨trivial, fun tok h => by cases h⟩
      · exact ⟨trivial, fun tok h => by cases h; trivial⟩
      · rename_i k hk
        exact ⟨trivial, fun tok h => by cases h; exact fromFirst_names hk _⟩
      · exact ⟨trivial, fun tok h => by cases h⟩
  | comment => injection ht with ht; subst ht; unfold visitComment; split <;> exact ⟨trivial, fun tok h => by cases h⟩
  | number s d e =>
    injection ht with ht; subst ht; unfold visitNumber
    simp only
    repeat' split
    all_goals exact ⟨trivial, fun tok h => by cases h <;> trivial⟩
  | byteLit v e p =>
    injection ht with ht; subst ht; unfold visitByteLit
    repeat' split
    all_goals exact ⟨trivial, fun tok h => by cases h <;> trivial⟩
  | stringLit v e p =>
    injection ht with ht; subst ht; unfold visitStringLit
    repeat' split
    all_goals exact ⟨trivial, fun tok h => by cases h <;> trivial⟩
  | word s =>
    injection ht with ht; subst ht; unfold visitWord
    obtain ⟨w, h1, h2, h3⟩ := h
    split
    · rename_i hw
      cases hp : c.peek with
      | none => simp [hp] at hw
      | some x =>
        simp [hp] at hw
        refine ⟨⟨w ++ [x], h1.step hp, ?_, by simp⟩, fun tok h => by cases h⟩
        intro b hb
        simp at hb
        rcases hb with hb | hb
        · exact h2 b hb
        · rw [hb]; exact hw
    · rename_i hw
      refine ⟨trivial, fun tok h => ?_⟩
      cases h
      rw [h1.slice]
      exact toToken_names w ⟨fun h => hw (h3 h), word_no_at w h2⟩ _
  | symbol f p =>
    simp only [State.visit, visitSymbol] at ht
    repeat' (split at ht)
    all_goals first
      | (cases ht; done)
      | (injection ht with ht; subst ht; exact ⟨trivial, fun tok h => by cases h <;> trivial⟩)
  | command =>
    injection ht with ht; subst ht; unfold visitCommand
    split
    · exact ⟨trivial, fun tok h => by cases h⟩
    split
    · exact ⟨trivial, fun tok h => by cases h⟩
    split
    · exact ⟨trivial, fun tok h => by cases h⟩
    split
    · exact ⟨trivial, fun tok h => by cases h <;> trivial⟩
    split
    · exact ⟨fun p hp => by simp [ArgSt.at] at hp, fun tok h => by cases h⟩
    · rename_i k hk
      exact ⟨trivial, fun tok h => by cases h; exact commandFromFirst_names hk _⟩
    · exact ⟨trivial, fun tok h => by cases h⟩
  | commandComment =>
    injection ht with ht; subst ht; unfold visitComment; split <;> exact ⟨trivial, fun tok h => by cases h⟩
  | argument a =>
    injection ht with ht; subst ht; unfold visitArgument
    simp only
    split
    · exact ⟨trivial, fun tok h' => by cases h'; exact h⟩
    split
    · exact ⟨⟨h, fun s hs => by cases hs⟩, fun tok h' => by cases h'⟩
    split
    · exact ⟨h, fun tok h' => by cases h'⟩
    split
    · exact ⟨⟨h, by simp⟩, fun tok h' => by cases h'⟩
    split
    · exact ⟨h.snoc trivial, fun tok h' => by cases h'⟩
    split
    · exact ⟨h, fun tok h' => by cases h'⟩
    split
    · exact ⟨h, fun tok h' => by cases h'⟩
    · exact ⟨trivial, fun tok h' => by cases h'; exact h⟩
  | expansion e a =>
    simp only [State.visit] at ht
    refine names_expansion (fun _ _ => h) (fun e => ?_) (fun k => ?_) ht
    · cases e with
      | collection us => exact Or.inr ⟨us, rfl⟩
      | _ => exact Or.inl ⟨PartsNames.snoc h trivial, fun tok h' => by cases h'⟩
    · exact ⟨h, fun tok h' => by cases h'⟩
  | expansionWord e w a =>
    simp only [State.visit] at ht
    refine names_expansion (fun _ _ => h) (fun e => ?_) (fun k => ?_) ht
    · cases e with
      | collection us => exact Or.inr ⟨us, rfl⟩
      | _ =>
        refine Or.inl ⟨?_, fun tok h' => by cases h'⟩
        intro q hq
        simp only [List.mem_append, List.mem_cons, List.not_mem_nil, or_false] at hq
        rcases hq with hq | rfl | rfl
        · exact h q hq
        · intro x hx; simp [unitVars] at hx
        · trivial
    · exact ⟨h, fun tok h' => by cases h'⟩
  | singleQuoted v a =>
    injection ht with ht; subst ht; unfold visitSingleQuoted
    split
    · exact ⟨h, fun tok h' => by cases h'⟩
    split
    · exact ⟨PartsNames.snoc h trivial, fun tok h' => by cases h'⟩
    · exact ⟨h, fun tok h' => by cases h'⟩
  | doubleQuoted us a =>
    injection ht with ht; subst ht; unfold visitDoubleQuoted
    split
    · exact ⟨h.1, fun tok h' => by cases h'⟩
    split
    · exact ⟨PartsNames.snoc h.1 h.2, fun tok h' => by cases h'⟩
    split
    · exact ⟨⟨h.1, h.2, fun s hs => by cases hs⟩, fun tok h' => by cases h'⟩
    · exact ⟨h, fun tok h' => by cases h'⟩
  | unquotedWord w a =>
    injection ht with ht; subst ht
    refine names_argWord (fun _ _ => h) (fun t x he => ?_) (fun v => ?_)
    · split at he
      · cases he; exact ⟨h, fun tok h' => by cases h'⟩
      · cases he
    · exact ⟨PartsNames.snoc h (fun x hx => by simp [unitVars] at hx), fun tok h' => by cases h'⟩
  | singleQuotedWord w v a =>
    injection ht with ht; subst ht
    refine names_argWord (fun _ _ => h) (fun t x he => by cases he) (fun v => ?_)
    exact ⟨h, fun tok h' => by cases h'⟩
  | doubleQuotedWord w us a =>
    injection ht with ht; subst ht
    refine names_argWord (fun _ _ => h) (fun t x he => by cases he) (fun v => ?_)
    refine ⟨⟨h.1, ?_⟩, fun tok h' => by cases h'⟩
    intro u hu
    simp at hu
    rcases hu with hu | rfl
    · exact h.2 u hu
    · intro x hx; simp [unitVars] at hx
  | dollar d a =>
    injection ht with ht; subst ht
    refine names_dollar h.2 (fun d' c' hd => ⟨h.1, hd⟩) (fun c' => h.1) (fun s c' hs => ?_)
    exact PartsNames.snoc h.1 (fun x hx => by simp [unitVars] at hx; rw [hx]; exact hs)
  | quotedDollar d us a =>
    injection ht with ht; subst ht
    refine names_dollar h.2.2 (fun d' c' hd => ⟨h.1, h.2.1, hd⟩) (fun c' => ⟨h.1, h.2.1⟩) (fun s c' hs => ?_)
    refine ⟨h.1, ?_⟩
    intro u hu
    simp at hu
    rcases hu with hu | rfl
    · exact h.2.1 u hu
    · intro x hx; simp [unitVars] at hx; rw [hx]; exact hs
  | commandSymbol f p =>
    simp only [State.visit, visitCommandSymbol] at ht
    repeat' (split at ht)
    all_goals first
      | (cases ht; done)
      | (injection ht with ht; subst ht; exact ⟨trivial, fun tok h => by cases h <;> trivial⟩)

theorem run_names (n : Nat) : ∀ (s : LexSt) (os : List Output), s.state.Names s.cursor → s.run n = .done os →
    ∀ t, Except.ok t ∈ os → TokNames t := by
  induction n with
  | zero => intro s os _ h; cases h
  | succ n ih =>
    intro s os hs h t ht
    simp only [LexSt.run, LexSt.step] at h
    cases hv : s.state.visit s.cursor with
    | none => simp [hv] at h
    | some tr =>
      obtain ⟨h1, h2⟩ := names_visit hs hv
      simp only [hv] at h
      cases ho : tr.output with
      | none =>
        simp only [ho] at h
        split at h
        · rename_i hh
          split at hh
          · cases hh
          · cases hh
            exact ih _ _ h1 h t ht
        · rename_i hh; split at hh <;> cases hh
        · cases h; cases ht
        · rename_i hh; split at hh <;> cases hh
      | some o =>
        simp only [ho] at h
        cases hr : LexSt.run n ⟨tr.state, tr.step.apply s.cursor⟩ with
        | done os' =>
          rw [hr] at h
          simp only [LexResult.cons] at h
          cases h
          rcases List.mem_cons.mp ht with rfl | ht
          · exact h2 t ho
          · exact ih _ _ h1 hr t ht
        | crash l => rw [hr] at h; cases h
        | timeout => rw [hr] at h; cases h

/-- Names in the tokens of a source text. -/
theorem lex_names (src : Bytes) (os : List Output) (h : lex src = .done os) (t : Token) (ht : Except.ok t ∈ os) :
    TokNames t := run_names (lexBudget src) (LexSt.init src) os (by trivial) h t ht

end Hush

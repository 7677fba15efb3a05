import Verif.Model.Parser

/-!
The parser always finishes, never panics, and only drops tokens from the front.
-/

namespace Hush
open Ast (Expr Lit Stmt Block)

/-- `st'` comes after `st`: fewer tokens, more errors. -/
def Later (st st' : PState) : Prop := st'.toks <:+ st.toks ∧ st.errors <:+ st'.errors

theorem Later.refl (st : PState) : Later st st := ⟨List.suffix_refl _, List.suffix_refl _⟩
theorem Later.trans {a b c : PState} (h : Later a b) (h' : Later b c) : Later a c :=
  ⟨h'.1.trans h.1, h.2.trans h'.2⟩
theorem Later.len {a b : PState} (h : Later a b) : b.toks.length ≤ a.toks.length := h.1.length_le

theorem Later.tail {st : PState} {t : Token} {ts : List Token} (h : st.toks = t :: ts) :
    Later st { st with toks := ts } := ⟨h ▸ List.suffix_cons _ _, List.suffix_refl _⟩

/-- The outcome is a value with fewer than `N` tokens left or an error with fewer than `M` left. -/
def Good {α : Type} (N M : Nat) (st : PState) : Res α → Prop
  | .ok _ st' => Later st st' ∧ st'.toks.length < N
  | .err _ _ st' => Later st st' ∧ st'.toks.length < M
  | _ => False

theorem Good.mono {α : Type} {N M N' M' : Nat} {st : PState} {r : Res α} (h : Good N M st r) (hN : N ≤ N')
    (hM : M ≤ M') : Good N' M' st r := by
  cases r <;> simp_all [Good]
  · omega
  · omega

theorem Good.after {α : Type} {N M : Nat} {st st' : PState} {r : Res α} (h : Later st st') (hr : Good N M st' r) :
    Good N M st r := by
  cases r <;> simp_all [Good]
  · exact h.trans hr.1
  · exact h.trans hr.1

theorem Good.bind {α β : Type} {N M N' M' : Nat} {st : PState} {r : Res α} {f : α → PState → Res β}
    (h : Good N M st r) (hM : M ≤ M')
    (hf : ∀ a st', Later st st' → st'.toks.length < N → Good N' M' st' (f a st')) : Good N' M' st (r.bind f) := by
  cases r with
  | ok a st' => exact (hf a st' h.1 h.2).after h.1
  | err e s st' => exact ⟨h.1, by have := h.2; omega⟩
  | crash => exact h
  | timeout => exact h

theorem skipPast_suffix (p : TokenKind → Bool) (ts : List Token) : skipPast p ts <:+ ts := by
  induction ts with
  | nil => exact List.suffix_refl _
  | cons t ts ih =>
    simp only [skipPast]
    split
    · exact List.suffix_cons _ _
    · exact ih.trans (List.suffix_cons _ _)

theorem Strategy.skip_suffix (s : Strategy) (ts : List Token) : s.skip ts <:+ ts := by
  cases s <;> simp only [Strategy.skip] <;>
    first | exact List.suffix_refl _ | exact List.tail_suffix _ | exact skipPast_suffix _ _

theorem skipPast_lt (p : TokenKind → Bool) {ts : List Token} (h : ts ≠ []) : (skipPast p ts).length < ts.length := by
  cases ts with
  | nil => exact absurd rfl h
  | cons t ts =>
    simp only [skipPast]
    split
    · simp
    · have := (skipPast_suffix p ts).length_le
      simp; omega

theorem Strategy.skip_lt {s : Strategy} (hs : s ≠ .keep) {ts : List Token} (h : ts ≠ []) :
    (s.skip ts).length < ts.length := by
  cases s <;> simp only [Strategy.skip] <;>
    first
      | exact absurd rfl hs
      | exact skipPast_lt _ h
      | (cases ts <;> simp_all)

theorem Later.sync (st : PState) (e : ParseError) (s : Strategy) : Later st (st.synchronize e s) :=
  ⟨s.skip_suffix _, List.suffix_cons _ _⟩

theorem Good.sync {α : Type} {N M K : Nat} {st : PState} {r : Res α} (ill : α) (h : Good N M st r) (hK : N ≤ K)
    (hM : M ≤ K) : Good K 0 st (r.sync ill) := by
  cases r with
  | ok a st' => exact ⟨h.1, by have := h.2; omega⟩
  | err e s st' =>
    refine ⟨h.1.trans (.sync _ _ _), ?_⟩
    have := (s.skip_suffix st'.toks).length_le
    have := h.2
    simp only [PState.synchronize]; omega
  | crash => exact h
  | timeout => exact h

theorem Good.withSync {α : Type} {N M : Nat} {st : PState} {r : Res α} (s : Strategy) (h : Good N M st r) :
    Good N M st (r.withSync s) := by
  cases r <;> exact h

theorem Good.ok {α : Type} {N M : Nat} {st : PState} {a : α} (h : st.toks.length < N) : Good N M st (.ok a st) :=
  ⟨.refl _, h⟩

theorem good_expect (k : TokenKind) (s : Strategy) (st : PState) :
    Good st.toks.length (st.toks.length + 1) st (expect k s st) := by
  unfold expect
  split
  · rename_i t ts h
    split
    · exact ⟨.tail h, by simp [h]⟩
    · exact ⟨.refl _, by simp⟩
  · exact ⟨.refl _, by simp⟩

theorem good_identifier (st : PState) : Good st.toks.length (st.toks.length + 1) st (parseIdentifier st) := by
  unfold parseIdentifier
  split
  · rename_i x p ts h
    exact ⟨.tail h, by simp [h]⟩
  · exact ⟨.refl _, by simp⟩
  · exact ⟨.refl _, by simp⟩

theorem good_parseArgument (s : Strategy) (st : PState) :
    Good st.toks.length (st.toks.length + 1) st (parseArgument s st) := by
  unfold parseArgument
  split
  · rename_i x p ts h
    exact ⟨.tail h, by simp [h]⟩
  · exact ⟨.refl _, by simp⟩
  · exact ⟨.refl _, by simp⟩

theorem good_sepBy {α : Type} {p : PState → Res α} {L : Nat} (ill : α) (sep fin : TokenKind)
    (hp : ∀ st : PState, st.toks.length ≤ L → Good (st.toks.length + 1) (st.toks.length + 1) st (p st)) :
    ∀ (n : Nat) (st : PState), st.toks.length < n → st.toks.length ≤ L →
      Good (st.toks.length + 1) 0 st (sepBy p ill sep fin n st) := by
  intro n
  induction n with
  | zero => intro st h; omega
  | succ n ih =>
    intro st hn hL
    unfold sepBy
    split
    · exact .ok (by omega)
    · refine ((hp st hL).sync ill (Nat.le_refl _) (Nat.le_refl _)).bind (Nat.le_refl _) fun a st1 hl h1 => ?_
      split
      · rename_i t ts h
        split
        · have hlen : ts.length < st1.toks.length := by simp [h]
          refine Good.after (.tail h) ?_
          have := ih { st1 with toks := ts } (by simp; omega) (by simp; omega)
          refine this.bind (Nat.le_refl _) fun as st2 hl2 h2 => ?_
          exact .ok (by simp at h2; omega)
        · exact .ok (by omega)
      · exact .ok (by omega)

/-! ### Commands -/

theorem parseEnv_suffix (ts : List Token) : (parseEnv ts).2 <:+ ts := by
  fun_induction parseEnv ts
  · rename_i ih; exact ih.trans (List.suffix_cons _ _)
  · exact List.suffix_refl _

theorem parseArgs_suffix (ts : List Token) : (parseArgs ts).2 <:+ ts := by
  fun_induction parseArgs ts
  · exact List.suffix_refl _
  · exact List.suffix_refl _
  · rename_i ih; exact ih.trans (List.suffix_cons _ _)
  · exact List.suffix_refl _

theorem parseFd_some {st st' : PState} {n : Nat} (h : parseFd st = some (n, st')) :
    ∃ t, st.toks = t :: st'.toks ∧ st'.errors = st.errors := by
  unfold parseFd at h
  split at h
  · rename_i s p ts hts
    split at h
    · cases h; exact ⟨_, hts, rfl⟩
    · cases h
  · cases h

theorem good_output (src : Nat) (st : PState) (s' : PState) (hl : Later s' st) :
    Good (s'.toks.length + 1) (s'.toks.length + 1) s' (parseOutput src st) := by
  have hlen := hl.len
  refine Good.after hl ?_
  unfold parseOutput
  split
  · rename_i append p ts h
    have hlt : ts.length < st.toks.length := by simp [h]
    refine Good.after (.tail h) ?_
    dsimp only
    split
    · refine (good_parseArgument _ _).bind (by simp; omega) fun a st2 hl2 h2 => ?_
      exact .ok (by simp at h2; omega)
    · split
      · rename_i fd st2 hfd
        obtain ⟨t, h1, h2⟩ := parseFd_some hfd
        simp at h1 h2
        exact ⟨⟨by simp [h1], by simp [h2]⟩, by simp [h1] at hlt; omega⟩
      · refine (good_parseArgument _ _).bind (by simp; omega) fun a st2 hl2 h2 => ?_
        exact .ok (by simp at h2; omega)
  · exact ⟨.refl _, by omega⟩
  · exact ⟨.refl _, by omega⟩

theorem output_progress {src : Nat} {st : PState} (hne : st.toks ≠ []) :
    ∃ r st', (parseOutput src st).sync .illFormed = .ok r st' ∧ st'.toks.length < st.toks.length := by
  cases hts : st.toks with
  | nil => exact absurd hts hne
  | cons t ts =>
    unfold parseOutput
    rw [hts]
    split
    · rename_i append p ts' h
      cases h
      dsimp only
      split
      · have := (((good_parseArgument .keep { st with toks := ts }).bind (N' := ts.length + 1) (M' := ts.length + 1)
          (f := fun a st => .ok (Ast.Redirection.output src (.append a)) st) (by simp)
          (fun a st2 hl2 h2 => .ok (by simp at h2; omega)))).sync .illFormed (Nat.le_refl _) (Nat.le_refl _)
        revert this
        generalize Res.sync _ _ = r
        intro this
        cases r with
        | ok a st' => exact ⟨a, st', rfl, by have := this.2; simp; omega⟩
        | err e s st' => have := this.2; omega
        | crash => exact this.elim
        | timeout => exact this.elim
      · split
        · rename_i fd st2 hfd
          obtain ⟨t, h1, h2⟩ := parseFd_some hfd
          simp at h1
          exact ⟨_, st2, rfl, by simp [h1]; omega⟩
        · have := (((good_parseArgument .keep { st with toks := ts }).bind (N' := ts.length + 1) (M' := ts.length + 1)
            (f := fun a st => .ok (Ast.Redirection.output src (.overwrite a)) st) (by simp)
            (fun a st2 hl2 h2 => .ok (by simp at h2; omega)))).sync .illFormed (Nat.le_refl _) (Nat.le_refl _)
          revert this
          generalize Res.sync _ _ = r
          intro this
          cases r with
          | ok a st' => exact ⟨a, st', rfl, by have := this.2; simp; omega⟩
          | err e s st' => have := this.2; omega
          | crash => exact this.elim
          | timeout => exact this.elim
    · rename_i t' ts' h1 h
      cases h
      exact ⟨_, _, rfl, by simp [PState.synchronize, Strategy.skip, hts]⟩
    · rename_i h; cases h

theorem redirection_progress {st : PState} (hne : st.toks ≠ []) :
    ∃ r st', (parseRedirection st).sync .illFormed = .ok r st' ∧ st'.toks.length < st.toks.length ∧ Later st st' := by
  have key : ∀ {r : Res Ast.Redirection}, Good (st.toks.length + 1) (st.toks.length + 1) st r →
      (∃ a st', r.sync .illFormed = .ok a st' ∧ st'.toks.length < st.toks.length) →
      ∃ a st', r.sync .illFormed = .ok a st' ∧ st'.toks.length < st.toks.length ∧ Later st st' := by
    rintro r hg ⟨a, st', h1, h2⟩
    have := hg.sync .illFormed (Nat.le_refl _) (Nat.le_refl _)
    rw [h1] at this
    exact ⟨a, st', h1, h2, this.1⟩
  obtain ⟨t, ts, hts⟩ : ∃ t ts, st.toks = t :: ts := List.exists_cons_of_ne_nil hne
  · unfold parseRedirection
    split
    · rename_i lit p ts' h
      rw [hts] at h
      cases h
      have := (((good_parseArgument .keep { st with toks := ts }).bind (N' := ts.length + 1) (M' := ts.length + 1)
        (f := fun a st => .ok (Ast.Redirection.input lit a) st) (by simp)
        (fun a st2 hl2 h2 => .ok (by simp at h2; omega)))).sync .illFormed (Nat.le_refl _) (Nat.le_refl _)
      revert this
      generalize Res.sync _ _ = r
      intro this
      cases r with
      | ok a st' => exact ⟨a, st', rfl, by have := this.2; simp [hts]; omega, (Later.tail hts).trans this.1⟩
      | err e s st' => have := this.2; omega
      | crash => exact this.elim
      | timeout => exact this.elim
    · split
      · rename_i fd st2 hfd
        obtain ⟨t, h1, h2⟩ := parseFd_some hfd
        have hl : Later st st2 := ⟨by simp [h1], by simp [h2]⟩
        refine key (good_output _ _ _ hl) ?_
        by_cases hne2 : st2.toks = []
        · have hg := (good_output fd st2 st2 (.refl _)).sync .illFormed (Nat.le_refl _) (Nat.le_refl _)
          revert hg
          generalize Res.sync _ _ = r
          intro hg
          cases r with
          | ok a st' => exact ⟨a, st', rfl, by have := hg.2; simp [h1]; omega⟩
          | err e s st' => have := hg.2; omega
          | crash => exact hg.elim
          | timeout => exact hg.elim
        · obtain ⟨r, st3, h3, h4⟩ := output_progress (src := fd) hne2
          exact ⟨r, st3, h3, by simp [h1]; omega⟩
      · exact key (good_output _ _ _ (.refl _)) (output_progress hne)
    · rename_i h; simp [hts] at h

theorem good_operators : ∀ (n : Nat) (st : PState), st.toks.length < n →
    Good (st.toks.length + 1) (st.toks.length + 1) st (parseOperators n st) := by
  intro n
  induction n with
  | zero => intro st h; omega
  | succ n ih =>
    intro st hn
    unfold parseOperators
    split
    · exact ⟨.refl _, by omega⟩
    · rename_i t ts h
      split
      · exact .ok (by omega)
      · split
        · exact ⟨.tail h, by simp [h]; omega⟩
        · obtain ⟨r, st1, h1, h2, h3⟩ := redirection_progress (st := st) (by simp [h])
          rw [h1]
          refine Good.after h3 ?_
          show Good _ _ st1 ((parseOperators n st1).bind _)
          refine (ih st1 (by omega)).bind (by omega) fun a st2 hl2 h4 => ?_
          exact .ok (by omega)

theorem good_basic (st : PState) : Good (st.toks.length + 1) (st.toks.length + 1) st (parseBasic st) := by
  unfold parseBasic
  have h1 := parseEnv_suffix st.toks
  generalize parseEnv st.toks = pr at h1
  obtain ⟨env, ts⟩ := pr
  have hle := h1.length_le
  dsimp only at *
  refine Good.after (st' := { st with toks := ts }) ⟨h1, List.suffix_refl _⟩ ?_
  refine (good_parseArgument _ _).bind (by simp; omega) fun program st2 hl2 h2 => ?_
  have h3 := parseArgs_suffix st2.toks
  generalize parseArgs st2.toks = pr at h3
  obtain ⟨args, ts2⟩ := pr
  have hle2 := h3.length_le
  dsimp only at *
  refine Good.after (st' := { st2 with toks := ts2 }) ⟨h3, List.suffix_refl _⟩ ?_
  refine (good_operators _ _ (by simp)).bind (by simp; omega) fun a st4 hl4 h4 => ?_
  exact .ok (by simp at h4; omega)

theorem good_pipes : ∀ (n : Nat) (st : PState), st.toks.length < n →
    Good (st.toks.length + 1) 0 st (parsePipes n st) := by
  intro n
  induction n with
  | zero => intro st h; omega
  | succ n ih =>
    intro st hn
    unfold parsePipes
    split
    · rename_i p ts h
      have hlt : ts.length < st.toks.length := by simp [h]
      refine Good.after (.tail h) ?_
      refine ((good_basic _).sync _ (Nat.le_refl _) (Nat.le_refl _)).bind (by simp) fun c st2 hl2 h2 => ?_
      simp at h2
      refine (ih st2 (by omega)).bind (Nat.le_refl _) fun cs st3 hl3 h3 => .ok (by omega)
    · exact .ok (by omega)

theorem good_parseCommand (st : PState) : Good (st.toks.length + 1) 0 st (parseCommand st) := by
  unfold parseCommand
  refine ((good_basic _).sync _ (Nat.le_refl _) (Nat.le_refl _)).bind (Nat.le_refl _) fun c st2 hl2 h2 => ?_
  refine (good_pipes _ st2 (by omega)).bind (Nat.le_refl _) fun cs st3 hl3 h3 => .ok (by omega)

theorem good_commandBlock {st : PState} {t : Token} {ts : List Token} (h : st.toks = t :: ts)
    (hk : (Ast.BlockKind.fromToken t.kind).isSome) :
    Good st.toks.length st.toks.length st (parseCommandBlock st) := by
  unfold parseCommandBlock
  rw [h]
  dsimp only
  have hlt : ts.length < st.toks.length := by simp [h]
  rw [← h]
  split
  · rename_i hnone; simp [hnone] at hk
  · refine Good.after (.tail h) ?_
    split
    · exact ⟨.refl _, hlt⟩
    · refine (good_parseCommand _).bind (by omega) fun head st1 hl1 h1 => ?_
      simp at h1
      refine Good.bind (N := st1.toks.length + 1) (M := 0) ?_ (by omega) fun tail st2 hl2 h2 => ?_
      · split
        · rename_i p ts1 h'
          have hlt1 : ts1.length < st1.toks.length := by simp [h']
          refine Good.after (.tail h') ?_
          refine (good_sepBy (L := ts1.length) _ _ _ (fun st _ => (good_parseCommand st).mono (Nat.le_refl _) (by omega)) _ _
            (by simp) (by simp)).mono (by simp; omega) (Nat.le_refl _)
        · exact .ok (by omega)
      · refine (good_expect _ _ _).bind (by omega) fun _ st3 hl3 h3 => .ok (by omega)

/-! ### Expressions -/

theorem levelCheck_toBinary {k : Nat} {op : Operator} (h : levelCheck k op = true) : ∃ b, op.toBinary = some b := by
  match k with
  | 0 | 1 | 2 | 3 | 4 | 5 | 6 => cases op <;> simp_all [levelCheck, Operator.toBinary, Operator.isFactor,
      Operator.isTerm, Operator.isComparison, Operator.isEquality]
  | n + 7 => simp [levelCheck] at h

theorem isPrefix_toUnary {op : Operator} (h : op.isPrefix = true) : ∃ b, op.toUnary = some b := by
  cases op <;> simp_all [Operator.isPrefix, Operator.toUnary]

/-- An expression parser that is good on inputs of up to `L` tokens. -/
def PE (L : Nat) (pe : PState → Res Expr) : Prop :=
  ∀ st : PState, st.toks.length ≤ L → Good st.toks.length (st.toks.length + 1) st (pe st)

/-- A block parser that is good on inputs of up to `L` tokens. -/
def PB (L : Nat) (pb : PState → Res Block) : Prop :=
  ∀ st : PState, st.toks.length ≤ L → Good (st.toks.length + 1) 0 st (pb st)

theorem good_binLoop {p : PState → Res Expr} {L k : Nat} (hp : PE L p) :
    ∀ (n : Nat) (e : Expr) (st : PState), st.toks.length < n → st.toks.length ≤ L →
      Good (st.toks.length + 1) (st.toks.length + 1) st (binLoop p (levelCheck k) n e st) := by
  intro n
  induction n with
  | zero => intro e st h; omega
  | succ n ih =>
    intro e st hn hL
    unfold binLoop
    split
    · rename_i op pos ts h
      have hlt : ts.length < st.toks.length := by simp [h]
      split
      · rename_i hc
        refine Good.after (.tail h) ?_
        refine (hp _ (by simp; omega)).bind (by simp; omega) fun r st2 hl2 h2 => ?_
        simp at h2
        obtain ⟨b, hb⟩ := levelCheck_toBinary hc
        rw [hb]
        exact (ih _ st2 (by omega) (by omega)).mono (by omega) (by omega)
      · exact .ok (by omega)
    · exact .ok (by omega)

theorem good_level {pre : PState → Res Expr} {L : Nat} (hp : PE L pre) : ∀ k, PE L (parseLevel pre k) := by
  intro k
  induction k with
  | zero => exact hp
  | succ k ih =>
    intro st hL
    unfold parseLevel parseBinop
    refine (ih st hL).bind (Nat.le_refl _) fun e st2 hl2 h2 => ?_
    exact (good_binLoop ih _ _ _ (by omega) (by omega)).mono (by omega) (by omega)

theorem good_postfixLoop {pe : PState → Res Expr} {L : Nat} (hp : PE L pe) :
    ∀ (n : Nat) (e : Expr) (st : PState), st.toks.length < n → st.toks.length ≤ L + 1 →
      Good (st.toks.length + 1) (st.toks.length + 1) st (postfixLoop pe n e st) := by
  intro n
  induction n with
  | zero => intro e st h; omega
  | succ n ih =>
    intro e st hn hL
    unfold postfixLoop
    split
    · rename_i pos ts h
      have hlt : ts.length < st.toks.length := by simp [h]
      refine Good.after (.tail h) ?_
      refine (good_sepBy (L := L) _ _ _ (fun st h => (hp st h).mono (by omega) (by omega)) _ _
        (by simp) (by simp; omega)).bind (by omega) fun args st2 hl2 h2 => ?_
      simp at h2
      refine (good_expect _ _ _).bind (by omega) fun _ st3 hl3 h3 => ?_
      exact (ih _ st3 (by omega) (by omega)).mono (by omega) (by omega)
    · rename_i pos ts h
      have hlt : ts.length < st.toks.length := by simp [h]
      refine Good.after (.tail h) ?_
      refine ((hp _ (by simp; omega)).sync _ (by omega) (Nat.le_refl _)).bind (by omega) fun args st2 hl2 h2 => ?_
      simp at h2
      refine (good_expect _ _ _).bind (by omega) fun _ st3 hl3 h3 => ?_
      exact (ih _ st3 (by omega) (by omega)).mono (by omega) (by omega)
    · rename_i pos ts h
      have hlt : ts.length < st.toks.length := by simp [h]
      refine Good.after (.tail h) ?_
      refine (good_identifier _).bind (by simp; omega) fun a st3 hl3 h3 => ?_
      simp at h3
      exact (ih _ st3 (by omega) (by omega)).mono (by omega) (by omega)
    · rename_i pos ts h
      have hlt : ts.length < st.toks.length := by simp [h]
      refine Good.after (.tail h) ?_
      exact (ih _ { st with toks := ts } (by simp; omega) (by simp; omega)).mono (by simp; omega) (by simp; omega)
    · exact .ok (by omega)

theorem good_function {pb : PState → Res Block} {L : Nat} (hb : PB L pb) (st : PState) (hL : st.toks.length ≤ L) :
    Good (st.toks.length + 1) (st.toks.length + 1) st (parseFunction pb st) := by
  unfold parseFunction
  dsimp only
  refine ((good_expect _ _ _).sync _ (by omega) (Nat.le_refl _)).bind (by omega) fun _ st1 hl1 h1 => ?_
  refine (good_sepBy (L := L) _ _ _ (fun st h => (good_identifier st).mono (by omega) (by omega)) _ _
        (by simp) (by omega)).bind (by omega) fun params st2 hl2 h2 => ?_
  refine ((good_expect _ _ _).sync _ (by omega) (Nat.le_refl _)).bind (by omega) fun _ st3 hl3 h3 => ?_
  refine (hb st3 (by omega)).bind (by omega) fun body st4 hl4 h4 => ?_
  refine (good_expect _ _ _).bind (by omega) fun _ st5 hl5 h5 => .ok (by omega)

theorem good_cond {pe : PState → Res Expr} {pb : PState → Res Block} {L : Nat} (he : PE L pe) (hb : PB L pb) :
    ∀ (n : Nat) (st : PState), st.toks.length < n → st.toks.length ≤ L →
    Good (st.toks.length + 1) (st.toks.length + 1) st (parseCond pe pb n st) := by
  intro n
  induction n with
  | zero => intro st h; omega
  | succ n ih =>
    intro st hn hL
    unfold parseCond
    refine ((he st hL).sync _ (by omega) (Nat.le_refl _)).bind (by omega) fun cond st1 hl1 h1 => ?_
    refine ((good_expect _ _ _).sync _ (by omega) (Nat.le_refl _)).bind (by omega) fun _ st2 hl2 h2 => ?_
    refine (hb st2 (by omega)).bind (by omega) fun then_ st3 hl3 h3 => ?_
    split
    · exact .ok (by omega)
    · rename_i pos ts h
      have hlt : ts.length < st3.toks.length := by simp [h]
      refine Good.after (.tail h) ?_
      refine (ih _ (by simp; omega) (by simp; omega)).bind (by simp; omega) fun a st4 hl4 h4 => ?_
      simp at h4
      exact .ok (by omega)
    · rename_i pos ts h
      have hlt : ts.length < st3.toks.length := by simp [h]
      refine Good.after (.tail h) ?_
      refine (hb _ (by simp; omega)).bind (by omega) fun a st4 hl4 h4 => ?_
      simp at h4
      exact .ok (by omega)
    · exact ⟨⟨List.nil_suffix, List.suffix_refl _⟩, by simp⟩
    · exact ⟨.refl _, by omega⟩

theorem good_item {pe : PState → Res Expr} {L : Nat} (he : PE L pe) (st : PState) (hL : st.toks.length ≤ L) :
    Good (st.toks.length + 1) (st.toks.length + 1) st (parseItem pe st) := by
  unfold parseItem
  refine (((good_identifier _).withSync _).sync _ (by omega) (Nat.le_refl _)).bind (by omega) fun key st1 hl1 h1 => ?_
  refine ((good_expect _ _ _).sync _ (by omega) (Nat.le_refl _)).bind (by omega) fun _ st2 hl2 h2 => ?_
  refine (he st2 (by omega)).bind (by omega) fun value st3 hl3 h3 => .ok (by omega)

theorem good_primary {pe : PState → Res Expr} {pb : PState → Res Block} {L : Nat} (he : PE L pe) (hb : PB L pb)
    (st : PState) (hL : st.toks.length ≤ L + 1) :
    Good st.toks.length (st.toks.length + 1) st (parsePrimary pe pb st) := by
  unfold parsePrimary
  split
  · exact ⟨.refl _, by omega⟩
  · rename_i k pos ts h
    have hlt : ts.length < st.toks.length := by simp [h]
    dsimp only
    have hcmd : (Ast.BlockKind.fromToken k).isSome → Good st.toks.length (st.toks.length + 1) st
        (((parseCommandBlock st).sync .illFormed).bind fun b st => .ok (Expr.command b pos) st) := by
      intro hk
      refine ((good_commandBlock h hk).sync _ (Nat.le_refl _) (Nat.le_refl _)).bind (by omega) fun b st1 hl1 h1 => .ok h1
    split
    · exact ⟨.tail h, hlt⟩
    · exact ⟨.tail h, hlt⟩
    · exact ⟨.tail h, hlt⟩
    · refine Good.after (.tail h) ?_
      refine (good_sepBy (L := L) _ _ _ (fun st h => (he st h).mono (by omega) (by omega)) _ _
        (by simp) (by simp; omega)).bind (by omega) fun args st2 hl2 h2 => ?_
      simp at h2
      exact (good_expect _ _ _).bind (by omega) fun _ st3 hl3 h3 => .ok (by omega)
    · refine Good.after (.tail h) ?_
      refine (good_sepBy (L := L) _ _ _ (fun st h => good_item he st h) _ _
        (by simp) (by simp; omega)).bind (by omega) fun args st2 hl2 h2 => ?_
      simp at h2
      exact (good_expect _ _ _).bind (by omega) fun _ st3 hl3 h3 => .ok (by omega)
    · refine Good.after (.tail h) ?_
      refine (good_function hb _ (by simp; omega)).bind (by simp; omega) fun a st2 hl2 h2 => ?_
      simp at h2
      exact .ok (by omega)
    · exact hcmd rfl
    · exact hcmd rfl
    · exact hcmd rfl
    · refine Good.after (.tail h) ?_
      refine (good_cond he hb _ _ (by simp) (by simp; omega)).bind (by simp; omega) fun a st2 hl2 h2 => ?_
      simp at h2
      exact (good_expect _ _ _).bind (by omega) fun _ st3 hl3 h3 => .ok (by omega)
    · refine Good.after (.tail h) ?_
      refine ((he _ (by simp; omega)).sync _ (by omega) (Nat.le_refl _)).bind (by omega) fun e st2 hl2 h2 => ?_
      simp at h2
      exact (good_expect _ _ _).bind (by omega) fun _ st3 hl3 h3 => .ok (by omega)
    · exact ⟨.refl _, by omega⟩

theorem good_postfix {pe : PState → Res Expr} {pb : PState → Res Block} {L : Nat} (he : PE L pe) (hb : PB L pb)
    (st : PState) (hL : st.toks.length ≤ L + 1) :
    Good st.toks.length (st.toks.length + 1) st (parsePostfix pe pb st) := by
  unfold parsePostfix
  refine (good_primary he hb st hL).bind (Nat.le_refl _) fun e st1 hl1 h1 => ?_
  exact (good_postfixLoop he _ _ st1 (by omega) (by omega)).mono (by omega) (by omega)

theorem good_prefix {pe : PState → Res Expr} {pb : PState → Res Block} {L : Nat} (he : PE L pe) (hb : PB L pb) :
    ∀ (n : Nat) (st : PState), st.toks.length < n → st.toks.length ≤ L + 1 →
    Good st.toks.length (st.toks.length + 1) st (parsePrefix pe pb n st) := by
  intro n
  induction n with
  | zero => intro st h; omega
  | succ n ih =>
    intro st hn hL
    unfold parsePrefix
    split
    · rename_i op pos ts h
      have hlt : ts.length < st.toks.length := by simp [h]
      split
      · rename_i hp
        refine Good.after (.tail h) ?_
        refine (ih _ (by simp; omega) (by simp; omega)).bind (by simp; omega) fun e st1 hl1 h1 => ?_
        simp at h1
        obtain ⟨b, hb⟩ := isPrefix_toUnary hp
        rw [hb]
        exact .ok (by omega)
      · exact good_postfix he hb st hL
    · exact good_postfix he hb st hL

theorem good_exprWith {pe : PState → Res Expr} {pb : PState → Res Block} {L : Nat} (he : PE L pe) (hb : PB L pb) :
    PE (L + 1) (exprWith pe pb) := by
  intro st hL
  unfold exprWith
  have : PE st.toks.length (parsePrefix pe pb (st.toks.length + 1)) := fun st' h' =>
    good_prefix he hb _ st' (by omega) (by omega)
  exact good_level this 7 st (Nat.le_refl _)

/-! ### Statements -/

theorem good_stmt {pe : PState → Res Expr} {pb : PState → Res Block} {L : Nat} (he : PE (L + 1) pe)
    (hb : PB L pb) (st : PState) (hL : st.toks.length ≤ L + 1) :
    Good st.toks.length (st.toks.length + 1) st (stmtWith pe pb st) := by
  unfold stmtWith
  split
  · exact ⟨.refl _, by omega⟩
  · rename_i p ts h
    have hlt : ts.length < st.toks.length := by simp [h]
    refine Good.after (.tail h) ?_
    refine ((good_identifier _).sync _ (by omega) (Nat.le_refl _)).bind (by omega) fun a st1 hl1 h1 => ?_
    simp at h1
    dsimp only
    split
    · rename_i p ts1 h'
      have hlt1 : ts1.length < st1.toks.length := by simp [h']
      refine Good.after (.tail h') ?_
      refine (he _ (by simp; omega)).bind (by simp; omega) fun e st2 hl2 h2 => ?_
      simp at h2
      exact .ok (by omega)
    · exact .ok (by omega)
  · rename_i p x p' ts h
    have hlt : ts.length < st.toks.length := by simp [h]; omega
    refine Good.after (st' := { st with toks := ts })
      ⟨by rw [h]; exact (List.suffix_cons _ _).trans (List.suffix_cons _ _), List.suffix_refl _⟩ ?_
    refine (good_function hb _ (by simp; omega)).bind (by simp; omega) fun a st2 hl2 h2 => ?_
    simp at h2
    exact .ok (by omega)
  · rename_i p ts h
    have hlt : ts.length < st.toks.length := by simp [h]
    split
    · exact ⟨.tail h, hlt⟩
    · refine Good.after (.tail h) ?_
      refine (he _ (by simp; omega)).bind (by simp; omega) fun e st2 hl2 h2 => ?_
      simp at h2
      exact .ok (by omega)
  · rename_i p ts h
    exact ⟨.tail h, by simp [h]⟩
  · rename_i p ts h
    have hlt : ts.length < st.toks.length := by simp [h]
    refine Good.after (.tail h) ?_
    refine ((he _ (by simp; omega)).sync _ (by omega) (Nat.le_refl _)).bind (by omega) fun c st1 hl1 h1 => ?_
    simp at h1
    refine ((good_expect _ _ _).sync _ (by omega) (Nat.le_refl _)).bind (by omega) fun _ st2 hl2 h2 => ?_
    refine (hb _ (by omega)).bind (by omega) fun b st3 hl3 h3 => ?_
    exact (good_expect _ _ _).bind (by omega) fun _ st4 hl4 h4 => .ok (by omega)
  · rename_i p ts h
    have hlt : ts.length < st.toks.length := by simp [h]
    refine Good.after (.tail h) ?_
    refine ((good_identifier _).sync _ (by omega) (Nat.le_refl _)).bind (by omega) fun a st1 hl1 h1 => ?_
    simp at h1
    refine ((good_expect _ _ _).sync _ (by omega) (Nat.le_refl _)).bind (by omega) fun _ st2 hl2 h2 => ?_
    refine ((he _ (by omega)).sync _ (by omega) (Nat.le_refl _)).bind (by omega) fun c st1 hl1 h1 => ?_
    refine ((good_expect _ _ _).sync _ (by omega) (Nat.le_refl _)).bind (by omega) fun _ st2 hl2 h2 => ?_
    refine (hb _ (by omega)).bind (by omega) fun b st3 hl3 h3 => ?_
    exact (good_expect _ _ _).bind (by omega) fun _ st4 hl4 h4 => .ok (by omega)
  · refine (he _ hL).bind (Nat.le_refl _) fun e st1 hl1 h1 => ?_
    split
    · rename_i p ts1 h'
      have hlt1 : ts1.length < st1.toks.length := by simp [h']
      refine Good.after (.tail h') ?_
      refine (he _ (by simp; omega)).bind (by simp; omega) fun e st2 hl2 h2 => ?_
      simp at h2
      exact .ok (by omega)
    · exact .ok (by omega)

theorem stmt_progress {ps : PState → Res Stmt} {st : PState} (hne : st.toks ≠ [])
    (h : Good st.toks.length (st.toks.length + 1) st (ps st)) :
    Good st.toks.length 0 st ((ps st).forceSkip.sync .illFormed) := by
  revert h
  generalize ps st = r
  intro h
  cases r with
  | ok a st' => exact h
  | err e s st' =>
    have hl : Later st st' := h.1
    have aux : ∀ s : Strategy, s ≠ .keep → Good st.toks.length 0 st ((Res.err e s st' : Res Stmt).sync .illFormed) := by
      intro s hs
      refine ⟨hl.trans (.sync _ _ _), ?_⟩
      simp only [PState.synchronize]
      by_cases h0 : st'.toks = []
      · have h1 := (s.skip_suffix st'.toks).length_le
        have h2 : 0 < st.toks.length := List.length_pos_iff.2 hne
        rw [h0, List.length_nil] at h1
        rw [h0]
        omega
      · have := Strategy.skip_lt hs h0
        have := hl.len
        omega
    cases s <;> first | exact aux _ (by simp)
  | crash => exact h
  | timeout => exact h

theorem good_blockLoop {ps : PState → Res Stmt} {L : Nat}
    (hs : ∀ st : PState, st.toks.length ≤ L → Good st.toks.length (st.toks.length + 1) st (ps st)) :
    ∀ (n : Nat) (st : PState), st.toks.length < n → st.toks.length ≤ L →
      Good (st.toks.length + 1) 0 st (blockLoop ps n st) := by
  intro n
  induction n with
  | zero => intro st h; omega
  | succ n ih =>
    intro st hn hL
    unfold blockLoop
    split
    · exact .ok (by omega)
    · rename_i t ts h
      split
      · exact .ok (by omega)
      · refine (stmt_progress (by simp [h]) (hs st hL)).bind (Nat.le_refl _) fun s st1 hl1 h1 => ?_
        split
        · exact .ok (by omega)
        · exact (ih st1 (by omega) (by omega)).bind (Nat.le_refl _) fun b st2 hl2 h2 => .ok (by omega)

theorem good_both (n : Nat) : PE n (parseExpr (2 * n + 1)) ∧ PB n (parseBlock (2 * n + 2)) ∧
    (∀ m ≥ 2 * n + 1, PE n (parseExpr m)) ∧ (∀ m ≥ 2 * n + 2, PB n (parseBlock m)) := by
  have step : ∀ n, (∀ m ≥ 2 * n + 1, PE n (parseExpr m)) ∧ (∀ m ≥ 2 * n + 2, PB n (parseBlock m)) := by
    intro n
    induction n with
    | zero =>
      have hE : ∀ m ≥ 1, PE 0 (parseExpr m) := by
        intro m hm st hst
        obtain ⟨m, rfl⟩ := Nat.exists_eq_add_of_le' hm
        have hnil : st.toks = [] := List.length_eq_zero_iff.1 (by omega)
        show Good _ _ _ (exprWith _ _ st)
        have h0 : ∀ k, parseLevel (parsePrefix (parseBoth m).1 (parseBoth m).2 (st.toks.length + 1)) k st =
            .err .unexpectedEof .keep st := by
          intro k
          induction k with
          | zero => simp [parseLevel, parsePrefix, parsePostfix, parsePrimary, hnil, Res.bind]
          | succ k ih => rw [parseLevel, parseBinop, ih]; rfl
        rw [exprWith, h0]
        exact ⟨.refl _, by omega⟩
      refine ⟨hE, fun m hm st hst => ?_⟩
      obtain ⟨m, rfl⟩ := Nat.exists_eq_add_of_le' hm
      have hnil : st.toks = [] := List.length_eq_zero_iff.1 (by omega)
      show Good _ _ _ (blockWith _ _ st)
      simp only [blockWith, blockLoop, hnil]
      exact ⟨.refl _, by simp [hnil]⟩
    | succ n ih =>
      have hE : ∀ m ≥ 2 * (n + 1) + 1, PE (n + 1) (parseExpr m) := by
        intro m hm
        obtain ⟨m, rfl⟩ : ∃ k, m = k + 1 := ⟨m - 1, by omega⟩
        exact good_exprWith (ih.1 m (by omega)) (ih.2 m (by omega))
      refine ⟨hE, ?_⟩
      intro m hm
      -- A statement's own expression has as many tokens as the block; blocks inside have fewer.
      obtain ⟨m, rfl⟩ : ∃ k, m = k + 1 := ⟨m - 1, by omega⟩
      intro st hL
      show Good _ _ _ (blockWith (parseExpr m) (parseBlock m) st)
      refine good_blockLoop (L := n + 1) (fun st h => ?_) _ st (by omega) hL
      exact good_stmt (hE m (by omega)) (ih.2 m (by omega)) st h
  exact ⟨(step n).1 _ (Nat.le_refl _), (step n).2 _ (Nat.le_refl _), (step n).1, (step n).2⟩

/-! ### More budget changes nothing -/

/-- `f` is at most as defined as `g`: where they differ, `f` ran out of budget. -/
def Below {σ α : Type} (f g : σ → Res α) : Prop := ∀ st, f st = .timeout ∨ f st = g st

/-- The same for results. -/
def RBelow {α : Type} (r r' : Res α) : Prop := r = .timeout ∨ r = r'

theorem RBelow.refl {α : Type} (r : Res α) : RBelow r r := Or.inr rfl
theorem RBelow.trans {α : Type} {a b c : Res α} (h : RBelow a b) (h' : RBelow b c) : RBelow a c := by
  rcases h with h | h
  · exact Or.inl h
  · rw [h]; exact h'
theorem RBelow.bind {α β : Type} {r r' : Res α} {f g : α → PState → Res β} (h : RBelow r r')
    (hf : ∀ a st, RBelow (f a st) (g a st)) : RBelow (r.bind f) (r'.bind g) := by
  rcases h with rfl | rfl
  · exact Or.inl rfl
  · cases r with
    | ok a st => exact hf a st
    | err => exact .refl _
    | crash => exact .refl _
    | timeout => exact .refl _
theorem RBelow.sync {α : Type} {r r' : Res α} (ill : α) (h : RBelow r r') : RBelow (r.sync ill) (r'.sync ill) := by
  rcases h with rfl | rfl
  · exact Or.inl rfl
  · exact .refl _
theorem RBelow.forceSkip {α : Type} {r r' : Res α} (h : RBelow r r') : RBelow r.forceSkip r'.forceSkip := by
  rcases h with rfl | rfl
  · exact Or.inl rfl
  · exact .refl _

theorem below_sepBy {α : Type} {p q : PState → Res α} (h : Below p q) (ill : α) (sep fin : TokenKind) :
    ∀ (n : Nat) (st : PState), RBelow (sepBy p ill sep fin n st) (sepBy q ill sep fin n st) := by
  intro n
  induction n with
  | zero => intro st; exact .refl _
  | succ n ih =>
    intro st
    unfold sepBy
    split
    · exact .refl _
    · refine (RBelow.sync ill (h st)).bind fun a st => ?_
      split
      · split
        · exact (ih _).bind fun _ _ => .refl _
        · exact .refl _
      · exact .refl _

theorem below_binLoop {p q : PState → Res Expr} (h : Below p q) (check : Operator → Bool) :
    ∀ (n : Nat) (e : Expr) (st : PState), RBelow (binLoop p check n e st) (binLoop q check n e st) := by
  intro n
  induction n with
  | zero => intro e st; exact .refl _
  | succ n ih =>
    intro e st
    unfold binLoop
    split
    · split
      · refine RBelow.bind (h _) fun r st => ?_
        split
        · exact ih _ _
        · exact .refl _
      · exact .refl _
    · exact .refl _

theorem below_level {p q : PState → Res Expr} (h : Below p q) : ∀ k, Below (parseLevel p k) (parseLevel q k) := by
  intro k
  induction k with
  | zero => exact h
  | succ k ih =>
    intro st
    exact RBelow.bind (ih st) fun e st => below_binLoop ih _ _ _ _

theorem below_postfixLoop {p q : PState → Res Expr} (h : Below p q) :
    ∀ (n : Nat) (e : Expr) (st : PState), RBelow (postfixLoop p n e st) (postfixLoop q n e st) := by
  intro n
  induction n with
  | zero => intro e st; exact .refl _
  | succ n ih =>
    intro e st
    unfold postfixLoop
    split
    · exact (below_sepBy h _ _ _ _ _).bind fun _ _ => (RBelow.refl _).bind fun _ _ => ih _ _
    · exact (RBelow.sync _ (h _)).bind fun _ _ => (RBelow.refl _).bind fun _ _ => ih _ _
    · exact (RBelow.refl _).bind fun _ _ => ih _ _
    · exact ih _ _
    · exact .refl _

theorem below_function {b c : PState → Res Block} (h : Below b c) (st : PState) :
    RBelow (parseFunction b st) (parseFunction c st) :=
  (RBelow.refl _).bind fun _ _ => (RBelow.refl _).bind fun _ _ => (RBelow.refl _).bind fun _ st =>
    RBelow.bind (h st) fun _ _ => .refl _

theorem below_cond {p q : PState → Res Expr} {b c : PState → Res Block} (h : Below p q) (h' : Below b c) :
    ∀ (n : Nat) (st : PState), RBelow (parseCond p b n st) (parseCond q c n st) := by
  intro n
  induction n with
  | zero => intro st; exact .refl _
  | succ n ih =>
    intro st
    unfold parseCond
    refine (RBelow.sync _ (h st)).bind fun _ _ => (RBelow.refl _).bind fun _ st => RBelow.bind (h' st) fun _ _ => ?_
    split
    · exact .refl _
    · exact (ih _).bind fun _ _ => .refl _
    · exact RBelow.bind (h' _) fun _ _ => .refl _
    · exact .refl _
    · exact .refl _

theorem below_item {p q : PState → Res Expr} (h : Below p q) : Below (parseItem p) (parseItem q) := fun _ =>
  (RBelow.refl _).bind fun _ _ => (RBelow.refl _).bind fun _ st => RBelow.bind (h st) fun _ _ => .refl _

theorem below_primary {p q : PState → Res Expr} {b c : PState → Res Block} (h : Below p q) (h' : Below b c) :
    Below (parsePrimary p b) (parsePrimary q c) := by
  intro st
  show RBelow _ _
  unfold parsePrimary
  split
  · exact .refl _
  · dsimp only
    split
    · exact .refl _
    · exact .refl _
    · exact .refl _
    · exact (below_sepBy h _ _ _ _ _).bind fun _ _ => .refl _
    · exact (below_sepBy (below_item h) _ _ _ _ _).bind fun _ _ => .refl _
    · exact (below_function h' _).bind fun _ _ => .refl _
    · exact .refl _
    · exact .refl _
    · exact .refl _
    · exact (below_cond h h' _ _).bind fun _ _ => .refl _
    · exact (RBelow.sync _ (h _)).bind fun _ _ => .refl _
    · exact .refl _

theorem below_postfix {p q : PState → Res Expr} {b c : PState → Res Block} (h : Below p q) (h' : Below b c) :
    Below (parsePostfix p b) (parsePostfix q c) := fun st =>
  RBelow.bind (below_primary h h' st) fun _ _ => below_postfixLoop h _ _ _

theorem below_prefix {p q : PState → Res Expr} {b c : PState → Res Block} (h : Below p q) (h' : Below b c) :
    ∀ n, Below (parsePrefix p b n) (parsePrefix q c n) := by
  intro n
  induction n with
  | zero => intro st; exact RBelow.refl _
  | succ n ih =>
    intro st
    show RBelow _ _
    unfold parsePrefix
    split
    · split
      · exact RBelow.bind (ih _) fun _ _ => .refl _
      · exact below_postfix h h' st
    · exact below_postfix h h' st

theorem below_exprWith {p q : PState → Res Expr} {b c : PState → Res Block} (h : Below p q) (h' : Below b c) :
    Below (exprWith p b) (exprWith q c) := fun st => below_level (below_prefix h h' _) 7 st

theorem below_stmt {p q : PState → Res Expr} {b c : PState → Res Block} (h : Below p q) (h' : Below b c) :
    Below (stmtWith p b) (stmtWith q c) := by
  intro st
  show RBelow _ _
  unfold stmtWith
  split
  · exact .refl _
  · refine (RBelow.refl _).bind fun _ _ => ?_
    dsimp only
    split
    · exact RBelow.bind (h _) fun _ _ => .refl _
    · exact .refl _
  · exact (below_function h' _).bind fun _ _ => .refl _
  · split
    · exact .refl _
    · exact RBelow.bind (h _) fun _ _ => .refl _
  · exact .refl _
  · exact (RBelow.sync _ (h _)).bind fun _ _ => (RBelow.refl _).bind fun _ _ => RBelow.bind (h' _) fun _ _ => .refl _
  · exact (RBelow.refl _).bind fun _ _ => (RBelow.refl _).bind fun _ _ => (RBelow.sync _ (h _)).bind fun _ _ =>
      (RBelow.refl _).bind fun _ _ => RBelow.bind (h' _) fun _ _ => .refl _
  · refine RBelow.bind (h _) fun _ _ => ?_
    split
    · exact RBelow.bind (h _) fun _ _ => .refl _
    · exact .refl _

theorem below_blockLoop {p q : PState → Res Stmt} (h : Below p q) :
    ∀ (n : Nat) (st : PState), RBelow (blockLoop p n st) (blockLoop q n st) := by
  intro n
  induction n with
  | zero => intro st; exact .refl _
  | succ n ih =>
    intro st
    unfold blockLoop
    split
    · exact .refl _
    · split
      · exact .refl _
      · refine RBelow.bind (RBelow.sync _ (RBelow.forceSkip (h _))) fun _ _ => ?_
        split
        · exact .refl _
        · exact (ih _).bind fun _ _ => .refl _

theorem below_blockWith {p q : PState → Res Expr} {b c : PState → Res Block} (h : Below p q) (h' : Below b c) :
    Below (blockWith p b) (blockWith q c) := fun _ => below_blockLoop (below_stmt h h') _ _

theorem below_both (n : Nat) : Below (parseExpr n) (parseExpr (n + 1)) ∧ Below (parseBlock n) (parseBlock (n + 1)) := by
  induction n with
  | zero => exact ⟨fun _ => Or.inl rfl, fun _ => Or.inl rfl⟩
  | succ n ih => exact ⟨below_exprWith ih.1 ih.2, below_blockWith ih.1 ih.2⟩

theorem below_add (n k : Nat) : Below (parseExpr n) (parseExpr (n + k)) ∧ Below (parseBlock n) (parseBlock (n + k)) := by
  induction k with
  | zero => exact ⟨fun _ => Or.inr rfl, fun _ => Or.inr rfl⟩
  | succ k ih => exact ⟨fun st => RBelow.trans (ih.1 st) ((below_both _).1 st),
      fun st => RBelow.trans (ih.2 st) ((below_both _).2 st)⟩

theorem Good.ne_timeout {α : Type} {N M : Nat} {st : PState} {r : Res α} (h : Good N M st r) : r ≠ .timeout := by
  rintro rfl; exact h

/-- The expression parser with a sufficient budget. -/
def pE (st : PState) : Res Expr := parseExpr (2 * st.toks.length + 1) st
/-- The block parser with a sufficient budget. -/
def pB (st : PState) : Res Block := parseBlock (2 * st.toks.length + 2) st

theorem parseExpr_eq {st : PState} {n : Nat} (h : 2 * st.toks.length + 1 ≤ n) : parseExpr n st = pE st := by
  obtain ⟨k, rfl⟩ := Nat.exists_eq_add_of_le h
  rcases (below_add (2 * st.toks.length + 1) k).1 st with h | h
  · exact absurd h ((good_both _).1 st (Nat.le_refl _)).ne_timeout
  · exact h.symm

theorem parseBlock_eq {st : PState} {n : Nat} (h : 2 * st.toks.length + 2 ≤ n) : parseBlock n st = pB st := by
  obtain ⟨k, rfl⟩ := Nat.exists_eq_add_of_le h
  rcases (below_add (2 * st.toks.length + 2) k).2 st with h | h
  · exact absurd h ((good_both _).2.1 st (Nat.le_refl _)).ne_timeout
  · exact h.symm

theorem below_pE (n : Nat) : Below (parseExpr n) pE := by
  intro st
  rcases Nat.le_total (2 * st.toks.length + 1) n with h | h
  · exact Or.inr (parseExpr_eq h)
  · obtain ⟨k, hk⟩ := Nat.exists_eq_add_of_le h
    have := (below_add n k).1 st
    rw [← hk] at this
    exact this

theorem below_pB (n : Nat) : Below (parseBlock n) pB := by
  intro st
  rcases Nat.le_total (2 * st.toks.length + 2) n with h | h
  · exact Or.inr (parseBlock_eq h)
  · obtain ⟨k, hk⟩ := Nat.exists_eq_add_of_le h
    have := (below_add n k).2 st
    rw [← hk] at this
    exact this

/-- The recursion equation of `parse_expression`, without budgets. -/
theorem pE_eq (st : PState) : pE st = exprWith pE pB st := by
  have h := below_exprWith (below_pE (2 * st.toks.length + 2)) (below_pB (2 * st.toks.length + 2)) st
  have e : exprWith (parseExpr (2 * st.toks.length + 2)) (parseBlock (2 * st.toks.length + 2)) st =
    parseExpr (2 * st.toks.length + 3) st := rfl
  rw [e, parseExpr_eq (by omega)] at h
  rcases h with h | h
  · exact absurd h ((good_both _).1 st (Nat.le_refl _)).ne_timeout
  · exact h

/-- The recursion equation of `parse_block`, without budgets. -/
theorem pB_eq (st : PState) : pB st = blockWith pE pB st := by
  have h := below_blockWith (below_pE (2 * st.toks.length + 2)) (below_pB (2 * st.toks.length + 2)) st
  have e : blockWith (parseExpr (2 * st.toks.length + 2)) (parseBlock (2 * st.toks.length + 2)) st =
    parseBlock (2 * st.toks.length + 3) st := rfl
  rw [e, parseBlock_eq (by omega)] at h
  rcases h with h | h
  · exact absurd h ((good_both _).2.1 st (Nat.le_refl _)).ne_timeout
  · exact h

theorem good_pE (st : PState) : Good st.toks.length (st.toks.length + 1) st (pE st) :=
  (good_both _).1 st (Nat.le_refl _)
theorem good_pB (st : PState) : Good (st.toks.length + 1) 0 st (pB st) :=
  (good_both _).2.1 st (Nat.le_refl _)

/-! ### The top-level loop -/

theorem blockLoop_stop {ps : PState → Res Stmt}
    (hs : ∀ st : PState, Good st.toks.length (st.toks.length + 1) st (ps st)) :
    ∀ (n : Nat) (st : PState) (b : Block) (st' : PState), blockLoop ps n st = .ok b st' →
      st'.toks.length ≤ st.toks.length ∧
      (st'.toks.head?.all (fun t => t.kind.isBlockTerminator) = true ∨ st'.toks.length < st.toks.length) := by
  intro n
  induction n with
  | zero => intro st b st' h; cases h
  | succ n ih =>
    intro st b st' h
    unfold blockLoop at h
    split at h
    · rename_i hnil; cases h; simp [hnil]
    · rename_i t ts hts
      split at h
      · rename_i ht; cases h; simp [hts, ht]
      · have hp := stmt_progress (by simp [hts]) (hs st)
        revert h hp
        generalize Res.sync _ _ = r
        intro h hp
        cases r with
        | ok a st1 =>
          have h1 : st1.toks.length < st.toks.length := hp.2
          simp only [Res.bind] at h
          split at h
          · cases h; exact ⟨by omega, Or.inr h1⟩
          · cases hb : blockLoop ps n st1 with
            | ok b1 st2 =>
              rw [hb] at h
              cases h
              have := (ih _ _ _ hb).1
              exact ⟨by omega, Or.inr (by omega)⟩
            | err => rw [hb] at h; cases h
            | crash => rw [hb] at h; cases h
            | timeout => rw [hb] at h; cases h
        | err => cases h
        | crash => cases h
        | timeout => cases h

theorem good_stmt_p (st : PState) : Good st.toks.length (st.toks.length + 1) st (stmtWith pE pB st) :=
  good_stmt (L := st.toks.length) (fun st _ => good_pE st) (fun st _ => good_pB st) st (by omega)

theorem good_parseLoop {pb : PState → Res Block} {L : Nat} (hb : ∀ st : PState, st.toks.length ≤ L → pb st = pB st) :
    ∀ (n : Nat) (st : PState), st.toks.length + 1 < n → st.toks.length ≤ L →
      ∃ b es, parseLoop pb n st = .ok b ⟨[], es ++ st.errors⟩ := by
  intro n
  induction n with
  | zero => intro st h; omega
  | succ n ih =>
    intro st hn hL
    unfold parseLoop
    rw [hb st hL]
    have hg := good_pB st
    have hst := blockLoop_stop good_stmt_p (st.toks.length + 1) st
    rw [show blockLoop (stmtWith pE pB) (st.toks.length + 1) st = pB st from (pB_eq st).symm] at hst
    revert hg hst
    generalize pB st = r
    intro hg hst
    cases r with
    | err e s st' => have := hg.2; omega
    | crash => exact hg.elim
    | timeout => exact hg.elim
    | ok b st' =>
      simp only [Res.bind]
      obtain ⟨es, he⟩ := hg.1.2
      split
      · rename_i hnil
        refine ⟨b, es, ?_⟩
        obtain ⟨tk, er⟩ := st'
        simp at hnil he
        simp [hnil, he]
      · rename_i t ts hts
        split
        · obtain ⟨b', es', h'⟩ := ih ⟨[], .unexpected t (.msg "statement") :: st'.errors⟩ (by
            have := hg.2; simp [hts] at this; simp; omega) (by simp)
          exact ⟨b', es' ++ .unexpected t (.msg "statement") :: es, by rw [h', ← he]; simp⟩
        · rename_i hnt
          rcases (hst b st' rfl).2 with h1 | h1
          · simp [hts] at h1; exact absurd h1 hnt
          · obtain ⟨b', es', h'⟩ := ih st' (by omega) (by omega)
            exact ⟨b', es' ++ es, by rw [h', ← he]; simp⟩

/-- The parser finishes on every list of tokens, having read all of it or lost the rest. -/
theorem parse_total (ts : List Token) : ∃ b es, parse ts = .ok b ⟨[], es⟩ := by
  obtain ⟨b, es, h⟩ := good_parseLoop (pb := parseBlock (parseBudget ts)) (L := ts.length)
    (fun st h => parseBlock_eq (by simp [parseBudget]; omega)) (ts.length + 2) ⟨ts, []⟩ (by simp) (by simp)
  exact ⟨b, es, by rw [parse, h]; simp⟩

end Hush

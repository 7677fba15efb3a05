import Verif.Lemmas.ParseTerm
import Verif.Spec.Grammar

/-!
Soundness of the parser: whatever it accepts without reporting an error is derivable in the grammar.
-/

namespace Hush
open Ast (Expr Lit Stmt Block)
open Spec

/-- If the outcome is a value and no error was reported, the tokens read satisfy `P` (value, tokens read, rest). -/
def Sound {α : Type} (P : α → List Token → List Token → Prop) (st : PState) : Res α → Prop
  | .ok a st' => Later st st' ∧ (st'.errors = st.errors → ∃ ts, st.toks = ts ++ st'.toks ∧ P a ts st'.toks)
  | .err _ _ st' => Later st st'
  | _ => True

theorem later_errors {a b c : PState} (h : Later a b) (h' : Later b c) (e : c.errors = a.errors) :
    b.errors = a.errors ∧ c.errors = b.errors := by
  have h1 := h.2
  have h2 := h'.2
  rw [e] at h2
  have := List.IsSuffix.eq_of_length h1 (Nat.le_antisymm h1.length_le h2.length_le)
  exact ⟨this.symm, by rw [e, this]⟩

theorem Sound.bind {α β : Type} {P : α → List Token → List Token → Prop} {Q : β → List Token → List Token → Prop}
    {st : PState} {r : Res α} {f : α → PState → Res β} (h : Sound P st r)
    (hf : ∀ a st', Later st st' →
      Sound (fun b ts rest => ∀ ts0, P a ts0 (ts ++ rest) → Q b (ts0 ++ ts) rest) st' (f a st')) :
    Sound Q st (r.bind f) := by
  cases r with
  | ok a st' =>
    have hf := hf a st' h.1
    simp only [Res.bind]
    revert hf
    generalize f a st' = r'
    intro hf
    cases r' with
    | ok b st2 =>
      refine ⟨h.1.trans hf.1, fun he => ?_⟩
      obtain ⟨e1, e2⟩ := later_errors h.1 hf.1 he
      obtain ⟨ts0, h0, hP⟩ := h.2 e1
      obtain ⟨ts, h1, hQ⟩ := hf.2 e2
      exact ⟨ts0 ++ ts, by rw [h0, h1, List.append_assoc], hQ ts0 (by rw [← h1]; exact hP)⟩
    | err e s st2 => exact h.1.trans hf
    | crash => trivial
    | timeout => trivial
  | err e s st' => exact h
  | crash => trivial
  | timeout => trivial

theorem Sound.mono {α : Type} {P Q : α → List Token → List Token → Prop} {st : PState} {r : Res α} (h : Sound P st r)
    (hPQ : ∀ a ts rest, P a ts rest → Q a ts rest) : Sound Q st r := by
  cases r with
  | ok a st' =>
    refine ⟨h.1, fun he => ?_⟩
    obtain ⟨ts, h1, h2⟩ := h.2 he
    exact ⟨ts, h1, hPQ _ _ _ h2⟩
  | err => exact h
  | crash => trivial
  | timeout => trivial

theorem Sound.sync {α : Type} {P : α → List Token → List Token → Prop} {st : PState} {r : Res α} (ill : α)
    (h : Sound P st r) : Sound P st (r.sync ill) := by
  cases r with
  | ok a st' => exact h
  | err e s st' =>
    have h : Later st st' := h
    refine ⟨h.trans (.sync _ _ _), fun he => ?_⟩
    have := h.2.length_le
    have h2 : (e :: st'.errors).length = st.errors.length := congrArg List.length he
    simp at h2; omega
  | crash => trivial
  | timeout => trivial

theorem Sound.withSync {α : Type} {P : α → List Token → List Token → Prop} {st : PState} {r : Res α} (s : Strategy)
    (h : Sound P st r) : Sound P st (r.withSync s) := by
  cases r <;> exact h

theorem Sound.forceSkip {α : Type} {P : α → List Token → List Token → Prop} {st : PState} {r : Res α}
    (h : Sound P st r) : Sound P st r.forceSkip := by
  cases r with
  | err e s st' => cases s <;> exact h
  | ok => exact h
  | crash => exact h
  | timeout => exact h

theorem Sound.ok {α : Type} {P : α → List Token → List Token → Prop} {st : PState} {a : α} (h : P a [] st.toks) :
    Sound P st (.ok a st) := ⟨.refl _, fun _ => ⟨[], rfl, h⟩⟩

theorem Sound.tok {α : Type} {P : α → List Token → List Token → Prop} {st : PState} {r : Res α} {t : Token}
    {ts : List Token} (hts : st.toks = t :: ts)
    (h : Sound (fun a ts rest => P a (t :: ts) rest) { st with toks := ts } r) : Sound P st r := by
  cases r with
  | ok a st' =>
    refine ⟨(Later.tail hts).trans h.1, fun he => ?_⟩
    obtain ⟨ts', h1, h2⟩ := h.2 he
    exact ⟨t :: ts', by rw [hts]; simpa using h1, h2⟩
  | err e s st' => exact (Later.tail hts).trans h
  | crash => trivial
  | timeout => trivial

theorem sound_expect (k : TokenKind) (s : Strategy) (st : PState) :
    Sound (fun _ ts _ => ∃ p, ts = [⟨k, p⟩]) st (expect k s st) := by
  unfold expect
  split
  · rename_i t ts h
    split
    · rename_i hk
      exact .tok h (.ok ⟨t.pos, by rw [← hk]⟩)
    · exact Later.refl _
  · exact Later.refl _

theorem sound_identifier (st : PState) :
    Sound (fun x ts _ => ts = [⟨.identifier x.1, x.2⟩]) st (parseIdentifier st) := by
  unfold parseIdentifier
  split
  · rename_i x p ts h
    exact .tok h (.ok rfl)
  · exact Later.refl _
  · exact Later.refl _

theorem sound_sepBy {α : Type} {p : PState → Res α} {P : α → List Token → Prop}
    (hp : ∀ st, Sound (fun a ts _ => P a ts) st (p st)) (ill : α) (sep fin : TokenKind) :
    ∀ (n : Nat) (st : PState), Sound (fun as ts _ => SepBy P sep as ts) st (sepBy p ill sep fin n st) := by
  intro n
  induction n with
  | zero => intro st; trivial
  | succ n ih =>
    intro st
    unfold sepBy
    split
    · exact .ok .nil
    · refine ((hp st).sync ill).bind fun a st1 _ => ?_
      split
      · rename_i t ts h
        split
        · rename_i hk
          refine .tok h ?_
          refine (ih _).bind fun as st2 _ => ?_
          refine .ok fun ts0 h0 ts1 h1 => ?_
          have : t = ⟨sep, t.pos⟩ := by rw [← hk]
          rw [this, List.append_nil]
          exact .cons h1 h0
        · exact .ok fun ts0 h0 => by rw [List.append_nil]; exact .last h0
      · exact .ok fun ts0 h0 => by rw [List.append_nil]; exact .last h0

/-! ### Arguments -/

theorem addPiece_lit_nil (ps : List Ast.ArgPart) : addPiece (.unit (.literal [])) ps = ps := rfl

theorem addPiece_lit_append (s s' : Bytes) (ps : List Ast.ArgPart) :
    addPiece (.unit (.literal (s ++ s'))) ps = addPiece (.unit (.literal s)) (addPiece (.unit (.literal s')) ps) := by
  cases s with
  | nil => rfl
  | cons b s =>
    cases s' with
    | nil => simp [addPiece_lit_nil]
    | cons b' s' =>
      rcases ps with _ | ⟨p, ps⟩
      · rfl
      · rcases p with (u | u) | e
        · simp [addPiece]
        · rfl
        · rfl

theorem pushLit_eq (lit : Bytes) (rest : List Ast.ArgPart) (h : ∀ s ps, rest ≠ .unit (.literal s) :: ps) :
    pushLit lit rest = addPiece (.unit (.literal lit)) rest := by
  unfold pushLit
  cases lit with
  | nil => rfl
  | cons b l =>
    rcases rest with _ | ⟨p, ps⟩
    · rfl
    · rcases p with (u | u) | e
      · exact absurd rfl (h _ _)
      · rfl
      · rfl

theorem buildUnits_eq (ps : List ArgPart) (ih : ∀ lit, buildParts ps lit =
      addPiece (.unit (.literal lit)) ((ps.flatMap partPieces).foldr addPiece [])) :
    ∀ (us : List ArgUnit) (lit : Bytes), buildUnits (fun lit => buildParts ps lit) us lit =
      addPiece (.unit (.literal lit)) (((us.map Ast.ArgPart.unit) ++ ps.flatMap partPieces).foldr addPiece []) := by
  intro us
  induction us with
  | nil => intro lit; rw [buildUnits, ih]; rfl
  | cons u us ihu =>
    intro lit
    cases u with
    | literal s =>
      rw [buildUnits, ihu]
      simp only [List.map_cons, List.cons_append, List.foldr_cons]
      rw [addPiece_lit_append]
    | dollar x p =>
      rw [buildUnits, ihu, pushLit_eq _ _ (by simp), addPiece_lit_nil]
      rfl

theorem buildParts_eq : ∀ (ps : List ArgPart) (lit : Bytes),
    buildParts ps lit = addPiece (.unit (.literal lit)) ((ps.flatMap partPieces).foldr addPiece []) := by
  intro ps
  induction ps with
  | nil =>
    intro lit
    rw [buildParts]
    cases lit <;> rfl
  | cons p ps ih =>
    intro lit
    cases p with
    | singleQuoted s =>
      rw [buildParts, ih, addPiece_lit_append]; rfl
    | doubleQuoted us =>
      rw [buildParts, buildUnits_eq ps ih, List.flatMap_cons]; rfl
    | unquoted u =>
      cases u with
      | literal s => rw [buildParts, ih, addPiece_lit_append]; rfl
      | dollar x p =>
        rw [buildParts, ih, pushLit_eq _ _ (by simp), addPiece_lit_nil]; rfl
    | expansion e =>
      rw [buildParts, ih, pushLit_eq _ _ (by simp), addPiece_lit_nil]; rfl
    | envAssign =>
      rw [buildParts, ih, addPiece_lit_append]; rfl

theorem buildArg_eq (ps : List ArgPart) (pos : Pos) : buildArg ps pos = ⟨argParts ps, pos⟩ := by
  rw [buildArg, buildParts_eq]; rfl

theorem sound_argument (s : Strategy) (st : PState) :
    Sound (fun a ts _ => ArgTok a ts ∧ ∃ t, ts = [t]) st (parseArgument s st) := by
  unfold parseArgument
  split
  · rename_i ps p ts h
    refine .tok h (.ok ⟨?_, _, rfl⟩)
    rw [buildArg_eq]
    exact .mk
  · exact Later.refl _
  · exact Later.refl _

theorem parseU8_iff (s : Bytes) (n : Nat) : parseU8 s = some n ↔ FdText s n := by
  have digit_ne : ∀ b : UInt8, isDigit b = true → b ≠ 43 := by
    intro b hb h; subst h; revert hb; decide
  have core : ∀ ds : Bytes, (if ds.isEmpty || !ds.all isDigit then none
      else (if ds.foldl (fun n b => 10 * n + (b.toNat - 48)) 0 ≤ 255 then
        some (ds.foldl (fun n b => 10 * n + (b.toNat - 48)) 0) else none)) = some n ↔
      ds ≠ [] ∧ ds.all isDigit = true ∧ digitsValue ds ≤ 255 ∧ n = digitsValue ds := by
    intro ds
    unfold digitsValue
    by_cases h1 : ds = []
    · simp [h1]
    · cases h2 : ds.all isDigit
      · simp
      · have h3 : ds.isEmpty = false := by simpa using h1
        rw [if_neg (by simp [h3])]
        generalize ds.foldl (fun n b => 10 * n + (b.toNat - 48)) 0 = v
        constructor
        · intro h
          split at h
          · rename_i hv; cases h; exact ⟨h1, rfl, hv, rfl⟩
          · cases h
        · rintro ⟨_, _, hv, rfl⟩
          rw [if_pos hv]
  cases s with
  | nil =>
    refine (core []).trans ⟨fun h => absurd rfl h.1, fun h => ?_⟩
    cases h; exact ⟨by assumption, by assumption, by assumption, rfl⟩
  | cons b t =>
    unfold parseU8
    by_cases hb : b = cPlus
    · have hb' : b = 43 := hb
      dsimp only
      rw [if_pos hb]
      refine (core t).trans ⟨?_, ?_⟩
      · rintro ⟨h1, h2, h3, rfl⟩
        rw [hb']
        exact .plus h1 h2 h3
      · intro h
        cases h with
        | digits h1 h2 h3 =>
          simp only [List.all_cons, Bool.and_eq_true] at h2
          exact absurd hb' (digit_ne _ h2.1)
        | plus h1 h2 h3 => exact ⟨h1, h2, h3, rfl⟩
    · dsimp only
      rw [if_neg hb]
      refine (core (b :: t)).trans ⟨?_, ?_⟩
      · rintro ⟨h1, h2, h3, rfl⟩
        exact .digits h1 h2 h3
      · intro h
        cases h with
        | digits h1 h2 h3 => exact ⟨h1, h2, h3, rfl⟩
        | plus h1 h2 h3 => exact absurd rfl hb

theorem parseFd_iff {st st' : PState} {n : Nat} : parseFd st = some (n, st') ↔
    ∃ s p, FdText s n ∧ st.toks = ⟨.argument [.unquoted (.literal s)], p⟩ :: st'.toks ∧ st'.errors = st.errors := by
  unfold parseFd
  constructor
  · intro h
    split at h
    · rename_i s p ts hts
      split at h
      · rename_i n' hn
        cases h
        exact ⟨s, p, (parseU8_iff _ _).1 hn, hts, rfl⟩
      · cases h
    · cases h
  · rintro ⟨s, p, hs, hts, he⟩
    rw [hts]
    obtain ⟨tk, er⟩ := st'
    simp at he
    simp [(parseU8_iff s n).2 hs, he]

theorem parseFd_none {st : PState} (h : parseFd st = none) {ps : List ArgPart} {p : Pos} {ts : List Token}
    (hts : st.toks = ⟨.argument ps, p⟩ :: ts) (s : Bytes) (n : Nat) (hps : ps = [.unquoted (.literal s)]) :
    ¬ FdText s n := by
  intro hs
  have := (parseFd_iff (st := st) (st' := { st with toks := ts }) (n := n)).2 ⟨s, p, hs, by rw [hts, hps], rfl⟩
  rw [h] at this; cases this

theorem sound_output (src : Nat) (st : PState) :
    Sound (fun r ts _ => (∃ p ps p', ts = [⟨.cmdOperator (.output true), p⟩, ⟨.argument ps, p'⟩] ∧
        r = .output src (.append ⟨argParts ps, p'⟩)) ∨
      ∃ p t tok, Target t tok ∧ ts = [⟨.cmdOperator (.output false), p⟩, tok] ∧ r = .output src t) st
      (parseOutput src st) := by
  unfold parseOutput
  split
  · rename_i append p ts h
    refine .tok h ?_
    dsimp only
    split
    · rename_i happ
      refine (sound_argument _ _).bind fun a st1 _ => .ok ?_
      rintro ts0 ⟨h0, t0, rfl⟩
      cases h0
      rename_i ps p'
      exact Or.inl ⟨p, ps, p', by simp [happ], rfl⟩
    · rename_i happ
      cases hfd : parseFd { st with toks := ts } with
      | some x =>
        obtain ⟨fd, st2⟩ := x
        obtain ⟨s, p', hs, h1, h2⟩ := parseFd_iff.1 hfd
        refine ⟨⟨?_, ?_⟩, fun _ => ⟨[⟨.argument [.unquoted (.literal s)], p'⟩], by rw [h1]; rfl, ?_⟩⟩
        · rw [h1]; exact List.suffix_cons _ _
        · rw [h2]; exact List.suffix_refl _
        · exact Or.inr ⟨p, _, _, .fd (p := p') hs, by simp [happ], rfl⟩
      | none =>
        refine Sound.mono (P := fun r ts' _ => ∃ t tok, Target t tok ∧ ts' = [tok] ∧ r = .output src t) ?_ ?_
        · unfold parseArgument
          dsimp only
          rcases hts' : ts with _ | ⟨⟨kd, p'⟩, ts'⟩
          · exact Later.refl _
          · cases kd with
            | argument ps =>
              refine .tok (t := ⟨.argument ps, p'⟩) (ts := ts') rfl ?_
              dsimp only [Res.bind]
              refine .ok ?_
              refine ⟨.overwrite ⟨argParts ps, p'⟩, _, .file (p := p') (fun s n hps => parseFd_none hfd hts' s n hps), rfl, ?_⟩
              rw [buildArg_eq]
            | _ => exact Later.refl _
        · rintro r ts' _ ⟨t, tok, hT, rfl, rfl⟩
          exact Or.inr ⟨p, t, tok, hT, by simp [happ], rfl⟩
  · exact Later.refl _
  · exact Later.refl _

theorem sound_redirection (st : PState) : Sound (fun r ts _ => Redir r ts) st (parseRedirection st) := by
  unfold parseRedirection
  split
  · rename_i lit p ts h
    refine .tok h ?_
    refine (sound_argument _ _).bind fun a st1 _ => .ok ?_
    rintro ts0 ⟨h0, t0, rfl⟩
    cases h0
    exact .input
  · split
    · rename_i fd st2 hfd
      obtain ⟨s, p', hs, h1, h2⟩ := parseFd_iff.1 hfd
      have hst : st2 = { st with toks := st2.toks } := by
        obtain ⟨tk, er⟩ := st2; simp at h2; simp [h2]
      refine .tok h1 ?_
      rw [← hst]
      refine (sound_output fd st2).mono ?_
      rintro r ts rest (⟨p, ps, p'', rfl, rfl⟩ | ⟨p, t, tok, hT, rfl, rfl⟩)
      · exact .appendFd hs
      · exact .outputFd hs hT
    · refine (sound_output 1 st).mono ?_
      rintro r ts rest (⟨p, ps, p'', rfl, rfl⟩ | ⟨p, t, tok, hT, rfl, rfl⟩)
      · exact .append
      · exact .output hT
  · exact Later.refl _

theorem sound_operators : ∀ (n : Nat) (st : PState),
    Sound (fun x ts _ => ∃ tsR tsT, ts = tsR ++ tsT ∧ Many Redir x.1 tsR ∧
      (x.2 = true ∧ tsT = [] ∨ x.2 = false ∧ ∃ p, tsT = [⟨.cmdOperator .try_, p⟩])) st (parseOperators n st) := by
  intro n
  induction n with
  | zero => intro st; trivial
  | succ n ih =>
    intro st
    unfold parseOperators
    split
    · exact Later.refl _
    · rename_i t ts h
      split
      · exact .ok ⟨[], [], rfl, .nil, Or.inl ⟨rfl, rfl⟩⟩
      · split
        · rename_i hk
          refine .tok h (.ok ⟨[], [t], rfl, .nil, Or.inr ⟨rfl, t.pos, ?_⟩⟩)
          rw [← hk]
        · refine ((sound_redirection st).sync _).bind fun r st1 _ => ?_
          refine (ih st1).bind fun x st2 _ => .ok ?_
          rintro ts0 ⟨tsR, tsT, rfl, hR, hT⟩ ts1 h1
          exact ⟨ts1 ++ tsR, tsT, by simp, .cons h1 hR, hT⟩

theorem parseEnv_sound (ts : List Token) : ∃ tsE, ts = tsE ++ (parseEnv ts).2 ∧ Many EnvTok (parseEnv ts).1 tsE ∧
    (parseEnv ts).2.head?.all (fun t => !isEnvForm t.kind) = true := by
  fun_induction parseEnv ts with
  | case1 k ps p ts ih =>
    obtain ⟨tsE, h1, h2, h3⟩ := ih
    refine ⟨⟨.argument (.unquoted k :: .envAssign :: ps), p⟩ :: tsE, by simp [← h1], ?_, h3⟩
    rw [buildArg_eq]
    exact .cons (ts := [_]) .mk h2
  | case2 ts h =>
    refine ⟨[], rfl, .nil, ?_⟩
    cases ts with
    | nil => rfl
    | cons t ts =>
      obtain ⟨k, p⟩ := t
      simp only [List.head?_cons, Option.all_some, Bool.not_eq_true']
      unfold isEnvForm
      split
      · exact absurd rfl (h _ _ _ _)
      · rfl

theorem isNumberTok_eq (ps : List ArgPart) : isNumberTok (.argument ps) = true ↔
    ∃ p, ps = [p] ∧ p.isUnquotedNumber = true := by
  unfold isNumberTok
  constructor
  · intro h
    split at h
    · rename_i s hs; cases hs; exact ⟨_, rfl, h⟩
    · cases h
  · rintro ⟨p, rfl, h⟩
    rcases p with (u | u) | _ | _ | _ | _
    · exact h
    · simp [ArgPart.isUnquotedNumber, ArgUnit.isNumber] at h
    all_goals simp [ArgPart.isUnquotedNumber] at h

theorem isRedirection_iff (ps : List ArgPart) (next : Option Token) : isRedirection ps next = true ↔
    isNumberTok (.argument ps) = true ∧ next.any (fun t => isRedirOp t.kind) = true := by
  unfold isRedirection
  rw [Bool.and_eq_true, isNumberTok_eq]
  refine and_congr ?_ ?_
  · constructor
    · intro h
      split at h
      · exact ⟨_, rfl, h⟩
      · cases h
    · rintro ⟨p, rfl, h⟩; exact h
  · rcases next with _ | ⟨k, p⟩
    · simp
    · cases k with
      | cmdOperator op => cases op <;> simp [isRedirOp, CmdOp.isRedirection]
      | _ => simp [isRedirOp]

theorem parseArgs_sound (ts : List Token) : ∃ tsA, ts = tsA ++ (parseArgs ts).2 ∧ Many ArgTok (parseArgs ts).1 tsA ∧
    (tsA ≠ [] → (parseArgs ts).2.head?.any (fun t => isRedirOp t.kind) = true →
        tsA.getLast?.all (fun t => !isNumberTok t.kind) = true) ∧
    (∀ ps p r, (parseArgs ts).2 = ⟨.argument ps, p⟩ :: r →
      isNumberTok (.argument ps) = true ∧ r.head?.any (fun t => isRedirOp t.kind) = true) := by
  fun_induction parseArgs ts with
  | case1 => exact ⟨[], rfl, .nil, by simp, by simp⟩
  | case2 ps p ts h =>
    refine ⟨[], rfl, .nil, by simp, ?_⟩
    rintro ps' p' r hr
    cases hr
    exact (isRedirection_iff _ _).1 h
  | case3 ps p ts h ih =>
    obtain ⟨tsA, h1, h2, h3, h4⟩ := ih
    refine ⟨⟨.argument ps, p⟩ :: tsA, by simp [← h1], ?_, ?_, h4⟩
    · rw [buildArg_eq]; exact .cons (ts := [_]) .mk h2
    · intro _ hop
      cases tsA with
      | nil =>
        simp only [List.nil_append] at h1
        rw [← h1] at hop
        simp only [List.getLast?_singleton, Option.all_some, Bool.not_eq_true']
        refine Bool.eq_false_iff.2 fun hn => ?_
        exact h ((isRedirection_iff _ _).2 ⟨hn, hop⟩)
      | cons t tsA =>
        have := h3 (by simp) hop
        simpa [List.getLast?_cons_cons] using this
  | case4 t ts h =>
    refine ⟨[], rfl, .nil, by simp, ?_⟩
    rintro ps p r hr
    cases hr
    exact absurd rfl (h _ _)

/-- The first token of a non-empty list of redirections. -/
theorem Many.redir_head {rs : List Ast.Redirection} {ts : List Token} (h : Many Redir rs ts) :
    ts = [] ∨ ∃ t r, ts = t :: r ∧ (isRedirOp t.kind = true ∨
      ∃ s p, t = ⟨.argument [.unquoted (.literal s)], p⟩ ) := by
  cases h with
  | nil => exact Or.inl rfl
  | cons h _ =>
    right
    cases h with
    | input => exact ⟨_, _, rfl, Or.inl rfl⟩
    | append => exact ⟨_, _, rfl, Or.inl rfl⟩
    | output => exact ⟨_, _, rfl, Or.inl rfl⟩
    | appendFd hs => exact ⟨_, _, rfl, Or.inr ⟨_, _, rfl⟩⟩
    | outputFd hs => exact ⟨_, _, rfl, Or.inr ⟨_, _, rfl⟩⟩

theorem sound_basic (st : PState) : Sound (fun c ts _ => Basic c ts) st (parseBasic st) := by
  unfold parseBasic
  obtain ⟨tsE, hE1, hE2, hE3⟩ := parseEnv_sound st.toks
  have hEs := parseEnv_suffix st.toks
  generalize parseEnv st.toks = pr at *
  obtain ⟨env, ts1⟩ := pr
  dsimp only at *
  unfold parseArgument
  cases hts : ts1 with
  | nil => exact ⟨by simp, List.suffix_refl _⟩
  | cons tP ts2 =>
    obtain ⟨kP, pP⟩ := tP
    have hl0 : Later st ⟨⟨kP, pP⟩ :: ts2, st.errors⟩ := ⟨by rw [← hts]; exact hEs, List.suffix_refl _⟩
    cases kP with
    | argument ps =>
      dsimp only [Res.bind]
      obtain ⟨tsA, hA1, hA2, hA3, hA4⟩ := parseArgs_sound ts2
      have hAs := parseArgs_suffix ts2
      generalize parseArgs ts2 = pr at *
      obtain ⟨args, ts3⟩ := pr
      dsimp only at *
      have hl1 : Later st ⟨ts3, st.errors⟩ :=
        hl0.trans ⟨hAs.trans (List.suffix_cons _ _), List.suffix_refl _⟩
      have hO := sound_operators (ts3.length + 1) ⟨ts3, st.errors⟩
      generalize parseOperators (ts3.length + 1) ⟨ts3, st.errors⟩ = r at hO
      cases r with
      | ok x st4 =>
        obtain ⟨redirs, abort⟩ := x
        refine ⟨hl1.trans hO.1, fun he => ?_⟩
        obtain ⟨tsO, h1, tsR, tsT, rfl, hR, hT⟩ := hO.2 he
        dsimp only at *
        refine ⟨tsE ++ (⟨.argument ps, pP⟩ :: (tsA ++ (tsR ++ tsT))), ?_, ?_⟩
        · rw [hE1, hts, hA1, h1]; simp
        · rw [buildArg_eq]
          have hRhead := Many.redir_head hR
          refine Basic.mk hE2 .mk ?_ hA2 hR ?_ ?_ hT
          · rw [hts] at hE3; simpa using hE3
          · intro hne hop
            refine hA3 hne ?_
            rcases hRhead with rfl | ⟨t, r, rfl, _⟩
            · simp at hop
            · rw [h1]; simpa using hop
          · rcases hRhead with rfl | ⟨t, r, rfl, ht | ⟨s, p, rfl⟩⟩
            · rfl
            · simp [ht]
            · have := hA4 [.unquoted (.literal s)] p (r ++ tsT ++ st4.toks) (by rw [h1]; simp)
              simp [this.1]
      | err e s st4 => exact hl1.trans hO
      | crash => trivial
      | timeout => trivial
    | _ => exact hl0

theorem sound_pipes : ∀ (n : Nat) (st : PState), Sound (fun cs ts _ => Many Piped cs ts) st (parsePipes n st) := by
  intro n
  induction n with
  | zero => intro st; trivial
  | succ n ih =>
    intro st
    unfold parsePipes
    split
    · rename_i p ts h
      refine .tok h ?_
      refine ((sound_basic _).sync _).bind fun c st1 _ => ?_
      refine (ih st1).bind fun cs st2 _ => .ok ?_
      intro ts0 h0 ts1 h1
      rw [List.append_nil]
      exact .cons (ts := _ :: ts1) (.mk h1) h0
    · exact .ok .nil

theorem sound_command (st : PState) : Sound (fun c ts _ => Pipeline c ts) st (parseCommand st) := by
  unfold parseCommand
  refine ((sound_basic _).sync _).bind fun c st1 _ => ?_
  refine (sound_pipes _ st1).bind fun cs st2 _ => .ok ?_
  intro ts0 h0 ts1 h1
  rw [List.append_nil]
  exact .mk h1 h0

theorem fromToken_eq {k : TokenKind} {kind : Ast.BlockKind} (h : Ast.BlockKind.fromToken k = some kind) :
    k = openTok kind := by
  cases k <;> simp_all [Ast.BlockKind.fromToken] <;> subst h <;> rfl

theorem sound_commandBlock (st : PState) : Sound (fun b ts _ => CmdBlock b ts) st (parseCommandBlock st) := by
  unfold parseCommandBlock
  split
  · exact Later.refl _
  · rename_i t ts h
    split
    · exact Later.refl _
    · rename_i kind hk
      have ht : t = ⟨openTok kind, t.pos⟩ := by rw [← fromToken_eq hk]
      refine .tok h ?_
      dsimp only
      split
      · exact Later.refl _
      · refine (sound_command _).bind fun head st1 _ => ?_
        refine Sound.bind (P := fun tail ts _ => (tail = [] ∧ ts = []) ∨
          ∃ p ts', ts = ⟨.semicolon, p⟩ :: ts' ∧ SepBy Pipeline .semicolon tail ts') ?_ fun tail st2 _ => ?_
        · split
          · rename_i p ts1 h1
            refine .tok h1 ?_
            exact (sound_sepBy sound_command _ _ _ _ _).mono fun tail ts' _ hs => Or.inr ⟨p, ts', rfl, hs⟩
          · exact .ok (Or.inl ⟨rfl, rfl⟩)
        · refine (sound_expect _ _ _).bind fun _ st3 _ => .ok ?_
          rintro ts0 ⟨p, rfl⟩ ts1 (⟨rfl, rfl⟩ | ⟨p', ts', rfl, hs⟩) ts2 h2
          · simp only [List.append_nil, List.nil_append]
            rw [ht]
            exact .one h2
          · simp only [List.append_nil, List.cons_append]
            rw [ht]
            exact .many h2 hs

/-! ### Expressions -/

/-- The kind of the next token. -/
def nextKind (ts : List Token) : Option TokenKind := ts.head?.map (·.kind)

theorem stops_mono {k l : Nat} {t : Option TokenKind} (h : stops l t = true) (hkl : k ≤ l) : stops k t = true := by
  unfold stops at *
  split
  · rfl
  · rename_i t
    dsimp only at h
    split
    · rfl
    · rename_i l' hl
      rw [hl] at h
      simp at *; omega

theorem levelCheck_iff {k : Nat} {op : Operator} :
    levelCheck k op = true ↔ ∃ b, op.toBinary = some b ∧ binLevel b = k + 1 := by
  match k with
  | 0 | 1 | 2 | 3 | 4 | 5 | 6 => cases op <;> simp [levelCheck, Operator.toBinary, Operator.isFactor,
      Operator.isTerm, Operator.isComparison, Operator.isEquality, binLevel]
  | n + 7 =>
    simp only [levelCheck, Bool.false_eq_true, false_iff]
    rintro ⟨b, _, hb⟩
    cases b <;> simp [binLevel] at hb <;> omega

theorem toBinary_token {op : Operator} {b : BinOp} (h : op.toBinary = some b) : op = binToken b := by
  cases op <;> simp [Operator.toBinary] at h <;> subst h <;> rfl

theorem contLevel_binary {op : Operator} {b : BinOp} (h : op.toBinary = some b) :
    contLevel (.operator op) = some (binLevel b) := by
  cases op <;> simp [Operator.toBinary] at h <;> subst h <;> rfl

theorem contLevel_operator (op : Operator) : contLevel (.operator op) = some 0 ∨
    (∃ b, op.toBinary = some b ∧ contLevel (.operator op) = some (binLevel b)) ∨ contLevel (.operator op) = none := by
  cases op <;> simp [contLevel, Operator.toBinary, binLevel]

/-- `parse_expression` and the levels below it. -/
abbrev ExprOk (k : Nat) (e : Expr) (ts rest : List Token) : Prop :=
  Derives (.level k e) ts ∧ stops k (nextKind rest) = true

def SoundE (pe : PState → Res Expr) : Prop := ∀ st, Sound (ExprOk 7) st (pe st)
def SoundB (pb : PState → Res Block) : Prop := ∀ st, Sound (fun b ts rest => ∃ f, Derives (.block b f) ts ∧
  f.ok (nextKind rest) = true) st (pb st)

theorem sound_binLoop {p : PState → Res Expr} {k : Nat} (hp : ∀ st, Sound (ExprOk k) st (p st)) :
    ∀ (n : Nat) (e : Expr) (st : PState),
      Sound (fun e' ts rest => stops k (nextKind (ts ++ rest)) = true → ∀ ts0, Derives (.level (k + 1) e) ts0 →
        ExprOk (k + 1) e' (ts0 ++ ts) rest) st (binLoop p (levelCheck k) n e st) := by
  intro n
  induction n with
  | zero => intro e st; trivial
  | succ n ih =>
    intro e st
    unfold binLoop
    have stop : ∀ (hno : ∀ op pos ts, st.toks = ⟨.operator op, pos⟩ :: ts → levelCheck k op = false),
        Sound (fun e' ts rest => stops k (nextKind (ts ++ rest)) = true → ∀ ts0, Derives (.level (k + 1) e) ts0 →
        ExprOk (k + 1) e' (ts0 ++ ts) rest) st (.ok e st) := by
      intro hno
      refine .ok fun hs ts0 h0 => ⟨by rw [List.append_nil]; exact h0, ?_⟩
      rw [List.nil_append] at hs
      cases hts : st.toks with
      | nil => rfl
      | cons t ts =>
        obtain ⟨kd, pos⟩ := t
        rw [hts] at hs
        simp only [nextKind, List.head?_cons, Option.map_some, stops] at *
        split
        · rfl
        · rename_i l hl
          rw [hl] at hs
          simp at hs ⊢
          refine Nat.lt_of_le_of_ne hs ?_
          rintro rfl
          cases kd with
          | operator op =>
            have hc := hno op pos ts hts
            rcases contLevel_operator op with h | ⟨b, hb, h⟩ | h
            · rw [h] at hl; cases hl
            · rw [h] at hl
              have := levelCheck_iff.2 ⟨b, hb, by simpa using hl⟩
              rw [hc] at this; cases this
            · rw [h] at hl; cases hl
          | _ => simp [contLevel] at hl
    split
    · rename_i op pos ts h
      split
      · rename_i hc
        refine .tok h ?_
        refine (hp _).bind fun r st1 _ => ?_
        obtain ⟨b, hb, hlev⟩ := levelCheck_iff.1 hc
        rw [hb]
        refine (ih _ st1).mono ?_
        intro e' ts2 rest h2 ts1 ⟨h1, hs1⟩ _ ts0 h0
        have := h2 hs1 (ts0 ++ ⟨.operator op, pos⟩ :: ts1) (by
          rw [toBinary_token hb]; exact .binary h0 hlev h1)
        simpa using this
      · rename_i hc
        refine stop fun op' pos' ts' h' => ?_
        rw [h] at h'; cases h'; simpa using hc
    · rename_i hno
      exact stop fun op' pos' ts' h' => absurd h' (hno _ _ _)

theorem sound_level {pre : PState → Res Expr} (hp : ∀ st, Sound (ExprOk 0) st (pre st)) :
    ∀ k st, Sound (ExprOk k) st (parseLevel pre k st) := by
  intro k
  induction k with
  | zero => exact hp
  | succ k ih =>
    intro st
    unfold parseLevel parseBinop
    refine (ih st).bind fun e st1 _ => ?_
    refine (sound_binLoop ih _ _ _).mono ?_
    intro e' ts rest h ts0 ⟨h0, hs⟩
    exact h hs ts0 (.up h0)

theorem derives_exprs {es : List Expr} {ts : List Token} (h : SepBy (fun e ts => Derives (.level 7 e) ts) .comma es ts) :
    Derives (.exprs es) ts := by
  induction h with
  | nil => exact .exprsNil
  | last h => exact .exprsLast h
  | cons h _ ih => exact .exprsCons h ih

/-- A dict item. -/
def ItemD (x : (Sym × Pos) × Expr) (ts : List Token) : Prop :=
  ∃ pc ts', ts = ⟨.identifier x.1.1, x.1.2⟩ :: ⟨.colon, pc⟩ :: ts' ∧ Derives (.level 7 x.2) ts'

theorem derives_items {is : List ((Sym × Pos) × Expr)} {ts : List Token} (h : SepBy ItemD .comma is ts) :
    Derives (.items is) ts := by
  induction h with
  | nil => exact .itemsNil
  | @last a ts h =>
    obtain ⟨⟨x, px⟩, e⟩ := a
    obtain ⟨pc, ts', rfl, h⟩ := h
    exact .itemsLast h
  | @cons a as ts ts' p h _ ih =>
    obtain ⟨⟨x, px⟩, e⟩ := a
    obtain ⟨pc, ts', rfl, h⟩ := h
    exact .itemsCons h ih

theorem sound_exprs {pe : PState → Res Expr} (he : SoundE pe) (fin : TokenKind) (n : Nat) (st : PState) :
    Sound (fun es ts _ => Derives (.exprs es) ts) st (sepBy pe .illFormed .comma fin n st) :=
  (sound_sepBy (fun st => (he st).mono fun _ _ _ h => h.1) _ _ _ n st).mono fun _ _ _ h => derives_exprs h

theorem sound_postfixLoop {pe : PState → Res Expr} (he : SoundE pe) :
    ∀ (n : Nat) (e : Expr) (st : PState),
      Sound (fun e' ts rest => ∀ ts0, Derives (.postfix e) ts0 →
        Derives (.postfix e') (ts0 ++ ts) ∧ stops 0 (nextKind rest) = true) st (postfixLoop pe n e st) := by
  intro n
  induction n with
  | zero => intro e st; trivial
  | succ n ih =>
    intro e st
    unfold postfixLoop
    split
    · rename_i pos ts h
      refine .tok h ?_
      refine (sound_exprs he _ _ _).bind fun args st1 _ => ?_
      refine (sound_expect _ _ _).bind fun _ st2 _ => ?_
      refine (ih _ st2).mono ?_
      rintro e' ts3 rest h3 ts2 ⟨p', rfl⟩ ts1 h1 ts0 h0
      have := h3 _ (.call (p := pos) (p' := p') h0 h1)
      simpa using this
    · rename_i pos ts h
      refine .tok h ?_
      refine ((he _).sync _).bind fun args st1 _ => ?_
      refine (sound_expect _ _ _).bind fun _ st2 _ => ?_
      refine (ih _ st2).mono ?_
      rintro e' ts3 rest h3 ts2 ⟨p', rfl⟩ ts1 ⟨h1, _⟩ ts0 h0
      have := h3 _ (.index (p := pos) (p' := p') h0 h1)
      simpa using this
    · rename_i pos ts h
      refine .tok h ?_
      refine (sound_identifier _).bind fun x st1 _ => ?_
      obtain ⟨x, p'⟩ := x
      refine (ih _ st1).mono ?_
      rintro e' ts3 rest h3 ts2 rfl ts0 h0
      have := h3 _ (.dot (p := pos) (x := x) (p' := p') h0)
      simpa using this
    · rename_i pos ts h
      refine .tok h ?_
      refine (ih _ _).mono ?_
      rintro e' ts3 rest h3 ts0 h0
      have := h3 _ (.try_ (p := pos) h0)
      simpa using this
    · rename_i h1 h2 h3 h4
      refine .ok fun ts0 h0 => ⟨by rw [List.append_nil]; exact h0, ?_⟩
      cases hts : st.toks with
      | nil => rfl
      | cons t ts =>
        obtain ⟨kd, pos⟩ := t
        rw [hts] at h1 h2 h3 h4
        simp only [nextKind, List.head?_cons, Option.map_some, stops]
        split
        · rfl
        · rename_i l hl
          simp only [decide_eq_true_eq]
          refine Nat.pos_of_ne_zero ?_
          rintro rfl
          unfold contLevel at hl
          split at hl
          · exact h1 _ _ rfl
          · exact h2 _ _ rfl
          · exact h3 _ _ rfl
          · exact h4 _ _ rfl
          all_goals simp at hl

theorem sound_function {pb : PState → Res Block} (hb : SoundB pb) (st : PState) :
    Sound (fun x ts _ => Derives (.func x.1 x.2) ts) st (parseFunction pb st) := by
  unfold parseFunction
  dsimp only
  refine ((sound_expect _ _ _).sync _).bind fun _ st1 _ => ?_
  refine (sound_sepBy (P := Param) (fun st => (sound_identifier st).mono ?_) _ _ _ _ _).bind fun params st2 _ => ?_
  · rintro ⟨x, p⟩ ts _ rfl
    exact .mk
  refine ((sound_expect _ _ _).sync _).bind fun _ st3 _ => ?_
  refine (hb st3).bind fun body st4 _ => ?_
  refine (sound_expect _ _ _).bind fun _ st5 _ => .ok ?_
  rintro ts4 ⟨p4, rfl⟩ ts3 ⟨f, h3, _⟩ ts2 ⟨p2, rfl⟩ ts1 h1 ts0 ⟨p0, rfl⟩
  have := Derives.func (p := p0) (p' := p2) (p'' := p4) h1 h3
  simpa using this

theorem sound_cond {pe : PState → Res Expr} {pb : PState → Res Block} (he : SoundE pe) (hb : SoundB pb) :
    ∀ (n : Nat) (st : PState),
    Sound (fun x ts _ => Derives (.cond x.1 x.2.1 x.2.2) ts) st (parseCond pe pb n st) := by
  intro n
  induction n with
  | zero => intro st; trivial
  | succ n ih =>
    intro st
    unfold parseCond
    refine ((he st).sync _).bind fun cond st1 _ => ?_
    refine ((sound_expect _ _ _).sync _).bind fun _ st2 _ => ?_
    refine (hb st2).bind fun then_ st3 _ => ?_
    split
    · refine .ok ?_
      rintro ts2 ⟨f, h2, _⟩ ts1 ⟨p1, rfl⟩ ts0 ⟨h0, _⟩
      have := Derives.condThen (p := p1) h0 h2
      simpa using this
    · rename_i pos ts h
      refine .tok h ?_
      refine (ih _).bind fun x st4 _ => .ok ?_
      rintro ts3 h3 ts2 ⟨f, h2, _⟩ ts1 ⟨p1, rfl⟩ ts0 ⟨h0, _⟩
      have := Derives.condElseif (p := p1) (p' := pos) h0 h2 h3
      simpa using this
    · rename_i pos ts h
      refine .tok h ?_
      refine (hb _).bind fun x st4 _ => .ok ?_
      rintro ts3 ⟨g, h3, _⟩ ts2 ⟨f, h2, _⟩ ts1 ⟨p1, rfl⟩ ts0 ⟨h0, _⟩
      have := Derives.condElse (p := p1) (p' := pos) h0 h2 h3
      simpa using this
    · exact ⟨List.nil_suffix, List.suffix_refl _⟩
    · exact Later.refl _

theorem sound_item {pe : PState → Res Expr} (he : SoundE pe) (st : PState) :
    Sound (fun x ts _ => ItemD x ts) st (parseItem pe st) := by
  unfold parseItem
  refine (((sound_identifier _).withSync _).sync _).bind fun key st1 _ => ?_
  refine ((sound_expect _ _ _).sync _).bind fun _ st2 _ => ?_
  refine (he st2).bind fun value st3 _ => .ok ?_
  rintro ts2 ⟨h2, _⟩ ts1 ⟨p1, rfl⟩ ts0 rfl
  exact ⟨p1, ts2, by simp, h2⟩

theorem ofTok_eq (l : TokLit) : Lit.ofTok l = litValue l := by cases l <;> rfl

theorem sound_primary {pe : PState → Res Expr} {pb : PState → Res Block} (he : SoundE pe) (hb : SoundB pb)
    (st : PState) : Sound (fun e ts _ => Derives (.primary e) ts) st (parsePrimary pe pb st) := by
  unfold parsePrimary
  split
  · exact Later.refl _
  · rename_i k pos ts h
    dsimp only
    have hcmd : Sound (fun e ts _ => Derives (.primary e) ts) st
        (((parseCommandBlock st).sync .illFormed).bind fun b st => .ok (Expr.command b pos) st) := by
      have key := (sound_commandBlock st).sync .illFormed
      generalize Res.sync _ _ = r at key
      cases r with
      | ok b st1 =>
        refine ⟨key.1, fun hc => ?_⟩
        obtain ⟨ts', h1, h2⟩ := key.2 hc
        refine ⟨ts', h1, ?_⟩
        have h1' := h1
        rw [h] at h1'
        have hne : ∃ t r, ts' = t :: r := by cases h2 <;> exact ⟨_, _, rfl⟩
        obtain ⟨t, r, rfl⟩ := hne
        simp only [List.cons_append, List.cons.injEq] at h1'
        rw [← h1'.1] at h2 ⊢
        exact .command h2
      | err e s st1 => exact key
      | crash => trivial
      | timeout => trivial
    split
    · exact .tok h (.ok .ident)
    · exact .tok h (.ok .self_)
    · exact .tok h (.ok (by rw [ofTok_eq]; exact .lit))
    · refine .tok h ?_
      refine (sound_exprs he _ _ _).bind fun es st1 _ => ?_
      refine (sound_expect _ _ _).bind fun _ st2 _ => .ok ?_
      rintro ts1 ⟨p1, rfl⟩ ts0 h0
      simpa using Derives.array (p := pos) (p' := p1) h0
    · refine .tok h ?_
      refine (sound_sepBy (sound_item he) _ _ _ _ _).bind fun is st1 _ => ?_
      refine (sound_expect _ _ _).bind fun _ st2 _ => .ok ?_
      rintro ts1 ⟨p1, rfl⟩ ts0 h0
      simpa using Derives.dict (p := pos) (p' := p1) (derives_items h0)
    · refine .tok h ?_
      refine (sound_function hb _).bind fun x st1 _ => .ok ?_
      intro ts0 h0
      simpa using Derives.function (p := pos) h0
    · exact hcmd
    · exact hcmd
    · exact hcmd
    · refine .tok h ?_
      refine (sound_cond he hb _ _).bind fun x st1 _ => ?_
      refine (sound_expect _ _ _).bind fun _ st2 _ => .ok ?_
      rintro ts1 ⟨p1, rfl⟩ ts0 h0
      simpa using Derives.if_ (p := pos) (p' := p1) h0
    · refine .tok h ?_
      refine ((he _).sync _).bind fun e st1 _ => ?_
      refine (sound_expect _ _ _).bind fun _ st2 _ => .ok ?_
      rintro ts1 ⟨p1, rfl⟩ ts0 ⟨h0, _⟩
      simpa using Derives.paren (p := pos) (p' := p1) h0
    · exact Later.refl _

theorem sound_postfix {pe : PState → Res Expr} {pb : PState → Res Block} (he : SoundE pe) (hb : SoundB pb)
    (st : PState) : Sound (ExprOk 0) st (parsePostfix pe pb st) := by
  unfold parsePostfix
  refine (sound_primary he hb st).bind fun e st1 _ => ?_
  refine (sound_postfixLoop he _ _ _).mono ?_
  intro e' ts rest h ts0 h0
  obtain ⟨h1, h2⟩ := h ts0 (.noPostfix h0)
  exact ⟨.noPrefix h1, h2⟩

theorem sound_prefix {pe : PState → Res Expr} {pb : PState → Res Block} (he : SoundE pe) (hb : SoundB pb) :
    ∀ (n : Nat) (st : PState), Sound (ExprOk 0) st (parsePrefix pe pb n st) := by
  intro n
  induction n with
  | zero => intro st; trivial
  | succ n ih =>
    intro st
    unfold parsePrefix
    split
    · rename_i op pos ts h
      split
      · rename_i hp
        refine .tok h ?_
        refine (ih _).bind fun e st1 _ => ?_
        have : op = .minus ∨ op = .not := by cases op <;> simp_all [Operator.isPrefix]
        rcases this with rfl | rfl
        · refine .ok ?_
          intro ts0 ⟨h0, hs⟩
          exact ⟨by simpa using Derives.minus (p := pos) h0, hs⟩
        · refine .ok ?_
          intro ts0 ⟨h0, hs⟩
          exact ⟨by simpa using Derives.not (p := pos) h0, hs⟩
      · exact sound_postfix he hb st
    · exact sound_postfix he hb st

theorem sound_exprWith {pe : PState → Res Expr} {pb : PState → Res Block} (he : SoundE pe) (hb : SoundB pb) :
    SoundE (exprWith pe pb) := fun st => sound_level (sound_prefix he hb _) 7 st

theorem isBlockTerminator_eq (k : TokenKind) : k.isBlockTerminator = closesBlock k := by
  cases k with
  | keyword k => cases k <;> rfl
  | _ => rfl

theorem sound_stmt {pe : PState → Res Expr} {pb : PState → Res Block} (he : SoundE pe) (hb : SoundB pb) (st : PState) :
    Sound (fun s ts rest => ∃ f, Derives (.stmt s f) ts ∧ f.ok (nextKind rest) = true) st (stmtWith pe pb st) := by
  unfold stmtWith
  split
  · exact Later.refl _
  · rename_i p ts h
    refine .tok h ?_
    refine ((sound_identifier _).sync _).bind fun x st1 _ => ?_
    obtain ⟨x, px⟩ := x
    dsimp only
    split
    · rename_i p' ts1 h1
      refine .tok h1 ?_
      refine (he _).bind fun e st2 _ => .ok ?_
      rintro ts1 ⟨h1, hs⟩ ts0 rfl
      exact ⟨.expr, by simpa using Derives.letInit (x := x) (p := px) (p' := p) (p'' := p') h1, hs⟩
    · rename_i hno
      refine .ok ?_
      rintro ts0 rfl
      refine ⟨.notAssign, by simpa using Derives.let_, ?_⟩
      cases hts : st1.toks with
      | nil => rfl
      | cons t ts =>
        obtain ⟨kd, pos⟩ := t
        simp only [Follow.ok, nextKind, List.head?_cons, Option.map_some, bne_iff_ne, ne_eq, Option.some.injEq]
        rintro rfl
        exact hno _ _ hts
  · rename_i p x p' ts h
    refine .tok h ?_
    refine .tok (t := ⟨.identifier x, p'⟩) rfl ?_
    refine (sound_function hb _).bind fun y st1 _ => .ok ?_
    intro ts0 h0
    exact ⟨.any, by simpa using Derives.letFun (x := x) (p := p) (p' := p') h0, rfl⟩
  · rename_i p ts h
    split
    · rename_i ht
      refine .tok h (.ok ⟨.closer, .returnNil, ?_⟩)
      cases ts with
      | nil => simp at ht
      | cons t ts =>
        simp only [List.head?_cons, Option.any_some] at ht
        simp [Follow.ok, nextKind, ← isBlockTerminator_eq, ht]
    · refine .tok h ?_
      refine (he _).bind fun e st2 _ => .ok ?_
      rintro ts1 ⟨h1, hs⟩
      exact ⟨.expr, by simpa using Derives.return_ (p := p) h1, hs⟩
  · rename_i p ts h
    exact .tok h (.ok ⟨.any, .break_, rfl⟩)
  · rename_i p ts h
    refine .tok h ?_
    refine ((he _).sync _).bind fun c st1 _ => ?_
    refine ((sound_expect _ _ _).sync _).bind fun _ st2 _ => ?_
    refine (hb _).bind fun b st3 _ => ?_
    refine (sound_expect _ _ _).bind fun _ st4 _ => .ok ?_
    rintro ts3 ⟨p3, rfl⟩ ts2 ⟨f, h2, _⟩ ts1 ⟨p1, rfl⟩ ts0 ⟨h0, _⟩
    exact ⟨.any, by simpa using Derives.while_ (p := p) (p' := p1) (p'' := p3) h0 h2, rfl⟩
  · rename_i p ts h
    refine .tok h ?_
    refine ((sound_identifier _).sync _).bind fun x st1 _ => ?_
    obtain ⟨x, px⟩ := x
    refine ((sound_expect _ _ _).sync _).bind fun _ st2 _ => ?_
    refine ((he _).sync _).bind fun c st1 _ => ?_
    refine ((sound_expect _ _ _).sync _).bind fun _ st2 _ => ?_
    refine (hb _).bind fun b st3 _ => ?_
    refine (sound_expect _ _ _).bind fun _ st4 _ => .ok ?_
    rintro ts3 ⟨p3, rfl⟩ ts2 ⟨f, h2, _⟩ ts1 ⟨p1, rfl⟩ ts0 ⟨h0, _⟩ ts1' ⟨p1', rfl⟩ ts0' rfl
    exact ⟨.any, by simpa using Derives.for_ (x := x) (px := px) (p := p) (p' := p1') (p'' := p1) (p''' := p3) h0 h2, rfl⟩
  · refine (he _).bind fun e st1 _ => ?_
    split
    · rename_i p ts1 h1
      refine .tok h1 ?_
      refine (he _).bind fun r st2 _ => .ok ?_
      rintro ts1 ⟨h1, hs⟩ ts0 ⟨h0, _⟩
      exact ⟨.expr, by simpa using Derives.assign (p := p) h0 h1, hs⟩
    · rename_i hno
      refine .ok ?_
      rintro ts0 ⟨h0, hs⟩
      refine ⟨.exprNotAssign, by simpa using Derives.exprStmt h0, ?_⟩
      rw [List.nil_append] at hs
      simp only [Follow.ok, hs, Bool.true_and]
      cases hts : st1.toks with
      | nil => rfl
      | cons t ts =>
        obtain ⟨kd, pos⟩ := t
        simp only [nextKind, List.head?_cons, Option.map_some, bne_iff_ne, ne_eq, Option.some.injEq]
        rintro rfl
        exact hno _ _ hts

theorem isReturn_eq (s : Stmt) : isReturn s = isRet s := by cases s <;> rfl

/-- A statement has at least one token. -/
theorem derives_ne {nd : Phrase} {ts : List Token} (h : Derives nd ts) :
    match nd with
    | .level _ _ | .postfix _ | .primary _ | .func _ _ | .cond _ _ _ | .stmt _ _ => ts ≠ []
    | _ => True := by
  induction h <;> simp_all

theorem derives_block_nil {b : Block} {f : Follow} (h : Derives (.block b f) []) : b = [] := by
  generalize hn : Phrase.block b f = nd at h
  generalize ht : ([] : List Token) = ts at h
  cases h with
  | blockNil => cases hn; rfl
  | blockLast h => subst ht; exact absurd rfl (derives_ne h)
  | blockCons h => exact absurd (List.append_eq_nil_iff.1 ht.symm).1 (derives_ne h)
  | _ => cases hn

theorem sound_blockLoop {ps : PState → Res Stmt}
    (hs : ∀ st, Sound (fun s ts rest => ∃ f, Derives (.stmt s f) ts ∧ f.ok (nextKind rest) = true) st (ps st)) :
    ∀ (n : Nat) (st : PState), Sound (fun b ts rest => ∃ f, Derives (.block b f) ts ∧
      f.ok (nextKind rest) = true) st (blockLoop ps n st) := by
  intro n
  induction n with
  | zero => intro st; trivial
  | succ n ih =>
    intro st
    unfold blockLoop
    split
    · exact .ok ⟨.any, .blockNil, rfl⟩
    · split
      · exact .ok ⟨.any, .blockNil, rfl⟩
      · refine ((hs st).forceSkip.sync _).bind fun s st1 _ => ?_
        split
        · refine .ok ?_
          rintro ts0 ⟨f, h0, hf⟩
          exact ⟨f, by simpa using Derives.blockLast h0, by simpa using hf⟩
        · rename_i hr
          refine (ih st1).bind fun b st2 _ => .ok ?_
          rintro ts1 ⟨g, h1, hg⟩ ts0 ⟨f, h0, hf⟩
          rw [List.append_nil]
          rw [List.nil_append] at hg
          cases hts1 : ts1 with
          | nil =>
            subst hts1
            have hb : b = [] := derives_block_nil h1
            subst hb
            exact ⟨f, by simpa using Derives.blockLast h0, by simpa using hf⟩
          | cons t ts1' =>
            rw [← hts1]
            refine ⟨g, .blockCons h0 (by rw [← isReturn_eq]; simpa using hr) h1 (by simp [hts1]) ?_, hg⟩
            rw [hts1] at hf ⊢
            simpa [nextKind] using hf

theorem sound_both (n : Nat) : SoundE (parseExpr n) ∧ SoundB (parseBlock n) := by
  induction n with
  | zero => exact ⟨fun _ => trivial, fun _ => trivial⟩
  | succ n ih => exact ⟨sound_exprWith ih.1 ih.2, fun st => sound_blockLoop (sound_stmt ih.1 ih.2) _ st⟩

end Hush

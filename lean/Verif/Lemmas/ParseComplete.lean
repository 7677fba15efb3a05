import Verif.Lemmas.ParseSound

/-!
Completeness of the parser: everything derivable in the grammar is accepted, with the derived syntax tree.

Statements are of the form `RBelow (parser budget input) result`: whatever the budget, the parser either runs out of it or
gives the result. Together with `parse_total` (the budget used always suffices) this gives equality.
-/

namespace Hush
open Ast (Expr Lit Stmt Block)
open Spec

theorem RBelow.bind_ok {α β : Type} {r : Res α} {a : α} {st : PState} {f : α → PState → Res β} {v : Res β}
    (h : RBelow r (.ok a st)) (h' : RBelow (f a st) v) : RBelow (r.bind f) v := by
  rcases h with rfl | rfl
  · exact Or.inl rfl
  · exact h'

theorem RBelow.sync_ok {α : Type} {r : Res α} {a : α} {st : PState} {ill : α}
    (h : RBelow r (.ok a st)) : RBelow (r.sync ill) (.ok a st) := by
  rcases h with rfl | rfl
  · exact Or.inl rfl
  · exact .refl _

theorem RBelow.withSync_ok {α : Type} {r : Res α} {a : α} {st : PState} {s : Strategy}
    (h : RBelow r (.ok a st)) : RBelow (r.withSync s) (.ok a st) := by
  rcases h with rfl | rfl
  · exact Or.inl rfl
  · exact .refl _

theorem RBelow.forceSkip_ok {α : Type} {r : Res α} {a : α} {st : PState}
    (h : RBelow r (.ok a st)) : RBelow r.forceSkip (.ok a st) := by
  rcases h with rfl | rfl
  · exact Or.inl rfl
  · exact .refl _

theorem expect_ok {k : TokenKind} {s : Strategy} {p : Pos} {ts : List Token} {es : List ParseError} :
    RBelow (expect k s ⟨⟨k, p⟩ :: ts, es⟩) (.ok () ⟨ts, es⟩) := by
  right; simp [expect]

theorem identifier_ok {x : Sym} {p : Pos} {ts : List Token} {es : List ParseError} :
    RBelow (parseIdentifier ⟨⟨.identifier x, p⟩ :: ts, es⟩) (.ok (x, p) ⟨ts, es⟩) := .refl _

/-- The kind of the next token is `k`. -/
def NextIs (k : TokenKind) (ts : List Token) : Prop := ∃ p r, ts = ⟨k, p⟩ :: r

theorem sepBy_complete {α : Type} {p : PState → Res α} {P : α → List Token → Prop} {ill : α} {sep fin : TokenKind}
    {as : List α} {ts : List Token} (h : SepBy P sep as ts)
    (hp : ∀ a ts rest es, P a ts → nextKind rest = some sep ∨ nextKind rest = some fin →
      RBelow (p ⟨ts ++ rest, es⟩) (.ok a ⟨rest, es⟩))
    (hne : ∀ a ts, P a ts → ∃ t r, ts = t :: r ∧ t.kind ≠ fin) (hsf : fin ≠ sep) :
    ∀ (n : Nat) (rest : List Token) (es : List ParseError), nextKind rest = some fin →
      RBelow (sepBy p ill sep fin n ⟨ts ++ rest, es⟩) (.ok as ⟨rest, es⟩) := by
  induction h with
  | nil =>
    intro n rest es hr
    cases n with
    | zero => exact Or.inl rfl
    | succ n =>
      right
      rcases rest with _ | ⟨t, r⟩
      · cases hr
      · simp [nextKind] at hr
        simp [sepBy, hr]
  | @last a ts ha =>
    intro n rest es hr
    cases n with
    | zero => exact Or.inl rfl
    | succ n =>
      unfold sepBy
      have h1 := hp a ts rest es ha (Or.inr hr)
      obtain ⟨t, r, rfl, ht⟩ := hne a ts ha
      rw [if_neg (by simpa using ht)]
      refine h1.sync_ok.bind_ok ?_
      rcases rest with _ | ⟨t', r'⟩
      · cases hr
      · simp [nextKind] at hr
        right
        simp [hr, hsf]
  | @cons a as ts ts' ps ha _ ih =>
    intro n rest es hr
    cases n with
    | zero => exact Or.inl rfl
    | succ n =>
      unfold sepBy
      have h1 := hp a ts (⟨sep, ps⟩ :: (ts' ++ rest)) es ha (Or.inl rfl)
      obtain ⟨t, r, rfl, ht⟩ := hne a ts ha
      rw [if_neg (by simpa using ht)]
      rw [List.append_assoc]
      refine h1.sync_ok.bind_ok ?_
      dsimp only
      rw [if_pos rfl]
      exact (ih n rest es hr).bind_ok (.refl _)

/-! ### Commands -/

theorem parseEnv_complete {env : List (ArgUnit × Ast.Argument)} {tsE : List Token} (h : Many EnvTok env tsE)
    (rest : List Token) (hr : rest.head?.all (fun t => !isEnvForm t.kind) = true) :
    parseEnv (tsE ++ rest) = (env, rest) := by
  induction h with
  | nil =>
    rw [List.nil_append]
    unfold parseEnv
    split
    · simp [isEnvForm] at hr
    · rfl
  | cons ha _ ih =>
    cases ha
    rw [List.append_assoc, List.cons_append, List.nil_append, parseEnv, ih, buildArg_eq]

theorem parseArgs_complete {args : List Ast.Argument} {tsA : List Token} (h : Many ArgTok args tsA)
    (rest : List Token)
    (h1 : tsA ≠ [] → rest.head?.any (fun t => isRedirOp t.kind) = true →
      tsA.getLast?.all (fun t => !isNumberTok t.kind) = true)
    (h2 : ∀ ps p r, rest = ⟨.argument ps, p⟩ :: r → isRedirection ps r.head? = true) :
    parseArgs (tsA ++ rest) = (args, rest) := by
  induction h with
  | nil =>
    rw [List.nil_append]
    unfold parseArgs
    split
    · rfl
    · rw [if_pos (h2 _ _ _ rfl)]
    · rfl
  | @cons a as ts ts' ha hm ih =>
    cases ha
    rename_i ps p
    rw [List.append_assoc, List.cons_append, List.nil_append, parseArgs]
    have hno : isRedirection ps (ts' ++ rest).head? = false := by
      refine Bool.eq_false_iff.2 fun hn => ?_
      obtain ⟨hn1, hn2⟩ := (isRedirection_iff _ _).1 hn
      cases ts' with
      | nil =>
        have := h1 (by simp) hn2
        simp [hn1] at this
      | cons t ts' =>
        generalize ht : t :: ts' = tt at hm
        cases hm with
        | nil => cases ht
        | cons hb _ =>
          cases hb
          cases ht
          simp [isRedirOp] at hn2
    rw [if_neg (by rw [hno]; simp), ih, buildArg_eq]
    intro hne hop
    have := h1 (by simp) hop
    cases ts' with
    | nil => exact absurd rfl hne
    | cons t ts' => simpa [List.getLast?_cons_cons] using this

theorem parseFd_ok {s : Bytes} {n : Nat} {p : Pos} {ts : List Token} {es : List ParseError} (h : FdText s n) :
    parseFd ⟨⟨.argument [.unquoted (.literal s)], p⟩ :: ts, es⟩ = some (n, ⟨ts, es⟩) :=
  parseFd_iff.2 ⟨s, p, h, rfl, rfl⟩

theorem parseFd_target {t : Ast.RedirectionTarget} {tok : Token} (h : Target t tok) (src : Nat) (p : Pos)
    (rest : List Token) (es : List ParseError) :
    parseOutput src ⟨⟨.cmdOperator (.output false), p⟩ :: tok :: rest, es⟩ = .ok (.output src t) ⟨rest, es⟩ := by
  cases h with
  | @fd s n p' hs =>
    simp only [parseOutput, Bool.false_eq_true, if_false]
    rw [parseFd_ok hs]
  | @file ps p' hno =>
    simp only [parseOutput, Bool.false_eq_true, if_false]
    have : parseFd ⟨⟨.argument ps, p'⟩ :: rest, es⟩ = none := by
      cases hfd : parseFd ⟨⟨.argument ps, p'⟩ :: rest, es⟩ with
      | none => rfl
      | some x =>
        obtain ⟨n, st'⟩ := x
        obtain ⟨s, p'', hs, h1, _⟩ := parseFd_iff.1 hfd
        simp at h1
        exact absurd hs (hno s n h1.1.1)
    rw [this]
    simp [parseArgument, Res.bind, buildArg_eq]

theorem redirection_complete {r : Ast.Redirection} {ts : List Token} (h : Redir r ts) (rest : List Token)
    (es : List ParseError) : parseRedirection ⟨ts ++ rest, es⟩ = .ok r ⟨rest, es⟩ := by
  cases h with
  | input => simp [parseRedirection, parseArgument, Res.bind, buildArg_eq]
  | append => simp [parseRedirection, parseFd, parseOutput, parseArgument, Res.bind, buildArg_eq]
  | output ht =>
    have := parseFd_target ht 1
    simp only [List.cons_append, List.nil_append, parseRedirection, parseFd]
    exact this _ _ _
  | @appendFd s n p p' ps p'' hs =>
    simp only [List.cons_append, List.nil_append, parseRedirection]
    rw [parseFd_ok hs]
    simp [parseOutput, parseArgument, Res.bind, buildArg_eq]
  | @outputFd s n p p' t tok hs ht =>
    simp only [List.cons_append, List.nil_append, parseRedirection]
    rw [parseFd_ok hs]
    exact parseFd_target ht n _ _ _

/-- Next comes the end of a simple command. -/
def CmdEnd (rest : List Token) : Prop := ∃ t r, rest = t :: r ∧ t.kind.isBasicCommandTerminator = true

theorem operators_complete {rs : List Ast.Redirection} {tsR tsT : List Token} {abort : Bool} (h : Many Redir rs tsR)
    (hT : abort = true ∧ tsT = [] ∨ abort = false ∧ ∃ p, tsT = [⟨.cmdOperator .try_, p⟩])
    (rest : List Token) (hr : CmdEnd rest) (es : List ParseError) : ∀ n,
    RBelow (parseOperators n ⟨tsR ++ (tsT ++ rest), es⟩) (.ok (rs, abort) ⟨rest, es⟩) := by
  obtain ⟨t, r, rfl, ht⟩ := hr
  induction h with
  | nil =>
    intro n
    cases n with
    | zero => exact Or.inl rfl
    | succ n =>
      right
      rcases hT with ⟨rfl, rfl⟩ | ⟨rfl, p, rfl⟩
      · simp [parseOperators, ht]
      · simp [parseOperators, TokenKind.isBasicCommandTerminator]
  | @cons a as ts ts' ha _ ih =>
    intro n
    cases n with
    | zero => exact Or.inl rfl
    | succ n =>
      unfold parseOperators
      rw [List.append_assoc]
      have h1 := redirection_complete ha (ts' ++ (tsT ++ t :: r)) es
      have hh : ∃ t r, ts = t :: r ∧ t.kind.isBasicCommandTerminator = false ∧ t.kind ≠ .cmdOperator .try_ := by
        cases ha <;> exact ⟨_, _, rfl, rfl, by simp⟩
      obtain ⟨t', r', rfl, h2, h3⟩ := hh
      simp only [List.cons_append] at h1 ⊢
      rw [if_neg (by simp [h2]), if_neg h3, h1]
      exact (ih n).bind_ok (.refl _)

theorem basic_complete {c : Ast.BasicCommand} {ts : List Token} (h : Basic c ts) (rest : List Token)
    (hr : CmdEnd rest) (es : List ParseError) : RBelow (parseBasic ⟨ts ++ rest, es⟩) (.ok c ⟨rest, es⟩) := by
  cases h with
  | @mk env tsE program tP args tsA redirs tsR abort tsT hE hP hPe hA hR hA1 hR1 hT =>
    unfold parseBasic
    obtain ⟨t, r, rfl, ht⟩ := hr
    have e1 : tsE ++ tP :: (tsA ++ (tsR ++ tsT)) ++ t :: r = tsE ++ (tP :: (tsA ++ (tsR ++ (tsT ++ t :: r)))) := by simp
    rw [e1, parseEnv_complete hE _ (by simp [hPe])]
    generalize hp : [tP] = l at hP
    cases hP
    rename_i ps p
    simp at hp
    subst hp
    simp only [parseArgument, Res.bind, buildArg_eq]
    -- what comes after the arguments
    have hafter : (tsR ++ (tsT ++ t :: r)).head?.any (fun t => isRedirOp t.kind) = true →
        tsR.head?.any (fun t => isRedirOp t.kind) = true := by
      intro hop
      cases tsR with
      | cons a as => simpa using hop
      | nil =>
        exfalso
        rcases hT with ⟨_, rfl⟩ | ⟨_, p, rfl⟩
        · simp at hop
          obtain ⟨kd, p⟩ := t
          cases kd <;> simp_all [isRedirOp, TokenKind.isBasicCommandTerminator]
        · simp [isRedirOp] at hop
    rw [parseArgs_complete hA _ (fun hne hop => hA1 hne (hafter hop))]
    · simp only
      exact (operators_complete hR hT _ ⟨t, r, rfl, ht⟩ es _).bind_ok (.refl _)
    · intro ps' p' r' hrest
      refine (isRedirection_iff _ _).2 ?_
      cases tsR with
      | nil =>
        exfalso
        rcases hT with ⟨_, rfl⟩ | ⟨_, p, rfl⟩
        · simp at hrest
          rw [hrest.1] at ht
          simp [TokenKind.isBasicCommandTerminator] at ht
        · simp at hrest
      | cons a as =>
        simp at hrest
        obtain ⟨rfl, rfl⟩ := hrest
        simp [isRedirOp] at hR1
        refine ⟨hR1, ?_⟩
        generalize hq : (⟨.argument ps', p'⟩ : Token) :: as = q at hR
        cases hR with
        | nil => cases hq
        | cons ha _ =>
          cases ha <;> simp at hq <;> obtain ⟨_, rfl⟩ := hq <;> simp [isRedirOp]

theorem pipes_complete {cs : List Ast.BasicCommand} {ts : List Token} (h : Many Piped cs ts) (rest : List Token)
    (hr : ∃ t r, rest = t :: r ∧ (t.kind = .semicolon ∨ t.kind = .closeCommand)) (es : List ParseError) : ∀ n,
    RBelow (parsePipes n ⟨ts ++ rest, es⟩) (.ok cs ⟨rest, es⟩) := by
  obtain ⟨⟨kd, p⟩, r, rfl, ht⟩ := hr
  have hend : ∀ ts' : List Token, ∀ cs', Many Piped cs' ts' → CmdEnd (ts' ++ ⟨kd, p⟩ :: r) := by
    intro ts' cs' hm
    cases hm with
    | nil => exact ⟨_, _, rfl, by rcases ht with ht | ht <;> simp at ht <;> subst ht <;> rfl⟩
    | cons ha _ => cases ha; exact ⟨_, _, rfl, rfl⟩
  induction h with
  | nil =>
    intro n
    cases n with
    | zero => exact Or.inl rfl
    | succ n =>
      right
      rcases ht with ht | ht <;> simp at ht <;> subst ht <;> simp [parsePipes]
  | @cons a as ts ts' ha hm ih =>
    intro n
    cases n with
    | zero => exact Or.inl rfl
    | succ n =>
      cases ha
      rename_i ts p' hb
      simp only [List.cons_append, List.append_assoc, parsePipes]
      exact (basic_complete hb _ (hend _ _ hm) es).sync_ok.bind_ok ((ih n).bind_ok (.refl _))

theorem command_complete {c : Ast.Command} {ts : List Token} (h : Pipeline c ts) (rest : List Token)
    (hr : nextKind rest = some .semicolon ∨ nextKind rest = some .closeCommand) (es : List ParseError) :
    RBelow (parseCommand ⟨ts ++ rest, es⟩) (.ok c ⟨rest, es⟩) := by
  have hr' : ∃ t r, rest = t :: r ∧ (t.kind = .semicolon ∨ t.kind = .closeCommand) := by
    rcases rest with _ | ⟨t, r⟩
    · simp [nextKind] at hr
    · exact ⟨t, r, rfl, by simpa [nextKind] using hr⟩
  cases h with
  | mk hb hm =>
    unfold parseCommand
    rw [List.append_assoc]
    refine (basic_complete hb _ ?_ es).sync_ok.bind_ok ((pipes_complete hm rest hr' es _).bind_ok (.refl _))
    cases hm with
    | nil =>
      obtain ⟨t, r, rfl, ht⟩ := hr'
      exact ⟨t, r, rfl, by rcases ht with ht | ht <;> rw [ht] <;> rfl⟩
    | cons ha _ => cases ha; exact ⟨_, _, rfl, rfl⟩

theorem pipeline_head {c : Ast.Command} {ts : List Token} (h : Pipeline c ts) :
    ∃ ps p r, ts = ⟨.argument ps, p⟩ :: r := by
  cases h with
  | mk hb _ =>
    cases hb with
    | mk hE hP =>
      cases hE with
      | nil =>
        generalize hp : [_] = l at hP
        cases hP
        simp at hp
        subst hp
        exact ⟨_, _, _, rfl⟩
      | cons ha _ => cases ha; exact ⟨_, _, _, rfl⟩

theorem commandBlock_complete {b : Ast.CommandBlock} {ts : List Token} (h : CmdBlock b ts) (rest : List Token)
    (es : List ParseError) : RBelow (parseCommandBlock ⟨ts ++ rest, es⟩) (.ok b ⟨rest, es⟩) := by
  have hk : ∀ kind, Ast.BlockKind.fromToken (openTok kind) = some kind := by intro kind; cases kind <;> rfl
  cases h with
  | @one kind p head ts p' hp =>
    have hc := command_complete hp (⟨.closeCommand, p'⟩ :: rest) (Or.inr rfl) es
    obtain ⟨ps, p1, r, rfl⟩ := pipeline_head hp
    unfold parseCommandBlock
    simp only [List.cons_append, List.append_assoc, hk, List.nil_append] at hc ⊢
    refine hc.bind_ok (RBelow.bind_ok (.refl _) (expect_ok.bind_ok (.refl _)))
  | @many kind p head tsH ps tail tsT p' hp hs =>
    have hc := command_complete hp (⟨.semicolon, ps⟩ :: (tsT ++ (⟨.closeCommand, p'⟩ :: rest))) (Or.inl rfl) es
    obtain ⟨ps, p1, r, rfl⟩ := pipeline_head hp
    unfold parseCommandBlock
    simp only [List.cons_append, List.append_assoc, hk, List.nil_append] at hc ⊢
    refine hc.bind_ok (RBelow.bind_ok (a := tail) (st := ⟨⟨.closeCommand, p'⟩ :: rest, es⟩) ?_
      (expect_ok.bind_ok (.refl _)))
    dsimp only
    refine sepBy_complete hs (fun a ts rest es ha hr => command_complete ha rest hr es) ?_ (by simp) _ _ _ rfl
    intro a ts ha
    obtain ⟨ps, p, r, rfl⟩ := pipeline_head ha
    exact ⟨_, _, rfl, by simp⟩

theorem cmdBlock_head {b : Ast.CommandBlock} {k : TokenKind} {p : Pos} {ts : List Token}
    (h : CmdBlock b (⟨k, p⟩ :: ts)) : k = .command ∨ k = .asyncCommand ∨ k = .captureCommand := by
  have ho : ∀ kind, openTok kind = .command ∨ openTok kind = .asyncCommand ∨ openTok kind = .captureCommand := by
    intro kind; cases kind <;> simp [openTok]
  cases h <;> exact ho _

/-! ### First tokens -/

/-- Tokens that start a primary expression. -/
def primStart : TokenKind → Bool
  | .identifier _ | .keyword .self_ | .literal _ | .openBracket | .openDict | .keyword .function | .command
  | .asyncCommand | .captureCommand | .keyword .if_ | .openParens => true
  | _ => false

/-- Tokens that start an expression. -/
def exprStart : TokenKind → Bool
  | .operator .minus | .operator .not => true
  | k => primStart k

/-- The tokens start like an expression; a function literal is not a function declaration. -/
def StartsWith (p : TokenKind → Bool) (ts : List Token) : Prop :=
  ∃ t r, ts = t :: r ∧ p t.kind = true ∧
    (t.kind = .keyword .function → ∃ t2 r2, r = t2 :: r2 ∧ t2.kind = .openParens)

theorem StartsWith.append {p : TokenKind → Bool} {ts : List Token} (h : StartsWith p ts) (ts' : List Token) :
    StartsWith p (ts ++ ts') := by
  obtain ⟨t, r, rfl, h1, h2⟩ := h
  refine ⟨t, r ++ ts', rfl, h1, fun h => ?_⟩
  obtain ⟨t2, r2, rfl, h3⟩ := h2 h
  exact ⟨t2, r2 ++ ts', rfl, h3⟩

theorem StartsWith.mono {p q : TokenKind → Bool} {ts : List Token} (h : StartsWith p ts)
    (hpq : ∀ k, p k = true → q k = true) : StartsWith q ts := by
  obtain ⟨t, r, rfl, h1, h2⟩ := h
  exact ⟨t, r, rfl, hpq _ h1, h2⟩

theorem prim_expr (k : TokenKind) (h : primStart k = true) : exprStart k = true := by
  unfold exprStart
  split <;> simp_all

/-- First tokens of the phrases. -/
theorem starts {nd : Phrase} {ts : List Token} (h : Derives nd ts) :
    match nd with
    | .level _ _ => StartsWith exprStart ts
    | .postfix _ | .primary _ => StartsWith primStart ts
    | .func _ _ => NextIs .openParens ts
    | .stmt _ _ => ∃ t r, ts = t :: r ∧ t.kind.isBlockTerminator = false
    | _ => True := by
  induction h with
  | binary _ _ _ ih _ => exact ih.append _
  | up _ ih => exact ih
  | minus => exact ⟨_, _, rfl, rfl, by simp⟩
  | not => exact ⟨_, _, rfl, rfl, by simp⟩
  | noPrefix _ ih => exact ih.mono prim_expr
  | call _ _ ih _ => exact ih.append _
  | index _ _ ih _ => exact ih.append _
  | dot _ ih => exact ih.append _
  | try_ _ ih => exact ih.append _
  | noPostfix _ ih => exact ih
  | function _ ih =>
    obtain ⟨p, r, rfl⟩ := ih
    exact ⟨_, _, rfl, rfl, fun _ => ⟨_, _, rfl, rfl⟩⟩
  | command hb =>
    refine ⟨_, _, rfl, ?_, ?_⟩ <;> rcases cmdBlock_head hb with rfl | rfl | rfl <;> simp [primStart]
  | func => exact ⟨_, _, rfl⟩
  | assign _ _ ih _ =>
    obtain ⟨t, r, rfl, h1, _⟩ := ih
    refine ⟨_, _, rfl, ?_⟩
    obtain ⟨kd, p⟩ := t
    cases kd with
    | keyword k => cases k <;> simp_all [exprStart, primStart, TokenKind.isBlockTerminator]
    | _ => rfl
  | exprStmt _ ih =>
    obtain ⟨t, r, rfl, h1, _⟩ := ih
    refine ⟨_, _, rfl, ?_⟩
    obtain ⟨kd, p⟩ := t
    cases kd with
    | keyword k => cases k <;> simp_all [exprStart, primStart, TokenKind.isBlockTerminator]
    | _ => rfl
  | _ => first | trivial | exact ⟨_, _, rfl, rfl, by simp⟩ | exact ⟨_, _, rfl, rfl⟩

/-! ### Expressions and statements -/

theorem binLoop_stop {p : PState → Res Expr} {k : Nat} {rest : List Token} (hs : stops (k + 1) (nextKind rest) = true)
    (e : Expr) (es : List ParseError) (n : Nat) :
    RBelow (binLoop p (levelCheck k) n e ⟨rest, es⟩) (.ok e ⟨rest, es⟩) := by
  cases n with
  | zero => exact Or.inl rfl
  | succ n =>
    unfold binLoop
    split
    · rename_i op pos ts h
      have h : rest = _ := h
      rw [h] at hs
      split
      · rename_i hc
        obtain ⟨b, hb, hl⟩ := levelCheck_iff.1 hc
        simp [nextKind, stops, contLevel_binary hb, hl] at hs
      · exact .refl _
    · exact .refl _

theorem postfixLoop_stop {p : PState → Res Expr} {rest : List Token} (hs : stops 0 (nextKind rest) = true)
    (e : Expr) (es : List ParseError) (n : Nat) :
    RBelow (postfixLoop p n e ⟨rest, es⟩) (.ok e ⟨rest, es⟩) := by
  cases n with
  | zero => exact Or.inl rfl
  | succ n =>
    unfold postfixLoop
    split
    all_goals first | exact .refl _ | skip
    all_goals
      rename_i h
      have h : rest = _ := h
      rw [h] at hs
      simp [nextKind, stops, contLevel] at hs

/-- The functions with budget `m` for the recursion. -/
abbrev pre (m n : Nat) : PState → Res Expr := parsePrefix (parseExpr m) (parseBlock m) n

/-- Statement for binary levels in continuation form: parsing the phrase leads to the operator loop. -/
def CompleteLevel (k : Nat) (e : Expr) (ts : List Token) : Prop :=
  match k with
  | 0 => ∀ m n rest es, stops 0 (nextKind rest) = true → RBelow (pre m n ⟨ts ++ rest, es⟩) (.ok e ⟨rest, es⟩)
  | k + 1 => ∀ m n rest es v, stops k (nextKind rest) = true →
      (∀ i, RBelow (binLoop (parseLevel (pre m n) k) (levelCheck k) i e ⟨rest, es⟩) v) →
      RBelow (parseLevel (pre m n) (k + 1) ⟨ts ++ rest, es⟩) v

theorem CompleteLevel.direct {k : Nat} {e : Expr} {ts : List Token} (h : CompleteLevel k e ts) (m n : Nat)
    (rest : List Token) (es : List ParseError) (hs : stops k (nextKind rest) = true) :
    RBelow (parseLevel (pre m n) k ⟨ts ++ rest, es⟩) (.ok e ⟨rest, es⟩) := by
  cases k with
  | zero => exact h m n rest es hs
  | succ k => exact h m n rest es _ (stops_mono hs (Nat.le_succ _)) (fun i => binLoop_stop hs e es i)

theorem CompleteLevel.expr {e : Expr} {ts : List Token} (h : CompleteLevel 7 e ts) (m : Nat)
    (rest : List Token) (es : List ParseError) (hs : stops 7 (nextKind rest) = true) :
    RBelow (parseExpr m ⟨ts ++ rest, es⟩) (.ok e ⟨rest, es⟩) := by
  cases m with
  | zero => exact Or.inl rfl
  | succ m => exact h.direct m _ rest es hs

/-- A block ends before the rest. -/
def BlockEnd (rest : List Token) : Prop := ∀ t r, rest = t :: r → t.kind.isBlockTerminator = true

/-- What completeness means for each kind of phrase. -/
def Complete : Phrase → List Token → Prop
  | .level k e, ts => CompleteLevel k e ts
  | .postfix e, ts => ∀ m rest es v, (∀ i, RBelow (postfixLoop (parseExpr m) i e ⟨rest, es⟩) v) →
      RBelow (parsePostfix (parseExpr m) (parseBlock m) ⟨ts ++ rest, es⟩) v
  | .primary e, ts => ∀ m rest es, RBelow (parsePrimary (parseExpr m) (parseBlock m) ⟨ts ++ rest, es⟩) (.ok e ⟨rest, es⟩)
  | .exprs l, ts => ∀ fin, fin = .closeParens ∨ fin = .closeBracket → ∀ m n rest es, nextKind rest = some fin →
      RBelow (sepBy (parseExpr m) .illFormed .comma fin n ⟨ts ++ rest, es⟩) (.ok l ⟨rest, es⟩)
  | .items l, ts => ∀ m n rest es, nextKind rest = some .closeBracket →
      RBelow (sepBy (parseItem (parseExpr m)) (illIdent, .illFormed) .comma .closeBracket n ⟨ts ++ rest, es⟩)
        (.ok l ⟨rest, es⟩)
  | .func ps b, ts => ∀ m rest es, RBelow (parseFunction (parseBlock m) ⟨ts ++ rest, es⟩) (.ok (ps, b) ⟨rest, es⟩)
  | .cond c t e, ts => ∀ m n rest es, nextKind rest = some (.keyword .end_) →
      RBelow (parseCond (parseExpr m) (parseBlock m) n ⟨ts ++ rest, es⟩) (.ok (c, t, e) ⟨rest, es⟩)
  | .stmt s f, ts => ∀ m rest es, f.ok (nextKind rest) = true →
      RBelow (stmtWith (parseExpr m) (parseBlock m) ⟨ts ++ rest, es⟩) (.ok s ⟨rest, es⟩)
  | .block b f, ts => ∀ m n rest es, f.ok (nextKind rest) = true → BlockEnd rest →
      RBelow (blockLoop (stmtWith (parseExpr m) (parseBlock m)) n ⟨ts ++ rest, es⟩) (.ok b ⟨rest, es⟩)

/-- Every follow condition admits a block closing keyword. -/
theorem ok_closer (f : Follow) (k : TokenKind) (h : closesBlock k = true) : f.ok (some k) = true := by
  cases k with
  | keyword k => cases k <;> simp_all [closesBlock] <;> cases f <;> simp [Follow.ok, stops, contLevel, closesBlock]
  | _ => simp [closesBlock] at h

theorem block_complete {b : Block} {f : Follow} {ts : List Token} (h : Complete (.block b f) ts) (m : Nat)
    (kd : TokenKind) (p : Pos) (rest : List Token) (es : List ParseError) (hk : closesBlock kd = true) :
    RBelow (parseBlock m ⟨ts ++ ⟨kd, p⟩ :: rest, es⟩) (.ok b ⟨⟨kd, p⟩ :: rest, es⟩) := by
  cases m with
  | zero => exact Or.inl rfl
  | succ m =>
    refine h m _ _ es (ok_closer f kd hk) ?_
    rintro t r hr
    cases hr
    rw [isBlockTerminator_eq]; exact hk

theorem complete {nd : Phrase} {ts : List Token} (h : Derives nd ts) : Complete nd ts := by
  induction h with
  | @binary k l ts op p r ts' hl hop hr ihl ihr =>
    intro m n rest es v hs hv
    rw [List.append_assoc, List.cons_append]
    have hb : (binToken op).toBinary = some op := by cases op <;> rfl
    have hcheck : levelCheck k (binToken op) = true := levelCheck_iff.2 ⟨op, hb, hop⟩
    refine ihl m n _ es v ?_ fun i => ?_
    · simp [nextKind, stops, contLevel_binary hb, hop]
    · cases i with
      | zero => exact Or.inl rfl
      | succ i =>
        unfold binLoop
        dsimp only
        rw [if_pos hcheck]
        refine (ihr.direct m n rest es hs).bind_ok ?_
        rw [hb]
        exact hv i
  | @up k e ts h ih =>
    intro m n rest es v hs hv
    unfold parseLevel parseBinop
    exact (ih.direct m n rest es hs).bind_ok (hv _)
  | @minus e ts p _ ih =>
    intro m n rest es hs
    cases n with
    | zero => exact Or.inl rfl
    | succ n =>
      simp only [pre, List.cons_append, parsePrefix, Operator.isPrefix, if_true]
      exact (ih m n rest es hs).bind_ok (.refl _)
  | @not e ts p _ ih =>
    intro m n rest es hs
    cases n with
    | zero => exact Or.inl rfl
    | succ n =>
      simp only [pre, List.cons_append, parsePrefix, Operator.isPrefix, if_true]
      exact (ih m n rest es hs).bind_ok (.refl _)
  | @noPrefix e ts hd ih =>
    intro m n rest es hs
    cases n with
    | zero => exact Or.inl rfl
    | succ n =>
      have := ih m rest es _ (postfixLoop_stop hs e es)
      obtain ⟨t, r, rfl, h1, _⟩ := starts hd
      obtain ⟨kd, p⟩ := t
      unfold pre parsePrefix
      cases kd with
      | operator op => simp [primStart] at h1
      | _ => exact this
  | @call f ts args ts' p p' _ _ ihf iha =>
    intro m rest es v hv
    simp only [List.append_assoc, List.cons_append, List.nil_append]
    refine ihf m _ es v fun i => ?_
    cases i with
    | zero => exact Or.inl rfl
    | succ i =>
      unfold postfixLoop
      exact (iha _ (Or.inl rfl) m _ _ es rfl).bind_ok (expect_ok.bind_ok (hv i))
  | @index o ts i ts' p p' _ _ iho ihi =>
    intro m rest es v hv
    simp only [List.append_assoc, List.cons_append, List.nil_append]
    refine iho m _ es v fun i => ?_
    cases i with
    | zero => exact Or.inl rfl
    | succ i =>
      unfold postfixLoop
      exact (ihi.expr m _ es rfl).sync_ok.bind_ok (expect_ok.bind_ok (hv i))
  | dot _ ih =>
    intro m rest es v hv
    simp only [List.append_assoc, List.cons_append, List.nil_append]
    refine ih m _ es v fun i => ?_
    cases i with
    | zero => exact Or.inl rfl
    | succ i =>
      unfold postfixLoop
      exact identifier_ok.bind_ok (hv i)
  | try_ _ ih =>
    intro m rest es v hv
    simp only [List.append_assoc, List.cons_append, List.nil_append]
    refine ih m _ es v fun i => ?_
    cases i with
    | zero => exact Or.inl rfl
    | succ i =>
      unfold postfixLoop
      exact hv i
  | noPostfix _ ih =>
    intro m rest es v hv
    unfold parsePostfix
    exact (ih m rest es).bind_ok (hv _)
  | ident => intro m rest es; exact .refl _
  | self_ => intro m rest es; exact .refl _
  | lit => intro m rest es; right; simp [parsePrimary, ofTok_eq]
  | array _ ih =>
    intro m rest es
    simp only [List.append_assoc, List.cons_append, List.nil_append, parsePrimary]
    exact (ih _ (Or.inr rfl) m _ _ es rfl).bind_ok (expect_ok.bind_ok (.refl _))
  | dict _ ih =>
    intro m rest es
    simp only [List.append_assoc, List.cons_append, List.nil_append, parsePrimary]
    exact (ih m _ _ es rfl).bind_ok (expect_ok.bind_ok (.refl _))
  | function _ ih =>
    intro m rest es
    simp only [List.cons_append, parsePrimary]
    exact (ih m _ es).bind_ok (.refl _)
  | if_ _ ih =>
    intro m rest es
    simp only [List.append_assoc, List.cons_append, List.nil_append, parsePrimary]
    exact (ih m _ _ es rfl).bind_ok (expect_ok.bind_ok (.refl _))
  | paren _ ih =>
    intro m rest es
    simp only [List.append_assoc, List.cons_append, List.nil_append, parsePrimary]
    exact (ih.expr m _ es rfl).sync_ok.bind_ok (expect_ok.bind_ok (.refl _))
  | @command b k p ts hb =>
    intro m rest es
    have := commandBlock_complete hb rest es
    rcases cmdBlock_head hb with rfl | rfl | rfl <;> simp only [List.cons_append, parsePrimary] at this ⊢ <;>
      exact this.sync_ok.bind_ok (.refl _)
  | exprsNil =>
    intro fin _ m n rest es hr
    exact sepBy_complete (P := fun (_ : Expr) _ => False) .nil (fun _ _ _ _ h => h.elim) (fun _ _ h => h.elim)
      (by rcases ‹fin = _ ∨ _› with rfl | rfl <;> simp) n rest es hr
  | @exprsLast e ts hd ih =>
    intro fin hfin m n rest es hr
    cases n with
    | zero => exact Or.inl rfl
    | succ n =>
      unfold sepBy
      have hs : stops 7 (nextKind rest) = true := by rw [hr]; rcases hfin with rfl | rfl <;> rfl
      have h1 := ih.expr m rest es hs
      obtain ⟨t, r, rfl, ht, _⟩ := starts hd
      have htf : t.kind ≠ fin := by
        rintro h
        rw [h] at ht
        rcases hfin with rfl | rfl <;> simp [exprStart, primStart] at ht
      rw [if_neg (by simpa using htf)]
      refine h1.sync_ok.bind_ok ?_
      rcases rest with _ | ⟨t', r'⟩
      · cases hr
      · simp [nextKind] at hr
        right
        rcases hfin with rfl | rfl <;> simp [hr]
  | @exprsCons e ts es' ts' p hd _ ih ih' =>
    intro fin hfin m n rest es hr
    cases n with
    | zero => exact Or.inl rfl
    | succ n =>
      unfold sepBy
      have h1 := ih.expr m (⟨.comma, p⟩ :: (ts' ++ rest)) es rfl
      obtain ⟨t, r, rfl, ht, _⟩ := starts hd
      have htf : t.kind ≠ fin := by
        rintro h
        rw [h] at ht
        rcases hfin with rfl | rfl <;> simp [exprStart, primStart] at ht
      rw [if_neg (by simpa using htf), List.append_assoc]
      refine h1.sync_ok.bind_ok ?_
      dsimp only
      rw [if_pos rfl]
      exact (ih' fin hfin m n rest es hr).bind_ok (.refl _)
  | itemsNil =>
    intro m n rest es hr
    exact sepBy_complete (P := fun (_ : (Sym × Pos) × Expr) _ => False) .nil (fun _ _ _ _ h => h.elim)
      (fun _ _ h => h.elim) (by simp) n rest es hr
  | @itemsLast x px pc e ts hd ih =>
    intro m n rest es hr
    cases n with
    | zero => exact Or.inl rfl
    | succ n =>
      unfold sepBy
      simp only [List.cons_append]
      rw [if_neg (by simp)]
      have hs : stops 7 (nextKind rest) = true := by rw [hr]; rfl
      have : RBelow (parseItem (parseExpr m) ⟨⟨.identifier x, px⟩ :: ⟨.colon, pc⟩ :: (ts ++ rest), es⟩)
          (.ok ((x, px), e) ⟨rest, es⟩) := by
        unfold parseItem
        exact identifier_ok.withSync_ok.sync_ok.bind_ok (expect_ok.sync_ok.bind_ok
          ((ih.expr m rest es hs).bind_ok (.refl _)))
      refine this.sync_ok.bind_ok ?_
      rcases rest with _ | ⟨t', r'⟩
      · cases hr
      · simp [nextKind] at hr
        right
        simp [hr]
  | @itemsCons x px pc e ts is ts' p hd _ ih ih' =>
    intro m n rest es hr
    cases n with
    | zero => exact Or.inl rfl
    | succ n =>
      unfold sepBy
      simp only [List.cons_append, List.append_assoc]
      rw [if_neg (by simp)]
      have : RBelow (parseItem (parseExpr m)
          ⟨⟨.identifier x, px⟩ :: ⟨.colon, pc⟩ :: (ts ++ ⟨.comma, p⟩ :: (ts' ++ rest)), es⟩)
          (.ok ((x, px), e) ⟨⟨.comma, p⟩ :: (ts' ++ rest), es⟩) := by
        unfold parseItem
        exact identifier_ok.withSync_ok.sync_ok.bind_ok (expect_ok.sync_ok.bind_ok
          ((ih.expr m _ es rfl).bind_ok (.refl _)))
      refine this.sync_ok.bind_ok ?_
      dsimp only
      rw [if_pos rfl]
      exact (ih' m n rest es hr).bind_ok (.refl _)
  | func hps _ ih =>
    intro m rest es
    unfold parseFunction
    simp only [List.cons_append, List.append_assoc, List.nil_append]
    refine expect_ok.sync_ok.bind_ok ?_
    refine RBelow.bind_ok (sepBy_complete hps ?_ ?_ (by simp) _ _ _ rfl) (expect_ok.sync_ok.bind_ok
      ((block_complete ih m _ _ _ es rfl).bind_ok (expect_ok.bind_ok (.refl _))))
    · rintro a ts rest es ⟨⟩ _
      exact identifier_ok
    · rintro a ts ⟨⟩
      exact ⟨_, _, rfl, by simp⟩
  | condThen _ _ ihc iht =>
    intro m n rest es hr
    cases n with
    | zero => exact Or.inl rfl
    | succ n =>
      unfold parseCond
      simp only [List.cons_append, List.append_assoc, List.nil_append]
      refine (ihc.expr m _ es rfl).sync_ok.bind_ok (expect_ok.sync_ok.bind_ok ?_)
      rcases rest with _ | ⟨⟨kd, p⟩, r⟩
      · cases hr
      · simp [nextKind] at hr
        subst hr
        exact (block_complete iht m _ _ _ es rfl).bind_ok (.refl _)
  | condElse _ _ _ ihc iht ihe =>
    intro m n rest es hr
    cases n with
    | zero => exact Or.inl rfl
    | succ n =>
      unfold parseCond
      simp only [List.cons_append, List.append_assoc, List.nil_append]
      refine (ihc.expr m _ es rfl).sync_ok.bind_ok (expect_ok.sync_ok.bind_ok ?_)
      refine (block_complete iht m _ _ _ es rfl).bind_ok ?_
      rcases rest with _ | ⟨⟨kd, p⟩, r⟩
      · cases hr
      · simp [nextKind] at hr
        subst hr
        exact (block_complete ihe m _ _ _ es rfl).bind_ok (.refl _)
  | condElseif _ _ _ ihc iht ihe =>
    intro m n rest es hr
    cases n with
    | zero => exact Or.inl rfl
    | succ n =>
      unfold parseCond
      simp only [List.cons_append, List.append_assoc, List.nil_append]
      refine (ihc.expr m _ es rfl).sync_ok.bind_ok (expect_ok.sync_ok.bind_ok ?_)
      refine (block_complete iht m _ _ _ es rfl).bind_ok ?_
      exact (ihe m n rest es hr).bind_ok (.refl _)
  | let_ =>
    intro m rest es hf
    simp only [List.cons_append, List.nil_append, stmtWith]
    refine identifier_ok.sync_ok.bind_ok ?_
    dsimp only
    rcases rest with _ | ⟨⟨kd, p⟩, r⟩
    · exact .refl _
    · simp [Follow.ok, nextKind] at hf
      right
      split
      · rename_i h; cases h; exact absurd rfl hf
      · rfl
  | letInit _ ih =>
    intro m rest es hf
    simp only [List.cons_append, stmtWith]
    exact identifier_ok.sync_ok.bind_ok ((ih.expr m rest es hf).bind_ok (.refl _))
  | letFun _ ih =>
    intro m rest es hf
    simp only [List.cons_append, stmtWith]
    exact (ih m rest es).bind_ok (.refl _)
  | returnNil =>
    intro m rest es hf
    simp only [List.cons_append, List.nil_append, stmtWith]
    rcases rest with _ | ⟨⟨kd, p⟩, r⟩
    · simp [Follow.ok, nextKind] at hf
    · simp [Follow.ok, nextKind, ← isBlockTerminator_eq] at hf
      right
      simp [hf]
  | @return_ e ts p hd ih =>
    intro m rest es hf
    have h1 := ih.expr m rest es hf
    have hs := starts hd
    obtain ⟨t, r, rfl, ht, _⟩ := hs
    simp only [List.cons_append, stmtWith]
    rw [if_neg]
    · exact h1.bind_ok (.refl _)
    · obtain ⟨kd, p⟩ := t
      cases kd with
      | keyword k => cases k <;> simp_all [exprStart, primStart, TokenKind.isBlockTerminator]
      | _ => simp [TokenKind.isBlockTerminator]
  | break_ => intro m rest es hf; exact .refl _
  | while_ _ _ ihc ihb =>
    intro m rest es hf
    simp only [List.cons_append, List.append_assoc, List.nil_append, stmtWith]
    exact (ihc.expr m _ es rfl).sync_ok.bind_ok (expect_ok.sync_ok.bind_ok
      ((block_complete ihb m _ _ _ es rfl).bind_ok (expect_ok.bind_ok (.refl _))))
  | for_ _ _ ihc ihb =>
    intro m rest es hf
    simp only [List.cons_append, List.append_assoc, List.nil_append, stmtWith]
    exact identifier_ok.sync_ok.bind_ok (expect_ok.sync_ok.bind_ok
      ((ihc.expr m _ es rfl).sync_ok.bind_ok (expect_ok.sync_ok.bind_ok
      ((block_complete ihb m _ _ _ es rfl).bind_ok (expect_ok.bind_ok (.refl _))))))
  | @assign l tsL r tsR p hd _ ihl ihr =>
    intro m rest es hf
    rw [List.append_assoc, List.cons_append]
    have h1 := ihl.expr m (⟨.operator .assign, p⟩ :: (tsR ++ rest)) es rfl
    refine stmt_expr (v := _) ((starts hd).append _) ?_
    exact h1.bind_ok ((ihr.expr m rest es hf).bind_ok (.refl _))
  | @exprStmt e ts hd ih =>
    intro m rest es hf
    simp only [Follow.ok, Bool.and_eq_true] at hf
    refine stmt_expr ((starts hd).append _) ?_
    refine (ih.expr m rest es hf.1).bind_ok ?_
    rcases rest with _ | ⟨⟨kd, p⟩, r⟩
    · exact .refl _
    · have := hf.2
      simp [nextKind] at this
      right
      split
      · rename_i h; cases h; exact absurd rfl this
      · rfl
  | blockNil =>
    intro m n rest es hf he
    cases n with
    | zero => exact Or.inl rfl
    | succ n =>
      rw [List.nil_append]
      unfold blockLoop
      rcases rest with _ | ⟨t, r⟩
      · exact .refl _
      · right; simp [he t r rfl]
  | @blockLast s f ts hd ih =>
    intro m n rest es hf he
    cases n with
    | zero => exact Or.inl rfl
    | succ n =>
      have h1 := ih m rest es hf
      obtain ⟨t, r, rfl, ht⟩ := starts hd
      unfold blockLoop
      simp only [List.cons_append] at h1 ⊢
      rw [if_neg (by simp [ht])]
      refine h1.forceSkip_ok.sync_ok.bind_ok ?_
      split
      · exact .refl _
      · refine RBelow.bind_ok (a := []) (st := ⟨rest, es⟩) ?_ (.refl _)
        cases n with
        | zero => exact Or.inl rfl
        | succ n =>
          unfold blockLoop
          rcases rest with _ | ⟨t, r⟩
          · exact .refl _
          · right; simp [he t r rfl]
  | @blockCons s f ts b g ts' hd hret _ hne hf' ih ihb =>
    intro m n rest es hf he
    cases n with
    | zero => exact Or.inl rfl
    | succ n =>
      rw [List.append_assoc]
      have h1 := ih m (ts' ++ rest) es (by
        cases ts' with
        | nil => exact absurd rfl hne
        | cons t r => simpa [nextKind] using hf')
      obtain ⟨t, r, rfl, ht⟩ := starts hd
      unfold blockLoop
      simp only [List.cons_append] at h1 ⊢
      rw [if_neg (by simp [ht])]
      refine h1.forceSkip_ok.sync_ok.bind_ok ?_
      rw [if_neg (by rw [isReturn_eq, hret]; simp)]
      exact (ihb m n rest es hf he).bind_ok (.refl _)
where
  stmt_expr {pe : PState → Res Expr} {pb : PState → Res Block} {st : PState} {v : Res Stmt}
      (hs : StartsWith exprStart st.toks)
      (h : RBelow ((pe st).bind fun e st =>
        match st.toks with
        | ⟨.operator .assign, pos⟩ :: ts =>
          (pe { st with toks := ts }).bind fun r st => .ok (.assign e r pos) st
        | _ => .ok (.expr e) st) v) : RBelow (stmtWith pe pb st) v := by
    obtain ⟨⟨kd, p⟩, r, h1, h2, h3⟩ := hs
    unfold stmtWith
    split
    · rename_i h'; rw [h'] at h1; cases h1
    · rename_i h'; rw [h'] at h1; cases h1; simp [exprStart, primStart] at h2
    · rename_i h'; rw [h'] at h1; cases h1
      obtain ⟨t2, r2, h4, h5⟩ := h3 rfl
      cases h4; cases h5
    · rename_i h'; rw [h'] at h1; cases h1; simp [exprStart, primStart] at h2
    · rename_i h'; rw [h'] at h1; cases h1; simp [exprStart, primStart] at h2
    · rename_i h'; rw [h'] at h1; cases h1; simp [exprStart, primStart] at h2
    · rename_i h'; rw [h'] at h1; cases h1; simp [exprStart, primStart] at h2
    · exact h

/-- Every program of the grammar is accepted, with its syntax tree. -/
theorem parse_complete {b : Block} {ts : List Token} (h : IsProgram b ts) : parse ts = .ok b ⟨[], []⟩ := by
  obtain ⟨f, hd, hf⟩ := h
  have hc := complete hd
  have h1 : ∀ m, RBelow (parseBlock m ⟨ts, []⟩) (.ok b ⟨[], []⟩) := by
    intro m
    cases m with
    | zero => exact Or.inl rfl
    | succ m =>
      have := hc m (ts.length + 1) [] [] (by simpa [nextKind] using hf) (by rintro t r h; cases h)
      rw [List.append_nil] at this
      exact this
  have h2 : RBelow (parse ts) (.ok b ⟨[], []⟩) := by
    unfold parse parseLoop
    exact (h1 _).bind_ok (.refl _)
  rcases h2 with h2 | h2
  · obtain ⟨b', es, h3⟩ := parse_total ts
    rw [h2] at h3; cases h3
  · exact h2

end Hush

import Verif.Spec.Layout

/-!
The parser commutes with a change of positions.
-/

namespace Hush
open Spec

variable {f : Pos → Pos}

def mvP (f : Pos → Pos) (st : PState) : PState := ⟨st.toks.map (moveTok f), st.errors.map (moveParseError f)⟩

/-- Not an argument: the tokens that the parser looks for. -/
def NotArg (k : TokenKind) : Prop := ∀ ps, k ≠ .argument ps

theorem moveKind_eq {k : TokenKind} (h : NotArg k) (k2 : TokenKind) : moveKind f k2 = k ↔ k2 = k := by
  cases k2 with
  | argument ps => exact ⟨fun e => absurd e.symm (h _), fun e => absurd e.symm (h _)⟩
  | _ => exact Iff.rfl

theorem moveKind_beq {k : TokenKind} (h : NotArg k) (k2 : TokenKind) : (moveKind f k2 == k) = (k2 == k) := by
  rw [Bool.eq_iff_iff, beq_iff_eq, beq_iff_eq]
  exact moveKind_eq h k2

def Strategy.Plain : Strategy → Prop
  | .token k => NotArg k
  | _ => True

/-- The outcome at the new places. -/
inductive Mv (f : Pos → Pos) (m : α → α) : Res α → Res α → Prop
  | ok (a : α) (st : PState) : Mv f m (.ok a st) (.ok (m a) (mvP f st))
  | err (e : ParseError) (s : Strategy) (st : PState) (h : s.Plain) : Mv f m (.err e s st) (.err (moveParseError f e) s (mvP f st))
  | crash : Mv f m .crash .crash
  | timeout : Mv f m .timeout .timeout

abbrev Par (f : Pos → Pos) (m : α → α) (p : PState → Res α) : Prop := ∀ st, Mv f m (p st) (p (mvP f st))

variable {m : α → α} {m' : β → β}

theorem mv_bind {r r' : Res α} {k k' : α → PState → Res β} (h : Mv f m r r') (hk : ∀ a st, Mv f m' (k a st) (k' (m a) (mvP f st))) :
    Mv f m' (r.bind k) (r'.bind k') := by
  cases h with
  | ok a st => exact hk a st
  | err e s st h => exact .err e s st h
  | crash => exact .crash
  | timeout => exact .timeout

theorem mv_skipPast {p : TokenKind → Bool} (h : ∀ k, p (moveKind f k) = p k) : ∀ ts : List Token, skipPast p (ts.map (moveTok f)) = (skipPast p ts).map (moveTok f)
  | [] => rfl
  | t :: ts => by
    rw [List.map_cons, skipPast, skipPast, mv_skipPast h ts, show (moveTok f t).kind = moveKind f t.kind from rfl, h]
    split <;> rfl

theorem mv_skip {s : Strategy} (h : s.Plain) (ts : List Token) : s.skip (ts.map (moveTok f)) = (s.skip ts).map (moveTok f) := by
  cases s with
  | keep => rfl
  | skipOne => cases ts <;> rfl
  | token k => exact mv_skipPast (moveKind_beq h) ts
  | keyword k => exact mv_skipPast (moveKind_beq (by intro ps h; cases h)) ts
  | blockTerminator => exact mv_skipPast (fun k => by cases k <;> rfl) ts
  | commandTerminator => exact mv_skipPast (fun k => by cases k <;> rfl) ts

theorem mv_sync {ill : α} (hi : m ill = ill) {r r' : Res α} (h : Mv f m r r') : Mv f m (r.sync ill) (r'.sync ill) := by
  cases h with
  | ok a st => exact .ok a st
  | err e s st h =>
    have := Mv.ok (f := f) (m := m) ill (st.synchronize e s)
    rw [hi] at this
    have hs : (mvP f st).synchronize (moveParseError f e) s = mvP f (st.synchronize e s) := by
      simp only [PState.synchronize, mvP, mv_skip h, List.map_cons]
    simp only [Res.sync, hs]
    exact this
  | crash => exact .crash
  | timeout => exact .timeout

theorem mv_forceSkip {r r' : Res α} (h : Mv f m r r') : Mv f m r.forceSkip r'.forceSkip := by
  cases h with
  | ok a st => exact .ok a st
  | err e s st h => cases s <;> exact .err _ _ _ h
  | crash => exact .crash
  | timeout => exact .timeout

theorem mv_withSync {s : Strategy} (hs : s.Plain) {r r' : Res α} (h : Mv f m r r') : Mv f m (r.withSync s) (r'.withSync s) := by
  cases h with
  | ok a st => exact .ok a st
  | err e s st h => exact .err _ _ _ hs
  | crash => exact .crash
  | timeout => exact .timeout

theorem mv_expect {k : TokenKind} {s : Strategy} (hk : NotArg k) (hs : s.Plain) : Par f id (expect k s) := by
  rintro ⟨ts, es⟩
  cases ts with
  | nil => exact .err _ _ _ hs
  | cons t ts =>
    simp only [expect, mvP, List.map_cons]
    by_cases h : t.kind = k
    · rw [if_pos h, if_pos (show (moveTok f t).kind = k from (moveKind_eq hk _).2 h)]
      exact .ok () ⟨ts, es⟩
    · rw [if_neg h, if_neg (show ¬ (moveTok f t).kind = k from fun h' => h ((moveKind_eq hk _).1 h'))]
      exact .err (.unexpected t (.token k)) _ ⟨t :: ts, es⟩ hs

theorem mv_identifier : Par f (moveIdent f) parseIdentifier := by
  rintro ⟨ts, es⟩
  cases ts with
  | nil => exact .err _ _ _ trivial
  | cons t ts =>
    obtain ⟨k, p⟩ := t
    cases k <;> first
      | exact .ok (_, p) ⟨ts, es⟩
      | exact .err (.unexpected ⟨_, p⟩ _) _ ⟨_ :: ts, es⟩ trivial

theorem mv_sepBy {p : PState → Res α} {ill : α} {sep fin : TokenKind} (hp : Par f m p) (hi : m ill = ill) (hs : NotArg sep) (hfin : NotArg fin) :
    ∀ {n n'} (_ : n' = n) (st), Mv f (List.map m) (sepBy p ill sep fin n st) (sepBy p ill sep fin n' (mvP f st))
  | 0, _, rfl, _ => .timeout
  | n + 1, _, rfl, st => by
    have hh : (mvP f st).toks.head?.any (fun t => t.kind == fin) = st.toks.head?.any (fun t => t.kind == fin) := by
      obtain ⟨ts, es⟩ := st
      cases ts with
      | nil => rfl
      | cons t ts => exact moveKind_beq hfin t.kind
    simp only [sepBy, hh]
    split
    · exact .ok [] st
    · refine mv_bind (mv_sync hi (hp st)) fun a st => ?_
      obtain ⟨ts, es⟩ := st
      cases ts with
      | nil => exact .ok [a] ⟨[], es⟩
      | cons t ts =>
        simp only [mvP, List.map_cons]
        by_cases h : t.kind = sep
        · rw [if_pos h, if_pos (show (moveTok f t).kind = sep from (moveKind_eq hs _).2 h)]
          exact mv_bind (mv_sepBy hp hi hs hfin rfl ⟨ts, es⟩) fun as st => by exact .ok (a :: as) st
        · rw [if_neg h, if_neg (show ¬ (moveTok f t).kind = sep from fun h' => h ((moveKind_eq hs _).1 h'))]
          exact .ok [a] ⟨t :: ts, es⟩

/-! ### Commands -/

theorem mv_pushLit (lit : Bytes) (rest : List Ast.ArgPart) : pushLit lit (rest.map (moveAstPart f)) = (pushLit lit rest).map (moveAstPart f) := by
  unfold pushLit
  split <;> rfl

theorem mv_buildUnits {next next' : Bytes → List Ast.ArgPart} (h : ∀ lit, next' lit = (next lit).map (moveAstPart f)) :
    ∀ (us : List ArgUnit) (lit : Bytes), buildUnits next' (us.map (moveUnit f)) lit = (buildUnits next us lit).map (moveAstPart f)
  | [], lit => h lit
  | .literal s :: us, lit => by
    simp only [List.map_cons, moveUnit, buildUnits]
    exact mv_buildUnits h us _
  | .dollar x pos :: us, lit => by
    simp only [List.map_cons, moveUnit, buildUnits]
    rw [mv_buildUnits h us, ← mv_pushLit]
    rfl

theorem mv_buildParts : ∀ (ps : List ArgPart) (lit : Bytes), buildParts (ps.map (movePart f)) lit = (buildParts ps lit).map (moveAstPart f)
  | [], lit => by
    simp only [List.map_nil, buildParts]
    split <;> rfl
  | .singleQuoted s :: ps, lit => by simp only [List.map_cons, movePart, buildParts]; exact mv_buildParts ps _
  | .doubleQuoted us :: ps, lit => by
    simp only [List.map_cons, movePart, buildParts]
    exact mv_buildUnits (fun lit => mv_buildParts ps lit) us lit
  | .unquoted (.literal s) :: ps, lit => by simp only [List.map_cons, movePart, moveUnit, buildParts]; exact mv_buildParts ps _
  | .unquoted (.dollar x pos) :: ps, lit => by
    simp only [List.map_cons, movePart, moveUnit, buildParts]
    rw [mv_buildParts ps, ← mv_pushLit]
    rfl
  | .expansion e :: ps, lit => by
    simp only [List.map_cons, movePart, buildParts]
    rw [mv_buildParts ps, ← mv_pushLit]
    rfl
  | .envAssign :: ps, lit => by simp only [List.map_cons, movePart, buildParts]; exact mv_buildParts ps _

theorem mv_buildArg (ps : List ArgPart) (p : Pos) : buildArg (ps.map (movePart f)) (f p) = moveArg f (buildArg ps p) := by
  simp only [buildArg, mv_buildParts, moveArg]

theorem mv_argument {s : Strategy} (hs : s.Plain) : Par f (moveArg f) (parseArgument s) := by
  rintro ⟨ts, es⟩
  cases ts with
  | nil => exact .err _ _ _ hs
  | cons t ts =>
    obtain ⟨k, p⟩ := t
    cases k with
    | argument ps =>
      have := Mv.ok (f := f) (m := moveArg f) (buildArg ps p) ⟨ts, es⟩
      rw [← mv_buildArg] at this
      exact this
    | _ => exact .err (.unexpected ⟨_, p⟩ _) _ ⟨_ :: ts, es⟩ hs

theorem mv_env : ∀ ts : List Token, parseEnv (ts.map (moveTok f)) = ((parseEnv ts).1.map (moveEnv f), (parseEnv ts).2.map (moveTok f))
  | [] => rfl
  | ⟨k, p⟩ :: ts => by
    have ih := mv_env ts
    cases k with
    | argument ps =>
      cases ps with
      | nil => rfl
      | cons q ps =>
        cases ps with
        | nil => cases q <;> rfl
        | cons q' ps =>
          cases q <;> cases q' <;> first
            | rfl
            | (simp only [List.map_cons, moveTok, moveKind, movePart, parseEnv, ih, mv_buildArg, moveEnv])
    | _ => rfl

theorem isNumber_move (u : ArgUnit) : (moveUnit f u).isNumber = u.isNumber := by cases u <;> rfl

theorem mv_isRedirection (ps : List ArgPart) (ts : List Token) : isRedirection (ps.map (movePart f)) (ts.map (moveTok f)).head? = isRedirection ps ts.head? := by
  unfold isRedirection
  congr 1
  · cases ps with
    | nil => rfl
    | cons q ps =>
      cases ps with
      | cons q' ps => rfl
      | nil =>
        cases q with
        | unquoted u => exact isNumber_move u
        | _ => rfl
  · cases ts with
    | nil => rfl
    | cons t ts =>
      obtain ⟨k, p⟩ := t
      cases k <;> rfl

theorem mv_args : ∀ ts : List Token, parseArgs (ts.map (moveTok f)) = ((parseArgs ts).1.map (moveArg f), (parseArgs ts).2.map (moveTok f))
  | [] => rfl
  | ⟨k, p⟩ :: ts => by
    have ih := mv_args ts
    cases k with
    | argument ps =>
      have hr := mv_isRedirection (f := f) ps ts
      simp only [List.map_cons, moveTok, moveKind, parseArgs] at ih hr ⊢
      rw [hr]
      split
      · rfl
      · rw [ih, mv_buildArg]
        rfl
    | _ => rfl

theorem mv_fd (st : PState) : parseFd (mvP f st) = (parseFd st).map fun q => (q.1, mvP f q.2) := by
  obtain ⟨ts, es⟩ := st
  cases ts with
  | nil => rfl
  | cons t ts =>
    obtain ⟨k, p⟩ := t
    cases k with
    | argument ps =>
      cases ps with
      | nil => rfl
      | cons q ps =>
        cases ps with
        | cons q' ps =>
          cases q with
          | unquoted u => cases u <;> rfl
          | _ => rfl
        | nil =>
          cases q with
          | unquoted u =>
            cases u with
            | dollar x p => rfl
            | literal s =>
              simp only [parseFd, mvP, List.map_cons, List.map_nil, moveTok, moveKind, movePart, moveUnit]
              cases parseU8 s <;> rfl
          | _ => rfl
    | _ => rfl

theorem mv_output (n : Nat) : Par f (moveRedirection f) (parseOutput n) := by
  rintro ⟨ts, es⟩
  cases ts with
  | nil => exact .err _ _ _ trivial
  | cons t ts =>
    obtain ⟨k, p⟩ := t
    cases k with
    | cmdOperator o =>
      cases o with
      | output append =>
        have ha : ∀ st, Mv f (moveArg f) (parseArgument .keep st) (parseArgument .keep (mvP f st)) := mv_argument (by exact trivial)
        have hd := mv_fd (f := f) ⟨ts, es⟩
        cases append with
        | true => exact mv_bind (ha ⟨ts, es⟩) fun a st => by exact .ok (Ast.Redirection.output n (.append a)) st
        | false =>
          simp only [parseOutput, mvP, List.map_cons, moveTok, moveKind, Bool.false_eq_true, if_false] at hd ⊢
          rw [hd]
          cases parseFd ⟨ts, es⟩ with
          | some q => exact .ok (Ast.Redirection.output n (.fd q.1)) q.2
          | none => exact mv_bind (ha ⟨ts, es⟩) fun a st => by exact .ok (Ast.Redirection.output n (.overwrite a)) st
      | _ => exact .err (.unexpected ⟨_, p⟩ _) _ ⟨_ :: ts, es⟩ trivial
    | _ => exact .err (.unexpected ⟨_, p⟩ _) _ ⟨_ :: ts, es⟩ trivial

theorem mv_redirection : Par f (moveRedirection f) parseRedirection := by
  rintro ⟨ts, es⟩
  cases ts with
  | nil => exact .err _ _ _ trivial
  | cons t ts =>
    have hd := mv_fd (f := f) ⟨t :: ts, es⟩
    have hrest : Mv f (moveRedirection f)
        (match parseFd ⟨t :: ts, es⟩ with
          | some (fd, st) => parseOutput fd st
          | none => parseOutput 1 ⟨t :: ts, es⟩)
        (match parseFd (mvP f ⟨t :: ts, es⟩) with
          | some (fd, st) => parseOutput fd st
          | none => parseOutput 1 (mvP f ⟨t :: ts, es⟩)) := by
      rw [hd]
      cases parseFd ⟨t :: ts, es⟩ with
      | none => exact mv_output 1 _
      | some q => exact mv_output q.1 q.2
    obtain ⟨k, p⟩ := t
    cases k with
    | cmdOperator o =>
      cases o with
      | input l => exact mv_bind (mv_argument (by exact trivial) ⟨ts, es⟩) fun a st => by exact .ok (Ast.Redirection.input l a) st
      | _ => exact hrest
    | _ => exact hrest

theorem kind_terminator (k : TokenKind) : (moveKind f k).isBasicCommandTerminator = k.isBasicCommandTerminator := by cases k <;> rfl
theorem kind_blockTerminator (k : TokenKind) : (moveKind f k).isBlockTerminator = k.isBlockTerminator := by cases k <;> rfl

theorem mv_operators : ∀ {n n'} (_ : n' = n) (st), Mv f (fun q => (q.1.map (moveRedirection f), q.2)) (parseOperators n st) (parseOperators n' (mvP f st))
  | 0, _, rfl, _ => .timeout
  | n + 1, _, rfl, ⟨ts, es⟩ => by
    cases ts with
    | nil => exact .err _ _ _ trivial
    | cons t ts =>
      simp only [parseOperators, mvP, List.map_cons]
      rw [show (moveTok f t).kind.isBasicCommandTerminator = t.kind.isBasicCommandTerminator from kind_terminator t.kind]
      split
      · exact .ok ([], true) ⟨t :: ts, es⟩
      by_cases h : t.kind = .cmdOperator .try_
      · rw [if_pos h, if_pos (show (moveTok f t).kind = _ from (moveKind_eq (by intro ps h; cases h) _).2 h)]
        exact .ok ([], false) ⟨ts, es⟩
      · rw [if_neg h, if_neg (show ¬ (moveTok f t).kind = _ from fun h' => h ((moveKind_eq (by intro ps h; cases h) _).1 h'))]
        refine mv_bind (mv_sync rfl (mv_redirection ⟨t :: ts, es⟩)) fun r st => ?_
        exact mv_bind (mv_operators rfl st) fun q st => by exact .ok (r :: q.1, q.2) st

theorem mv_basicCommand : Par f (moveBasic f) parseBasic := by
  rintro ⟨ts, es⟩
  have he := mv_env (f := f) ts
  unfold parseBasic
  simp only [mvP, he]
  refine mv_bind (mv_argument (by exact trivial) ⟨(parseEnv ts).2, es⟩) fun program st => ?_
  have ha := mv_args (f := f) st.toks
  simp only [show (mvP f st).toks = st.toks.map (moveTok f) from rfl, ha]
  refine mv_bind (mv_operators (by simp) ⟨(parseArgs st.toks).2, st.errors⟩) fun q st' => ?_
  exact Mv.ok (⟨program, (parseEnv ts).1, (parseArgs st.toks).1, q.1, q.2, program.pos⟩ : Ast.BasicCommand) st'

theorem basic_ill (hi : f Ast.illPos = Ast.illPos) : moveBasic f .illFormed = .illFormed := by
  simp [moveBasic, Ast.BasicCommand.illFormed, Ast.Argument.illFormed, moveArg, hi]

theorem mv_pipes (hi : f Ast.illPos = Ast.illPos) : ∀ {n n'} (_ : n' = n) (st), Mv f (List.map (moveBasic f)) (parsePipes n st) (parsePipes n' (mvP f st))
  | 0, _, rfl, _ => .timeout
  | n + 1, _, rfl, ⟨ts, es⟩ => by
    cases ts with
    | nil => exact .ok [] ⟨[], es⟩
    | cons t ts =>
      obtain ⟨k, p⟩ := t
      cases k with
      | pipe =>
        simp only [parsePipes, mvP, List.map_cons, moveTok, moveKind]
        refine mv_bind (mv_sync (basic_ill hi) (mv_basicCommand ⟨ts, es⟩)) fun c st => ?_
        exact mv_bind (mv_pipes hi rfl st) fun cs st => by exact .ok (c :: cs) st
      | _ => exact .ok [] ⟨_ :: ts, es⟩

theorem mv_commandParse (hi : f Ast.illPos = Ast.illPos) : Par f (moveCommand f) parseCommand := fun st => by
  unfold parseCommand
  refine mv_bind (mv_sync (basic_ill hi) (mv_basicCommand st)) fun head st => ?_
  exact mv_bind (mv_pipes hi (by simp [mvP]) st) fun tail st => by exact .ok (⟨head, tail⟩ : Ast.Command) st

theorem command_ill (hi : f Ast.illPos = Ast.illPos) : moveCommand f .illFormed = .illFormed := by
  simp [moveCommand, Ast.Command.illFormed, basic_ill hi]

theorem fromToken_move (k : TokenKind) : Ast.BlockKind.fromToken (moveKind f k) = Ast.BlockKind.fromToken k := by cases k <;> rfl

theorem mv_commandBlock (hi : f Ast.illPos = Ast.illPos) : Par f (moveCommands f) parseCommandBlock := by
  rintro ⟨ts, es⟩
  cases ts with
  | nil => exact .err _ _ _ trivial
  | cons t ts =>
    simp only [parseCommandBlock, mvP, List.map_cons]
    rw [show Ast.BlockKind.fromToken (moveTok f t).kind = Ast.BlockKind.fromToken t.kind from fromToken_move t.kind]
    cases Ast.BlockKind.fromToken t.kind with
    | none => exact .err (.unexpected t _) _ ⟨t :: ts, es⟩ trivial
    | some kind =>
      have main : ∀ st, Mv f (moveCommands f)
          ((parseCommand st).bind fun head st =>
            (match st.toks with
             | ⟨.semicolon, _⟩ :: ts => sepBy parseCommand .illFormed .semicolon .closeCommand (ts.length + 1) { st with toks := ts }
             | _ => .ok [] st).bind fun tail st =>
            (expect .closeCommand (.token .closeCommand) st).bind fun _ st => .ok ⟨kind, head, tail⟩ st)
          ((parseCommand (mvP f st)).bind fun head st =>
            (match st.toks with
             | ⟨.semicolon, _⟩ :: ts => sepBy parseCommand .illFormed .semicolon .closeCommand (ts.length + 1) { st with toks := ts }
             | _ => .ok [] st).bind fun tail st =>
            (expect .closeCommand (.token .closeCommand) st).bind fun _ st => by exact .ok ⟨kind, head, tail⟩ st) := by
        intro st
        refine mv_bind (mv_commandParse hi st) fun head st => ?_
        refine mv_bind (m := List.map (moveCommand f)) ?_ fun tail st => mv_bind (mv_expect (by intro ps h; cases h) (by intro ps h; cases h) st) fun _ st =>
          .ok (⟨kind, head, tail⟩ : Ast.CommandBlock) st
        obtain ⟨ts, es⟩ := st
        cases ts with
        | nil => exact .ok [] ⟨[], es⟩
        | cons t ts =>
          obtain ⟨k, p⟩ := t
          cases k with
          | semicolon =>
            exact mv_sepBy (mv_commandParse hi) (command_ill hi) (by intro ps h; cases h) (by intro ps h; cases h) (by simp) ⟨ts, es⟩
          | _ => exact .ok [] ⟨_ :: ts, es⟩
      cases ts with
      | nil => exact main ⟨[], es⟩
      | cons t' ts =>
        obtain ⟨k, p⟩ := t'
        cases k with
        | closeCommand => exact .err (.emptyCommandBlock p) _ ⟨⟨.closeCommand, p⟩ :: ts, es⟩ trivial
        | _ => exact main ⟨_ :: ts, es⟩

/-! ### Expressions -/

theorem moveExprs_map : ∀ es : List Ast.Expr, moveExprs f es = es.map (moveExpr f)
  | [] => by rw [moveExprs]; rfl
  | e :: es => by rw [moveExprs, moveExprs_map es]; rfl

theorem moveItems_map : ∀ es : List ((Sym × Pos) × Ast.Expr), moveItems f es = es.map (fun q => (moveIdent f q.1, moveExpr f q.2))
  | [] => by rw [moveItems]; rfl
  | e :: es => by rw [moveItems, moveItems_map es]; rfl

theorem mv_done {a b : α} (h : m a = b) (st : PState) : Mv f m (.ok a st) (.ok b (mvP f st)) := h ▸ .ok a st

theorem expr_ill : moveExpr f .illFormed = .illFormed := by rw [moveExpr]

theorem mv_binLoop {p : PState → Res Ast.Expr} (hp : Par f (moveExpr f) p) (check : Operator → Bool) :
    ∀ {n n'} (_ : n' = n) (e st), Mv f (moveExpr f) (binLoop p check n e st) (binLoop p check n' (moveExpr f e) (mvP f st))
  | 0, _, rfl, _, _ => .timeout
  | n + 1, _, rfl, e, ⟨ts, es⟩ => by
    cases ts with
    | nil => exact .ok e ⟨[], es⟩
    | cons t ts =>
      obtain ⟨k, pos⟩ := t
      cases k with
      | operator op =>
        simp only [binLoop, mvP, List.map_cons, moveTok, moveKind]
        split
        · refine mv_bind (hp ⟨ts, es⟩) fun r st => ?_
          cases op.toBinary with
          | none => exact .crash
          | some op =>
            have := mv_binLoop hp check (rfl : n = n) (.binary e op r pos) st
            rw [moveExpr] at this
            exact this
        · exact .ok e ⟨⟨.operator op, pos⟩ :: ts, es⟩
      | _ => exact .ok e ⟨_ :: ts, es⟩

theorem mv_level {pre : PState → Res Ast.Expr} (hp : Par f (moveExpr f) pre) : ∀ k, Par f (moveExpr f) (parseLevel pre k)
  | 0 => hp
  | k + 1 => fun st => by
    simp only [parseLevel, parseBinop]
    exact mv_bind (mv_level hp k st) fun e st => mv_binLoop (mv_level hp k) _ (by simp [mvP]) e st

theorem mv_levelAt {pre pre' : PState → Res Ast.Expr} (hp : Par f (moveExpr f) pre) (h : pre' = pre) (k : Nat) (st : PState) :
    Mv f (moveExpr f) (parseLevel pre k st) (parseLevel pre' k (mvP f st)) := h ▸ mv_level hp k st

section
variable {pe : PState → Res Ast.Expr} {pb : PState → Res Ast.Block} (hi : f Ast.illPos = Ast.illPos) (he : Par f (moveExpr f) pe) (hb : Par f (moveBlock f) pb)
include he

theorem mv_postfixLoop : ∀ {n n'} (_ : n' = n) (e st), Mv f (moveExpr f) (postfixLoop pe n e st) (postfixLoop pe n' (moveExpr f e) (mvP f st))
  | 0, _, rfl, _, _ => .timeout
  | n + 1, _, rfl, e, ⟨ts, es⟩ => by
    cases ts with
    | nil => exact .ok e ⟨[], es⟩
    | cons t ts =>
      obtain ⟨k, pos⟩ := t
      cases k with
      | openParens =>
        simp only [postfixLoop, mvP, List.map_cons, moveTok, moveKind]
        refine mv_bind (mv_sepBy he expr_ill (by intro ps h; cases h) (by intro ps h; cases h) (by simp) ⟨ts, es⟩) fun args st => ?_
        refine mv_bind (mv_expect (by intro ps h; cases h) (by intro ps h; cases h) st) fun _ st => ?_
        have := mv_postfixLoop (rfl : n = n) (.call e args pos) st
        rw [moveExpr, moveExprs_map] at this
        exact this
      | openBracket =>
        simp only [postfixLoop, mvP, List.map_cons, moveTok, moveKind]
        refine mv_bind (mv_sync expr_ill (he ⟨ts, es⟩)) fun field st => ?_
        refine mv_bind (mv_expect (by intro ps h; cases h) (by intro ps h; cases h) st) fun _ st => ?_
        have := mv_postfixLoop (rfl : n = n) (.access e field pos) st
        rw [moveExpr] at this
        exact this
      | operator o =>
        cases o with
        | dot =>
          simp only [postfixLoop, mvP, List.map_cons, moveTok, moveKind]
          refine mv_bind (mv_identifier ⟨ts, es⟩) fun x st => ?_
          have := mv_postfixLoop (rfl : n = n) (.access e (.lit (.ident x.1) x.2) pos) st
          rw [moveExpr, moveExpr, moveLit] at this
          exact this
        | try_ =>
          simp only [postfixLoop, mvP, List.map_cons, moveTok, moveKind]
          have := mv_postfixLoop (rfl : n = n) (.unary .try_ e pos) ⟨ts, es⟩
          rw [moveExpr] at this
          exact this
        | _ => exact .ok e ⟨_ :: ts, es⟩
      | _ => exact .ok e ⟨_ :: ts, es⟩

include hi in
theorem mv_item : Par f (fun q => (moveIdent f q.1, moveExpr f q.2)) (parseItem pe) := fun st => by
  unfold parseItem
  refine mv_bind (mv_sync (by simp [illIdent, moveIdent, hi]) (mv_withSync (by exact trivial) (mv_identifier st))) fun key st => ?_
  refine mv_bind (mv_sync rfl (mv_expect (by intro ps h; cases h) (by exact trivial) st)) fun _ st => ?_
  exact mv_bind (he st) fun value st => by exact .ok (key, value) st

omit he
include hb in
include hi in
theorem mv_function : Par f (fun q => (q.1.map (moveIdent f), moveBlock f q.2)) (parseFunction pb) := fun st => by
  have ho : (mvP f st).toks.head?.any (fun t => t.kind == .openParens) = st.toks.head?.any (fun t => t.kind == .openParens) := by
    obtain ⟨ts, es⟩ := st
    cases ts with
    | nil => rfl
    | cons t ts => exact moveKind_beq (by intro ps h; cases h) t.kind
  unfold parseFunction
  simp only [ho]
  refine mv_bind (mv_sync rfl (mv_expect (by intro ps h; cases h) (by exact trivial) st)) fun _ st => ?_
  refine mv_bind (mv_sepBy mv_identifier (by simp [illIdent, moveIdent, hi]) (by intro ps h; cases h) (by intro ps h; cases h) (by simp [mvP]) st) fun params st => ?_
  refine mv_bind (mv_sync rfl (mv_expect (by intro ps h; cases h) (by split <;> first | trivial | exact fun ps h => by cases h) st)) fun _ st => ?_
  refine mv_bind (hb st) fun body st => ?_
  exact mv_bind (mv_expect (by intro ps h; cases h) (by exact trivial) st) fun _ st => by exact .ok (params, body) st

include he hb

theorem mv_cond : ∀ {n n'} (_ : n' = n) (st), Mv f (fun q => (moveExpr f q.1, moveBlock f q.2.1, moveBlock f q.2.2)) (parseCond pe pb n st) (parseCond pe pb n' (mvP f st))
  | 0, _, rfl, _ => .timeout
  | n + 1, _, rfl, st => by
    simp only [parseCond]
    refine mv_bind (mv_sync expr_ill (he st)) fun cond st => ?_
    refine mv_bind (mv_sync rfl (mv_expect (by intro ps h; cases h) (by exact trivial) st)) fun _ st => ?_
    refine mv_bind (hb st) fun then_ st => ?_
    obtain ⟨ts, es⟩ := st
    cases ts with
    | nil => exact .err _ _ _ trivial
    | cons t ts =>
      obtain ⟨k, pos⟩ := t
      cases k with
      | keyword k =>
        cases k with
        | end_ => exact mv_done (by simp [moveBlock]) ⟨⟨.keyword .end_, pos⟩ :: ts, es⟩
        | elseif => exact mv_bind (mv_cond rfl ⟨ts, es⟩) fun q st => by exact mv_done (by simp [moveBlock, moveStmt, moveExpr]) st
        | else_ => exact mv_bind (hb ⟨ts, es⟩) fun e st => by exact .ok (cond, then_, e) st
        | _ => exact .err (.unexpected ⟨_, pos⟩ _) _ ⟨[], es⟩ trivial
      | _ => exact .err (.unexpected ⟨_, pos⟩ _) _ ⟨[], es⟩ trivial

include hi

theorem mv_primary : Par f (moveExpr f) (parsePrimary pe pb) := by
  rintro ⟨ts, es⟩
  cases ts with
  | nil => exact .err _ _ _ trivial
  | cons t ts =>
    obtain ⟨k, pos⟩ := t
    have hcmd : Mv f (moveExpr f) (((parseCommandBlock ⟨⟨k, pos⟩ :: ts, es⟩).sync .illFormed).bind fun b st => .ok (.command b pos) st)
        (((parseCommandBlock (mvP f ⟨⟨k, pos⟩ :: ts, es⟩)).sync .illFormed).bind fun b st => by exact .ok (.command b (f pos)) st) :=
      mv_bind (mv_sync (by simp [moveCommands, Ast.CommandBlock.illFormed, command_ill hi]) (mv_commandBlock hi _)) fun b st => by exact mv_done (by rw [moveExpr]) st
    cases k with
    | identifier x => exact mv_done (by rw [moveExpr]) ⟨ts, es⟩
    | literal l => exact mv_done (by cases l <;> simp [moveExpr, moveLit, Ast.Lit.ofTok]) ⟨ts, es⟩
    | openBracket =>
      simp only [parsePrimary, mvP, List.map_cons, moveTok, moveKind]
      refine mv_bind (mv_sepBy he expr_ill (by intro ps h; cases h) (by intro ps h; cases h) (by simp) ⟨ts, es⟩) fun items st => ?_
      exact mv_bind (mv_expect (by intro ps h; cases h) (by intro ps h; cases h) st) fun _ st => by exact mv_done (by rw [moveExpr, moveLit, moveExprs_map]) st
    | openDict =>
      simp only [parsePrimary, mvP, List.map_cons, moveTok, moveKind]
      refine mv_bind (mv_sepBy (mv_item hi he) (by simp [illIdent, moveIdent, hi, expr_ill]) (by intro ps h; cases h) (by intro ps h; cases h) (by simp) ⟨ts, es⟩) fun items st => ?_
      exact mv_bind (mv_expect (by intro ps h; cases h) (by intro ps h; cases h) st) fun _ st => by exact mv_done (by rw [moveExpr, moveLit, moveItems_map]) st
    | keyword k =>
      cases k with
      | self_ => exact mv_done (by rw [moveExpr]) ⟨ts, es⟩
      | function => exact mv_bind (mv_function hi hb ⟨ts, es⟩) fun q st => by exact mv_done (by rw [moveExpr, moveLit]) st
      | if_ =>
        simp only [parsePrimary, mvP, List.map_cons, moveTok, moveKind]
        refine mv_bind (mv_cond he hb (by simp) ⟨ts, es⟩) fun q st => ?_
        exact mv_bind (mv_expect (by intro ps h; cases h) (by exact trivial) st) fun _ st => by exact mv_done (by rw [moveExpr]) st
      | _ => exact .err (.unexpected ⟨_, pos⟩ _) _ ⟨_ :: ts, es⟩ trivial
    | openParens =>
      simp only [parsePrimary, mvP, List.map_cons, moveTok, moveKind]
      refine mv_bind (mv_sync expr_ill (he ⟨ts, es⟩)) fun e st => ?_
      exact mv_bind (mv_expect (by intro ps h; cases h) (by intro ps h; cases h) st) fun _ st => by exact .ok e st
    | command => exact hcmd
    | asyncCommand => exact hcmd
    | captureCommand => exact hcmd
    | _ => exact .err (.unexpected ⟨_, pos⟩ _) _ ⟨_ :: ts, es⟩ trivial

theorem mv_postfix : Par f (moveExpr f) (parsePostfix pe pb) := fun st => by
  unfold parsePostfix
  exact mv_bind (mv_primary hi he hb st) fun e st => mv_postfixLoop he (by simp [mvP]) e st

theorem mv_prefix : ∀ n, Par f (moveExpr f) (parsePrefix pe pb n)
  | 0 => fun _ => .timeout
  | n + 1 => by
    rintro ⟨ts, es⟩
    cases ts with
    | nil => exact mv_postfix hi he hb _
    | cons t ts =>
      obtain ⟨k, pos⟩ := t
      cases k with
      | operator op =>
        simp only [parsePrefix, mvP, List.map_cons, moveTok, moveKind]
        split
        · refine mv_bind (mv_prefix n ⟨ts, es⟩) fun e st => ?_
          cases op.toUnary with
          | none => exact .crash
          | some op => exact mv_done (by rw [moveExpr]) st
        · exact mv_postfix hi he hb ⟨⟨.operator op, pos⟩ :: ts, es⟩
      | _ => exact mv_postfix hi he hb ⟨_ :: ts, es⟩

theorem mv_exprWith : Par f (moveExpr f) (exprWith pe pb) := fun st => by
  unfold exprWith
  exact mv_levelAt (mv_prefix hi he hb _) (by simp [mvP]) 7 st

theorem mv_stmtWith : Par f (moveStmt f) (stmtWith pe pb) := by
  rintro ⟨ts, es⟩
  have hident : moveIdent f illIdent = illIdent := by simp [illIdent, moveIdent, hi]
  have hexpr : ∀ st, Mv f (moveStmt f)
      ((pe st).bind fun e st =>
        match st.toks with
        | ⟨.operator .assign, pos⟩ :: ts => (pe { st with toks := ts }).bind fun r st => by exact .ok (.assign e r pos) st
        | _ => .ok (.expr e) st)
      ((pe (mvP f st)).bind fun e st =>
        match st.toks with
        | ⟨.operator .assign, pos⟩ :: ts => (pe { st with toks := ts }).bind fun r st => by exact .ok (.assign e r pos) st
        | _ => .ok (.expr e) st) := by
    intro st
    refine mv_bind (he st) fun e st => ?_
    obtain ⟨ts, es⟩ := st
    cases ts with
    | nil => exact mv_done (by rw [moveStmt]) ⟨[], es⟩
    | cons t ts =>
      obtain ⟨k, pos⟩ := t
      cases k with
      | operator o =>
        cases o with
        | assign => exact mv_bind (he ⟨ts, es⟩) fun r st => by exact mv_done (by rw [moveStmt]) st
        | _ => exact mv_done (by rw [moveStmt]) ⟨_ :: ts, es⟩
      | _ => exact mv_done (by rw [moveStmt]) ⟨_ :: ts, es⟩
  cases ts with
  | nil => exact .err _ _ _ trivial
  | cons t ts =>
    obtain ⟨k, pos⟩ := t
    cases k with
    | keyword k =>
      cases k with
      | let_ =>
        refine mv_bind (mv_sync hident (mv_identifier ⟨ts, es⟩)) fun x st => ?_
        obtain ⟨ts, es⟩ := st
        cases ts with
        | nil => exact mv_done (by rw [moveStmt, moveExpr, moveLit]) ⟨[], es⟩
        | cons t ts =>
          obtain ⟨k, pos⟩ := t
          cases k with
          | operator o =>
            cases o with
            | assign => exact mv_bind (he ⟨ts, es⟩) fun r st => by exact mv_done (by rw [moveStmt]) st
            | _ => exact mv_done (by rw [moveStmt, moveExpr, moveLit]) ⟨_ :: ts, es⟩
          | _ => exact mv_done (by rw [moveStmt, moveExpr, moveLit]) ⟨_ :: ts, es⟩
      | function =>
        cases ts with
        | nil => exact hexpr ⟨[⟨.keyword .function, pos⟩], es⟩
        | cons t ts =>
          obtain ⟨k, idPos⟩ := t
          cases k with
          | identifier x => exact mv_bind (mv_function hi hb ⟨ts, es⟩) fun q st => by exact mv_done (by rw [moveStmt, moveExpr, moveLit]) st
          | _ => exact hexpr ⟨⟨.keyword .function, pos⟩ :: _ :: ts, es⟩
      | return_ =>
        have hh : (ts.map (moveTok f)).head?.any (fun t => t.kind.isBlockTerminator) = ts.head?.any (fun t => t.kind.isBlockTerminator) := by
          cases ts with
          | nil => rfl
          | cons t ts => exact kind_blockTerminator t.kind
        rw [stmtWith, stmtWith]
        simp only [mvP, List.map_cons, moveTok, moveKind] at hh ⊢
        rw [hh]
        split
        · exact mv_done (by rw [moveStmt, moveExpr, moveLit]) ⟨ts, es⟩
        · exact mv_bind (he ⟨ts, es⟩) fun e st => by exact mv_done (by rw [moveStmt]) st
      | break_ => exact mv_done (by rw [moveStmt]) ⟨ts, es⟩
      | while_ =>
        refine mv_bind (mv_sync expr_ill (he ⟨ts, es⟩)) fun cond st => ?_
        refine mv_bind (mv_sync rfl (mv_expect (by intro ps h; cases h) (by exact trivial) st)) fun _ st => ?_
        refine mv_bind (hb st) fun body st => ?_
        exact mv_bind (mv_expect (by intro ps h; cases h) (by exact trivial) st) fun _ st => by exact mv_done (by rw [moveStmt]) st
      | for_ =>
        refine mv_bind (mv_sync hident (mv_identifier ⟨ts, es⟩)) fun x st => ?_
        refine mv_bind (mv_sync rfl (mv_expect (by intro ps h; cases h) (by exact trivial) st)) fun _ st => ?_
        refine mv_bind (mv_sync expr_ill (he st)) fun e st => ?_
        refine mv_bind (mv_sync rfl (mv_expect (by intro ps h; cases h) (by exact trivial) st)) fun _ st => ?_
        refine mv_bind (hb st) fun body st => ?_
        exact mv_bind (mv_expect (by intro ps h; cases h) (by exact trivial) st) fun _ st => by exact mv_done (by rw [moveStmt]) st
      | _ => exact hexpr ⟨⟨.keyword _, pos⟩ :: ts, es⟩
    | _ => exact hexpr ⟨⟨_, pos⟩ :: ts, es⟩

omit hi he hb in
theorem isReturn_move (s : Ast.Stmt) : isReturn (moveStmt f s) = isReturn s := by cases s <;> rw [moveStmt] <;> rfl

omit hi he hb in
theorem mv_blockLoop {ps : PState → Res Ast.Stmt} (hp : Par f (moveStmt f) ps) : ∀ {n n'} (_ : n' = n) (st), Mv f (moveBlock f) (blockLoop ps n st) (blockLoop ps n' (mvP f st))
  | 0, _, rfl, _ => .timeout
  | n + 1, _, rfl, ⟨ts, es⟩ => by
    cases ts with
    | nil => exact mv_done (by rw [moveBlock]) ⟨[], es⟩
    | cons t ts =>
      simp only [blockLoop, mvP, List.map_cons]
      rw [show (moveTok f t).kind.isBlockTerminator = t.kind.isBlockTerminator from kind_blockTerminator t.kind]
      split
      · exact mv_done (by rw [moveBlock]) ⟨t :: ts, es⟩
      · refine mv_bind (mv_sync (by rw [moveStmt]) (mv_forceSkip (hp ⟨t :: ts, es⟩))) fun s st => ?_
        rw [isReturn_move]
        split
        · exact mv_done (by simp [moveBlock]) st
        · exact mv_bind (mv_blockLoop hp rfl st) fun b st => by exact mv_done (by rw [moveBlock]) st

theorem mv_blockWith : Par f (moveBlock f) (blockWith pe pb) := fun st => by
  unfold blockWith
  exact mv_blockLoop (mv_stmtWith hi he hb) (by simp [mvP]) st

end

theorem mv_both (hi : f Ast.illPos = Ast.illPos) : ∀ n, Par f (moveExpr f) (parseBoth n).1 ∧ Par f (moveBlock f) (parseBoth n).2
  | 0 => ⟨fun _ => .timeout, fun _ => .timeout⟩
  | n + 1 => ⟨mv_exprWith hi (mv_both hi n).1 (mv_both hi n).2, mv_blockWith hi (mv_both hi n).1 (mv_both hi n).2⟩

theorem mv_parseLoop {pb : PState → Res Ast.Block} (hb : Par f (moveBlock f) pb) : ∀ n, Par f (moveBlock f) (parseLoop pb n)
  | 0 => fun _ => .timeout
  | n + 1 => fun st => by
    simp only [parseLoop]
    refine mv_bind (hb st) fun block st => ?_
    obtain ⟨ts, es⟩ := st
    cases ts with
    | nil => exact .ok block ⟨[], es⟩
    | cons t ts =>
      simp only [mvP, List.map_cons]
      rw [show (moveTok f t).kind.isBlockTerminator = t.kind.isBlockTerminator from kind_blockTerminator t.kind]
      split
      · exact mv_parseLoop hb n ⟨[], .unexpected t (.msg "statement") :: es⟩
      · exact mv_parseLoop hb n ⟨t :: ts, es⟩

theorem mv_parse (hi : f Ast.illPos = Ast.illPos) (ts : List Token) : Mv f (moveBlock f) (parse ts) (parse (ts.map (moveTok f))) := by
  unfold parse
  rw [show parseBudget (ts.map (moveTok f)) = parseBudget ts by simp [parseBudget], List.length_map]
  exact mv_parseLoop (mv_both hi _).2 _ ⟨ts, []⟩

end Hush

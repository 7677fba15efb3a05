import Verif.Lemmas.Places
import Verif.Lemmas.LexPlaces
import Verif.Model.Frontend

/-!
The positions in the syntax tree of any text, also with errors, are those of tokens, or the one that stands for a missing
identifier. Parse errors mention tokens of the text.
-/

namespace Hush
open Spec Ast

/-- What the parser says that it expected: a token, or one of these. -/
def Expected.Fixed : Expected → Prop
  | .token _ => True
  | .msg s => s ∈ ["identifier", "argument", "output redirection", "command block", "end, else or elseif", "expression", "statement"]

section
variable (toks : List Token) (Q : Pos → Prop) (I : PState → Prop) (E : ParseError → PState → Prop)

/-- What the parser does with its state: it drops tokens, and reports errors at the first of the tokens left (or at their end). `I` is kept in all states, and `E` holds
of the errors when they are found. -/
structure Walk : Prop where
  /-- Positions are fine. -/
  ill : Q illPos
  fine : ∀ t ∈ toks, ∀ p ∈ tokenMarks t, Q p
  mem : ∀ {st}, I st → ∀ t ∈ st.toks, t ∈ toks
  drop : ∀ {st ts}, I st → ts <:+ st.toks → I { st with toks := ts }
  eof : ∀ {st}, I st → st.toks = [] → E .unexpectedEof st
  unexpected : ∀ {st t ts x}, I st → st.toks = t :: ts → (hx : x.Fixed := by first | trivial | simp [Expected.Fixed]) → E (.unexpected t x) st
  lost : ∀ {st t ts x}, I st → st.toks = t :: ts → (hx : x.Fixed := by first | trivial | simp [Expected.Fixed]) → E (.unexpected t x) { st with toks := [] }
  empty : ∀ {st t ts}, I st → st.toks = t :: ts → t.kind = .closeCommand → E (.emptyCommandBlock t.pos) st
  report : ∀ {st e}, E e st → I ⟨st.toks, e :: st.errors⟩

def Yields (R : α → Prop) : Res α → Prop
  | .ok a st => R a ∧ I st
  | .err e _ st => E e st
  | _ => True

def ParsesTo (R : α → Prop) (p : PState → Res α) : Prop := ∀ st, I st → Yields I E R (p st)
end

variable {toks : List Token} {Q : Pos → Prop} {I : PState → Prop} {E : ParseError → PState → Prop} {α β : Type} {R : α → Prop} {S : β → Prop}

theorem yields_bind {r : Res α} {f : α → PState → Res β} (h : Yields I E R r) (hf : ∀ a, R a → ∀ st, I st → Yields I E S (f a st)) :
    Yields I E S (r.bind f) := by
  cases r with
  | ok a st => exact hf a h.1 st h.2
  | err e s st => exact h
  | crash => trivial
  | timeout => trivial

theorem skip_suffix {s : Strategy} {ts : List Token} : s.skip ts <:+ ts := by
  cases s with
  | keep => exact List.suffix_refl _
  | skipOne => exact List.tail_suffix ts
  | token k => exact skipPast_suffix _ _
  | keyword k => exact skipPast_suffix _ _
  | blockTerminator => exact skipPast_suffix _ _
  | commandTerminator => exact skipPast_suffix _ _

theorem yields_sync (hQ : Walk toks Q I E) {r : Res α} {ill : α} (h : Yields I E R r) (hi : R ill) : Yields I E R (r.sync ill) := by
  cases r with
  | err e s st => exact ⟨hi, hQ.drop (hQ.report h) skip_suffix⟩
  | _ => exact h

theorem yields_forceSkip {r : Res α} (h : Yields I E R r) : Yields I E R r.forceSkip := by
  cases r with
  | err e s st => cases s <;> exact h
  | _ => exact h

theorem yields_withSync {s} {r : Res α} (h : Yields I E R r) : Yields I E R (r.withSync s) := by
  cases r with
  | err e s st => exact h
  | _ => exact h

theorem yields_mono {R' : α → Prop} {r : Res α} (h : Yields I E R r) (hR : ∀ a, R a → R' a) : Yields I E R' r := by
  cases r with
  | ok a st => exact ⟨hR a h.1, h.2⟩
  | _ => exact h

theorem stIn_step (hQ : Walk toks Q I E) {st : PState} {t ts} (h : I st) (hs : st.toks = t :: ts) : I { st with toks := ts } :=
  hQ.drop h (by rw [hs]; exact List.suffix_cons ..)
theorem stIn_head (hQ : Walk toks Q I E) {st : PState} {t ts} (h : I st) (hs : st.toks = t :: ts) : t ∈ toks := hQ.mem h t (by rw [hs]; exact List.mem_cons_self ..)

theorem parses_expect (hQ : Walk toks Q I E) {k s} : ParsesTo I E (fun _ => True) (expect k s) := by
  intro st h
  unfold expect
  split
  · rename_i t ts hs
    split
    · exact ⟨trivial, stIn_step hQ h hs⟩
    · exact hQ.unexpected h hs
  · exact hQ.eof h (by assumption)

theorem fine_pos (hQ : Walk toks Q I E) {t} (h : t ∈ toks) : Q t.pos := hQ.fine t h _ (List.mem_cons_self ..)

theorem parses_ident (hQ : Walk toks Q I E) : ParsesTo I E (fun q : Sym × Pos => Q q.2) parseIdentifier := by
  intro st h
  unfold parseIdentifier
  split
  · rename_i x p ts hs
    exact ⟨fine_pos hQ (stIn_head hQ h hs), stIn_step hQ h hs⟩
  · rename_i t ts _ hs
    exact hQ.unexpected h hs
  · exact hQ.eof h (by assumption)

theorem parses_sepBy (hQ : Walk toks Q I E) {p : PState → Res α} {ill sep fin} (hp : ParsesTo I E R p) (hi : R ill) : ∀ n,
    ParsesTo I E (fun as => ∀ a ∈ as, R a) (sepBy p ill sep fin n)
  | 0, _, _ => trivial
  | n + 1, st, h => by
    unfold sepBy
    split
    · exact ⟨nofun, h⟩
    refine yields_bind (yields_sync hQ (hp st h) hi) fun a ha st h => ?_
    split
    · rename_i t ts hs
      split
      · exact yields_bind (parses_sepBy hQ hp hi n _ (stIn_step hQ h hs)) fun as has st h => ⟨List.forall_mem_cons.2 ⟨ha, has⟩, h⟩
      · exact ⟨fun b hb => by rw [List.mem_singleton.1 hb]; exact ha, h⟩
    · exact ⟨fun b hb => by rw [List.mem_singleton.1 hb]; exact ha, h⟩

/-! ### Commands -/

theorem inUnit_of {u : ArgUnit} (h : ∀ p ∈ unitMarks u, Q p) : InUnit Q u := by
  cases u with
  | literal s => trivial
  | dollar x p => exact h p (List.mem_singleton.2 rfl)

theorem inParts_push {lit : Bytes} {ps : List Ast.ArgPart} (h : ∀ q ∈ ps, InAstPart Q q) : ∀ q ∈ pushLit lit ps, InAstPart Q q := by
  unfold pushLit
  split
  · exact h
  · exact List.forall_mem_cons.2 ⟨trivial, h⟩

theorem inParts_units {next : Bytes → List Ast.ArgPart} (hn : ∀ l, ∀ q ∈ next l, InAstPart Q q) : ∀ {us : List ArgUnit} {lit},
    (∀ u ∈ us, InUnit Q u) → ∀ q ∈ buildUnits next us lit, InAstPart Q q
  | [], lit, _ => hn lit
  | .literal s :: us, lit, h => by
    unfold buildUnits
    exact inParts_units hn (List.forall_mem_cons.1 h).2
  | .dollar x p :: us, lit, h => by
    obtain ⟨h1, h2⟩ := List.forall_mem_cons.1 h
    unfold buildUnits
    exact inParts_push (List.forall_mem_cons.2 ⟨h1, inParts_units hn h2⟩)

theorem inUnits_of {us : List ArgUnit} (h : ∀ p ∈ us.flatMap unitMarks, Q p) : ∀ u ∈ us, InUnit Q u :=
  fun u hu => inUnit_of fun p hp => h p (List.mem_flatMap.2 ⟨u, hu, hp⟩)

theorem inParts_build : ∀ {ps : List ArgPart} {lit}, (∀ q ∈ ps, ∀ p ∈ partMarks q, Q p) → ∀ q ∈ buildParts ps lit, InAstPart Q q
  | [], lit, _ => by
    unfold buildParts
    split
    · exact nofun
    · exact List.forall_mem_cons.2 ⟨trivial, nofun⟩
  | .singleQuoted s :: ps, lit, h => by
    unfold buildParts; exact inParts_build (List.forall_mem_cons.1 h).2
  | .doubleQuoted us :: ps, lit, h => by
    obtain ⟨h1, h2⟩ := List.forall_mem_cons.1 h
    unfold buildParts
    exact inParts_units (fun l => inParts_build h2) (inUnits_of h1)
  | .unquoted (.literal s) :: ps, lit, h => by
    unfold buildParts; exact inParts_build (List.forall_mem_cons.1 h).2
  | .unquoted (.dollar x p) :: ps, lit, h => by
    obtain ⟨h1, h2⟩ := List.forall_mem_cons.1 h
    unfold buildParts
    exact inParts_push (List.forall_mem_cons.2 ⟨inUnit_of (u := .dollar x p) h1, inParts_build h2⟩)
  | .expansion e :: ps, lit, h => by
    obtain ⟨h1, h2⟩ := List.forall_mem_cons.1 h
    unfold buildParts
    refine inParts_push (List.forall_mem_cons.2 ⟨?_, inParts_build h2⟩)
    cases e with
    | collection us => exact inUnits_of h1
    | _ => trivial
  | .envAssign :: ps, lit, h => by
    unfold buildParts; exact inParts_build (List.forall_mem_cons.1 h).2

theorem fine_arg (hQ : Walk toks Q I E) {ps p} (h : (⟨.argument ps, p⟩ : Token) ∈ toks) : Q p ∧ ∀ q ∈ ps, ∀ p ∈ partMarks q, Q p :=
  ⟨fine_pos hQ h, fun q hq p hp => hQ.fine _ h p (List.mem_cons_of_mem _ (List.mem_flatMap.2 ⟨q, hq, hp⟩))⟩

theorem inArg_build (hQ : Walk toks Q I E) {ps p} (h : (⟨.argument ps, p⟩ : Token) ∈ toks) : InAstArg Q (buildArg ps p) :=
  ⟨(fine_arg hQ h).1, inParts_build (fine_arg hQ h).2⟩

theorem parses_argument (hQ : Walk toks Q I E) {s} : ParsesTo I E (InAstArg Q) (parseArgument s) := by
  intro st h
  unfold parseArgument
  split
  · rename_i ps p ts hs
    exact ⟨inArg_build hQ (stIn_head hQ h hs), stIn_step hQ h hs⟩
  · rename_i t ts _ hs
    exact hQ.unexpected h hs
  · exact hQ.eof h (by assumption)

theorem env_rest : ∀ {ts : List Token}, (parseEnv ts).2 <:+ ts := by
  intro ts
  fun_induction parseEnv ts with
  | case1 k ps p ts ih => exact ih.trans (List.suffix_cons ..)
  | case2 ts _ => exact List.suffix_refl _

theorem env_in (hQ : Walk toks Q I E) : ∀ {ts : List Token}, (∀ t ∈ ts, t ∈ toks) → ∀ e ∈ (parseEnv ts).1, InUnit Q e.1 ∧ InAstArg Q e.2 := by
  intro ts
  fun_induction parseEnv ts with
  | case1 k ps p ts ih =>
    intro h
    obtain ⟨h1, h2⟩ := List.forall_mem_cons.1 h
    obtain ⟨h3, h4⟩ := fine_arg hQ h1
    obtain ⟨h5, h6⟩ := List.forall_mem_cons.1 h4
    exact List.forall_mem_cons.2 ⟨⟨inUnit_of h5, h3, inParts_build (List.forall_mem_cons.1 h6).2⟩, ih h2⟩
  | case2 ts _ => exact fun _ => nofun

theorem args_rest : ∀ {ts : List Token}, (parseArgs ts).2 <:+ ts := by
  intro ts
  fun_induction parseArgs ts with
  | case1 => exact List.suffix_refl _
  | case2 ps p ts _ => exact List.suffix_refl _
  | case3 ps p ts _ ih => exact ih.trans (List.suffix_cons ..)
  | case4 t ts _ => exact List.suffix_refl _

theorem args_in (hQ : Walk toks Q I E) : ∀ {ts : List Token}, (∀ t ∈ ts, t ∈ toks) → ∀ a ∈ (parseArgs ts).1, InAstArg Q a := by
  intro ts
  fun_induction parseArgs ts with
  | case1 => exact fun _ => nofun
  | case2 ps p ts _ => exact fun _ => nofun
  | case3 ps p ts _ ih =>
    intro h
    obtain ⟨h1, h2⟩ := List.forall_mem_cons.1 h
    exact List.forall_mem_cons.2 ⟨inArg_build hQ h1, ih h2⟩
  | case4 t ts _ => exact fun _ => nofun

theorem fd_in (hQ : Walk toks Q I E) {st : PState} {n st'} (h : I st) (hf : parseFd st = some (n, st')) : I st' := by
  unfold parseFd at hf
  split at hf
  · rename_i hs
    split at hf
    · injection hf with hf; injection hf with _ hf; subst hf
      exact stIn_step hQ h hs
    · cases hf
  · cases hf

theorem parses_output (hQ : Walk toks Q I E) {n} : ParsesTo I E (InAstRedir Q) (parseOutput n) := by
  intro st h
  unfold parseOutput
  split
  · rename_i ap _ ts hs
    dsimp only
    split
    · exact yields_bind (parses_argument hQ _ (stIn_step hQ h hs)) fun a ha st h => ⟨ha, h⟩
    · split
      · rename_i hf
        exact ⟨trivial, fd_in hQ (stIn_step hQ h hs) hf⟩
      · exact yields_bind (parses_argument hQ _ (stIn_step hQ h hs)) fun a ha st h => ⟨ha, h⟩
  · rename_i t ts _ hs
    exact hQ.unexpected h hs
  · exact hQ.eof h (by assumption)

theorem parses_redirection (hQ : Walk toks Q I E) : ParsesTo I E (InAstRedir Q) parseRedirection := by
  intro st h
  unfold parseRedirection
  split
  · rename_i hs
    exact yields_bind (parses_argument hQ _ (stIn_step hQ h hs)) fun a ha st h => ⟨ha, h⟩
  · split
    · rename_i hf
      exact parses_output hQ _ (fd_in hQ h hf)
    · exact parses_output hQ _ h
  · exact hQ.eof h (by assumption)

theorem parses_operators (hQ : Walk toks Q I E) : ∀ n, ParsesTo I E (fun q : List Ast.Redirection × Bool => ∀ r ∈ q.1, InAstRedir Q r) (parseOperators n)
  | 0, _, _ => trivial
  | n + 1, st, h => by
    unfold parseOperators
    split
    · exact hQ.eof h (by assumption)
    · rename_i t ts hs
      split
      · exact ⟨nofun, h⟩
      split
      · exact ⟨nofun, stIn_step hQ h hs⟩
      exact yields_bind (yields_sync hQ (parses_redirection hQ st h) trivial) fun r hr st h =>
        yields_bind (parses_operators hQ n st h) fun q hq st h => ⟨List.forall_mem_cons.2 ⟨hr, hq⟩, h⟩

theorem parses_basic (hQ : Walk toks Q I E) : ParsesTo I E (InAstBasic Q) parseBasic := by
  intro st h
  unfold parseBasic
  have h1 := env_in hQ (hQ.mem h)
  have h2 := hQ.drop h (env_rest (ts := st.toks))
  revert h1 h2
  generalize parseEnv st.toks = r
  obtain ⟨env, ts⟩ := r
  intro h1 h2
  refine yields_bind (parses_argument hQ _ h2) fun a ha st h => ?_
  have h3 := args_in hQ (hQ.mem h)
  have h4 := hQ.drop h (args_rest (ts := st.toks))
  revert h3 h4
  generalize parseArgs st.toks = r
  obtain ⟨args, ts⟩ := r
  intro h3 h4
  exact yields_bind (parses_operators hQ _ _ h4) fun q hq st h => ⟨⟨ha.1, ha, h1, h3, hq⟩, h⟩

theorem ill_arg (hQ : Walk toks Q I E) : InAstArg Q .illFormed := ⟨hQ.ill, nofun⟩
theorem ill_basic (hQ : Walk toks Q I E) : InAstBasic Q .illFormed := ⟨hQ.ill, ill_arg hQ, nofun, nofun, nofun⟩
theorem ill_command (hQ : Walk toks Q I E) : InAstCommand Q .illFormed := ⟨ill_basic hQ, nofun⟩
theorem ill_block (hQ : Walk toks Q I E) : InAstBlock Q .illFormed := ⟨ill_command hQ, nofun⟩

theorem parses_pipes (hQ : Walk toks Q I E) : ∀ n, ParsesTo I E (fun cs => ∀ c ∈ cs, InAstBasic Q c) (parsePipes n)
  | 0, _, _ => trivial
  | n + 1, st, h => by
    unfold parsePipes
    split
    · rename_i hs
      exact yields_bind (yields_sync hQ (parses_basic hQ _ (stIn_step hQ h hs)) (ill_basic hQ)) fun c hc st h =>
        yields_bind (parses_pipes hQ n st h) fun cs hcs st h => ⟨List.forall_mem_cons.2 ⟨hc, hcs⟩, h⟩
    · exact ⟨nofun, h⟩

theorem parses_command (hQ : Walk toks Q I E) : ParsesTo I E (InAstCommand Q) parseCommand := by
  intro st h
  unfold parseCommand
  exact yields_bind (yields_sync hQ (parses_basic hQ _ h) (ill_basic hQ)) fun c hc st h =>
    yields_bind (parses_pipes hQ _ st h) fun cs hcs st h => ⟨⟨hc, hcs⟩, h⟩

theorem parses_commandBlock (hQ : Walk toks Q I E) : ParsesTo I E (InAstBlock Q) parseCommandBlock := by
  intro st h
  unfold parseCommandBlock
  split
  · exact hQ.eof h (by assumption)
  · rename_i t ts hs
    have h' := stIn_step hQ h hs
    split
    · exact hQ.unexpected h hs
    · dsimp only
      split
      · exact hQ.empty (st := { st with toks := _ }) h' rfl rfl
      · refine yields_bind (parses_command hQ _ h') fun c hc st h => ?_
        refine yields_bind (R := fun cs => ∀ c ∈ cs, InAstCommand Q c) ?_ fun cs hcs st h =>
          yields_bind (parses_expect hQ st h) fun _ _ st h => ⟨⟨hc, hcs⟩, h⟩
        split
        · rename_i hs
          exact parses_sepBy hQ (parses_command hQ) (ill_command hQ) _ _ (stIn_step hQ h hs)
        · exact ⟨nofun, h⟩

/-! ### Expressions -/

theorem inExprs_of : ∀ {es : List Expr}, (∀ e ∈ es, InAstExpr Q e) → InAstExprs Q es
  | [], _ => by unfold InAstExprs; trivial
  | e :: es, h => by
    obtain ⟨h1, h2⟩ := List.forall_mem_cons.1 h
    unfold InAstExprs
    exact ⟨h1, inExprs_of h2⟩

theorem inItems_of : ∀ {is : List ((Sym × Pos) × Expr)}, (∀ i ∈ is, Q i.1.2 ∧ InAstExpr Q i.2) → InAstItems Q is
  | [], _ => by unfold InAstItems; trivial
  | ((x, p), e) :: is, h => by
    obtain ⟨h1, h2⟩ := List.forall_mem_cons.1 h
    unfold InAstItems
    exact ⟨h1.1, h1.2, inItems_of h2⟩

variable {pe : PState → Res Expr} {pb : PState → Res Block}

theorem ill_expr : InAstExpr Q .illFormed := by unfold InAstExpr; trivial

theorem parses_binLoop (hQ : Walk toks Q I E) {p check} (hp : ParsesTo I E (InAstExpr Q) p) : ∀ n {e}, InAstExpr Q e →
    ParsesTo I E (InAstExpr Q) (binLoop p check n e)
  | 0, _, _, _, _ => trivial
  | n + 1, e, he, st, h => by
    unfold binLoop
    split
    · rename_i hs
      split
      · refine yields_bind (hp _ (stIn_step hQ h hs)) fun r hr st' h' => ?_
        split
        · refine parses_binLoop hQ hp n ?_ st' h'
          unfold InAstExpr
          exact ⟨fine_pos hQ (stIn_head hQ h hs), he, hr⟩
        · trivial
      · exact ⟨he, h⟩
    · exact ⟨he, h⟩

theorem parses_level (hQ : Walk toks Q I E) {pre} (hp : ParsesTo I E (InAstExpr Q) pre) : ∀ k, ParsesTo I E (InAstExpr Q) (parseLevel pre k)
  | 0 => hp
  | k + 1 => by
    intro st h
    simp only [parseLevel, parseBinop]
    exact yields_bind (parses_level hQ hp k st h) fun e he st h => parses_binLoop hQ (parses_level hQ hp k) _ he st h

theorem parses_postfixLoop (hQ : Walk toks Q I E) (hp : ParsesTo I E (InAstExpr Q) pe) : ∀ n {e}, InAstExpr Q e →
    ParsesTo I E (InAstExpr Q) (postfixLoop pe n e)
  | 0, _, _, _, _ => trivial
  | n + 1, e, he, st, h => by
    unfold postfixLoop
    split
    · rename_i pos ts hs
      have hq := fine_pos hQ (stIn_head hQ h hs)
      refine yields_bind (parses_sepBy hQ hp ill_expr _ _ (stIn_step hQ h hs)) fun as has st h => ?_
      refine yields_bind (parses_expect hQ st h) fun _ _ st h => parses_postfixLoop hQ hp n ?_ st h
      unfold InAstExpr
      exact ⟨hq, he, inExprs_of has⟩
    · rename_i pos ts hs
      have hq := fine_pos hQ (stIn_head hQ h hs)
      refine yields_bind (yields_sync hQ (hp _ (stIn_step hQ h hs)) ill_expr) fun f hf st h => ?_
      refine yields_bind (parses_expect hQ st h) fun _ _ st h => parses_postfixLoop hQ hp n ?_ st h
      unfold InAstExpr
      exact ⟨hq, he, hf⟩
    · rename_i pos ts hs
      have hq := fine_pos hQ (stIn_head hQ h hs)
      refine yields_bind (parses_ident hQ _ (stIn_step hQ h hs)) fun x hx st h => ?_
      refine parses_postfixLoop hQ hp n ?_ st h
      have hl : InAstExpr Q (.lit (.ident x.1) x.2) := by
        unfold InAstExpr InAstLit
        exact ⟨hx, trivial⟩
      unfold InAstExpr
      exact ⟨hq, he, hl⟩
    · rename_i pos ts hs
      have hq := fine_pos hQ (stIn_head hQ h hs)
      refine parses_postfixLoop hQ hp n ?_ _ (stIn_step hQ h hs)
      unfold InAstExpr
      exact ⟨hq, he⟩
    · exact ⟨he, h⟩

theorem parses_function (hQ : Walk toks Q I E) (hb : ParsesTo I E (InAstStmts Q) pb) :
    ParsesTo I E (fun q : List (Sym × Pos) × Block => (∀ x ∈ q.1, Q x.2) ∧ InAstStmts Q q.2) (parseFunction pb) := by
  intro st h
  unfold parseFunction
  exact yields_bind (yields_sync hQ (parses_expect hQ st h) trivial) fun _ _ st h =>
    yields_bind (parses_sepBy hQ (parses_ident hQ) hQ.ill _ st h) fun ps hps st h =>
    yields_bind (yields_sync hQ (parses_expect hQ st h) trivial) fun _ _ st h =>
    yields_bind (hb st h) fun b hb st h =>
    yields_bind (parses_expect hQ st h) fun _ _ st h => ⟨⟨hps, hb⟩, h⟩

theorem in_noStmts : InAstStmts Q [] := by unfold InAstStmts; trivial
theorem in_consStmts {s ss} (h : InAstStmt Q s) (hs : InAstStmts Q ss) : InAstStmts Q (s :: ss) := by unfold InAstStmts; exact ⟨h, hs⟩

theorem parses_cond (hQ : Walk toks Q I E) (hp : ParsesTo I E (InAstExpr Q) pe) (hb : ParsesTo I E (InAstStmts Q) pb) : ∀ n,
    ParsesTo I E (fun q : Expr × Block × Block => InAstExpr Q q.1 ∧ InAstStmts Q q.2.1 ∧ InAstStmts Q q.2.2) (parseCond pe pb n)
  | 0, _, _ => trivial
  | n + 1, st, h => by
    unfold parseCond
    refine yields_bind (yields_sync hQ (hp st h) ill_expr) fun c hc st h => ?_
    refine yields_bind (yields_sync hQ (parses_expect hQ st h) trivial) fun _ _ st h => ?_
    refine yields_bind (hb st h) fun t ht st h => ?_
    split
    · exact ⟨⟨hc, ht, in_noStmts⟩, h⟩
    · rename_i hs
      have hq := fine_pos hQ (stIn_head hQ h hs)
      refine yields_bind (parses_cond hQ hp hb n _ (stIn_step hQ h hs)) fun q hq' st h => ⟨⟨hc, ht, in_consStmts ?_ in_noStmts⟩, h⟩
      unfold InAstStmt InAstExpr
      exact ⟨hq, hq'⟩
    · rename_i hs
      exact yields_bind (hb _ (stIn_step hQ h hs)) fun e he st h => ⟨⟨hc, ht, he⟩, h⟩
    · rename_i hs
      exact hQ.lost h hs
    · exact hQ.eof h (by assumption)

theorem parses_item (hQ : Walk toks Q I E) (hp : ParsesTo I E (InAstExpr Q) pe) :
    ParsesTo I E (fun i : (Sym × Pos) × Expr => Q i.1.2 ∧ InAstExpr Q i.2) (parseItem pe) := by
  intro st h
  unfold parseItem
  exact yields_bind (yields_sync hQ (yields_withSync (parses_ident hQ st h)) hQ.ill) fun k hk st h =>
    yields_bind (yields_sync hQ (parses_expect hQ st h) trivial) fun _ _ st h =>
    yields_bind (hp st h) fun v hv st h => ⟨⟨hk, hv⟩, h⟩

theorem parses_primary (hQ : Walk toks Q I E) (hp : ParsesTo I E (InAstExpr Q) pe) (hb : ParsesTo I E (InAstStmts Q) pb) :
    ParsesTo I E (InAstExpr Q) (parsePrimary pe pb) := by
  intro st h
  unfold parsePrimary
  split
  · exact hQ.eof h (by assumption)
  · rename_i k pos ts hs
    have hq := fine_pos hQ (stIn_head hQ h hs)
    have h' := stIn_step hQ h hs
    have hc : Yields I E (InAstExpr Q) (((parseCommandBlock st).sync .illFormed).bind fun b st => .ok (.command b pos) st) :=
      yields_bind (yields_sync hQ (parses_commandBlock hQ st h) (ill_block hQ)) fun b hb st h =>
        ⟨by unfold InAstExpr; exact ⟨hq, hb⟩, h⟩
    simp only
    split
    · exact ⟨by unfold InAstExpr; exact hq, h'⟩
    · exact ⟨by unfold InAstExpr; exact hq, h'⟩
    · rename_i l
      refine ⟨?_, h'⟩
      unfold InAstExpr
      refine ⟨hq, ?_⟩
      cases l <;> (simp only [Lit.ofTok]; unfold InAstLit; trivial)
    · refine yields_bind (parses_sepBy hQ hp ill_expr _ _ h') fun es hes st h => yields_bind (parses_expect hQ st h) fun _ _ st h => ⟨?_, h⟩
      unfold InAstExpr InAstLit
      exact ⟨hq, inExprs_of hes⟩
    · refine yields_bind (parses_sepBy hQ (parses_item hQ hp) ⟨hQ.ill, ill_expr⟩ _ _ h') fun is his st h =>
        yields_bind (parses_expect hQ st h) fun _ _ st h => ⟨?_, h⟩
      unfold InAstExpr InAstLit
      exact ⟨hq, inItems_of his⟩
    · refine yields_bind (parses_function hQ hb _ h') fun q hq' st h => ⟨?_, h⟩
      unfold InAstExpr InAstLit
      exact ⟨hq, hq'⟩
    · exact hc
    · exact hc
    · exact hc
    · refine yields_bind (parses_cond hQ hp hb _ _ h') fun q hq' st h => yields_bind (parses_expect hQ st h) fun _ _ st h => ⟨?_, h⟩
      unfold InAstExpr
      exact ⟨hq, hq'⟩
    · exact yields_bind (yields_sync hQ (hp _ h') ill_expr) fun e he st h => yields_bind (parses_expect hQ st h) fun _ _ st h => ⟨he, h⟩
    · exact hQ.unexpected h hs

theorem parses_postfix (hQ : Walk toks Q I E) (hp : ParsesTo I E (InAstExpr Q) pe) (hb : ParsesTo I E (InAstStmts Q) pb) :
    ParsesTo I E (InAstExpr Q) (parsePostfix pe pb) := fun st h =>
  yields_bind (parses_primary hQ hp hb st h) fun _ he st h => parses_postfixLoop hQ hp _ he st h

theorem parses_prefix (hQ : Walk toks Q I E) (hp : ParsesTo I E (InAstExpr Q) pe) (hb : ParsesTo I E (InAstStmts Q) pb) : ∀ n,
    ParsesTo I E (InAstExpr Q) (parsePrefix pe pb n)
  | 0, _, _ => trivial
  | n + 1, st, h => by
    unfold parsePrefix
    split
    · rename_i hs
      split
      · have hq := fine_pos hQ (stIn_head hQ h hs)
        refine yields_bind (parses_prefix hQ hp hb n _ (stIn_step hQ h hs)) fun e he st h => ?_
        split
        · exact ⟨by unfold InAstExpr; exact ⟨hq, he⟩, h⟩
        · trivial
      · exact parses_postfix hQ hp hb st h
    · exact parses_postfix hQ hp hb st h

/-! ### Statements -/

theorem parses_stmt (hQ : Walk toks Q I E) (hp : ParsesTo I E (InAstExpr Q) pe) (hb : ParsesTo I E (InAstStmts Q) pb) :
    ParsesTo I E (InAstStmt Q) (stmtWith pe pb) := by
  intro st h
  unfold stmtWith
  split
  · exact hQ.eof h (by assumption)
  · rename_i hs
    refine yields_bind (yields_sync hQ (parses_ident hQ _ (stIn_step hQ h hs)) hQ.ill) fun x hx st h => ?_
    dsimp only
    split
    · rename_i hs
      refine yields_bind (hp _ (stIn_step hQ h hs)) fun e he st h => ⟨?_, h⟩
      unfold InAstStmt
      exact ⟨hx, he⟩
    · refine ⟨?_, h⟩
      unfold InAstStmt InAstExpr InAstLit
      exact ⟨hx, hx, trivial⟩
  · rename_i pos x idPos ts hs
    have hq := fine_pos hQ (stIn_head hQ h hs)
    have h' := stIn_step hQ h hs
    have hq' := fine_pos hQ (stIn_head hQ (st := { st with toks := _ }) h' rfl)
    refine yields_bind (parses_function hQ hb _ (stIn_step hQ (st := { st with toks := ⟨.identifier x, idPos⟩ :: ts }) h' rfl)) fun q hf st h => ⟨?_, h⟩
    unfold InAstStmt InAstExpr InAstLit
    exact ⟨hq', hq, hf⟩
  · rename_i hs
    have hq := fine_pos hQ (stIn_head hQ h hs)
    split
    · refine ⟨?_, stIn_step hQ h hs⟩
      unfold InAstStmt InAstExpr InAstLit
      exact ⟨hq, hq, trivial⟩
    · refine yields_bind (hp _ (stIn_step hQ h hs)) fun e he st h => ⟨?_, h⟩
      unfold InAstStmt
      exact ⟨hq, he⟩
  · rename_i hs
    refine ⟨?_, stIn_step hQ h hs⟩
    unfold InAstStmt
    exact fine_pos hQ (stIn_head hQ h hs)
  · rename_i hs
    have hq := fine_pos hQ (stIn_head hQ h hs)
    refine yields_bind (yields_sync hQ (hp _ (stIn_step hQ h hs)) ill_expr) fun c hc st h => ?_
    refine yields_bind (yields_sync hQ (parses_expect hQ st h) trivial) fun _ _ st h => ?_
    refine yields_bind (hb st h) fun b hb' st h => yields_bind (parses_expect hQ st h) fun _ _ st h => ⟨?_, h⟩
    unfold InAstStmt
    exact ⟨hq, hc, hb'⟩
  · rename_i hs
    refine yields_bind (yields_sync hQ (parses_ident hQ _ (stIn_step hQ h hs)) hQ.ill) fun x hx st h => ?_
    refine yields_bind (yields_sync hQ (parses_expect hQ st h) trivial) fun _ _ st h => ?_
    refine yields_bind (yields_sync hQ (hp _ h) ill_expr) fun c hc st h => ?_
    refine yields_bind (yields_sync hQ (parses_expect hQ st h) trivial) fun _ _ st h => ?_
    refine yields_bind (hb st h) fun b hb' st h => yields_bind (parses_expect hQ st h) fun _ _ st h => ⟨?_, h⟩
    unfold InAstStmt
    exact ⟨hx, hc, hb'⟩
  · refine yields_bind (hp st h) fun e he st h => ?_
    split
    · rename_i hs
      have hq := fine_pos hQ (stIn_head hQ h hs)
      refine yields_bind (hp _ (stIn_step hQ h hs)) fun r hr st h => ⟨?_, h⟩
      unfold InAstStmt
      exact ⟨hq, he, hr⟩
    · exact ⟨by unfold InAstStmt; exact he, h⟩

theorem parses_blockLoop (hQ : Walk toks Q I E) {ps : PState → Res Stmt} (hps : ParsesTo I E (InAstStmt Q) ps) : ∀ n, ParsesTo I E (InAstStmts Q) (blockLoop ps n)
  | 0, _, _ => trivial
  | n + 1, st, h => by
    unfold blockLoop
    split
    · exact ⟨in_noStmts, h⟩
    · split
      · exact ⟨in_noStmts, h⟩
      refine yields_bind (yields_sync hQ (yields_forceSkip (hps st h)) (by unfold InAstStmt; trivial)) fun s hs st h => ?_
      split
      · exact ⟨in_consStmts hs in_noStmts, h⟩
      · exact yields_bind (parses_blockLoop hQ hps n st h) fun b hb st h => ⟨in_consStmts hs hb, h⟩

theorem parses_both (hQ : Walk toks Q I E) : ∀ n, ParsesTo I E (InAstExpr Q) (parseBoth n).1 ∧ ParsesTo I E (InAstStmts Q) (parseBoth n).2
  | 0 => ⟨fun _ _ => trivial, fun _ _ => trivial⟩
  | n + 1 => by
    obtain ⟨h1, h2⟩ := parses_both hQ n
    exact ⟨fun st h => parses_level hQ (parses_prefix hQ h1 h2 _) 7 st h, fun st h => parses_blockLoop hQ (parses_stmt hQ h1 h2) _ st h⟩

theorem parses_loop (hQ : Walk toks Q I E) (hp : ParsesTo I E (InAstStmts Q) pb) : ∀ n, ParsesTo I E (InAstStmts Q) (parseLoop pb n)
  | 0, _, _ => trivial
  | n + 1, st, h => by
    unfold parseLoop
    refine yields_bind (hp st h) fun b hb st h => ?_
    split
    · exact ⟨hb, h⟩
    · rename_i hs
      split
      · exact parses_loop hQ hp n _ (hQ.report (hQ.lost h hs))
      · exact parses_loop hQ hp n st h

/-- The tree and the errors of the parser for any list of tokens. -/
theorem parse_walk (hQ : Walk toks Q I E) (hI : I ⟨toks, []⟩) : Yields I E (InAstStmts Q) (parse toks) :=
  parses_loop hQ (parses_both hQ _).2 _ _ hI

/-! ### Tokens mentioned in errors -/

variable (toks) in
/-- The error mentions a token of the text. -/
def ErrorAt : ParseError → Prop
  | .unexpectedEof => True
  | .unexpected t _ => t ∈ toks
  | .emptyCommandBlock p => ∃ t ∈ toks, p = t.pos

variable (toks) in
def StIn (st : PState) : Prop := (∀ t ∈ st.toks, t ∈ toks) ∧ ∀ e ∈ st.errors, ErrorAt toks e

theorem parse_places (hi : Q illPos) (hf : ∀ t ∈ toks, ∀ p ∈ tokenMarks t, Q p) :
    Yields (StIn toks) (fun e st => ErrorAt toks e ∧ StIn toks st) (InAstStmts Q) (parse toks) := by
  have hm : ∀ {st : PState} {t ts}, StIn toks st → st.toks = t :: ts → t ∈ toks := fun h hs => h.1 _ (by rw [hs]; exact List.mem_cons_self ..)
  refine parse_walk ⟨hi, hf, fun h => h.1, fun h hs => ⟨fun t ht => h.1 t (hs.subset ht), h.2⟩, fun h _ => ⟨trivial, h⟩, fun h hs _ => ⟨hm h hs, h⟩,
    fun h hs _ => ⟨hm h hs, nofun, h.2⟩, fun h hs _ => ⟨⟨_, hm h hs, rfl⟩, h⟩, fun h => ⟨h.2.1, List.forall_mem_cons.2 ⟨h.1, h.2.2⟩⟩⟩ ⟨fun _ h => h, nofun⟩

variable {src : Bytes}

theorem syntax_places {a : SyntaxAnalysis} (h : syntaxAnalysis src = some a) :
    InAstStmts (fun p => Mark src p ∨ p = illPos) a.ast ∧
      (∀ e ∈ a.lexErrors, InText src e.pos) ∧
      ∀ e ∈ a.parseErrors, ∃ outs, lex src = .done outs ∧ ErrorAt (outs.filterMap okToken) e := by
  unfold syntaxAnalysis at h
  split at h
  · rename_i outs hl
    have hm : ∀ t ∈ outs.filterMap okToken, .ok t ∈ outs := by
      intro t ht
      obtain ⟨o, ho, h1⟩ := List.mem_filterMap.1 ht
      cases o with
      | ok u => injection h1 with h1; exact h1 ▸ ho
      | error e => cases h1
    have hp := parse_places (toks := outs.filterMap okToken) (Q := fun p => Mark src p ∨ p = illPos)
      (.inr rfl) (fun t ht p hp => .inl ⟨outs, t, hl, hm t ht, hp⟩)
    split at h
    · rename_i b st hb
      injection h with h
      subst h
      rw [hb] at hp
      refine ⟨hp.1, fun e he => ?_, fun e he => ⟨outs, hl, hp.2.2 e (List.mem_reverse.1 he)⟩⟩
      obtain ⟨o, ho, h1⟩ := List.mem_filterMap.1 he
      cases o with
      | ok u => cases h1
      | error e' =>
        injection h1 with h1
        subst h1
        exact lex_in src _ (by rw [hl]; exact ho)
    · cases h
  · cases h

end Hush

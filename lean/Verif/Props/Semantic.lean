import Verif.Lemmas.AnalyzeMain
import Verif.Lemmas.ParseWritten

/-!
Properties C12–C14: static analysis. The rules are those of `Verif/Spec/Static.lean`, on syntax trees as written in
source text (`WrittenRule`); `source_is_written` shows that the syntax tree of every source text without syntax errors is
of this kind.
-/

namespace Hush.Props
open Hush Hush.Spec
open Hush.Ast (Expr Lit Stmt Block)

/-- The analyser accepts the program. -/
def Accepted (b : Block) : Prop := ∃ p, analyze b = .ok p

/-- The analyser rejects the program and the error is among those reported. -/
def Reports (b : Block) (e : SemError) : Prop := ∃ es, analyze b = .errors es ∧ e ∈ es

theorem accepted_sound {b : Block} (hw : Throughout WrittenRule b) (h : Accepted b) : Throughout SoundRule b := by
  obtain ⟨p, hp⟩ := h
  rcases analyze_spec b hw with ⟨-, h⟩ | ⟨es, h, -⟩
  · exact h
  · rw [hp] at h; cases h

theorem reports_justified {b : Block} (hw : Throughout WrittenRule b) {e : SemError} (h : Reports b e) :
    ∃ c n, Occurs .root (.block b) c n ∧ Violates c n e.pos e.kind.meaning := by
  obtain ⟨es, h, he⟩ := h
  rcases analyze_spec b hw with ⟨⟨p, hp⟩, -⟩ | ⟨es', h', -, hj⟩
  · rw [hp] at h; cases h
  · rw [h'] at h; cases h; exact hj e he

/-- The analyser never hits one of its internal `expect`s, and either accepts or reports at least one error. -/
theorem analysis_total (b : Block) : analyze b ≠ .crash := analyze_no_crash b

theorem rejected_has_error (b : Block) (hw : Throughout WrittenRule b) : Accepted b ∨ ∃ e, Reports b e := by
  rcases analyze_spec b hw with ⟨⟨p, hp⟩, -⟩ | ⟨es, h, hne, -⟩
  · exact Or.inl ⟨p, hp⟩
  · cases es with
    | nil => exact absurd rfl hne
    | cons e es => exact Or.inr ⟨e, _, h, by simp⟩

/-- The syntax tree of every source text that is free of syntax errors satisfies the hypothesis of the theorems below. -/
theorem source_is_written (src : Bytes) (a : SyntaxAnalysis) (h : syntaxAnalysis src = some a) (hok : a.isOk = true) :
    Throughout WrittenRule a.ast := source_written h hok

/-! ### C12 -/

/-- C12: in an accepted program every `break` is in a loop of its own function and every `return`, `self` and `?` is in a
function. -/
theorem control_flow_placed (b : Block) (hw : Throughout WrittenRule b) (h : Accepted b) : Throughout PlacementRule b :=
  fun c n ho => (accepted_sound hw h c n ho).1

/-- The kinds of error about placement. -/
def isPlacement : SemErrorKind → Bool
  | .returnOutsideFunction | .selfOutsideFunction | .tryOutsideFunction | .breakOutsideLoop => true
  | _ => false

/-- C12 (converse): each report about placement points at a node that is misplaced. -/
theorem placement_reports (b : Block) (hw : Throughout WrittenRule b) (e : SemError) (h : Reports b e) :
    (e.kind = .breakOutsideLoop → ∃ c, Occurs .root (.block b) c (.stmt (.break_ e.pos)) ∧ c.inLoop = false) ∧
    (e.kind = .returnOutsideFunction →
      ∃ c v, Occurs .root (.block b) c (.stmt (.return_ v e.pos)) ∧ c.inFn = false) ∧
    (e.kind = .selfOutsideFunction → ∃ c, Occurs .root (.block b) c (.expr (.self_ e.pos)) ∧ c.inFn = false) ∧
    (e.kind = .tryOutsideFunction →
      ∃ c v, Occurs .root (.block b) c (.expr (.unary .try_ v e.pos)) ∧ c.inFn = false) := by
  obtain ⟨c, n, ho, hv⟩ := reports_justified hw h
  refine ⟨?_, ?_, ?_, ?_⟩ <;> intro hk <;> rw [hk] at hv <;> simp only [SemErrorKind.meaning, Violates] at hv
  · obtain ⟨rfl, hv⟩ := hv; exact ⟨c, ho, hv⟩
  · obtain ⟨v, rfl, hv⟩ := hv; exact ⟨c, v, ho, hv⟩
  · obtain ⟨rfl, hv⟩ := hv; exact ⟨c, ho, hv⟩
  · obtain ⟨v, rfl, hv⟩ := hv; exact ⟨c, v, ho, hv⟩

/-- C12 (converse): a program whose control flow is placed properly gets no report about placement. -/
theorem proper_placement_not_reported (b : Block) (hw : Throughout WrittenRule b) (hp : Throughout PlacementRule b)
    (e : SemError) (h : Reports b e) : isPlacement e.kind = false := by
  obtain ⟨h1, h2, h3, h4⟩ := placement_reports b hw e h
  cases hk : e.kind <;> simp only [isPlacement]
  · obtain ⟨c, v, ho, hf⟩ := h2 hk; have := hp _ _ ho; simp [PlacementRule, hf] at this
  · obtain ⟨c, ho, hf⟩ := h3 hk; have := hp _ _ ho; simp [PlacementRule, hf] at this
  · obtain ⟨c, v, ho, hf⟩ := h4 hk; have := hp _ _ ho; simp [PlacementRule, hf] at this
  · obtain ⟨c, ho, hf⟩ := h1 hk; have := hp _ _ ho; simp [PlacementRule, hf] at this

section Examples
def q (n : Nat) : Pos := ⟨1, n⟩
def nx : Sym := [120]
def ny : Sym := [121]

theorem written_nil (c : Ctx) : Everywhere WrittenRule c (.block []) := by
  refine everywhere_intro trivial ?_
  intro c' n' hc; cases hc

/-- `let x = function () while true do break end return self end` -/
def placedProgram : Block :=
  [.let_ nx (.lit (.function [] [.while_ (.lit (.bool true) (q 1)) [.break_ (q 2)] (q 3), .return_ (.self_ (q 4)) (q 5)]) (q 6))
    (q 7)]

theorem placedProgram_written : Throughout WrittenRule placedProgram := by
  have hx : UserName nx := ⟨by decide, by decide⟩
  refine everywhere_intro trivial (fun c n h => ?_); cases h
  · refine everywhere_intro hx (fun c n h => ?_); cases h
    refine everywhere_intro (by simp [WrittenRule]) (fun c n h => ?_); cases h
    refine everywhere_intro trivial (fun c n h => ?_); cases h
    · refine everywhere_intro trivial (fun c n h => ?_); cases h
      · refine everywhere_intro trivial (fun c n h => ?_); cases h
      · refine everywhere_intro trivial (fun c n h => ?_); cases h
        · refine everywhere_intro trivial (fun c n h => ?_); cases h
        · exact written_nil _
    · refine everywhere_intro trivial (fun c n h => ?_); cases h
      · refine everywhere_intro trivial (fun c n h => ?_); cases h
        refine everywhere_intro trivial (fun c n h => ?_); cases h
      · exact written_nil _
  · exact written_nil _

-- The hypotheses of the theorems hold of an accepted program with every kind of control flow,
example : Throughout WrittenRule placedProgram ∧ Accepted placedProgram := ⟨placedProgram_written, _, rfl⟩
-- and misplaced control flow is reported: a `break` of an outer loop inside a function.
example : Reports [.while_ (.lit (.bool true) (q 1)) [.expr (.lit (.function [] [.break_ (q 2)]) (q 3))] (q 4)]
    ⟨.breakOutsideLoop, q 2⟩ := ⟨_, rfl, .head _⟩
end Examples

/-! ### C13 -/

/-- `{ x=$y cd }` -/
def unseenProgram : Block :=
  [.expr (.command ⟨.synchronous,
    ⟨⟨⟨[.unit (.literal [99, 100])], q 7⟩, [(.literal nx, ⟨[.unit (.dollar ny (q 4))], q 2⟩)], [], [], true, q 7⟩, []⟩,
    []⟩ (q 0))]

/-- It is the syntax tree of that text. -/
theorem unseen_source : syntaxAnalysis (bs "{ x=$y cd }") = some ⟨unseenProgram, [], []⟩ := by
  have hl : lex (bs "{ x=$y cd }") = .done
      [.ok ⟨.command, q 0⟩, .ok ⟨.argument [.unquoted (.literal [120]), .envAssign, .unquoted (.dollar [121] (q 4))], q 2⟩,
       .ok ⟨.argument [.unquoted (.literal [99, 100])], q 7⟩, .ok ⟨.closeCommand, q 10⟩] := by rfl
  have hb : Basic ⟨⟨[.unit (.literal [99, 100])], q 7⟩, [(.literal nx, ⟨[.unit (.dollar ny (q 4))], q 2⟩)], [], [], true, q 7⟩
      ([⟨.argument [.unquoted (.literal [120]), .envAssign, .unquoted (.dollar [121] (q 4))], q 2⟩] ++
        (⟨.argument [.unquoted (.literal [99, 100])], q 7⟩ :: ([] ++ ([] ++ [])))) :=
    .mk (.cons (ts' := []) (EnvTok.mk (k := .literal [120]) (ps := [.unquoted (.dollar [121] (q 4))])) .nil) (.mk (ps := [.unquoted (.literal [99, 100])])) rfl .nil .nil (fun h => absurd rfl h) rfl
      (Or.inl ⟨rfl, rfl⟩)
  have hd : Derives (.primary _) _ := .command (.one (kind := .synchronous) (p := q 0) (p' := q 10) (.mk hb .nil))
  have hp : IsProgram unseenProgram _ :=
    ⟨_, .blockLast (.exprStmt (.up (.up (.up (.up (.up (.up (.up (.noPrefix (.noPostfix hd)))))))))), rfl⟩
  have := parse_complete hp
  unfold syntaxAnalysis
  rw [hl]
  simp only [List.filterMap, okToken]
  simp only [List.cons_append, List.nil_append, openTok] at this
  rw [this]
  rfl

/-- C13 is violated: `{ x=$y cd }` is accepted although nothing declares `y`. -/
theorem undeclared_rejected_violated :
    syntaxAnalysis (bs "{ x=$y cd }") = some ⟨unseenProgram, [], []⟩ ∧ Accepted unseenProgram ∧ ¬ Throughout ScopeRule unseenProgram := by
  refine ⟨unseen_source, ⟨_, rfl⟩, ?_⟩
  · intro h
    have := h _ _ (.step (.first _ _ _) (.step (.stmtExpr _ _) (.here _ _)))
    simp only [ScopeRule] at this
    have := this ny (by simp [blockVars, basicVars, envVars, argVars, unitVars])
    obtain ⟨s, hs, hy⟩ := this
    simp only [Ctx.root, List.mem_singleton] at hs
    subst hs
    simp [ny] at hy

/-- C13 (partial): in an accepted program in which no builtin command has environment assignments, every use of a variable
is in the scope of a declaration of that name, and no scope declares a name twice. Missing: variables in the
environment assignments of builtin commands, which are not checked (`undeclared_rejected_violated`). -/
theorem undeclared_rejected_partial (b : Block) (hw : Throughout WrittenRule b) (hb : Throughout NoBuiltinEnvRule b)
    (h : Accepted b) : Throughout ScopeRule b :=
  fun c n ho => (accepted_sound hw h c n ho).2.1 (hb c n ho)

/-- C13 (converse): each report of an undeclared variable names a variable used outside the scope of any declaration of
that name, and each report of a duplicate points at a redeclaration in the same scope. -/
theorem scope_reports (b : Block) (hw : Throughout WrittenRule b) (e : SemError) (h : Reports b e) (x : Sym) :
    (e.kind = .undeclaredVariable x → ∃ c n, Occurs .root (.block b) c n ∧ ¬ c.Declares x ∧
      (n = .expr (.ident x e.pos) ∨ ∃ cb p, n = .expr (.command cb p) ∧ x ∈ blockVars cb)) ∧
    (e.kind = .duplicateVariable x → ∃ c n, Occurs .root (.block b) c n ∧
      ((∃ v, n = .stmt (.let_ x v e.pos) ∧ c.DeclaresHere x) ∨
       (∃ ps body p, n = .expr (.lit (.function ps body) p) ∧ (x, e.pos) ∈ ps ∧ ¬ (ps.map (·.1)).Nodup))) := by
  obtain ⟨c, n, ho, hv⟩ := reports_justified hw h
  constructor <;> intro hk <;> rw [hk] at hv <;> simp only [SemErrorKind.meaning, Violates] at hv
  · exact ⟨c, n, ho, hv.1, hv.2⟩
  · exact ⟨c, n, ho, hv⟩

-- `let x = 1; x = x` is accepted; with `y` undeclared, or `x` twice, it is not.
example : Accepted [.let_ nx (.lit (.int 1) (q 0)) (q 1), .assign (.ident nx (q 2)) (.ident nx (q 3)) (q 4)] := ⟨_, rfl⟩
example : Reports [.let_ nx (.lit (.int 1) (q 0)) (q 1), .assign (.ident nx (q 2)) (.ident ny (q 3)) (q 4)]
    ⟨.undeclaredVariable ny, q 3⟩ := ⟨_, rfl, .head _⟩
example : Reports [.let_ nx (.lit (.int 1) (q 0)) (q 1), .let_ nx (.lit (.int 1) (q 2)) (q 3)]
    ⟨.duplicateVariable nx, q 3⟩ := ⟨_, rfl, .head _⟩
-- A sibling block's variable is not in scope.
example : Reports [.expr (.if_ (.lit (.bool true) (q 0)) [.let_ nx (.lit .nil (q 1)) (q 2)] [] (q 3)), .expr (.ident nx (q 4))]
    ⟨.undeclaredVariable nx, q 4⟩ := ⟨_, rfl, .head _⟩

/-! ### C14 -/

/-- `@[ x: @[ y: 1 ], x: 2 ]` -/
def maskedDuplicate : Block :=
  [.expr (.lit (.dict [((nx, q 1), .lit (.dict [((ny, q 2), .lit (.int 1) (q 3))]) (q 4)), ((nx, q 5), .lit (.int 2) (q 6))]) (q 7))]

/-- `@[ x: @[ y: 1 ], y: 2 ]` -/
def falseDuplicate : Block :=
  [.expr (.lit (.dict [((nx, q 1), .lit (.dict [((ny, q 2), .lit (.int 1) (q 3))]) (q 4)), ((ny, q 5), .lit (.int 2) (q 6))]) (q 7))]

/-- C14 is violated both ways by nested dict literals: `@[ x: @[ y: 1 ], x: 2 ]` has a duplicate key and is accepted,
`@[ x: @[ y: 1 ], y: 2 ]` has none and is rejected as if it had. -/
theorem duplicate_keys_violated :
    (Accepted maskedDuplicate ∧ ¬ Throughout KeysRule maskedDuplicate) ∧
    (Reports falseDuplicate ⟨.duplicateKey ny, q 5⟩ ∧ Throughout KeysRule falseDuplicate) := by
  refine ⟨⟨⟨_, rfl⟩, ?_⟩, ⟨_, rfl, .head _⟩, ?_⟩
  · intro h
    have := h _ _ (.step (.first _ _ _) (.step (.stmtExpr _ _) (.here _ _)))
    simp [KeysRule] at this
  · refine everywhere_intro trivial (fun c n h => ?_); cases h
    · refine everywhere_intro trivial (fun c n h => ?_); cases h
      refine everywhere_intro (by simp [KeysRule, nx, ny]) (fun c n h => ?_)
      cases h with
      | value k e _ _ hm =>
        simp only [List.mem_cons, Prod.mk.injEq, List.not_mem_nil, or_false] at hm
        rcases hm with ⟨-, rfl⟩ | ⟨-, rfl⟩
        · refine everywhere_intro (by simp [KeysRule]) (fun c n h => ?_)
          cases h with
          | value k e _ _ hm =>
            simp only [List.mem_singleton, Prod.mk.injEq] at hm
            obtain ⟨-, rfl⟩ := hm
            exact everywhere_intro trivial (fun c n h => by cases h)
        · exact everywhere_intro trivial (fun c n h => by cases h)
    · exact everywhere_intro trivial (fun c n h => by cases h)

/-- C14 (partial): in an accepted program, a dict literal whose values contain no other dict literal has distinct keys.
Missing: literals with nested dict literals (`duplicate_keys_violated`). -/
theorem duplicate_keys_rejected_partial (b : Block) (hw : Throughout WrittenRule b) (h : Accepted b) (c : Ctx) (n : Node)
    (ho : Occurs .root (.block b) c n) (hf : FlatDictRule c n) : KeysRule c n :=
  (accepted_sound hw h c n ho).2.2.2.2 hf

/-- C14 (partial, converse): a program in which no dict literal contains another gets a report of a duplicate key only if
some literal has one. Missing: as above. -/
theorem duplicate_keys_reports_partial (b : Block) (hw : Throughout WrittenRule b) (hf : Throughout FlatDictRule b)
    (x : Sym) (p : Pos) (h : Reports b ⟨.duplicateKey x, p⟩) :
    ∃ c n, Occurs .root (.block b) c n ∧ ¬ KeysRule c n := by
  obtain ⟨c, n, ho, hv⟩ := reports_justified hw h
  simp only [SemErrorKind.meaning, Violates] at hv
  obtain ⟨items, p, rfl, hv⟩ := hv
  exact ⟨c, _, ho, fun hk => hv ⟨hk, hf _ _ ho⟩⟩

/-- All the rules together decide acceptance: a program as written in source, without nested dict literals and without
environment assignments on builtins, is accepted exactly when control flow is placed properly, variables are
declared, keys are distinct, only l-values are assigned, and builtins are used alone. -/
theorem accepted_iff_rules (b : Block) (hw : Throughout WrittenRule b) (hf : Throughout FlatDictRule b)
    (hb : Throughout NoBuiltinEnvRule b) :
    Accepted b ↔ Throughout (fun c n => PlacementRule c n ∧ ScopeRule c n ∧ LvalueRule c n ∧ BuiltinRule c n ∧ KeysRule c n) b := by
  constructor
  · intro h c n ho
    obtain ⟨h1, h2, h3, h4, h5⟩ := accepted_sound hw h c n ho
    exact ⟨h1, h2 (hb c n ho), h3, h4, h5 (hf c n ho)⟩
  · intro hr
    rcases rejected_has_error b hw with h | ⟨e, he⟩
    · exact h
    · exfalso
      obtain ⟨c, n, ho, hv⟩ := reports_justified hw he
      obtain ⟨h1, h2, h3, h4, h5⟩ := hr c n ho
      cases hk : e.kind <;> rw [hk] at hv <;> simp only [SemErrorKind.meaning, Violates] at hv
      · obtain ⟨hd, rfl | ⟨cb, p, rfl, hx⟩⟩ := hv
        · exact hd h2
        · exact hd (h2 _ hx)
      · rcases hv with ⟨v, rfl, hd⟩ | ⟨ps, body, p, rfl, -, hn⟩
        · exact h2 hd
        · exact hn h2
      · obtain ⟨items, p, rfl, hn⟩ := hv; exact hn ⟨h5, hf _ _ ho⟩
      · obtain ⟨v, rfl, hn⟩ := hv; simp [PlacementRule, hn] at h1
      · obtain ⟨rfl, hn⟩ := hv; simp [PlacementRule, hn] at h1
      · obtain ⟨v, rfl, hn⟩ := hv; simp [PlacementRule, hn] at h1
      · obtain ⟨rfl, hn⟩ := hv; simp [PlacementRule, hn] at h1
      · obtain ⟨l, r, rfl, hn⟩ := hv; exact hn h3
      · obtain ⟨cb, p, rfl, hn⟩ := hv; exact hn h4

/-- C12–C14 for source text: a source without syntax errors that is accepted by the analyser has its control flow placed
properly; its variables are declared and its dict literals have distinct keys, up to the two defects above. -/
theorem accepted_source (src : Bytes) (a : SyntaxAnalysis) (h : syntaxAnalysis src = some a) (hok : a.isOk = true)
    (hacc : Accepted a.ast) :
    Throughout PlacementRule a.ast ∧ Throughout LvalueRule a.ast ∧ Throughout BuiltinRule a.ast ∧
    (Throughout NoBuiltinEnvRule a.ast → Throughout ScopeRule a.ast) ∧
    (Throughout FlatDictRule a.ast → Throughout KeysRule a.ast) := by
  have hs := accepted_sound (source_written h hok) hacc
  exact ⟨fun c n ho => (hs c n ho).1, fun c n ho => (hs c n ho).2.2.1, fun c n ho => (hs c n ho).2.2.2.1,
    fun hb c n ho => (hs c n ho).2.1 (hb c n ho), fun hf c n ho => (hs c n ho).2.2.2.2 (hf c n ho)⟩

end Hush.Props

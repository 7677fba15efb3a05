import Verif.Model.Analyzer
import Verif.Spec.Static

/-!
Basic lemmas on the analyser: inversion of successful steps, balance of the scope stack, reported errors.
-/

namespace Hush

namespace A

@[simp] theorem ok_eq (a : α) (st : AState) : A.ok a st = (some a, st) := rfl
@[simp] theorem fail_eq (st : AState) : (A.fail : A α) st = (none, st) := rfl
theorem report_eq (k : SemErrorKind) (p : Pos) (st : AState) :
    (A.report k p : A α) st = (none, { st with errors := st.errors ++ [⟨k, p⟩] }) := rfl

theorem map_some {f : α → β} {a : A α} {st st' : AState} {y : β} :
    A.map f a st = (some y, st') ↔ ∃ x, a st = (some x, st') ∧ f x = y := by
  simp only [A.map]
  cases h : a st with
  | mk r s => cases r <;> simp <;> grind

theorem zip_some {a : A α} {b : A β} {st st' : AState} {y : α × β} :
    A.zip a b st = (some y, st') ↔ ∃ st₁, a st = (some y.1, st₁) ∧ b st₁ = (some y.2, st') := by
  simp only [A.zip]
  cases h : a st with
  | mk r s =>
    cases h' : b s with
    | mk r' s' =>
      cases r <;> cases r' <;> simp [h'] <;> grind

theorem andThen_some {a : A α} {f : α → A β} {st st' : AState} {y : β} :
    A.andThen a f st = (some y, st') ↔ ∃ x st₁, a st = (some x, st₁) ∧ f x st₁ = (some y, st') := by
  simp only [A.andThen]
  cases h : a st with
  | mk r s => cases r <;> simp <;> grind

@[simp] theorem fail_some {st st' : AState} {y : β} : ((A.fail : A β) st = (some y, st')) ↔ False := by
  simp

@[simp] theorem report_some {k p} {st st' : AState} {y : β} :
    ((A.report k p : A β) st = (some y, st')) ↔ False := by
  simp [A.report]

end A

theorem inBlock_some {a : A α} {st st' : AState} {y : α} :
    inBlock a st = (some y, st') ↔ ∃ st₁, a st.enterBlock = (some y, st₁) ∧ st' = st₁.exitBlock := by
  simp only [inBlock]
  cases h : a st.enterBlock with
  | mk r s => simp; grind

/-! ### Balance of the scope stack -/

/-- Number of scopes of each frame. -/
def shape (st : AState) : List Nat := st.frames.map (·.scopes.length)

/-- There is a current frame, and every frame has its root scope. -/
def Shaped (st : AState) : Prop := st.frames ≠ [] ∧ ∀ f ∈ st.frames, f.scopes ≠ []

theorem shaped_iff (st : AState) : Shaped st ↔ shape st ≠ [] ∧ ∀ n ∈ shape st, n ≠ 0 := by
  simp only [Shaped, shape]
  constructor
  · rintro ⟨h, h'⟩
    refine ⟨by simpa using h, ?_⟩
    intro n hn
    obtain ⟨f, hf, rfl⟩ := List.mem_map.mp hn
    have := h' f hf
    simpa using this
  · rintro ⟨h, h'⟩
    refine ⟨by simpa using h, ?_⟩
    intro f hf hnil
    exact h' f.scopes.length (List.mem_map.mpr ⟨f, hf, rfl⟩) (by simp [hnil])

/-- The step leaves the scope stack as deep as before and hits no `expect`. -/
def Tidy (a : A α) : Prop :=
  ∀ st, Shaped st → shape (a st).2 = shape st ∧ (a st).2.crashed = st.crashed

theorem Tidy.shaped {a : A α} (h : Tidy a) {st : AState} (hs : Shaped st) : Shaped (a st).2 := by
  rw [shaped_iff, (h st hs).1, ← shaped_iff]; exact hs

theorem tidy_ok (a : α) : Tidy (A.ok a) := fun _ _ => ⟨rfl, rfl⟩
theorem tidy_fail : Tidy (A.fail : A α) := fun _ _ => ⟨rfl, rfl⟩
theorem tidy_report (k p) : Tidy (A.report k p : A α) := fun _ _ => ⟨rfl, rfl⟩

theorem tidy_map {f : α → β} {a : A α} (h : Tidy a) : Tidy (A.map f a) := fun st hs => h st hs

theorem tidy_zip {a : A α} {b : A β} (ha : Tidy a) (hb : Tidy b) : Tidy (A.zip a b) := by
  intro st hs
  have h1 := ha st hs
  have h2 := hb (a st).2 (ha.shaped hs)
  have : (A.zip a b st).2 = (b (a st).2).2 := by
    simp only [A.zip]
    split <;> rfl
  rw [this]
  exact ⟨h2.1.trans h1.1, h2.2.trans h1.2⟩

theorem tidy_andThen {a : A α} {f : α → A β} (ha : Tidy a) (hf : ∀ x, Tidy (f x)) : Tidy (A.andThen a f) := by
  intro st hs
  have h1 := ha st hs
  simp only [A.andThen]
  split
  · rename_i x _
    have h2 := hf x (a st).2 (ha.shaped hs)
    exact ⟨h2.1.trans h1.1, h2.2.trans h1.2⟩
  · exact h1

theorem tidy_items {f : α → A β} (hf : ∀ x, Tidy (f x)) (xs : List α) : Tidy (analyzeItems f xs) := by
  induction xs with
  | nil => exact tidy_ok _
  | cons x xs ih => exact tidy_map (tidy_zip (hf x) ih)

theorem tidy_inBlock {a : A α} (ha : Tidy a) : Tidy (inBlock a) := by
  intro st hs
  obtain ⟨frames, keys, errs, cr⟩ := st
  cases frames with
  | nil => exact absurd rfl hs.1
  | cons f fs =>
    have h0 : Shaped (AState.enterBlock ⟨f :: fs, keys, errs, cr⟩) := by
      refine ⟨by simp [AState.enterBlock], ?_⟩
      intro g hg
      simp only [AState.enterBlock, List.mem_cons] at hg
      rcases hg with rfl | hg
      · simp
      · exact hs.2 g (by simp [hg])
    have h1 := ha _ h0
    simp only [inBlock]
    generalize (a (AState.enterBlock ⟨f :: fs, keys, errs, cr⟩)).2 = st1 at h1
    obtain ⟨fr1, k1, e1, c1⟩ := st1
    simp only [AState.enterBlock, shape, List.map_cons, List.length_cons] at h1
    obtain ⟨h1, hc⟩ := h1
    cases fr1 with
    | nil => simp at h1
    | cons g gs =>
      simp only [List.map_cons, List.cons.injEq] at h1
      simp only [AState.exitBlock]
      split
      · rename_i hnil; simp [hnil] at h1
      · rename_i s scopes hsc
        simp only [hsc, List.length_cons] at h1
        simp only [shape, List.map_cons, List.cons.injEq]
        exact ⟨⟨by omega, h1.2⟩, hc⟩

theorem tidy_declare (x p) : Tidy (declare x p) := by
  intro st hs
  obtain ⟨frames, keys, errs, cr⟩ := st
  cases frames with
  | nil => exact absurd rfl hs.1
  | cons f fs =>
    simp only [declare]
    split
    · rename_i h
      exact absurd h (hs.2 f (by simp))
    · rename_i s scopes h
      split
      · exact ⟨rfl, rfl⟩
      · simp [shape, h]

theorem insertRoot_length (x n) (ss : List Scope) : (insertRoot x n ss).length = ss.length := by
  induction ss with
  | nil => rfl
  | cons s ss ih => cases ss <;> simp_all [insertRoot]

theorem capture_scopes_length (f : Frame) (x p) : (f.capture x p).2.scopes.length = f.scopes.length := by
  simp only [Frame.capture]
  split
  · rfl
  · exact insertRoot_length _ _ _

theorem resolveFrames_shape {x fs slot fs'} (h : resolveFrames x fs = some (slot, fs')) :
    fs'.map (·.scopes.length) = fs.map (·.scopes.length) := by
  induction fs generalizing slot fs' with
  | nil => simp [resolveFrames] at h
  | cons f fs ih =>
    simp only [resolveFrames] at h
    split at h
    · simp only [Option.some.injEq, Prod.mk.injEq] at h
      rw [← h.2]
    · split at h
      · simp at h
      · rename_i parent rest' hr
        simp only [Option.some.injEq, Prod.mk.injEq] at h
        rw [← h.2]
        simp [ih hr, capture_scopes_length]

theorem tidy_resolve (x p) : Tidy (resolve x p) := by
  intro st hs
  simp only [resolve]
  split
  · exact ⟨rfl, rfl⟩
  · rename_i slot frames h
    exact ⟨resolveFrames_shape h, rfl⟩

theorem tidy_resolveIdent (x p) : Tidy (resolveIdent x p) := by
  unfold resolveIdent
  split
  · exact tidy_fail
  · exact tidy_resolve x p

theorem tidy_resolveSelf : Tidy resolveSelf := by
  intro st hs
  obtain ⟨frames, keys, errs, cr⟩ := st
  cases frames with
  | nil => exact absurd rfl hs.1
  | cons f fs =>
    simp only [resolveSelf]
    split <;> simp [shape]

theorem tidy_insertKey (x p) : Tidy (insertKey x p) := by
  intro st _
  simp only [insertKey]
  repeat' split
  all_goals exact ⟨rfl, rfl⟩

theorem tidy_declareParams (ps) : Tidy (declareParams ps) := by
  induction ps with
  | nil => exact tidy_ok _
  | cons p ps ih =>
    obtain ⟨x, pos⟩ := p
    refine tidy_map (tidy_zip ?_ ih)
    split
    · exact tidy_fail
    · exact tidy_declare x pos

theorem tidy_argUnit (u) : Tidy (analyzeArgUnit u) := by
  cases u with
  | literal => exact tidy_ok _
  | dollar x p => exact tidy_map (tidy_resolveIdent x p)

theorem tidy_argument (a) : Tidy (analyzeArgument a) := by
  unfold analyzeArgument
  split
  · exact tidy_fail
  · refine tidy_map (tidy_items ?_ _)
    intro part
    cases part with
    | unit u => exact tidy_map (tidy_argUnit u)
    | expansion e =>
      cases e <;> first | exact tidy_ok _ | exact tidy_map (tidy_items tidy_argUnit _)

theorem tidy_redirection (r) : Tidy (analyzeRedirection r) := by
  cases r with
  | illFormed => exact tidy_fail
  | output s t => cases t <;> first | exact tidy_ok _ | exact tidy_map (tidy_argument _)
  | input l a => exact tidy_map (tidy_argument _)

theorem tidy_basicCommand (c) : Tidy (analyzeBasicCommand c) := by
  unfold analyzeBasicCommand
  split
  · exact tidy_report _ _
  · exact tidy_map (tidy_zip (tidy_argument _) (tidy_zip
      (tidy_items (fun e => tidy_andThen (tidy_argUnit _) (fun _ => tidy_map (tidy_argument _))) _)
      (tidy_zip (tidy_items tidy_argument _) (tidy_items tidy_redirection _))))

theorem tidy_command (b c) : Tidy (analyzeCommand b c) := by
  unfold analyzeCommand
  split
  · split
    · exact tidy_report _ _
    · exact tidy_map (tidy_items tidy_argument _)
  · exact tidy_map (tidy_zip (tidy_basicCommand _) (tidy_items tidy_basicCommand _))

theorem tidy_commandBlock (b) : Tidy (analyzeCommandBlock b) :=
  tidy_map (tidy_zip (tidy_command _ _) (tidy_items (tidy_command _) _))

theorem enterFrame_shaped {st : AState} (h : Shaped st) : Shaped st.enterFrame := by
  refine ⟨by simp [AState.enterFrame], ?_⟩
  intro f hf
  simp only [AState.enterFrame, List.mem_cons] at hf
  rcases hf with rfl | hf
  · simp [Frame.new]
  · exact h.2 f hf

/-- Analysing a function body inside its own frame is balanced. -/
theorem tidy_frame {a : A α} (ha : Tidy a) (st : AState) (hs : Shaped st) :
    shape (a st.enterFrame).2.exitFrame.2 = shape st ∧
      (a st.enterFrame).2.exitFrame.2.crashed = st.crashed := by
  have h := ha _ (enterFrame_shaped hs)
  generalize (a st.enterFrame).2 = st1 at h
  obtain ⟨fr1, k1, e1, c1⟩ := st1
  simp only [AState.enterFrame, shape, List.map_cons, Frame.new, List.length_cons, List.length_nil] at h
  obtain ⟨h1, hc⟩ := h
  cases fr1 with
  | nil => simp at h1
  | cons g gs =>
    simp only [List.map_cons, List.cons.injEq] at h1
    simp only [AState.exitFrame, shape]
    exact ⟨h1.2, by simp [h1.1, hc]⟩

mutual

theorem tidy_expr (fl) : ∀ e, Tidy (analyzeExpr fl e)
  | .illFormed => by rw [analyzeExpr]; exact tidy_fail
  | .self_ pos => by
    rw [analyzeExpr]
    split
    · exact tidy_map tidy_resolveSelf
    · exact tidy_report _ _
  | .ident x pos => by rw [analyzeExpr]; exact tidy_map (tidy_resolveIdent x pos)
  | .lit l pos => by rw [analyzeExpr]; exact tidy_map (tidy_lit fl l)
  | .unary op e pos => by
    rw [analyzeExpr]
    refine tidy_andThen (tidy_expr fl e) ?_
    intro x
    split
    · exact tidy_report _ _
    · exact tidy_ok _
  | .binary l op r pos => by
    rw [analyzeExpr]; exact tidy_map (tidy_zip (tidy_expr fl l) (tidy_expr fl r))
  | .if_ c t e pos => by
    rw [analyzeExpr]
    exact tidy_map (tidy_zip (tidy_expr fl c)
      (tidy_zip (tidy_inBlock (tidy_block fl t)) (tidy_inBlock (tidy_block fl e))))
  | .access o f pos => by
    rw [analyzeExpr]; exact tidy_map (tidy_zip (tidy_expr fl o) (tidy_expr fl f))
  | .call f args pos => by
    rw [analyzeExpr]; exact tidy_map (tidy_zip (tidy_expr fl f) (tidy_exprs fl args))
  | .command b pos => by rw [analyzeExpr]; exact tidy_map (tidy_commandBlock b)

theorem tidy_exprs (fl) : ∀ es, Tidy (analyzeExprs fl es)
  | [] => by rw [analyzeExprs]; exact tidy_ok _
  | e :: es => by rw [analyzeExprs]; exact tidy_map (tidy_zip (tidy_expr fl e) (tidy_exprs fl es))

theorem tidy_lit (fl) : ∀ l, Tidy (analyzeLit fl l)
  | .nil | .bool _ | .int _ | .float _ | .byte _ | .string _ => by rw [analyzeLit]; exact tidy_ok _
  | .array es => by rw [analyzeLit]; exact tidy_map (tidy_exprs fl es)
  | .dict items => by
    intro st hs
    rw [analyzeLit]
    exact tidy_map (f := Prog.Lit.dict) (tidy_itemsDict fl items) { st with dictKeys := [] } hs
  | .function params body => by
    intro st hs
    have h := tidy_frame (tidy_zip (tidy_declareParams params) (tidy_block ⟨true, false⟩ body)) st hs
    have h2 : (A.zip (declareParams params) (analyzeBlock ⟨true, false⟩ body) st.enterFrame).2 =
        (analyzeBlock ⟨true, false⟩ body (declareParams params st.enterFrame).2).2 := by
      simp only [A.zip]
      split <;> rfl
    rw [h2] at h
    rw [analyzeLit]
    dsimp only
    split <;> exact h
  | .ident x => by
    rw [analyzeLit]
    split
    · exact tidy_fail
    · exact tidy_ok _

theorem tidy_itemsDict (fl) : ∀ items, Tidy (analyzeItemsDict fl items)
  | [] => by rw [analyzeItemsDict]; exact tidy_ok _
  | ((x, pos), e) :: items => by
    rw [analyzeItemsDict]
    exact tidy_map (tidy_zip (tidy_zip (tidy_insertKey x pos) (tidy_expr fl e)) (tidy_itemsDict fl items))

theorem tidy_lvalue (fl pos) : ∀ e, Tidy (analyzeLvalue fl pos e)
  | .ident x ipos => by
    rw [analyzeLvalue]
    split
    · exact tidy_report _ _
    · exact tidy_map (tidy_resolve _ _)
  | .access o f apos => by
    rw [analyzeLvalue]; exact tidy_map (tidy_zip (tidy_expr fl o) (tidy_expr fl f))
  | .illFormed | .self_ _ | .lit _ _ | .unary _ _ _ | .binary _ _ _ _ | .if_ _ _ _ _ | .call _ _ _
  | .command _ _ => by
    rw [analyzeLvalue] <;> first | exact tidy_report _ _ | (intros; simp_all)

theorem tidy_stmt (fl) : ∀ s, Tidy (analyzeStmt fl s)
  | .illFormed => by rw [analyzeStmt]; exact tidy_fail
  | .let_ x init pos => by
    rw [analyzeStmt]; exact tidy_map (tidy_zip (tidy_declare x pos) (tidy_expr fl init))
  | .assign l r pos => by
    rw [analyzeStmt]
    exact tidy_map (tidy_zip (tidy_lvalue fl pos l) (tidy_expr fl r))
  | .return_ e pos => by
    rw [analyzeStmt]
    refine tidy_map (tidy_zip ?_ (tidy_expr fl e))
    split
    · exact tidy_ok _
    · exact tidy_report _ _
  | .break_ pos => by
    rw [analyzeStmt]
    split
    · exact tidy_ok _
    · exact tidy_report _ _
  | .while_ c b pos => by
    rw [analyzeStmt]; exact tidy_map (tidy_zip (tidy_expr fl c) (tidy_inBlock (tidy_block _ b)))
  | .for_ x e b pos => by
    rw [analyzeStmt]
    refine tidy_map (tidy_zip (tidy_expr fl e) (tidy_inBlock (tidy_zip ?_ (tidy_block _ b))))
    split
    · exact tidy_fail
    · exact tidy_declare x pos
  | .expr e => by rw [analyzeStmt]; exact tidy_map (tidy_expr fl e)

theorem tidy_block (fl) : ∀ b, Tidy (analyzeBlock fl b)
  | [] => by rw [analyzeBlock]; exact tidy_ok _
  | s :: ss => by rw [analyzeBlock]; exact tidy_map (tidy_zip (tidy_stmt fl s) (tidy_block fl ss))

end

end Hush

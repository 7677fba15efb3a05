import Verif.Lemmas.AnalyzeStatic

/-!
The analyser against the static rules: the induction over the syntax tree.
-/

namespace Hush
open Ast (Expr Lit Stmt Block)
open Spec

/-- The context at the end of a block. -/
def endCtx (c : Ctx) : List Stmt → Ctx
  | [] => c
  | s :: ss => endCtx (c.after s) ss

theorem declare_flags (c : Ctx) (x) : (c.declare x).inFn = c.inFn ∧ (c.declare x).inLoop = c.inLoop := by
  simp only [Ctx.declare]; split <;> simp

theorem declare_tail (c : Ctx) (x) : (c.declare x).scopes.tail = c.scopes.tail := by
  simp only [Ctx.declare]; split <;> simp_all

theorem after_flags (c : Ctx) (s) : (c.after s).inFn = c.inFn ∧ (c.after s).inLoop = c.inLoop := by
  cases s <;> simp [Ctx.after, declare_flags]

theorem after_tail (c : Ctx) (s) : (c.after s).scopes.tail = c.scopes.tail := by
  cases s <;> simp [Ctx.after, declare_tail]

theorem endCtx_tail (b) : ∀ c : Ctx, (endCtx c b).scopes.tail = c.scopes.tail := by
  induction b with
  | nil => intro c; rfl
  | cons s ss ih => intro c; simp only [endCtx]; rw [ih, after_tail]

/-- The context after declaring parameters. -/
def paramsCtx (c : Ctx) (ps : List (Sym × Pos)) : Ctx := ps.foldl (fun c p => c.declare p.1) c

theorem paramsCtx_eq (ps : List (Sym × Pos)) : ∀ (s rest f l),
    paramsCtx ⟨s :: rest, f, l⟩ ps = ⟨((ps.map (·.1)).reverse ++ s) :: rest, f, l⟩ := by
  induction ps with
  | nil => intro s rest f l; rfl
  | cons p ps ih =>
    intro s rest f l
    simp only [paramsCtx, List.foldl_cons, Ctx.declare] at ih ⊢
    rw [ih]
    simp

theorem an_declareParams {J : SemError → Prop} {s : List Sym} {rest : List (List Sym)} {f l : Bool}
    (ps : List (Sym × Pos)) (hu : ∀ p ∈ ps, UserName p.1)
    (hj : ¬ ((ps.map (·.1)).Nodup ∧ ∀ p ∈ ps, p.1 ∉ s) → ∀ p ∈ ps, J ⟨.duplicateVariable p.1, p.2⟩) :
    AnGood J ((ps.map (·.1)).Nodup ∧ ∀ p ∈ ps, p.1 ∉ s) ⟨s :: rest, f, l⟩
      (paramsCtx ⟨s :: rest, f, l⟩ ps) (declareParams ps) := by
  induction ps generalizing s with
  | nil => exact an_ok _ _ _ _ (by simp)
  | cons p ps ih =>
    obtain ⟨x, pos⟩ := p
    have hux := hu (x, pos) (by simp)
    simp only [declareParams, symIll_false hux]
    have hd := an_declare (J := J) (c := ⟨s :: rest, f, l⟩) (p := pos) hux (fun hh => by
      refine hj ?_ (x, pos) (by simp)
      rintro ⟨-, h2⟩
      obtain ⟨s', hs', hx⟩ := hh
      simp only [List.head?_cons, Option.some.injEq] at hs'
      subst hs'
      exact h2 (x, pos) (by simp) hx)
    have hcd : (Ctx.declare ⟨s :: rest, f, l⟩ x) = ⟨(x :: s) :: rest, f, l⟩ := rfl
    rw [hcd] at hd
    have hiff : ((ps.map (·.1)).Nodup ∧ ∀ p ∈ ps, p.1 ∉ x :: s) ∧ x ∉ s ↔
        (((x, pos) :: ps).map (·.1)).Nodup ∧ ∀ p ∈ (x, pos) :: ps, p.1 ∉ s := by
      simp only [List.map_cons, List.nodup_cons, List.mem_map, List.mem_cons, not_or, forall_eq_or_imp]
      constructor
      · rintro ⟨⟨h1, h2⟩, h3⟩
        refine ⟨⟨?_, h1⟩, h3, fun p hp => (h2 p hp).2⟩
        rintro ⟨p, hp, hpx⟩
        exact (h2 p hp).1 hpx
      · rintro ⟨⟨h1, h2⟩, h3, h4⟩
        exact ⟨⟨h2, fun p hp => ⟨fun hpx => h1 ⟨p, hp, hpx⟩, h4 p hp⟩⟩, h3⟩
    have hr := ih (s := x :: s) (fun p hp => hu p (by simp [hp])) (fun hh p hp =>
      hj (fun h => hh (hiff.mpr h).1) p (by simp [hp]))
    have hz := an_map (f := fun _ : Nat × Unit => ()) (an_zip hd hr)
    have he : paramsCtx ⟨s :: rest, f, l⟩ ((x, pos) :: ps) = paramsCtx ⟨(x :: s) :: rest, f, l⟩ ps := rfl
    rw [he]
    refine hz.mono (fun _ h => h) ?_
    rintro ⟨h1, h2⟩
    refine hiff.mp ⟨h2, ?_⟩
    intro hx
    exact h1 ⟨s, rfl, hx⟩

/-- A function literal: its parameters and body are analysed in a frame of their own. -/
theorem an_function {J : SemError → Prop} {S : Prop} {c c' : Ctx} (fl : Flags) (ps : List (Sym × Pos)) (b : List Stmt)
    (h : AnGood J S ⟨[] :: c.scopes, true, false⟩ c' (A.zip (declareParams ps) (analyzeBlock ⟨true, false⟩ b)))
    (hc : c'.scopes.tail = c.scopes) : AnGood J S c c (analyzeLit fl (.function ps b)) := by
  refine ⟨tidy_lit fl _, fun st hs hm => ?_⟩
  have h0 := enterFrame_shaped hs
  have hm0 : Matches ⟨[] :: c.scopes, true, false⟩ st.enterFrame := by
    intro x hx
    have := hm x hx
    simp only [specView, stView] at this
    simp [AState.enterFrame, specView, stView, Frame.new, Scope.find, this]
  have ht := h.1 _ h0
  obtain ⟨h1, es, h2, h3, h4, h5⟩ := h.2 _ h0 hm0
  have e2 : (A.zip (declareParams ps) (analyzeBlock ⟨true, false⟩ b) st.enterFrame).2 =
      (analyzeBlock ⟨true, false⟩ b (declareParams ps st.enterFrame).2).2 := by
    simp only [A.zip]; split <;> rfl
  have e1 : (A.zip (declareParams ps) (analyzeBlock ⟨true, false⟩ b) st.enterFrame).1.isSome =
      ((declareParams ps st.enterFrame).1.isSome &&
        (analyzeBlock ⟨true, false⟩ b (declareParams ps st.enterFrame).2).1.isSome) := by
    simp only [A.zip]
    cases (declareParams ps st.enterFrame).1 <;>
      cases (analyzeBlock ⟨true, false⟩ b (declareParams ps st.enterFrame).2).1 <;> rfl
  rw [e2] at ht h1 h2
  rw [e1] at h4 h5
  have r2 : (analyzeLit fl (.function ps b) st).2 =
      (analyzeBlock ⟨true, false⟩ b (declareParams ps st.enterFrame).2).2.exitFrame.2 := by
    rw [analyzeLit]; dsimp only; split <;> rfl
  have r1 : (analyzeLit fl (.function ps b) st).1.isSome = ((declareParams ps st.enterFrame).1.isSome &&
        (analyzeBlock ⟨true, false⟩ b (declareParams ps st.enterFrame).2).1.isSome) := by
    rw [analyzeLit]; dsimp only
    cases (declareParams ps st.enterFrame).1 <;>
      cases (analyzeBlock ⟨true, false⟩ b (declareParams ps st.enterFrame).2).1 <;> rfl
  unfold GoodAt
  rw [r1, r2]
  generalize (analyzeBlock ⟨true, false⟩ b (declareParams ps st.enterFrame).2).2 = st1 at *
  obtain ⟨fr1, k1, er1, c1⟩ := st1
  simp only [AState.enterFrame, shape, List.map_cons, Frame.new, List.length_cons, List.length_nil] at ht
  cases fr1 with
  | nil => simp at ht
  | cons g gs =>
    simp only [List.map_cons, List.cons.injEq] at ht
    have hg : ∃ s, g.scopes = [s] := by
      match hgs : g.scopes with
      | [] => simp [hgs] at ht
      | [s] => exact ⟨s, rfl⟩
      | _ :: _ :: _ => simp [hgs] at ht
    obtain ⟨s, hg⟩ := hg
    refine ⟨?_, es, ?_, h3, h4, h5⟩
    · intro x hx
      have := h1 x hx
      simp only [AState.exitFrame, specView, stView, List.flatMap_cons, hg, List.map_cons, List.map_nil,
        List.cons_append, List.nil_append] at this ⊢
      cases hcs : c'.scopes with
      | nil => simp [hcs] at this
      | cons s' ss' =>
        rw [← hc, hcs]
        simp only [hcs, List.map_cons, List.cons.injEq] at this
        exact this.2
    · simp only [AState.exitFrame]
      exact h2

abbrev EJ (c : Ctx) (n : Node) := Justified c n
abbrev ES (c : Ctx) (n : Node) := Everywhere SoundRule c n

theorem sound_of_leaf {c : Ctx} {n : Node} (h : SoundRule c n) (hc : ∀ c' n', ¬ Child c n c' n') : ES c n :=
  everywhere_intro h (fun c' n' hch => absurd hch (hc c' n'))

/-- Rules that are trivial except for placement and scope. -/
theorem sound_trivial {c : Ctx} {n : Node} (h1 : PlacementRule c n) (h2 : ScopeRule c n) (h3 : LvalueRule c n)
    (h4 : BuiltinRule c n) (h5 : KeysRule c n) : SoundRule c n :=
  ⟨h1, fun _ => h2, h3, h4, fun _ => h5⟩

mutual

theorem an_expr : ∀ (e : Expr) (c : Ctx), Everywhere WrittenRule c (.expr e) →
    AnGood (EJ c (.expr e)) (ES c (.expr e)) c c (analyzeExpr ⟨c.inFn, c.inLoop⟩ e)
  | .illFormed, c, h => absurd h.here (by simp [WrittenRule])
  | .self_ pos, c, h => by
    rw [analyzeExpr]
    split
    · rename_i hf
      refine an_map ⟨tidy_resolveSelf, fun st hs hm => ?_⟩
      obtain ⟨frames, keys, errs, cr⟩ := st
      cases frames with
      | nil => exact absurd rfl hs.1
      | cons f fs =>
        have hsound : ES c (.expr (.self_ pos)) :=
          sound_of_leaf (sound_trivial hf trivial trivial trivial trivial) (fun c' n' hc => by cases hc)
        simp only [GoodAt, resolveSelf]
        split
        · exact ⟨hm, [], by simp, by simp, by simp, fun _ => hsound⟩
        · refine ⟨?_, [], by simp, by simp, by simp, fun _ => hsound⟩
          intro x hx
          have := hm x hx
          simp only [stView, List.flatMap_cons] at this ⊢
          exact this
    · rename_i hf
      exact an_report _ _ _ _ _ (Justified.here ⟨rfl, by simpa using hf⟩)
  | .ident x pos, c, h => by
    rw [analyzeExpr]
    refine (an_map (an_resolveIdent (J := EJ c (.expr (.ident x pos))) h.here
      (fun hd => Justified.here ⟨hd, Or.inl rfl⟩))).mono (fun _ h => h) ?_
    intro hd
    exact sound_of_leaf (sound_trivial trivial hd trivial trivial trivial) (fun c' n' hc => by cases hc)
  | .lit l pos, c, h => by
    rw [analyzeExpr]; exact an_map (an_lit l pos c h)
  | .unary op e pos, c, h => by
    rw [analyzeExpr]
    have he := an_expr e c (h.child (.operand ..))
    have hft : ∀ x : Prog.Expr, Tidy (if op = UnOp.try_ ∧ c.inFn = false then
        (A.report SemErrorKind.tryOutsideFunction pos : A Prog.Expr) else A.ok (Prog.Expr.unary op x pos)) := by
      intro x; split
      · exact tidy_report _ _
      · exact tidy_ok _
    refine (an_andThen (S' := PlacementRule c (.expr (.unary op e pos)))
      (he.mono (fun _ j => j.child (.operand ..)) id) (fun x _ => ?_) hft).mono (fun _ h => h) ?_
    · split
      · rename_i hcond
        obtain ⟨rfl, hf⟩ := hcond
        exact an_report _ _ _ _ _ (Justified.here ⟨e, rfl, hf⟩)
      · rename_i hcond
        refine an_ok _ _ _ _ ?_
        cases op <;> simp_all [PlacementRule]
    · rintro ⟨h1, h2⟩
      refine everywhere_intro (sound_trivial h2 trivial trivial trivial trivial) ?_
      intro c' n' hc; cases hc; exact h1
  | .binary l op r pos, c, h => by
    rw [analyzeExpr]
    have hl := an_expr l c (h.child (.left ..))
    have hr := an_expr r c (h.child (.right ..))
    refine (an_map (an_zip (hl.mono (fun _ j => j.child (.left ..)) id)
      (hr.mono (fun _ j => j.child (.right ..)) id))).mono (fun _ h => h) ?_
    rintro ⟨h1, h2⟩
    refine everywhere_intro (sound_trivial trivial trivial trivial trivial trivial) ?_
    intro c' n' hc; cases hc <;> assumption
  | .if_ e t f pos, c, h => by
    rw [analyzeExpr]
    have he := an_expr e c (h.child (.ifCond ..))
    have ht := an_block t c.block (h.child (.ifThen ..))
    have hf := an_block f c.block (h.child (.ifElse ..))
    refine (an_map (an_zip (he.mono (fun _ j => j.child (.ifCond ..)) id)
      (an_zip (an_inBlock (ht.mono (fun _ j => j.child (.ifThen ..)) id) (by rw [endCtx_tail]; rfl))
        (an_inBlock (hf.mono (fun _ j => j.child (.ifElse ..)) id) (by rw [endCtx_tail]; rfl))))).mono
      (fun _ h => h) ?_
    rintro ⟨h1, h2, h3⟩
    refine everywhere_intro (sound_trivial trivial trivial trivial trivial trivial) ?_
    intro c' n' hc; cases hc <;> assumption
  | .access o f pos, c, h => by
    rw [analyzeExpr]
    have ho := an_expr o c (h.child (.object ..))
    have hf := an_expr f c (h.child (.field ..))
    refine (an_map (an_zip (ho.mono (fun _ j => j.child (.object ..)) id)
      (hf.mono (fun _ j => j.child (.field ..)) id))).mono (fun _ h => h) ?_
    rintro ⟨h1, h2⟩
    refine everywhere_intro (sound_trivial trivial trivial trivial trivial trivial) ?_
    intro c' n' hc; cases hc <;> assumption
  | .call f args pos, c, h => by
    rw [analyzeExpr]
    have hf := an_expr f c (h.child (.callee ..))
    have ha := an_exprs args c (J := EJ c (.expr (.call f args pos)))
      (fun a ha => h.child (.arg _ _ _ _ _ ha)) (fun a ha _ j => j.child (.arg _ _ _ _ _ ha))
    refine (an_map (an_zip (hf.mono (fun _ j => j.child (.callee ..)) id) ha)).mono (fun _ h => h) ?_
    rintro ⟨h1, h2⟩
    refine everywhere_intro (sound_trivial trivial trivial trivial trivial trivial) ?_
    intro c' n' hc
    cases hc with
    | callee => exact h1
    | arg _ _ _ _ hm => exact h2 _ hm
  | .command b pos, c, h => by
    rw [analyzeExpr]
    refine (an_map (an_commandBlock b pos h.here)).mono (fun _ h => h) ?_
    intro hs
    exact sound_of_leaf hs (fun c' n' hc => by cases hc)

theorem an_exprs : ∀ (es : List Expr) (c : Ctx) {J : SemError → Prop},
    (∀ e ∈ es, Everywhere WrittenRule c (.expr e)) → (∀ e ∈ es, ∀ err, EJ c (.expr e) err → J err) →
    AnGood J (∀ e ∈ es, ES c (.expr e)) c c (analyzeExprs ⟨c.inFn, c.inLoop⟩ es)
  | [], c, J, _, _ => by rw [analyzeExprs]; exact an_ok _ _ _ _ (by simp)
  | e :: es, c, J, h, hj => by
    rw [analyzeExprs]
    have he := an_expr e c (h e (by simp))
    have hes := an_exprs es c (J := J) (fun x hx => h x (by simp [hx])) (fun x hx => hj x (by simp [hx]))
    refine (an_map (an_zip (he.mono (hj e (by simp)) id) hes)).mono (fun _ h => h) ?_
    simp

theorem an_lit : ∀ (l : Lit) (pos : Pos) (c : Ctx), Everywhere WrittenRule c (.expr (.lit l pos)) →
    AnGood (EJ c (.expr (.lit l pos))) (ES c (.expr (.lit l pos))) c c (analyzeLit ⟨c.inFn, c.inLoop⟩ l)
  | .nil, pos, c, h | .bool _, pos, c, h | .int _, pos, c, h | .float _, pos, c, h | .byte _, pos, c, h
  | .string _, pos, c, h => by
    rw [analyzeLit]
    exact an_ok _ _ _ _ (sound_of_leaf (sound_trivial trivial trivial trivial trivial trivial)
      (fun c' n' hc => by cases hc))
  | .array es, pos, c, h => by
    rw [analyzeLit]
    have ha := an_exprs es c (J := EJ c (.expr (.lit (.array es) pos)))
      (fun a ha => h.child (.item _ _ _ _ ha)) (fun a ha _ j => j.child (.item _ _ _ _ ha))
    refine (an_map ha).mono (fun _ h => h) ?_
    intro h2
    refine everywhere_intro (sound_trivial trivial trivial trivial trivial trivial) ?_
    intro c' n' hc
    cases hc with
    | item _ _ _ hm => exact h2 _ hm
  | .dict items, pos, c, h => by
    have hu : ∀ i ∈ items, UserName i.1.1 := h.here
    have hg := an_dictValues items c (J := EJ c (.expr (.lit (.dict items) pos)))
      (fun i hi => h.child (.value c i.1 i.2 items pos hi))
      (fun i hi _ j => j.child (.value c i.1 i.2 items pos hi))
    refine ⟨tidy_lit _ _, fun st hs hm => ?_⟩
    rw [analyzeLit]
    by_cases hflat : FlatDictRule c (.expr (.lit (.dict items) pos))
    · have hk : ∀ i ∈ items, KeepsKeys (analyzeExpr ⟨c.inFn, c.inLoop⟩ i.2) := fun i hi =>
        keeps_expr _ i.2 c (fun c' n' ho => hflat i hi c' n' ho)
      have := goodAt_items_keys (J := EJ c (.expr (.lit (.dict items) pos))) items hu hg hk
        { st with dictKeys := [] } hs hm (fun hn x p => Justified.here ⟨items, pos, rfl, by
          rintro ⟨h1, -⟩
          exact hn ⟨h1, by simp⟩⟩)
      refine goodAt_map (this.mono (fun _ h => h) ?_)
      rintro ⟨⟨h1, -⟩, h2⟩
      refine everywhere_intro (sound_trivial trivial trivial trivial trivial h1) ?_
      intro c' n' hc
      cases hc with
      | value k e _ _ hm => exact h2 (k, e) hm
    · have := an_items_any (J := EJ c (.expr (.lit (.dict items) pos))) items hu hg
        (fun x p => Justified.here ⟨items, pos, rfl, fun hh => hflat hh.2⟩)
      refine goodAt_map ((this.2 { st with dictKeys := [] } hs hm).mono (fun _ h => h) ?_)
      intro h2
      refine everywhere_intro ⟨trivial, fun _ => trivial, trivial, trivial, fun hf => absurd hf hflat⟩ ?_
      intro c' n' hc
      cases hc with
      | value k e _ _ hm => exact h2 (k, e) hm
  | .function ps b, pos, c, h => by
    have hu : ∀ p ∈ ps, UserName p.1 := h.here
    have hp := an_declareParams (J := EJ c (.expr (.lit (.function ps b) pos))) (s := []) (rest := c.scopes)
      (f := true) (l := false) ps hu (fun hn p hp => Justified.here (Or.inr ⟨ps, b, pos, rfl, hp, fun hnd =>
        hn ⟨hnd, by simp⟩⟩))
    rw [paramsCtx_eq] at hp
    simp only [List.append_nil] at hp
    have hb := an_block b (c.function (ps.map (·.1))) (h.child (.body ..))
    have hz := an_zip hp (hb.mono (fun _ j => j.child (.body ..)) id)
    refine (an_function _ ps b hz ?_).mono (fun _ h => h) ?_
    · rw [endCtx_tail]; rfl
    · rintro ⟨⟨h1, -⟩, h2⟩
      refine everywhere_intro (sound_trivial trivial h1 trivial trivial trivial) ?_
      intro c' n' hc; cases hc; exact h2
  | .ident x, pos, c, h => by
    rw [analyzeLit, symIll_false h.here]
    exact an_ok _ _ _ _ (sound_of_leaf (sound_trivial trivial trivial trivial trivial trivial)
      (fun c' n' hc => by cases hc))

theorem an_dictValues : ∀ (items : List ((Sym × Pos) × Expr)) (c : Ctx) {J : SemError → Prop},
    (∀ i ∈ items, Everywhere WrittenRule c (.expr i.2)) → (∀ i ∈ items, ∀ err, EJ c (.expr i.2) err → J err) →
    ∀ i ∈ items, AnGood J (ES c (.expr i.2)) c c (analyzeExpr ⟨c.inFn, c.inLoop⟩ i.2)
  | [], _, _, _, _ => by simp
  | (k, e) :: items, c, J, h, hj => by
    intro i hi
    rcases List.mem_cons.mp hi with hi' | hi'
    · rw [hi']
      exact (an_expr e c (h (k, e) (by simp))).mono (hj (k, e) (by simp)) id
    · exact an_dictValues items c (fun j hj' => h j (by simp [hj'])) (fun j hj' => hj j (by simp [hj'])) i hi'

theorem an_lvalue : ∀ (l r : Expr) (pos : Pos) (c : Ctx), Everywhere WrittenRule c (.expr l) →
    AnGood (EJ c (.stmt (.assign l r pos))) (ES c (.expr l) ∧ LvalueRule c (.stmt (.assign l r pos))) c c
      (analyzeLvalue ⟨c.inFn, c.inLoop⟩ pos l)
  | .ident x ipos, r, pos, c, h => by
    rw [analyzeLvalue, symIll_false h.here]
    refine (an_map (an_resolve (J := EJ c (.stmt (.assign (.ident x ipos) r pos))) h.here
      (fun hd => Justified.child (.assignLeft c (.ident x ipos) r pos)
        (Justified.here (c := c) (e := ⟨.undeclaredVariable x, ipos⟩) (n := .expr (.ident x ipos))
          ⟨hd, Or.inl rfl⟩)))).mono
      (fun _ h => h) ?_
    intro hd
    exact ⟨sound_of_leaf (sound_trivial trivial hd trivial trivial trivial) (fun c' n' hc => by cases hc), trivial⟩
  | .access o f apos, r, pos, c, h => by
    rw [analyzeLvalue]
    have ho := an_expr o c (h.child (.object ..))
    have hf := an_expr f c (h.child (.field ..))
    refine (an_map (an_zip
      (ho.mono (fun _ j => (j.child (.object ..)).child (.assignLeft _ (.access o f apos) r pos)) id)
      (hf.mono (fun _ j => (j.child (.field ..)).child (.assignLeft _ (.access o f apos) r pos)) id))).mono (fun _ h => h) ?_
    rintro ⟨h1, h2⟩
    refine ⟨everywhere_intro (sound_trivial trivial trivial trivial trivial trivial) ?_, trivial⟩
    intro c' n' hc; cases hc <;> assumption
  | .illFormed, r, pos, c, h => absurd h.here (by simp [WrittenRule])
  | .self_ a, r, pos, c, _ => by
    rw [analyzeLvalue] <;> first
      | exact an_report _ _ _ _ _ (Justified.here ⟨_, r, rfl, by simp [LvalueRule]⟩)
      | (intros; simp_all)
  | .lit a1 a2, r, pos, c, _ => by
    rw [analyzeLvalue] <;> first
      | exact an_report _ _ _ _ _ (Justified.here ⟨_, r, rfl, by simp [LvalueRule]⟩)
      | (intros; simp_all)
  | .unary _ _ _, r, pos, c, _ => by
    rw [analyzeLvalue] <;> first
      | exact an_report _ _ _ _ _ (Justified.here ⟨_, r, rfl, by simp [LvalueRule]⟩)
      | (intros; simp_all)
  | .binary _ _ _ _, r, pos, c, _ => by
    rw [analyzeLvalue] <;> first
      | exact an_report _ _ _ _ _ (Justified.here ⟨_, r, rfl, by simp [LvalueRule]⟩)
      | (intros; simp_all)
  | .if_ _ _ _ _, r, pos, c, _ => by
    rw [analyzeLvalue] <;> first
      | exact an_report _ _ _ _ _ (Justified.here ⟨_, r, rfl, by simp [LvalueRule]⟩)
      | (intros; simp_all)
  | .call _ _ _, r, pos, c, _ => by
    rw [analyzeLvalue] <;> first
      | exact an_report _ _ _ _ _ (Justified.here ⟨_, r, rfl, by simp [LvalueRule]⟩)
      | (intros; simp_all)
  | .command _ _, r, pos, c, _ => by
    rw [analyzeLvalue] <;> first
      | exact an_report _ _ _ _ _ (Justified.here ⟨_, r, rfl, by simp [LvalueRule]⟩)
      | (intros; simp_all)

theorem an_stmt : ∀ (s : Stmt) (c : Ctx), Everywhere WrittenRule c (.stmt s) →
    AnGood (EJ c (.stmt s)) (ES c (.stmt s)) c (c.after s) (analyzeStmt ⟨c.inFn, c.inLoop⟩ s)
  | .illFormed, c, h => absurd h.here (by simp [WrittenRule])
  | .let_ x init pos, c, h => by
    rw [analyzeStmt]
    have hd := an_declare (J := EJ c (.stmt (.let_ x init pos))) (c := c) (p := pos) h.here
      (fun hh => Justified.here (Or.inl ⟨init, rfl, hh⟩))
    have hi := an_expr init (c.declare x) (h.child (.letInit ..))
    rw [(declare_flags c x).1, (declare_flags c x).2] at hi
    refine (an_map (an_zip hd (hi.mono (fun _ j => j.child (.letInit ..)) id))).mono (fun _ h => h) ?_
    rintro ⟨h1, h2⟩
    refine everywhere_intro (sound_trivial trivial h1 trivial trivial trivial) ?_
    intro c' n' hc; cases hc; exact h2
  | .assign l r pos, c, h => by
    rw [analyzeStmt]
    have hl := an_lvalue l r pos c (h.child (.assignLeft ..))
    have hr := an_expr r c (h.child (.assignRight ..))
    refine (an_map (an_zip hl (hr.mono (fun _ j => j.child (.assignRight ..)) id))).mono (fun _ h => h) ?_
    rintro ⟨⟨h1, h2⟩, h3⟩
    refine everywhere_intro (sound_trivial trivial trivial h2 trivial trivial) ?_
    intro c' n' hc; cases hc <;> assumption
  | .return_ e pos, c, h => by
    rw [analyzeStmt]
    have he := an_expr e c (h.child (.returned ..))
    have hf : AnGood (EJ c (.stmt (.return_ e pos))) (c.inFn = true) c c
        (if c.inFn = true then A.ok () else A.report .returnOutsideFunction pos) := by
      split
      · rename_i hf; exact an_ok _ _ _ _ hf
      · rename_i hf
        exact an_report _ _ _ _ _ (Justified.here ⟨e, rfl, by simpa using hf⟩)
    refine (an_map (an_zip hf (he.mono (fun _ j => j.child (.returned ..)) id))).mono (fun _ h => h) ?_
    rintro ⟨h1, h2⟩
    refine everywhere_intro (sound_trivial h1 trivial trivial trivial trivial) ?_
    intro c' n' hc; cases hc; exact h2
  | .break_ pos, c, h => by
    rw [analyzeStmt]
    split
    · rename_i hf
      exact an_ok _ _ _ _ (sound_of_leaf (sound_trivial hf trivial trivial trivial trivial)
        (fun c' n' hc => by cases hc))
    · rename_i hf
      exact an_report _ _ _ _ _ (Justified.here ⟨rfl, by simpa using hf⟩)
  | .while_ e b pos, c, h => by
    rw [analyzeStmt]
    have he := an_expr e c (h.child (.whileCond ..))
    have hb := an_block b c.loop (h.child (.whileBody ..))
    refine (an_map (an_zip (he.mono (fun _ j => j.child (.whileCond ..)) id)
      (an_inBlock (hb.mono (fun _ j => j.child (.whileBody ..)) id) (by rw [endCtx_tail]; rfl)))).mono
      (fun _ h => h) ?_
    rintro ⟨h1, h2⟩
    refine everywhere_intro (sound_trivial trivial trivial trivial trivial trivial) ?_
    intro c' n' hc; cases hc <;> assumption
  | .for_ x e b pos, c, h => by
    have hx : UserName x := h.here
    rw [analyzeStmt, symIll_false hx]
    have he := an_expr e c (h.child (.forExpr ..))
    have hb := an_block b (c.loop.declare x) (h.child (.forBody ..))
    have hd := an_declare (J := EJ c (.stmt (.for_ x e b pos))) (c := c.loop) (p := pos) hx
      (fun hh => by
        obtain ⟨s, hs, hxs⟩ := hh
        simp only [Ctx.loop, Ctx.block, List.head?_cons, Option.some.injEq] at hs
        subst hs
        simp at hxs)
    rw [(declare_flags c.loop x).1, (declare_flags c.loop x).2] at hb
    refine (an_map (an_zip (he.mono (fun _ j => j.child (.forExpr ..)) id)
      (an_inBlock (an_zip hd (hb.mono (fun _ j => j.child (.forBody ..)) id))
        (by rw [endCtx_tail, declare_tail]; rfl)))).mono
      (fun _ h => h) ?_
    rintro ⟨h1, -, h2⟩
    refine everywhere_intro (sound_trivial trivial trivial trivial trivial trivial) ?_
    intro c' n' hc; cases hc <;> assumption
  | .expr e, c, h => by
    rw [analyzeStmt]
    have he := an_expr e c (h.child (.stmtExpr ..))
    refine (an_map (he.mono (fun _ j => j.child (.stmtExpr ..)) id)).mono (fun _ h => h) ?_
    intro h1
    refine everywhere_intro (sound_trivial trivial trivial trivial trivial trivial) ?_
    intro c' n' hc; cases hc; exact h1

theorem an_block : ∀ (b : List Stmt) (c : Ctx), Everywhere WrittenRule c (.block b) →
    AnGood (EJ c (.block b)) (ES c (.block b)) c (endCtx c b) (analyzeBlock ⟨c.inFn, c.inLoop⟩ b)
  | [], c, _ => by
    rw [analyzeBlock]
    exact an_ok _ _ _ _ (sound_of_leaf (sound_trivial trivial trivial trivial trivial trivial)
      (fun c' n' hc => by cases hc))
  | s :: ss, c, h => by
    rw [analyzeBlock]
    have hs := an_stmt s c (h.child (.first ..))
    have hb := an_block ss (c.after s) (h.child (.rest ..))
    rw [(after_flags c s).1, (after_flags c s).2] at hb
    refine (an_map (an_zip (hs.mono (fun _ j => j.child (.first ..)) id)
      (hb.mono (fun _ j => j.child (.rest ..)) id))).mono (fun _ h => h) ?_
    rintro ⟨h1, h2⟩
    refine everywhere_intro (sound_trivial trivial trivial trivial trivial trivial) ?_
    intro c' n' hc; cases hc <;> assumption

end

theorem initial_shaped : Shaped AState.initial := by
  refine ⟨by simp [AState.initial], ?_⟩
  intro f hf
  simp only [AState.initial, List.mem_singleton] at hf
  subst hf
  simp

theorem initial_matches : Matches .root AState.initial := by
  intro x _
  simp only [specView, stView, Ctx.root, AState.initial, List.map_cons, List.map_nil, List.flatMap_cons,
    List.flatMap_nil, List.append_nil, find_cons, stdName]
  by_cases h : x = [115, 116, 100] <;> simp [h, Scope.find]

/-- The outcome of the analysis: no crash; a program exactly when there is no error; errors are justified and an
accepted program satisfies the rules. -/
theorem analyze_spec (b : Block) (hw : Throughout WrittenRule b) :
    ((∃ p, analyze b = .ok p) ∧ Throughout SoundRule b) ∨
    (∃ es, analyze b = .errors es ∧ es ≠ [] ∧ ∀ e ∈ es, Justified .root (.block b) e) := by
  have h := an_block b .root hw
  have ht := h.1 _ initial_shaped
  obtain ⟨h1, es, h2, h3, h4, h5⟩ := h.2 _ initial_shaped initial_matches
  have hfl : (⟨Ctx.root.inFn, Ctx.root.inLoop⟩ : Flags) = ⟨false, false⟩ := rfl
  clear h
  rw [hfl] at ht h1 h2 h4 h5
  clear hfl
  simp only [analyze]
  generalize analyzeBlock ⟨false, false⟩ b AState.initial = r at *
  obtain ⟨res, fr, k, er, cr⟩ := r
  simp only [shape, AState.initial, List.map_cons, List.map_nil, List.length_cons, List.length_nil] at ht
  simp only [AState.initial, List.nil_append] at h2
  obtain ⟨ht1, ht2⟩ := ht
  cases fr with
  | nil => simp at ht1
  | cons f fs =>
    simp only [List.map_cons, List.cons.injEq] at ht1
    subst ht2
    have hsl : f.scopes.length = 1 := by simpa using ht1.1
    simp only [AState.exitFrame, hsl, Bool.false_or, bne_self_eq_false, Bool.false_eq_true, if_false]
    cases res with
    | some stmts =>
      have hes : es = [] := by simpa using h4
      rw [hes] at h2
      simp only [h2, List.isEmpty_nil, if_true]
      exact Or.inl ⟨⟨_, rfl⟩, h5 rfl⟩
    | none =>
      refine Or.inr ⟨er, rfl, ?_, ?_⟩
      · intro hn
        have : es = [] := by rw [← h2, hn]
        simp [this] at h4
      · rw [h2]; exact h3

/-- For every syntax tree, even an ill-formed one, the analysis does not crash. -/
theorem analyze_no_crash (b : Block) : analyze b ≠ .crash := by
  have ht := tidy_block ⟨false, false⟩ b _ initial_shaped
  simp only [analyze]
  generalize analyzeBlock ⟨false, false⟩ b AState.initial = r at *
  obtain ⟨res, fr, k, er, cr⟩ := r
  simp only [shape, AState.initial, List.map_cons, List.map_nil, List.length_cons, List.length_nil] at ht
  obtain ⟨ht1, ht2⟩ := ht
  cases fr with
  | nil => simp at ht1
  | cons f fs =>
    simp only [List.map_cons, List.cons.injEq] at ht1
    subst ht2
    have hsl : f.scopes.length = 1 := by simpa using ht1.1
    simp only [AState.exitFrame, hsl, Bool.false_or, bne_self_eq_false, Bool.false_eq_true, if_false]
    cases res <;> simp
    split <;> simp

end Hush

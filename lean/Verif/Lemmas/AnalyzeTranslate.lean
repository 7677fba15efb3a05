import Verif.Lemmas.AnalyzeBinding

/-!
The analyser produces correct translations: the induction over the syntax tree.
-/

namespace Hush
open Ast (Expr Lit Stmt Block)
open Spec

/-- An analysis step that may add declarations to the innermost scope. -/
structure BindsIn (a : A α) (R : List FrameEnv → α → List Nat → Prop) : Prop where
  grows : ∀ {st x st'}, a st = (some x, st') → Grows st.frames st'.frames
  sound : ∀ {st x st' D Ds e s ss es}, a st = (some x, st') → e.scopes = s :: ss → Final st'.frames (e :: es) →
    FramesInv (D :: Ds) st.frames (e :: es) →
    ∃ D' s', FramesInv ((D ++ D') :: Ds) st'.frames ({ e with scopes := s' :: ss } :: es) ∧ R (e :: es) x D'

theorem Binds.in {a : A α} {R} (h : Binds a R) : BindsIn a R where
  grows := h.grows
  sound := by
    intro st x st' D Ds e s ss es hh he hf hi
    obtain ⟨D', h1, h2⟩ := h.sound hh hf hi
    refine ⟨D', s, ?_, h2⟩
    rw [← he]
    exact h1

theorem final_scopes {fs e es ss} (h : Final fs (e :: es)) : Final fs ({ e with scopes := ss } :: es) := by
  cases h with
  | cons h1 h2 h3 h => exact .cons h1 h2 h3 h

theorem userName_exists : UserName [97] := by refine ⟨by simp, by decide⟩

theorem FrameInv.length {D f e es} (h : FrameInv D f e es) : f.scopes.length = e.scopes.length := by
  have := congrArg List.length (h.scopes [97] userName_exists)
  simpa using this

/-- Open a scope. -/
def pushScope : List FrameEnv → List FrameEnv
  | [] => []
  | e :: es => { e with scopes := [] :: e.scopes } :: es

/-- Declare in the innermost scope. -/
def declScope (x : Sym) (slot : Nat) : List FrameEnv → List FrameEnv
  | [] => []
  | e :: es =>
    match e.scopes with
    | [] => e :: es
    | s :: ss => { e with scopes := ((x, slot) :: s) :: ss } :: es

theorem block_eq (es f l) : Env.block ⟨es, f, l⟩ = ⟨pushScope es, f, l⟩ := by cases es <;> rfl

theorem declare_eq (es f l x s) : Env.declare ⟨es, f, l⟩ x s = ⟨declScope x s es, f, l⟩ := by
  cases es with
  | nil => rfl
  | cons e es => simp only [Env.declare, declScope]; cases e.scopes <;> rfl

theorem loop_eq (es f l) : Env.loop ⟨es, f, l⟩ = ⟨pushScope es, f, true⟩ := by
  simp only [Env.loop, block_eq]

theorem inv_push {D Ds f fs e es} (h : FramesInv (D :: Ds) (f :: fs) (e :: es)) :
    FramesInv (D :: Ds) ({ f with scopes := [] :: f.scopes } :: fs) ({ e with scopes := [] :: e.scopes } :: es) := by
  cases h with
  | cons h hs =>
    refine .cons ⟨?_, ?_, h.captures, h.nodup, h.below⟩ hs
    · intro x hx
      simp only [List.map_cons, List.cons.injEq]
      exact ⟨rfl, h.scopes x hx⟩
    · intro x s root hr hs'
      cases hsc : f.scopes with
      | nil =>
        simp only [hsc, List.getLast?_singleton, Option.some.injEq] at hr
        subst hr
        simp [Scope.find] at hs'
      | cons t ts =>
        simp only [hsc, List.getLast?_cons_cons] at hr
        rw [← hsc] at hr
        exact h.closed x s root hr hs'

theorem inv_pop {D Ds f fs s ss es} {e : FrameEnv} (h : FramesInv (D :: Ds) (f :: fs) ({ e with scopes := s :: ss } :: es)) :
    ∃ t ts, f.scopes = t :: ts ∧
      FramesInv (D :: Ds) ({ f with scopes := ts } :: fs) ({ e with scopes := ss } :: es) := by
  cases h with
  | cons h hs =>
    have hl := h.length
    cases hsc : f.scopes with
    | nil => simp [hsc] at hl
    | cons t ts =>
      refine ⟨t, ts, rfl, .cons ⟨?_, ?_, h.captures, h.nodup, h.below⟩ hs⟩
      · intro x hx
        have := h.scopes x hx
        simp only [hsc, List.map_cons, List.cons.injEq] at this
        exact this.2
      · intro x s root hr hs'
        refine h.closed x s root ?_ hs'
        simp only at hr
        cases ts with
        | nil => simp at hr
        | cons t' ts => rw [hsc, List.getLast?_cons_cons]; exact hr

theorem binds_inBlock {a : A α} {R} (h : BindsIn a R) : Binds (inBlock a) (fun es x D => R (pushScope es) x D) where
  grows := by
    intro st x st' hh
    obtain ⟨st₁, h1, rfl⟩ := inBlock_some.mp hh
    have hg := h.grows h1
    obtain ⟨frames, keys, errs, cr⟩ := st
    cases frames with
    | nil =>
      simp only [AState.enterBlock] at hg
      generalize hk : st₁.frames = gs at hg
      cases hg
      simp only [AState.exitBlock, hk]
      exact .nil
    | cons f fs =>
      simp only [AState.enterBlock] at hg
      generalize hk : st₁.frames = gs at hg
      cases hg with
      | @cons _ g _ gs hfg hg =>
        refine (Grows.cons (f := f) (g := g) hfg hg).trans ?_
        simp only [AState.exitBlock, hk]
        split
        · exact Grows.refl _
        · exact .cons ⟨fun c hc => hc, fun s hs => hs, Nat.le_refl _⟩ (Grows.refl _)
  sound := by
    intro st x st' D Ds es hh hf hi
    obtain ⟨st₁, h1, rfl⟩ := inBlock_some.mp hh
    obtain ⟨frames, keys, errs, cr⟩ := st
    cases hi with
    | @cons _ f e _ fs es hi his =>
    have hi1 := inv_push (.cons hi his)
    have hg := h.grows h1
    have hf1 : Final st₁.frames ({ e with scopes := [] :: e.scopes } :: es) := by
      refine final_scopes ?_
      refine Final.mono ?_ hf
      simp only [AState.exitBlock]
      cases st₁.frames with
      | nil => exact .nil
      | cons g gs =>
        simp only
        split
        · exact Grows.refl _
        · exact .cons ⟨fun c hc => hc, fun s hs => hs, Nat.le_refl _⟩ (Grows.refl _)
    obtain ⟨D', s', h2, h3⟩ := h.sound h1 rfl hf1 hi1
    refine ⟨D', ?_, h3⟩
    generalize hk : st₁.frames = gs at h2
    cases gs with
    | nil => cases h2
    | cons g gs =>
      obtain ⟨t, ts, ht, h4⟩ := inv_pop h2
      simp only [AState.exitBlock, hk, ht]
      exact h4

theorem binds_inMap {f : α → β} {a : A α} {R S} (h : BindsIn a R) (hr : ∀ es x D, R es x D → S es (f x) D) :
    BindsIn (A.map f a) S where
  grows hh := by
    obtain ⟨x, hx, _⟩ := A.map_some.mp hh
    exact h.grows hx
  sound := by
    intro st x st' D Ds e s ss es hh he hf hi
    obtain ⟨x, hx, rfl⟩ := A.map_some.mp hh
    obtain ⟨D', s', h1, h2⟩ := h.sound hx he hf hi
    exact ⟨D', s', h1, hr _ _ _ h2⟩

theorem declare_inv {x : Sym} (hx : UserName x) {p st slot st'} (h : declare x p st = (some slot, st')) :
    Grows st.frames st'.frames ∧ ∀ {D Ds e s ss es}, e.scopes = s :: ss → FramesInv (D :: Ds) st.frames (e :: es) →
      FramesInv ((D ++ [slot]) :: Ds) st'.frames ({ e with scopes := ((x, slot) :: s) :: ss } :: es) := by
  obtain ⟨frames, keys, errs, cr⟩ := st
  cases frames with
  | nil => simp [declare] at h
  | cons f fs =>
    simp only [declare] at h
    split at h
    · simp at h
    · rename_i t ts ht
      split at h
      · simp at h
      · cases h
        refine ⟨.cons ⟨fun c hc => hc, fun s hs => hs, by simp⟩ (Grows.refl _), ?_⟩
        intro D Ds e s ss es he hi
        cases hi with
        | cons hi his =>
          refine .cons ⟨?_, ?_, hi.captures, ?_, ?_⟩ his
          · intro y hy
            have := hi.scopes y hy
            simp only [ht, he, List.map_cons, List.cons.injEq] at this
            simp only [List.map_cons, find_cons, this.1, this.2, List.cons.injEq, List.lookup_cons, and_true]
            by_cases hyx : y = x
            · simp [hyx]
            · have : (y == x) = false := by simpa using hyx
              simp [hyx, this]
          · intro y s' root hr hs'
            simp only at hr
            cases ts with
            | nil =>
              simp only [List.getLast?_singleton, Option.some.injEq] at hr
              subst hr
              rw [find_cons, if_neg (Ne.symm (userName_ne_closed hx))] at hs'
              exact hi.closed y s' t (by rw [ht]; rfl) hs'
            | cons t' ts =>
              rw [List.getLast?_cons_cons] at hr
              refine hi.closed y s' root ?_ hs'
              rw [ht, List.getLast?_cons_cons]; exact hr
          · have hfr := given_fresh hi.below
            have hnd := hi.nodup
            simp only [given] at hnd hfr ⊢
            have hp : (D ++ [f.slots] ++ f.captures.map (·.to) ++ f.selfSlot.toList).Perm
                (f.slots :: (D ++ f.captures.map (·.to) ++ f.selfSlot.toList)) := by
              simp only [List.append_assoc]
              exact List.perm_middle
            rw [hp.nodup_iff, List.nodup_cons]
            exact ⟨hfr, hnd⟩
          · have hb := hi.below
            simp only [given, List.mem_append, List.mem_singleton] at hb ⊢
            rintro s (((hs | hs) | hs) | hs)
            · exact Nat.lt_succ_of_lt (hb s (.inl (.inl hs)))
            · subst hs; exact Nat.lt_succ_self _
            · exact Nat.lt_succ_of_lt (hb s (.inl (.inr hs)))
            · exact Nat.lt_succ_of_lt (hb s (.inr hs))

/-- A declaration followed by something that sees it. -/
theorem binds_declThen {x : Sym} (hx : UserName x) (p : Pos) {b : A β} {R} (hb : BindsIn b R) :
    BindsIn (A.zip (declare x p) b) (fun es y D => ∃ D', D = y.1 :: D' ∧ R (declScope x y.1 es) y.2 D') where
  grows hh := by
    obtain ⟨st₁, h1, h2⟩ := A.zip_some.mp hh
    exact (declare_inv hx h1).1.trans (hb.grows h2)
  sound := by
    intro st y st' D Ds e s ss es hh he hf hi
    obtain ⟨st₁, h1, h2⟩ := A.zip_some.mp hh
    have hi1 := (declare_inv hx h1).2 he hi
    obtain ⟨D', s', h3, h4⟩ := hb.sound h2 rfl (final_scopes hf) hi1
    refine ⟨y.1 :: D', s', ?_, D', rfl, ?_⟩
    · rw [show D ++ y.1 :: D' = D ++ [y.1] ++ D' by simp]; exact h3
    · simpa only [declScope, he] using h4

theorem binds_thenIn {a : A α} {b : A β} {R S} (ha : Binds a R) (hb : BindsIn b S) :
    BindsIn (A.zip a b) (Both R S) where
  grows hh := by
    obtain ⟨st₁, h1, h2⟩ := A.zip_some.mp hh
    exact (ha.grows h1).trans (hb.grows h2)
  sound := by
    intro st x st' D Ds e s ss es hh he hf hi
    obtain ⟨st₁, h1, h2⟩ := A.zip_some.mp hh
    obtain ⟨D₁, hi1, hr1⟩ := ha.sound h1 (Final.mono (hb.grows h2) hf) hi
    obtain ⟨D₂, s', hi2, hr2⟩ := hb.sound h2 he hf hi1
    exact ⟨D₁ ++ D₂, s', by rw [← List.append_assoc]; exact hi2, D₁, D₂, rfl, hr1, hr2⟩

/-- The same with three parts: the middle one sees the declaration as well. -/
theorem binds_letThen {x : Sym} (hx : UserName x) (p : Pos) {a : A α} {b : A β} {g : Nat × α → γ} {R S}
    (ha : Binds a R) (hb : BindsIn b S) :
    BindsIn (A.zip (A.map g (A.zip (declare x p) a)) b)
      (fun es y D => ∃ slot u D₁ D₂, y.1 = g (slot, u) ∧ D = slot :: (D₁ ++ D₂) ∧ R (declScope x slot es) u D₁ ∧
        S (declScope x slot es) y.2 D₂) where
  grows hh := by
    obtain ⟨st₁, h1, h2⟩ := A.zip_some.mp hh
    obtain ⟨u, h1, _⟩ := A.map_some.mp h1
    obtain ⟨st₂, h0, h1⟩ := A.zip_some.mp h1
    exact ((declare_inv hx h0).1.trans (ha.grows h1)).trans (hb.grows h2)
  sound := by
    intro st y st' D Ds e s ss es hh he hf hi
    obtain ⟨st₁, h1, h2⟩ := A.zip_some.mp hh
    obtain ⟨u, h1, hu⟩ := A.map_some.mp h1
    obtain ⟨st₂, h0, h1⟩ := A.zip_some.mp h1
    have hi1 := (declare_inv hx h0).2 he hi
    obtain ⟨D₁, hi2, hr1⟩ := ha.sound h1 (final_scopes (Final.mono (hb.grows h2) hf)) hi1
    obtain ⟨D₂, s', h3, h4⟩ := hb.sound h2 rfl (final_scopes hf) hi2
    refine ⟨u.1 :: (D₁ ++ D₂), s', ?_, u.1, u.2, D₁, D₂, hu.symm, rfl, ?_, ?_⟩
    · rw [show D ++ u.1 :: (D₁ ++ D₂) = D ++ [u.1] ++ D₁ ++ D₂ by simp]; exact h3
    · simpa only [declScope, he] using hr1
    · simpa only [declScope, he] using h4

theorem declareParams_frames (ps : List (Sym × Pos)) : ∀ {st st' f fs s}, declareParams ps st = (some (), st') →
    st.frames = f :: fs → f.scopes = [s] →
    st'.frames = { f with slots := f.slots + ps.length,
                          scopes := [((ps.map (·.1)).zipIdx f.slots).reverse ++ s] } :: fs := by
  induction ps with
  | nil =>
    intro st st' f fs s h hf hs
    cases h
    rw [hf]
    simp [← hs]
  | cons p ps ih =>
    obtain ⟨x, pos⟩ := p
    intro st st' f fs s h hf hs
    rw [declareParams] at h
    obtain ⟨u, h, _⟩ := A.map_some.mp h
    obtain ⟨st₁, h1, h2⟩ := A.zip_some.mp h
    split at h1
    · simp at h1
    · simp only [declare, hf, hs] at h1
      split at h1
      · simp at h1
      · simp only [Prod.mk.injEq] at h1
        obtain ⟨-, rfl⟩ := h1
        have := ih (st := _) (st' := st') (f := { f with slots := f.slots + 1, scopes := [((x, f.slots) :: s)] })
          (fs := fs) (s := (x, f.slots) :: s) h2 rfl rfl
        rw [this]
        simp [List.zipIdx_cons, Nat.add_comm, Nat.add_left_comm]

theorem binds_function {ps : List (Sym × Pos)} (hps : ∀ p ∈ ps, UserName p.1) {body : List Stmt} (fl : Flags)
    (hb : BindsIn (analyzeBlock ⟨true, false⟩ body)
      (fun es x D => Translates ⟨es, true, false⟩ (.block body x) D)) :
    Binds (analyzeLit fl (.function ps body))
      (fun es x D => Translates ⟨es, fl.inFunction, fl.inLoop⟩ (.lit (.function ps body) x) D) := by
  have key : ∀ {st x st'}, analyzeLit fl (.function ps body) st = (some x, st') → ∃ st₁ st₂ b' g,
      declareParams ps st.enterFrame = (some (), st₁) ∧ analyzeBlock ⟨true, false⟩ body st₁ = (some b', st₂) ∧
      st₁.frames = ⟨ps.length, [], none, [paramScope ps]⟩ :: st.frames ∧ st₂.frames = g :: st'.frames ∧
      x = .function ps.length ⟨g.slots, g.captures, g.selfSlot⟩ b' := by
    intro st x st' h
    rw [analyzeLit] at h
    simp only at h
    split at h
    · rename_i u b' hp hb'
      generalize hr1 : declareParams ps st.enterFrame = r1 at h hp hb'
      obtain ⟨o1, st₁⟩ := r1
      generalize hr2 : analyzeBlock ⟨true, false⟩ body st₁ = r2 at h hb'
      obtain ⟨o2, st₂⟩ := r2
      simp only at hp hb'
      subst hp hb'
      have h1 := declareParams_frames ps hr1 (f := Frame.new) (fs := st.frames) (s := []) rfl rfl
      have h1' : st₁.frames = ⟨ps.length, [], none, [paramScope ps]⟩ :: st.frames := by
        rw [h1]; simp [Frame.new, paramScope]
      have hg := hb.grows hr2
      rw [h1'] at hg
      cases hk : st₂.frames with
      | nil => rw [hk] at hg; cases hg
      | cons g gs =>
        simp only [AState.exitFrame, hk, Prod.mk.injEq, Option.some.injEq] at h
        obtain ⟨rfl, rfl⟩ := h
        exact ⟨st₁, st₂, b', g, rfl, hr2, h1', hk, rfl⟩
    · simp at h
  constructor
  · intro st x st' h
    obtain ⟨st₁, st₂, b', g, h1, h2, h3, h4, rfl⟩ := key h
    have hg := hb.grows h2
    rw [h3, h4] at hg
    cases hg with
    | cons _ hg => exact hg
  · intro st x st' D Ds es h hf hi
    obtain ⟨st₁, st₂, b', g, h1, h2, h3, h4, rfl⟩ := key h
    have hinv : FramesInv (List.range ps.length :: D :: Ds) st₁.frames
        (⟨[paramScope ps], ⟨g.slots, g.captures, g.selfSlot⟩⟩ :: es) := by
      rw [h3]
      refine .cons ⟨fun x hx => rfl, ?_, by simp, ?_, ?_⟩ hi
      · intro x s root hr hs
        simp only [List.getLast?_singleton, Option.some.injEq] at hr
        subst hr
        exfalso
        have hm : ∀ (l : List Sym) n, (∀ y ∈ l, UserName y) →
            Scope.find (l.zipIdx n).reverse (closedName x) = none := by
          intro l n hl
          simp only [Scope.find, List.lookup_eq_none_iff]
          intro q hq
          simp only [List.mem_reverse] at hq
          have := List.fst_mem_of_mem_zipIdx hq
          simpa using (Ne.symm (userName_ne_closed (hl _ this)))
        rw [paramScope, hm _ _ (by simpa using hps)] at hs
        simp at hs
      · simp [given, List.nodup_range]
      · simp [given]
    have hfin : Final st₂.frames (⟨[paramScope ps], ⟨g.slots, g.captures, g.selfSlot⟩⟩ :: es) := by
      rw [h4]
      exact .cons (fun c hc => hc) (fun s hs => hs) (Nat.le_refl _) hf
    obtain ⟨D', s', h5, h6⟩ := hb.sound h2 rfl hfin hinv
    rw [h4] at h5
    cases h5 with
    | cons h7 h8 =>
      refine ⟨[], by simpa using h8, ?_⟩
      exact .function h6 h7.nodup h7.below h7.captures

/-- What the analysis of an expression gives. -/
abbrev ExprSound (fl : Flags) (e : Expr) : Prop :=
  Binds (analyzeExpr fl e) (fun es x D => Translates ⟨es, fl.inFunction, fl.inLoop⟩ (.expr e x) D)

theorem binds_lvalue_other {fl : Flags} {e : Expr} {pos} (h1 : ∀ x p, e ≠ .ident x p) (h2 : ∀ a b p, e ≠ .access a b p) {R} :
    Binds (analyzeLvalue fl pos e) R := by
  have : analyzeLvalue fl pos e = A.report .invalidAssignment pos := by
    cases e <;> first | rfl | (exfalso; exact h1 _ _ rfl) | (exfalso; exact h2 _ _ _ rfl)
  rw [this]
  exact binds_report _ _

theorem binds_insertKey (k p) : Binds (insertKey k p) (Pure_ (fun _ s => s = k)) where
  grows := by
    intro st x st' h
    simp only [insertKey] at h
    repeat' split at h
    all_goals simp only [A.report_some, Prod.mk.injEq, reduceCtorEq, false_and] at h
    obtain ⟨_, rfl⟩ := h
    exact Grows.refl _
  sound := by
    intro st x st' D Ds es h hf hi
    simp only [insertKey] at h
    repeat' split at h
    all_goals simp only [A.report_some, Prod.mk.injEq, reduceCtorEq, false_and] at h
    obtain ⟨hx, rfl⟩ := h
    exact ⟨[], by simpa using hi, rfl, by simpa using hx.symm⟩

mutual

theorem bind_expr (fl : Flags) : ∀ (e : Expr) (c : Ctx), Everywhere WrittenRule c (.expr e) → ExprSound fl e
  | .illFormed, c, h => absurd h.here (by simp [WrittenRule])
  | .self_ pos, c, h => by
    unfold ExprSound
    rw [analyzeExpr]
    split
    · rename_i hf
      refine binds_map binds_resolveSelf ?_
      rintro es s D ⟨rfl, f, fs, rfl, hs⟩
      exact .self_ pos hf rfl hs
    · exact binds_report _ _
  | .ident x pos, c, h => by
    unfold ExprSound
    rw [analyzeExpr]
    refine binds_map (binds_resolveIdent h.here pos) ?_
    rintro es s D ⟨rfl, hs⟩
    exact .ident pos hs
  | .lit l pos, c, h => by
    unfold ExprSound
    rw [analyzeExpr]
    exact binds_map (bind_lit fl l pos c h) (fun es x D hx => .lit pos hx)
  | .unary op e pos, c, h => by
    unfold ExprSound
    rw [analyzeExpr]
    refine binds_mono (binds_andThen (bind_expr fl e c (h.child (.operand ..)))
      (S := fun e' => Pure_ (fun _ x => x = .unary op e' pos ∧ (op = .try_ → fl.inFunction = true))) (fun e' => ?_)) ?_
    · split
      · exact binds_report _ _
      · rename_i hc
        refine binds_ok _ (fun es => ⟨rfl, fun ho => ?_⟩)
        simp only [ho, true_and, Bool.not_eq_false] at hc
        exact hc
    · rintro es y D ⟨e', D₁, D₂, rfl, h1, rfl, rfl, h2⟩
      rw [List.append_nil]
      exact .unary op pos h2 h1
  | .binary l op r pos, c, h => by
    unfold ExprSound
    rw [analyzeExpr]
    refine binds_map (binds_zip (bind_expr fl l c (h.child (.left ..))) (bind_expr fl r c (h.child (.right ..)))) ?_
    rintro es x D ⟨D₁, D₂, rfl, h1, h2⟩
    exact .binary op pos h1 h2
  | .if_ e t f pos, c, h => by
    unfold ExprSound
    rw [analyzeExpr]
    refine binds_map (binds_zip (bind_expr fl e c (h.child (.ifCond ..))) (binds_zip
      (binds_inBlock (bind_block fl t _ (h.child (.ifThen ..))))
      (binds_inBlock (bind_block fl f _ (h.child (.ifElse ..)))))) ?_
    rintro es x D ⟨D₁, D₂, rfl, h1, D₃, D₄, rfl, h2, h3⟩
    exact .if_ pos h1 (by rw [block_eq]; exact h2) (by rw [block_eq]; exact h3)
  | .access o f pos, c, h => by
    unfold ExprSound
    rw [analyzeExpr]
    refine binds_map (binds_zip (bind_expr fl o c (h.child (.object ..))) (bind_expr fl f c (h.child (.field ..)))) ?_
    rintro es x D ⟨D₁, D₂, rfl, h1, h2⟩
    exact .access pos h1 h2
  | .call f args pos, c, h => by
    unfold ExprSound
    rw [analyzeExpr]
    refine binds_map (binds_zip (bind_expr fl f c (h.child (.callee ..)))
      (bind_exprs fl args c (fun a ha => h.child (.arg _ _ _ _ _ ha)))) ?_
    rintro es x D ⟨D₁, D₂, rfl, h1, h2⟩
    exact .call pos h1 h2
  | .command b pos, c, h => by
    unfold ExprSound
    rw [analyzeExpr]
    refine binds_map (binds_commandBlock b h.here) ?_
    rintro es x D ⟨rfl, h1⟩
    exact .command pos h1

theorem bind_exprs (fl : Flags) : ∀ (l : List Expr) (c : Ctx), (∀ e ∈ l, Everywhere WrittenRule c (.expr e)) →
    Binds (analyzeExprs fl l) (fun es x D => Translates ⟨es, fl.inFunction, fl.inLoop⟩ (.exprs l x) D)
  | [], c, _ => by
    rw [analyzeExprs]
    refine binds_mono (binds_ok (R := fun _ x => x = []) _ (fun _ => rfl)) ?_
    rintro es x D ⟨rfl, rfl⟩
    exact .noExprs _
  | e :: l, c, h => by
    rw [analyzeExprs]
    refine binds_map (binds_zip (bind_expr fl e c (h e (by simp))) (bind_exprs fl l c (fun x hx => h x (by simp [hx])))) ?_
    rintro es x D ⟨D₁, D₂, rfl, h1, h2⟩
    exact .exprs h1 h2

theorem bind_lit (fl : Flags) : ∀ (l : Lit) (pos : Pos) (c : Ctx), Everywhere WrittenRule c (.expr (.lit l pos)) →
    Binds (analyzeLit fl l) (fun es x D => Translates ⟨es, fl.inFunction, fl.inLoop⟩ (.lit l x) D)
  | .nil, pos, c, h => by
    rw [analyzeLit]
    refine binds_mono (binds_ok (R := fun _ x => x = .nil) _ (fun _ => rfl)) ?_
    rintro es x D ⟨rfl, rfl⟩; exact .nil _
  | .bool b, pos, c, h => by
    rw [analyzeLit]
    refine binds_mono (binds_ok (R := fun _ x => x = .bool b) _ (fun _ => rfl)) ?_
    rintro es x D ⟨rfl, rfl⟩; exact .bool _ _
  | .int b, pos, c, h => by
    rw [analyzeLit]
    refine binds_mono (binds_ok (R := fun _ x => x = .int b) _ (fun _ => rfl)) ?_
    rintro es x D ⟨rfl, rfl⟩; exact .int _ _
  | .float b, pos, c, h => by
    rw [analyzeLit]
    refine binds_mono (binds_ok (R := fun _ x => x = .float b) _ (fun _ => rfl)) ?_
    rintro es x D ⟨rfl, rfl⟩; exact .float _ _
  | .byte b, pos, c, h => by
    rw [analyzeLit]
    refine binds_mono (binds_ok (R := fun _ x => x = .byte b) _ (fun _ => rfl)) ?_
    rintro es x D ⟨rfl, rfl⟩; exact .byte _ _
  | .string b, pos, c, h => by
    rw [analyzeLit]
    refine binds_mono (binds_ok (R := fun _ x => x = .string b) _ (fun _ => rfl)) ?_
    rintro es x D ⟨rfl, rfl⟩; exact .string _ _
  | .array l, pos, c, h => by
    rw [analyzeLit]
    exact binds_map (bind_exprs fl l c (fun a ha => h.child (.item _ _ _ _ ha))) (fun es x D hx => .array hx)
  | .dict items, pos, c, h => by
    have hd := binds_map (f := Prog.Lit.dict)
      (S := fun es x D => Translates ⟨es, fl.inFunction, fl.inLoop⟩ (.lit (.dict items) x) D)
      (bind_fields fl items c (fun i hi => h.child (.value c i.1 i.2 items pos hi)))
      (fun es x D hx => .dict hx)
    constructor
    · intro st x st' hh
      rw [analyzeLit] at hh
      exact hd.grows (st := { st with dictKeys := [] }) hh
    · intro st x st' D Ds es hh hf hi
      rw [analyzeLit] at hh
      exact hd.sound (st := { st with dictKeys := [] }) hh hf hi
  | .function ps b, pos, c, h => binds_function h.here fl (bind_block ⟨true, false⟩ b _ (h.child (.body ..)))
  | .ident x, pos, c, h => by
    rw [analyzeLit]
    split
    · exact binds_fail
    · refine binds_mono (binds_ok (R := fun _ y => y = .ident x) _ (fun _ => rfl)) ?_
      rintro es x D ⟨rfl, rfl⟩; exact .key _ _

theorem bind_fields (fl : Flags) : ∀ (items : List ((Sym × Pos) × Expr)) (c : Ctx),
    (∀ i ∈ items, Everywhere WrittenRule c (.expr i.2)) →
    Binds (analyzeItemsDict fl items) (fun es x D => Translates ⟨es, fl.inFunction, fl.inLoop⟩ (.fields items x) D)
  | [], c, _ => by
    rw [analyzeItemsDict]
    refine binds_mono (binds_ok (R := fun _ x => x = []) _ (fun _ => rfl)) ?_
    rintro es x D ⟨rfl, rfl⟩
    exact .noFields _
  | ((k, pos), e) :: items, c, h => by
    rw [analyzeItemsDict]
    refine binds_map (binds_zip (binds_zip (binds_insertKey k pos) (bind_expr fl e c (h ((k, pos), e) (by simp))))
      (bind_fields fl items c (fun i hi => h i (by simp [hi])))) ?_
    rintro es x D ⟨D₁, D₂, rfl, ⟨D₃, D₄, rfl, ⟨rfl, h1⟩, h2⟩, h3⟩
    obtain ⟨⟨k', e'⟩, l⟩ := x
    simp only at h1 h2 h3
    subst h1
    exact .fields _ _ h2 h3

theorem bind_lvalue (fl : Flags) (pos : Pos) : ∀ (l : Expr) (c : Ctx), Everywhere WrittenRule c (.expr l) →
    Binds (analyzeLvalue fl pos l) (fun es x D => Translates ⟨es, fl.inFunction, fl.inLoop⟩ (.lvalue l x) D)
  | .ident x ipos, c, h => by
    rw [analyzeLvalue]
    split
    · exact binds_report _ _
    · refine binds_map (binds_resolve h.here ipos) ?_
      rintro es s D ⟨rfl, hs⟩
      exact .lvar ipos hs
  | .access o f apos, c, h => by
    rw [analyzeLvalue]
    refine binds_map (binds_zip (bind_expr fl o c (h.child (.object ..))) (bind_expr fl f c (h.child (.field ..)))) ?_
    rintro es x D ⟨D₁, D₂, rfl, h1, h2⟩
    exact .laccess apos h1 h2
  | .illFormed, c, h => binds_lvalue_other (by simp) (by simp)
  | .self_ _, c, h => binds_lvalue_other (by simp) (by simp)
  | .lit _ _, c, h => binds_lvalue_other (by simp) (by simp)
  | .unary _ _ _, c, h => binds_lvalue_other (by simp) (by simp)
  | .binary _ _ _ _, c, h => binds_lvalue_other (by simp) (by simp)
  | .if_ _ _ _ _, c, h => binds_lvalue_other (by simp) (by simp)
  | .call _ _ _, c, h => binds_lvalue_other (by simp) (by simp)
  | .command _ _, c, h => binds_lvalue_other (by simp) (by simp)

theorem bind_stmt (fl : Flags) : ∀ (s : Stmt) (c : Ctx), Everywhere WrittenRule c (.stmt s) →
    (∀ x e p, s ≠ .let_ x e p) →
    Binds (analyzeStmt fl s) (fun es x D => Translates ⟨es, fl.inFunction, fl.inLoop⟩ (.stmt s x) D)
  | .illFormed, c, h, _ => absurd h.here (by simp [WrittenRule])
  | .let_ x init pos, c, h, hn => absurd rfl (hn x init pos)
  | .assign l r pos, c, h, _ => by
    rw [analyzeStmt]
    refine binds_map (binds_zip (bind_lvalue fl pos l c (h.child (.assignLeft ..)))
      (bind_expr fl r c (h.child (.assignRight ..)))) ?_
    rintro es x D ⟨D₁, D₂, rfl, h1, h2⟩
    exact .assign pos h1 h2
  | .return_ e pos, c, h, _ => by
    rw [analyzeStmt]
    have hf : Binds (if fl.inFunction = true then A.ok () else A.report .returnOutsideFunction pos)
        (Pure_ (fun _ _ => fl.inFunction = true)) := by
      split
      · rename_i hf; exact binds_ok _ (fun _ => hf)
      · exact binds_report _ _
    refine binds_map (binds_zip hf (bind_expr fl e c (h.child (.returned ..)))) ?_
    rintro es x D ⟨D₁, D₂, rfl, ⟨rfl, h1⟩, h2⟩
    exact .return_ pos h1 h2
  | .break_ pos, c, h, _ => by
    rw [analyzeStmt]
    split
    · rename_i hf
      refine binds_mono (binds_ok (R := fun _ x => x = .break_) _ (fun _ => rfl)) ?_
      rintro es x D ⟨rfl, rfl⟩
      exact .break_ pos hf
    · exact binds_report _ _
  | .while_ e b pos, c, h, _ => by
    rw [analyzeStmt]
    refine binds_map (binds_zip (bind_expr fl e c (h.child (.whileCond ..)))
      (binds_inBlock (bind_block { fl with inLoop := true } b _ (h.child (.whileBody ..))))) ?_
    rintro es x D ⟨D₁, D₂, rfl, h1, h2⟩
    exact .while_ pos h1 (by rw [loop_eq]; exact h2)
  | .for_ x e b pos, c, h, _ => by
    have hx : UserName x := h.here
    rw [analyzeStmt, symIll_false hx]
    refine binds_map (binds_zip (bind_expr fl e c (h.child (.forExpr ..)))
      (binds_inBlock (binds_declThen hx pos (bind_block { fl with inLoop := true } b _ (h.child (.forBody ..)))))) ?_
    rintro es y D ⟨D₁, D₂, rfl, h1, D₃, rfl, h2⟩
    exact .for_ x pos h1 (by rw [loop_eq, declare_eq]; exact h2)
  | .expr e, c, h, _ => by
    rw [analyzeStmt]
    exact binds_map (bind_expr fl e c (h.child (.stmtExpr ..))) (fun es x D hx => .expr hx)

theorem bind_block (fl : Flags) : ∀ (b : List Stmt) (c : Ctx), Everywhere WrittenRule c (.block b) →
    BindsIn (analyzeBlock fl b) (fun es x D => Translates ⟨es, fl.inFunction, fl.inLoop⟩ (.block b x) D)
  | [], c, _ => by
    rw [analyzeBlock]
    refine (binds_mono (binds_ok (R := fun _ x => x = []) _ (fun _ => rfl)) ?_).in
    rintro es x D ⟨rfl, rfl⟩
    exact .noStmts _
  | .let_ x e pos :: ss, c, h => by
    have hs := h.child (.first ..)
    rw [analyzeBlock, analyzeStmt]
    refine binds_inMap (binds_letThen hs.here pos (bind_expr fl e _ (hs.child (.letInit ..)))
      (bind_block fl ss _ (h.child (.rest ..)))) ?_
    rintro es y D ⟨slot, u, D₁, D₂, hy, rfl, h1, h2⟩
    rw [hy]
    exact .let_ x pos (by rw [declare_eq]; exact h1) (by rw [declare_eq]; exact h2)
  | .illFormed :: ss, c, h => absurd (h.child (.first ..)).here (by simp [WrittenRule])
  | .assign l r pos :: ss, c, h => by
    rw [analyzeBlock]
    refine binds_inMap (binds_thenIn (bind_stmt fl _ c (h.child (.first ..)) (by simp))
      (bind_block fl ss _ (h.child (.rest ..)))) ?_
    rintro es y D ⟨D₁, D₂, rfl, h1, h2⟩
    exact .stmts h1 h2
  | .return_ e pos :: ss, c, h => by
    rw [analyzeBlock]
    refine binds_inMap (binds_thenIn (bind_stmt fl _ c (h.child (.first ..)) (by simp))
      (bind_block fl ss _ (h.child (.rest ..)))) ?_
    rintro es y D ⟨D₁, D₂, rfl, h1, h2⟩
    exact .stmts h1 h2
  | .break_ pos :: ss, c, h => by
    rw [analyzeBlock]
    refine binds_inMap (binds_thenIn (bind_stmt fl _ c (h.child (.first ..)) (by simp))
      (bind_block fl ss _ (h.child (.rest ..)))) ?_
    rintro es y D ⟨D₁, D₂, rfl, h1, h2⟩
    exact .stmts h1 h2
  | .while_ e b pos :: ss, c, h => by
    rw [analyzeBlock]
    refine binds_inMap (binds_thenIn (bind_stmt fl _ c (h.child (.first ..)) (by simp))
      (bind_block fl ss _ (h.child (.rest ..)))) ?_
    rintro es y D ⟨D₁, D₂, rfl, h1, h2⟩
    exact .stmts h1 h2
  | .for_ x e b pos :: ss, c, h => by
    rw [analyzeBlock]
    refine binds_inMap (binds_thenIn (bind_stmt fl _ c (h.child (.first ..)) (by simp))
      (bind_block fl ss _ (h.child (.rest ..)))) ?_
    rintro es y D ⟨D₁, D₂, rfl, h1, h2⟩
    exact .stmts h1 h2
  | .expr e :: ss, c, h => by
    rw [analyzeBlock]
    refine binds_inMap (binds_thenIn (bind_stmt fl _ c (h.child (.first ..)) (by simp))
      (bind_block fl ss _ (h.child (.rest ..)))) ?_
    rintro es y D ⟨D₁, D₂, rfl, h1, h2⟩
    exact .stmts h1 h2

end

/-- The analyser translates correctly. -/
theorem analyze_translates (b : Block) (hw : Throughout WrittenRule b) (p : Program) (h : analyze b = .ok p) :
    TranslatesProgram b p := by
  have hb := bind_block ⟨false, false⟩ b .root hw
  simp only [analyze] at h
  generalize hr : analyzeBlock ⟨false, false⟩ b AState.initial = r at h
  obtain ⟨res, st⟩ := r
  split at h
  · simp at h
  · simp only at h
    split at h
    · rename_i stmts
      split at h
      · cases h
        have hg := hb.grows hr
        generalize hk : st.frames = gs at hg
        cases hg with
        | @cons _ g _ gs hfg hg =>
        cases hg
        simp only [AState.exitFrame, hk]
        have hi : FramesInv [[0]] AState.initial.frames
            [⟨[[("std".toUTF8.toList, 0)]], ⟨g.slots, g.captures, g.selfSlot⟩⟩] := by
          refine .cons ⟨fun x hx => ?_, ?_, by simp [Frame.new], by simp [given, Frame.new], by simp [given, Frame.new]⟩ .nil
          · rw [show "std".toUTF8.toList = stdName by decide +kernel]; rfl
          · intro x s root hr hs
            simp only [List.getLast?_singleton, Option.some.injEq] at hr
            subst hr
            rw [find_cons, if_neg] at hs
            · simp [Scope.find] at hs
            · exact Ne.symm (userName_ne_closed ⟨by decide, by decide⟩)
        have hf : Final st.frames [⟨[[("std".toUTF8.toList, 0)]], ⟨g.slots, g.captures, g.selfSlot⟩⟩] := by
          rw [hk]; exact .cons (fun c hc => hc) (fun s hs => hs) (Nat.le_refl _) .nil
        obtain ⟨D, s', h1, h2⟩ := hb.sound hr rfl hf hi
        rw [hk] at h1
        cases h1 with
        | cons h1 _ =>
          have hcap : g.captures = [] := by
            cases hc : g.captures with
            | nil => rfl
            | cons k ks =>
              obtain ⟨x, hx⟩ := h1.captures k (by simp [hc])
              cases hx
          have hnd := h1.nodup
          have hbl := h1.below
          simp only [given, hcap, List.map_nil, List.append_nil, List.singleton_append] at hnd hbl
          refine ⟨⟨g.slots, g.captures, g.selfSlot⟩, D, rfl, hcap, h2, ?_, ?_⟩
          · exact (List.nodup_append.mp hnd).1
          · intro s hs; exact hbl s (List.mem_append_left _ hs)
      · simp at h
    · simp at h

end Hush

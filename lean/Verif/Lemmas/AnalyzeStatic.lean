import Verif.Lemmas.AnalyzeBasic

/-!
The analyser against the static rules: every report is justified by a violation, a result is produced exactly when
nothing is reported, and then the rules hold.
-/

namespace Hush
open Ast (Expr Lit Stmt Block Argument BasicCommand Command CommandBlock Redirection)
open Spec

/-- What an error kind of the analyser stands for. -/
def SemErrorKind.meaning : SemErrorKind → StaticError
  | .undeclaredVariable x => .undeclared x
  | .duplicateVariable x => .duplicate x
  | .duplicateKey x => .key x
  | .returnOutsideFunction => .return_
  | .selfOutsideFunction => .self_
  | .tryOutsideFunction => .try_
  | .breakOutsideLoop => .break_
  | .invalidAssignment => .assignment
  | .asyncBuiltin => .builtin

/-- An error is justified by a violation somewhere in the node. -/
def Justified (c : Ctx) (n : Node) (e : SemError) : Prop :=
  ∃ c' n', Occurs c n c' n' ∧ Violates c' n' e.pos e.kind.meaning

theorem Justified.child {c n c' n' e} (h : Child c n c' n') (j : Justified c' n' e) : Justified c n e := by
  obtain ⟨c₂, n₂, ho, hv⟩ := j
  exact ⟨c₂, n₂, .step h ho, hv⟩

theorem Justified.here {c n} {e : SemError} (h : Violates c n e.pos e.kind.meaning) : Justified c n e :=
  ⟨c, n, .here _ _, h⟩

theorem Spec.Everywhere.here {r c n} (h : Everywhere r c n) : r c n := h _ _ (.here _ _)

theorem Spec.Everywhere.child {r c n c' n'} (h : Everywhere r c n) (hc : Child c n c' n') : Everywhere r c' n' :=
  fun _ _ ho => h _ _ (.step hc ho)

theorem everywhere_intro {r : Ctx → Node → Prop} {c n} (h : r c n)
    (hc : ∀ c' n', Child c n c' n' → Everywhere r c' n') : Everywhere r c n := by
  intro c' n' ho
  cases ho with
  | here => exact h
  | step hch ho => exact hc _ _ hch _ _ ho

/-! ### Which scopes declare a name -/

def specView (x : Sym) (scopes : List (List Sym)) : List Bool := scopes.map (fun s => decide (x ∈ s))

def stView (x : Sym) (fs : List Frame) : List Bool :=
  fs.flatMap (fun f => f.scopes.map (fun s => (Scope.find s x).isSome))

/-- The analyser's scopes declare the names of the context. -/
def Matches (c : Ctx) (st : AState) : Prop := ∀ x, UserName x → specView x c.scopes = stView x st.frames

theorem declares_iff (c : Ctx) (x : Sym) : c.Declares x ↔ true ∈ specView x c.scopes := by
  simp [Ctx.Declares, specView]

theorem frame_resolve_isSome (f : Frame) (x : Sym) :
    (f.resolve x).isSome ↔ true ∈ f.scopes.map (fun s => (Scope.find s x).isSome) := by
  simp only [Frame.resolve, List.findSome?_isSome_iff, List.mem_map]

theorem userName_ne_closed {x y : Sym} (h : UserName x) : x ≠ closedName y := by
  intro he
  apply h.2
  rw [he]
  simp [closedName, closedSuffix]

theorem find_cons (y : Sym) (n : Nat) (s : Scope) (x : Sym) :
    Scope.find ((y, n) :: s) x = if x = y then some n else Scope.find s x := by
  simp only [Scope.find, List.lookup_cons]
  by_cases h : x = y
  · subst h; simp
  · have : (x == y) = false := by simpa using h
    simp [h, this]

theorem insertRoot_view {x y : Sym} (h : x ≠ y) (n : Nat) (ss : List Scope) :
    (insertRoot y n ss).map (fun s => (Scope.find s x).isSome) = ss.map (fun s => (Scope.find s x).isSome) := by
  induction ss with
  | nil => rfl
  | cons s ss ih =>
    cases ss with
    | nil => simp [insertRoot, find_cons, h]
    | cons t ss => simp only [insertRoot, List.map_cons] at ih ⊢; rw [ih]

theorem capture_view {x y : Sym} (h : x ≠ y) (f : Frame) (p : Nat) :
    (f.capture y p).2.scopes.map (fun s => (Scope.find s x).isSome) =
      f.scopes.map (fun s => (Scope.find s x).isSome) := by
  simp only [Frame.capture]
  split
  · rfl
  · exact insertRoot_view h _ _

theorem resolveFrames_view {x : Sym} {fs slot fs'} (h : resolveFrames x fs = some (slot, fs')) (y : Sym)
    (hy : UserName y) : stView y fs' = stView y fs := by
  induction fs generalizing slot fs' with
  | nil => simp [resolveFrames] at h
  | cons f fs ih =>
    simp only [resolveFrames] at h
    split at h
    · simp only [Option.some.injEq, Prod.mk.injEq] at h
      rw [← h.2]
    · split at h
      · simp at h
      · rename_i parent rest' hr
        simp only [Option.some.injEq, Prod.mk.injEq] at h
        rw [← h.2]
        have := ih hr
        simp only [stView] at this
        simp only [stView, List.flatMap_cons, this, capture_view (userName_ne_closed hy)]

theorem resolveFrames_isSome {x : Sym} {fs} : (resolveFrames x fs).isSome ↔ true ∈ stView x fs := by
  induction fs with
  | nil => simp [resolveFrames, stView]
  | cons f fs ih =>
    simp only [stView, List.flatMap_cons, List.mem_append] at ih ⊢
    rw [← ih, ← frame_resolve_isSome]
    simp only [resolveFrames]
    cases hf : f.resolve x <;> simp
    cases hr : resolveFrames x fs <;> simp

/-! ### The judgement on analysis steps -/

/-- From state `st`, the step ends in context `c'`, reports only errors satisfying `J`, has a result
exactly when it reports nothing, and then `S` holds. -/
def GoodAt (J : SemError → Prop) (S : Prop) (c' : Ctx) (a : A α) (st : AState) : Prop :=
  Matches c' (a st).2 ∧ ∃ es, (a st).2.errors = st.errors ++ es ∧ (∀ e ∈ es, J e) ∧
    ((a st).1.isSome = true ↔ es = []) ∧ ((a st).1.isSome = true → S)

/-- The same from every state in context `c`. -/
def AnGood (J : SemError → Prop) (S : Prop) (c c' : Ctx) (a : A α) : Prop :=
  Tidy a ∧ ∀ st, Shaped st → Matches c st → GoodAt J S c' a st

theorem AnGood.mono {J J' : SemError → Prop} {S S' c c'} {a : A α} (h : AnGood J S c c' a) (hj : ∀ e, J e → J' e)
    (hs : S → S') : AnGood J' S' c c' a := by
  refine ⟨h.1, fun st hsh hm => ?_⟩
  obtain ⟨h1, es, h2, h3, h4, h5⟩ := h.2 st hsh hm
  exact ⟨h1, es, h2, fun e he => hj e (h3 e he), h4, fun hx => hs (h5 hx)⟩

theorem an_ok (J S c) (a : α) (hs : S) : AnGood J S c c (A.ok a) :=
  ⟨tidy_ok a, fun st _ hm => ⟨hm, [], by simp, by simp, by simp, fun _ => hs⟩⟩

theorem an_report (J : SemError → Prop) (S c) (k p) (hj : J ⟨k, p⟩) : AnGood J S c c (A.report k p : A α) :=
  ⟨tidy_report k p, fun st _ hm => ⟨hm, [⟨k, p⟩], rfl, by simpa using hj, by simp [A.report], by simp [A.report]⟩⟩

theorem an_map {J S c c'} {f : α → β} {a : A α} (h : AnGood J S c c' a) : AnGood J S c c' (A.map f a) := by
  refine ⟨tidy_map h.1, fun st hs hm => ?_⟩
  obtain ⟨h1, es, h2, h3, h4, h5⟩ := h.2 st hs hm
  refine ⟨h1, es, h2, h3, ?_, ?_⟩
  · simpa [A.map] using h4
  · simpa [A.map] using h5

theorem goodAt_zip {J S S' c₁ c₂} {a : A α} {b : A β} {st : AState} (ha : GoodAt J S c₁ a st)
    (hb : GoodAt J S' c₂ b (a st).2) : GoodAt J (S ∧ S') c₂ (A.zip a b) st := by
  obtain ⟨h1, es, h2, h3, h4, h5⟩ := ha
  obtain ⟨g1, es', g2, g3, g4, g5⟩ := hb
  have e2 : (A.zip a b st).2 = (b (a st).2).2 := by
    simp only [A.zip]; split <;> rfl
  have e1 : (A.zip a b st).1.isSome = ((a st).1.isSome && (b (a st).2).1.isSome) := by
    simp only [A.zip]
    cases (a st).1 <;> cases (b (a st).2).1 <;> rfl
  unfold GoodAt
  rw [e2, e1]
  refine ⟨g1, es ++ es', by rw [g2, h2, List.append_assoc], ?_, ?_, ?_⟩
  · intro e he
    rcases List.mem_append.mp he with h | h
    · exact h3 e h
    · exact g3 e h
  · simp [h4, g4]
  · intro h
    simp only [Bool.and_eq_true] at h
    exact ⟨h5 h.1, g5 h.2⟩

theorem goodAt_map {J S c'} {f : α → β} {a : A α} {st : AState} (h : GoodAt J S c' a st) :
    GoodAt J S c' (A.map f a) st := by
  obtain ⟨h1, es, h2, h3, h4, h5⟩ := h
  refine ⟨h1, es, h2, h3, ?_, ?_⟩
  · simpa [A.map] using h4
  · simpa [A.map] using h5

theorem GoodAt.mono {J J' : SemError → Prop} {S S' c'} {a : A α} {st : AState} (h : GoodAt J S c' a st)
    (hj : ∀ e, J e → J' e) (hs : S → S') : GoodAt J' S' c' a st := by
  obtain ⟨h1, es, h2, h3, h4, h5⟩ := h
  exact ⟨h1, es, h2, fun e he => hj e (h3 e he), h4, fun hx => hs (h5 hx)⟩

theorem an_zip {J S S' c c₁ c₂} {a : A α} {b : A β} (ha : AnGood J S c c₁ a) (hb : AnGood J S' c₁ c₂ b) :
    AnGood J (S ∧ S') c c₂ (A.zip a b) :=
  ⟨tidy_zip ha.1 hb.1, fun st hs hm =>
    goodAt_zip (ha.2 st hs hm) (hb.2 _ (ha.1.shaped hs) (ha.2 st hs hm).1)⟩

theorem an_andThen {J S S' c c₁} {a : A α} {f : α → A β} (ha : AnGood J S c c₁ a)
    (hf : ∀ x, S → AnGood J S' c₁ c₁ (f x)) (hft : ∀ x, Tidy (f x)) :
    AnGood J (S ∧ S') c c₁ (A.andThen a f) := by
  refine ⟨tidy_andThen ha.1 hft, fun st hs hm => ?_⟩
  obtain ⟨h1, es, h2, h3, h4, h5⟩ := ha.2 st hs hm
  simp only [GoodAt, A.andThen]
  cases hx : (a st).1 with
  | none =>
    simp only [hx] at h4 h5 ⊢
    exact ⟨h1, es, h2, h3, h4, by simp⟩
  | some x =>
    simp only [hx] at h4 h5 ⊢
    have hes : es = [] := by simpa using h4
    subst hes
    have hS := h5 rfl
    obtain ⟨g1, es', g2, g3, g4, g5⟩ := (hf x hS).2 (a st).2 (ha.1.shaped hs) h1
    refine ⟨g1, es', by rw [g2, h2]; simp, g3, g4, fun h => ⟨hS, g5 h⟩⟩

theorem an_items {J c} {S : α → Prop} {f : α → A β} (xs : List α)
    (hf : ∀ x ∈ xs, AnGood J (S x) c c (f x)) : AnGood J (∀ x ∈ xs, S x) c c (analyzeItems f xs) := by
  induction xs with
  | nil => exact an_ok J _ c _ (by simp)
  | cons x xs ih =>
    have := an_map (f := fun p : β × List β => p.1 :: p.2) (an_zip (hf x (by simp)) (ih (fun y hy => hf y (by simp [hy]))))
    refine this.mono (fun _ h => h) ?_
    simp

theorem an_inBlock {J S c c'} {a : A α} (ha : AnGood J S c.block c' a)
    (hc : c'.scopes.tail = c.scopes) : AnGood J S c c (inBlock a) := by
  refine ⟨tidy_inBlock ha.1, fun st hs hm => ?_⟩
  obtain ⟨frames, keys, errs, cr⟩ := st
  cases frames with
  | nil => exact absurd rfl hs.1
  | cons f fs =>
    have h0 : Shaped (AState.enterBlock ⟨f :: fs, keys, errs, cr⟩) := by
      refine ⟨by simp [AState.enterBlock], ?_⟩
      intro g hg
      simp only [AState.enterBlock, List.mem_cons] at hg
      rcases hg with rfl | hg
      · simp
      · exact hs.2 g (by simp [hg])
    have hm0 : Matches c.block (AState.enterBlock ⟨f :: fs, keys, errs, cr⟩) := by
      intro x hx
      have := hm x hx
      simp only [specView, stView, List.flatMap_cons] at this
      simp [AState.enterBlock, specView, stView, Ctx.block, this, Scope.find]
    have ht := ha.1 _ h0
    obtain ⟨h1, es, h2, h3, h4, h5⟩ := ha.2 _ h0 hm0
    simp only [GoodAt, inBlock]
    generalize a (AState.enterBlock ⟨f :: fs, keys, errs, cr⟩) = r at ht h1 h2 h4 h5
    obtain ⟨res, fr1, k1, e1, c1⟩ := r
    simp only at h2 h4 h5
    have hx : ∃ es, (AState.exitBlock ⟨fr1, k1, e1, c1⟩).errors = errs ++ es ∧ (∀ e ∈ es, J e) ∧
        (res.isSome = true ↔ es = []) ∧ (res.isSome = true → S) := by
      refine ⟨es, ?_, h3, h4, h5⟩
      have : (AState.exitBlock ⟨fr1, k1, e1, c1⟩).errors = e1 := by
        simp only [AState.exitBlock]; split <;> try split
        all_goals rfl
      rw [this, h2]
      rfl
    refine ⟨?_, hx⟩
    simp only [AState.enterBlock, shape, List.map_cons, List.length_cons] at ht
    cases fr1 with
    | nil => simp at ht
    | cons g gs =>
      simp only [List.map_cons, List.cons.injEq] at ht
      intro x hx
      have := h1 x hx
      simp only [AState.exitBlock]
      split
      · rename_i hnil; simp [hnil] at ht
      · rename_i s scopes hsc
        simp only [specView, stView, List.flatMap_cons, hsc, List.map_cons] at this ⊢
        rw [← hc]
        cases hcs : c'.scopes with
        | nil => simp [hcs] at this
        | cons s' ss' =>
          simp only [hcs, List.map_cons, List.cons_append, List.cons.injEq] at this
          exact this.2

/-! ### Names -/

theorem an_resolve {J : SemError → Prop} {c : Ctx} {x : Sym} {p : Pos} (hu : UserName x)
    (hj : ¬ c.Declares x → J ⟨.undeclaredVariable x, p⟩) : AnGood J (c.Declares x) c c (resolve x p) := by
  refine ⟨tidy_resolve x p, fun st hs hm => ?_⟩
  simp only [GoodAt, resolve]
  cases h : resolveFrames x st.frames with
  | none =>
    have hn : ¬ c.Declares x := by
      rw [declares_iff, hm x hu, ← resolveFrames_isSome, h]; simp
    exact ⟨hm, [⟨.undeclaredVariable x, p⟩], rfl, by simpa using hj hn, by simp [A.report], by simp [A.report]⟩
  | some r =>
    obtain ⟨slot, frames⟩ := r
    have hd : c.Declares x := by
      rw [declares_iff, hm x hu, ← resolveFrames_isSome, h]; simp
    refine ⟨fun y hy => ?_, [], by simp, by simp, by simp, fun _ => hd⟩
    rw [hm y hy]
    exact (resolveFrames_view h y hy).symm

theorem symIll_false {x : Sym} (hu : UserName x) : symIll x = false := by
  simp only [symIll]
  simpa using hu.1

theorem an_resolveIdent {J : SemError → Prop} {c : Ctx} {x : Sym} {p : Pos} (hu : UserName x)
    (hj : ¬ c.Declares x → J ⟨.undeclaredVariable x, p⟩) : AnGood J (c.Declares x) c c (resolveIdent x p) := by
  unfold resolveIdent
  rw [symIll_false hu]
  exact an_resolve hu hj

theorem matches_scopes {c : Ctx} {st : AState} (hs : Shaped st) (hm : Matches c st) {x : Sym} (hu : UserName x) :
    ∃ s rest, c.scopes = s :: rest := by
  obtain ⟨frames, keys, errs, cr⟩ := st
  cases frames with
  | nil => exact absurd rfl hs.1
  | cons f fs =>
    have h1 := hs.2 f (by simp)
    have h2 := hm x hu
    cases hf : f.scopes with
    | nil => exact absurd hf h1
    | cons s ss =>
      cases hc : c.scopes with
      | nil => simp [hc, hf, specView, stView] at h2
      | cons s rest => exact ⟨s, rest, rfl⟩

theorem an_declare {J : SemError → Prop} {c : Ctx} {x : Sym} {p : Pos} (hu : UserName x)
    (hj : c.DeclaresHere x → J ⟨.duplicateVariable x, p⟩) :
    AnGood J (¬ c.DeclaresHere x) c (c.declare x) (declare x p) := by
  refine ⟨tidy_declare x p, fun st hs hm => ?_⟩
  obtain ⟨s', rest', hc⟩ := matches_scopes hs hm hu
  obtain ⟨frames, keys, errs, cr⟩ := st
  cases frames with
  | nil => exact absurd rfl hs.1
  | cons f fs =>
    have h1 := hs.2 f (by simp)
    cases hf : f.scopes with
    | nil => exact absurd hf h1
    | cons s ss =>
      have hview : ∀ y, UserName y → decide (y ∈ s') = (Scope.find s y).isSome ∧
          specView y rest' = ss.map (fun s => (Scope.find s y).isSome) ++ stView y fs := by
        intro y hy
        have := hm y hy
        simpa [hc, hf, specView, stView] using this
      have hhere : c.DeclaresHere x ↔ (Scope.find s x).isSome = true := by
        rw [← (hview x hu).1]
        simp [Ctx.DeclaresHere, hc]
      simp only [GoodAt, declare, hf]
      cases hfx : Scope.find s x with
      | some n =>
        have hd : c.DeclaresHere x := by rw [hhere, hfx]; rfl
        refine ⟨?_, [⟨.duplicateVariable x, p⟩], rfl, by simpa using hj hd, by simp [A.report], by simp [A.report]⟩
        intro y hy
        have hy' := hview y hy
        have e1 : stView y (f :: fs) = (Scope.find s y).isSome :: (ss.map (fun s => (Scope.find s y).isSome) ++ stView y fs) := by
          simp [stView, hf]
        show specView y (c.declare x).scopes = stView y (f :: fs)
        rw [e1, ← hy'.1, ← hy'.2]
        simp only [Ctx.declare, hc, specView, List.map_cons, List.cons.injEq, and_true, decide_eq_decide]
        by_cases hyx : y = x
        · subst hyx
          have : y ∈ s' := by
            have := (hview y hy).1
            rw [hfx] at this
            simpa using this
          simp [this]
        · simp [hyx]
      | none =>
        have hd : ¬ c.DeclaresHere x := by rw [hhere, hfx]; simp
        refine ⟨?_, [], by simp, by simp, by simp, fun _ => hd⟩
        intro y hy
        have hy' := hview y hy
        simp only [Ctx.declare, hc, specView, stView, List.map_cons, List.flatMap_cons, List.cons_append,
          List.cons.injEq, find_cons]
        refine ⟨?_, ?_⟩
        · by_cases hyx : y = x
          · simp [hyx]
          · simp [hyx, ← hy'.1]
        · have := hy'.2
          simpa [specView, stView] using this

/-! ### Commands -/

theorem an_argUnit {J : SemError → Prop} {c : Ctx} (u : ArgUnit) (hw : ∀ x ∈ unitVars u, UserName x)
    (hj : ∀ x ∈ unitVars u, ¬ c.Declares x → ∀ p, J ⟨.undeclaredVariable x, p⟩) :
    AnGood J (∀ x ∈ unitVars u, c.Declares x) c c (analyzeArgUnit u) := by
  cases u with
  | literal s => exact an_ok _ _ _ _ (by simp [unitVars])
  | dollar x p =>
    have := an_map (f := fun slot => Prog.ArgUnit.dollar slot p)
      (an_resolveIdent (J := J) (c := c) (p := p) (hw x (by simp [unitVars])) (fun h => hj x (by simp [unitVars]) h p))
    exact this.mono (fun _ h => h) (by simp [unitVars])

theorem an_argument {J : SemError → Prop} {c : Ctx} (a : Argument) (hw : ArgWritten a)
    (hj : ∀ x ∈ argVars a, ¬ c.Declares x → ∀ p, J ⟨.undeclaredVariable x, p⟩) :
    AnGood J (∀ x ∈ argVars a, c.Declares x) c c (analyzeArgument a) := by
  have hill : argIll a = false := by simpa [argIll] using hw.1
  unfold analyzeArgument
  rw [hill]
  simp only [Bool.false_eq_true, if_false]
  apply an_map
  have hw2 := hw.2
  have h := an_items (J := J) (c := c) (f := analyzeArgPart)
    (S := fun part => ∀ x ∈ argVars ⟨[part], a.pos⟩, c.Declares x) a.parts ?_
  · refine h.mono (fun _ h => h) ?_
    intro h x hx
    simp only [argVars, List.mem_flatMap] at hx
    obtain ⟨part, hp, hx⟩ := hx
    refine h part hp x ?_
    simp only [argVars, List.flatMap_cons, List.flatMap_nil, List.append_nil]
    exact hx
  · intro part hp
    have hsub : ∀ x ∈ argVars ⟨[part], a.pos⟩, x ∈ argVars a := by
      intro x hx
      simp only [argVars, List.flatMap_cons, List.flatMap_nil, List.append_nil] at hx
      simp only [argVars, List.mem_flatMap]
      exact ⟨part, hp, hx⟩
    cases part with
    | unit u =>
      have hv : argVars ⟨[.unit u], a.pos⟩ = unitVars u := by simp [argVars]
      rw [hv] at hsub ⊢
      exact an_map (an_argUnit u (fun x hx => hw2 x (hsub x hx)) (fun x hx => hj x (hsub x hx)))
    | expansion e =>
      cases e with
      | collection items =>
        have hv : argVars ⟨[.expansion (.collection items)], a.pos⟩ = items.flatMap unitVars := by simp [argVars]
        rw [hv] at hsub ⊢
        have := an_items (J := J) (c := c) (f := analyzeArgUnit) (S := fun u => ∀ x ∈ unitVars u, c.Declares x) items
          (fun u hu => an_argUnit u
            (fun x hx => hw2 x (hsub x (List.mem_flatMap.mpr ⟨u, hu, hx⟩)))
            (fun x hx => hj x (hsub x (List.mem_flatMap.mpr ⟨u, hu, hx⟩))))
        refine an_map (this.mono (fun _ h => h) ?_)
        intro h x hx
        obtain ⟨u, hu, hx⟩ := List.mem_flatMap.mp hx
        exact h u hu x hx
      | _ => exact an_ok _ _ _ _ (by simp [argVars])

theorem an_redirection {J : SemError → Prop} {c : Ctx} (r : Redirection) (hw : RedirWritten r)
    (hj : ∀ x ∈ redirVars r, ¬ c.Declares x → ∀ p, J ⟨.undeclaredVariable x, p⟩) :
    AnGood J (∀ x ∈ redirVars r, c.Declares x) c c (analyzeRedirection r) := by
  cases r with
  | illFormed => exact absurd hw (by simp [RedirWritten])
  | output s t =>
    cases t with
    | fd n => exact an_ok _ _ _ _ (by simp [redirVars])
    | overwrite a => exact an_map (an_argument a hw hj)
    | append a => exact an_map (an_argument a hw hj)
  | input l a => exact an_map (an_argument a hw hj)

theorem isBuiltin_iff (b : BasicCommand) : IsBuiltin b ↔ (Prog.Builtin.ofArgument b.program).isSome = true := by
  have hl : ["alias".toUTF8.toList, "cd".toUTF8.toList, "exec".toUTF8.toList, "exec0".toUTF8.toList,
      "spawn0".toUTF8.toList] = [[97, 108, 105, 97, 115], [99, 100], [101, 120, 101, 99], [101, 120, 101, 99, 48],
      [115, 112, 97, 119, 110, 48]] := by decide +kernel
  have hb : ∀ s, (Prog.Builtin.ofBytes s).isSome = true ↔ s ∈ ["alias".toUTF8.toList, "cd".toUTF8.toList,
      "exec".toUTF8.toList, "exec0".toUTF8.toList, "spawn0".toUTF8.toList] := by
    intro s
    rw [hl]
    simp only [Prog.Builtin.ofBytes, List.mem_cons, List.not_mem_nil, or_false]
    repeat' split
    all_goals simp_all
  simp only [IsBuiltin, Prog.Builtin.ofArgument]
  split
  · rename_i lit h
    rw [hb]
    simp [h]
  · rename_i h
    simp only [Option.isSome_none, Bool.false_eq_true, iff_false]
    rintro ⟨name, hp, -⟩
    exact h _ hp

theorem an_basicCommand {J : SemError → Prop} {c : Ctx} (b : BasicCommand) (hw : BasicWritten b)
    (hj : ∀ x ∈ basicVars b, ¬ c.Declares x → ∀ p, J ⟨.undeclaredVariable x, p⟩)
    (hb : IsBuiltin b → ∀ p, J ⟨.asyncBuiltin, p⟩) :
    AnGood J ((∀ x ∈ basicVars b, c.Declares x) ∧ ¬ IsBuiltin b) c c (analyzeBasicCommand b) := by
  unfold analyzeBasicCommand
  have hib := isBuiltin_iff b
  split
  · rename_i bi h
    exact an_report _ _ _ _ _ (hb (by rw [hib, h]; rfl) _)
  · rename_i h
    have hnb : ¬ IsBuiltin b := by rw [hib, h]; simp
    have hj1 : ∀ x ∈ argVars b.program, ¬ c.Declares x → ∀ p, J ⟨.undeclaredVariable x, p⟩ :=
      fun x hx => hj x (by simp [basicVars, hx])
    have hj2 : ∀ e ∈ b.env, ∀ x ∈ unitVars e.1 ++ argVars e.2, ¬ c.Declares x → ∀ p, J ⟨.undeclaredVariable x, p⟩ := by
      intro e he x hx
      apply hj x
      simp only [basicVars, envVars, List.mem_append, List.mem_flatMap]
      exact Or.inl (Or.inl (Or.inr ⟨e, he, List.mem_append.mp hx⟩))
    have hj3 : ∀ a ∈ b.arguments, ∀ x ∈ argVars a, ¬ c.Declares x → ∀ p, J ⟨.undeclaredVariable x, p⟩ := by
      intro a ha x hx
      apply hj x
      simp only [basicVars, envVars, List.mem_append, List.mem_flatMap]
      exact Or.inl (Or.inr ⟨a, ha, hx⟩)
    have hj4 : ∀ a ∈ b.redirections, ∀ x ∈ redirVars a, ¬ c.Declares x → ∀ p, J ⟨.undeclaredVariable x, p⟩ := by
      intro a ha x hx
      apply hj x
      simp only [basicVars, envVars, List.mem_append, List.mem_flatMap]
      exact Or.inr ⟨a, ha, hx⟩
    have henv := an_items (J := J) (c := c) (f := analyzeEnvItem)
      (S := fun e => (∀ x ∈ unitVars e.1, c.Declares x) ∧ (∀ x ∈ argVars e.2, c.Declares x)) b.env
      (fun e he => an_andThen
        (an_argUnit e.1 (hw.2.1 e he).1 (fun x hx => hj2 e he x (by simp [hx])))
        (fun key _ => an_map (an_argument e.2 (hw.2.1 e he).2 (fun x hx => hj2 e he x (by simp [hx]))))
        (fun key => tidy_map (tidy_argument _)))
    have hall := an_map (f := fun r : Prog.Argument × List (Prog.ArgUnit × Prog.Argument) × List Prog.Argument × List Prog.Redirection =>
        (⟨r.1, r.2.1, r.2.2.1, r.2.2.2, b.abortOnError, b.pos⟩ : Prog.BasicCommand))
      (an_zip (an_argument b.program hw.1 hj1) (an_zip henv
        (an_zip (an_items b.arguments (fun a ha => an_argument a (hw.2.2.1 a ha) (hj3 a ha)))
          (an_items b.redirections (fun r hr => an_redirection r (hw.2.2.2 r hr) (hj4 r hr))))))
    refine hall.mono (fun _ h => h) ?_
    rintro ⟨h1, h2, h3, h4⟩
    refine ⟨?_, hnb⟩
    intro x hx
    simp only [basicVars, envVars, List.mem_append, List.mem_flatMap] at hx
    rcases hx with ((hx | ⟨e, he, hx⟩) | ⟨a, ha, hx⟩) | ⟨r, hr, hx⟩
    · exact h1 x hx
    · rcases hx with hx | hx
      · exact (h2 e he).1 x hx
      · exact (h2 e he).2 x hx
    · exact h3 a ha x hx
    · exact h4 r hr x hx

/-- The variables of a command that the analyser looks at: for a builtin, not those of its environment
assignments. -/
def SeenDeclared (c : Ctx) (cmd : Command) : Prop :=
  (IsBuiltin cmd.head → cmd.head.env = []) → ∀ x ∈ (cmd.head :: cmd.tail).flatMap basicVars, c.Declares x

theorem an_command {J : SemError → Prop} {c : Ctx} (kind : Ast.BlockKind) (cmd : Command)
    (hw : ∀ bc ∈ cmd.head :: cmd.tail, BasicWritten bc)
    (hj : ∀ x ∈ (cmd.head :: cmd.tail).flatMap basicVars, ¬ c.Declares x → ∀ p, J ⟨.undeclaredVariable x, p⟩)
    (hb : ¬ ((IsBuiltin cmd.head → kind = .synchronous ∧ cmd.tail = [] ∧ cmd.head.redirections = []) ∧
      (∀ t ∈ cmd.tail, ¬ IsBuiltin t)) → ∀ p, J ⟨.asyncBuiltin, p⟩) :
    AnGood J (((IsBuiltin cmd.head → kind = .synchronous ∧ cmd.tail = [] ∧ cmd.head.redirections = []) ∧
      (∀ t ∈ cmd.tail, ¬ IsBuiltin t)) ∧ SeenDeclared c cmd) c c (analyzeCommand (kind != .synchronous) cmd) := by
  have hib := isBuiltin_iff cmd.head
  unfold analyzeCommand
  split
  · rename_i bi h
    have his : IsBuiltin cmd.head := by rw [hib, h]; rfl
    split
    · rename_i hcond
      refine an_report _ _ _ _ _ (hb ?_ _)
      rintro ⟨h1, -⟩
      obtain ⟨h2, h3, h4⟩ := h1 his
      simp [h2, h3, h4] at hcond
    · rename_i hcond
      simp only [Bool.or_eq_true, Bool.not_eq_true', not_or, Bool.not_eq_true, bne_eq_false_iff_eq,
        List.isEmpty_iff, Bool.not_eq_false] at hcond
      obtain ⟨⟨hk, ht⟩, hr⟩ := hcond
      have hargs := an_items (J := J) (c := c) (f := analyzeArgument) (S := fun a => ∀ x ∈ argVars a, c.Declares x) cmd.head.arguments
        (fun a ha => an_argument a ((hw cmd.head (by simp)).2.2.1 a ha) (fun x hx => hj x (by
          simp only [List.flatMap_cons, List.mem_append, basicVars, List.mem_flatMap]
          exact Or.inl (Or.inl (Or.inr ⟨a, ha, hx⟩)))))
      refine (an_map hargs).mono (fun _ h => h) ?_
      intro hd
      refine ⟨⟨fun _ => ⟨hk, ht, hr⟩, by simp [ht]⟩, ?_⟩
      intro henv x hx
      have henv := henv his
      obtain ⟨name, hname, -⟩ := his
      have hpv : argVars cmd.head.program = [] := by
        simp [argVars, hname, unitVars]
      simp only [ht, List.flatMap_cons, List.flatMap_nil, List.append_nil, basicVars, envVars, henv, hr, hpv,
        List.nil_append] at hx
      obtain ⟨a, ha, hx⟩ := List.mem_flatMap.mp hx
      exact hd a ha x hx
  · rename_i h
    have hnb : ¬ IsBuiltin cmd.head := by rw [hib, h]; simp
    have h1 := an_basicCommand (J := J) (c := c) cmd.head (hw _ (by simp))
      (fun x hx => hj x (by simp [hx])) (fun h => absurd h hnb)
    have h2 := an_items (J := J) (c := c) (f := analyzeBasicCommand) (S := fun t => (∀ x ∈ basicVars t, c.Declares x) ∧ ¬ IsBuiltin t) cmd.tail
      (fun t ht => an_basicCommand t (hw t (by simp [ht]))
        (fun x hx => hj x (by
          simp only [List.flatMap_cons, List.mem_append, List.mem_flatMap]
          exact Or.inr ⟨t, ht, hx⟩))
        (fun hbt => hb (fun hh => hh.2 t ht hbt)))
    refine (an_map (an_zip h1 h2)).mono (fun _ h => h) ?_
    rintro ⟨⟨g1, -⟩, g2⟩
    refine ⟨⟨fun h => absurd h hnb, fun t ht => (g2 t ht).2⟩, ?_⟩
    intro _ x hx
    simp only [List.flatMap_cons, List.mem_append, List.mem_flatMap] at hx
    rcases hx with hx | ⟨t, ht, hx⟩
    · exact g1 x hx
    · exact (g2 t ht).1 x hx

/-- The rules the analyser guarantees of a node when it accepts it. -/
def SoundRule (c : Ctx) (n : Node) : Prop :=
  PlacementRule c n ∧ (NoBuiltinEnvRule c n → ScopeRule c n) ∧ LvalueRule c n ∧ BuiltinRule c n ∧
    (FlatDictRule c n → KeysRule c n)

theorem an_commandBlock {c : Ctx} (b : CommandBlock) (p : Pos)
    (hw : WrittenRule c (.expr (.command b p))) :
    AnGood (Justified c (.expr (.command b p))) (SoundRule c (.expr (.command b p))) c c (analyzeCommandBlock b) := by
  have hw' : ∀ cmd ∈ b.head :: b.tail, ∀ bc ∈ cmd.head :: cmd.tail, BasicWritten bc := hw
  have hcmd : ∀ cmd ∈ b.head :: b.tail, AnGood (Justified c (.expr (.command b p))) _ c c
      (analyzeCommand (b.kind != .synchronous) cmd) := fun cmd hcmd =>
    an_command b.kind cmd (hw' cmd hcmd)
      (fun x hx hd pos => Justified.here ⟨hd, Or.inr ⟨b, p, rfl, by
        simp only [blockVars, List.mem_flatMap]
        exact ⟨cmd, hcmd, by simpa [List.mem_flatMap] using hx⟩⟩⟩)
      (fun hnb pos => Justified.here ⟨b, p, rfl, fun hr => hnb (hr cmd hcmd)⟩)
  have h1 := hcmd b.head (by simp)
  have h2 := an_items b.tail (fun cmd hm => hcmd cmd (by simp [hm]))
  refine (an_map (an_zip h1 h2)).mono (fun _ h => h) ?_
  rintro ⟨g1, g2⟩
  refine ⟨trivial, ?_, trivial, ?_, fun _ => trivial⟩
  · intro henv x hx
    simp only [blockVars, List.mem_flatMap] at hx
    obtain ⟨cmd, hm, hx⟩ := hx
    have hx : x ∈ (cmd.head :: cmd.tail).flatMap basicVars := by simpa [List.mem_flatMap] using hx
    rcases List.mem_cons.mp hm with rfl | hm'
    · exact g1.2 (fun hb => henv _ hm hb) x hx
    · exact (g2 cmd hm').2 (fun hb => henv _ hm hb) x hx
  · intro cmd hm
    rcases List.mem_cons.mp hm with rfl | hm'
    · exact g1.1
    · exact (g2 cmd hm').1

/-! ### Dict keys -/

/-- The step does not touch the set of dict keys. -/
def KeepsKeys (a : A α) : Prop := ∀ st, (a st).2.dictKeys = st.dictKeys

theorem keeps_ok (a : α) : KeepsKeys (A.ok a) := fun _ => rfl
theorem keeps_fail : KeepsKeys (A.fail : A α) := fun _ => rfl
theorem keeps_report (k p) : KeepsKeys (A.report k p : A α) := fun _ => rfl
theorem keeps_map {f : α → β} {a : A α} (h : KeepsKeys a) : KeepsKeys (A.map f a) := h

theorem keeps_zip {a : A α} {b : A β} (ha : KeepsKeys a) (hb : KeepsKeys b) : KeepsKeys (A.zip a b) := by
  intro st
  have : (A.zip a b st).2 = (b (a st).2).2 := by simp only [A.zip]; split <;> rfl
  rw [this, hb, ha]

theorem keeps_andThen {a : A α} {f : α → A β} (ha : KeepsKeys a) (hf : ∀ x, KeepsKeys (f x)) :
    KeepsKeys (A.andThen a f) := by
  intro st
  simp only [A.andThen]
  split
  · rw [hf, ha]
  · exact ha st

theorem keeps_items {f : α → A β} (hf : ∀ x, KeepsKeys (f x)) (xs : List α) : KeepsKeys (analyzeItems f xs) := by
  induction xs with
  | nil => exact keeps_ok _
  | cons x xs ih => exact keeps_map (keeps_zip (hf x) ih)

theorem exitBlock_keys (st : AState) : st.exitBlock.dictKeys = st.dictKeys := by
  simp only [AState.exitBlock]; split <;> try split
  all_goals rfl

theorem enterBlock_keys (st : AState) : st.enterBlock.dictKeys = st.dictKeys := by
  simp only [AState.enterBlock]; split <;> rfl

theorem exitFrame_keys (st : AState) : st.exitFrame.2.dictKeys = st.dictKeys := by
  simp only [AState.exitFrame]; split <;> rfl

theorem keeps_inBlock {a : A α} (ha : KeepsKeys a) : KeepsKeys (inBlock a) := by
  intro st
  simp only [inBlock]
  rw [exitBlock_keys, ha, enterBlock_keys]

theorem keeps_declare (x p) : KeepsKeys (declare x p) := by
  intro st
  simp only [declare]
  repeat' split
  all_goals rfl

theorem keeps_resolve (x p) : KeepsKeys (resolve x p) := by
  intro st
  simp only [resolve]
  split <;> rfl

theorem keeps_resolveIdent (x p) : KeepsKeys (resolveIdent x p) := by
  unfold resolveIdent
  split
  · exact keeps_fail
  · exact keeps_resolve x p

theorem keeps_resolveSelf : KeepsKeys resolveSelf := by
  intro st
  simp only [resolveSelf]
  repeat' split
  all_goals rfl

theorem keeps_declareParams (ps) : KeepsKeys (declareParams ps) := by
  induction ps with
  | nil => exact keeps_ok _
  | cons p ps ih =>
    obtain ⟨x, pos⟩ := p
    refine keeps_map (keeps_zip ?_ ih)
    split
    · exact keeps_fail
    · exact keeps_declare x pos

theorem keeps_argUnit (u) : KeepsKeys (analyzeArgUnit u) := by
  cases u with
  | literal => exact keeps_ok _
  | dollar x p => exact keeps_map (keeps_resolveIdent x p)

theorem keeps_argument (a) : KeepsKeys (analyzeArgument a) := by
  unfold analyzeArgument
  split
  · exact keeps_fail
  · refine keeps_map (keeps_items ?_ _)
    intro part
    cases part with
    | unit u => exact keeps_map (keeps_argUnit u)
    | expansion e =>
      cases e <;> first | exact keeps_ok _ | exact keeps_map (keeps_items keeps_argUnit _)

theorem keeps_redirection (r) : KeepsKeys (analyzeRedirection r) := by
  cases r with
  | illFormed => exact keeps_fail
  | output s t => cases t <;> first | exact keeps_ok _ | exact keeps_map (keeps_argument _)
  | input l a => exact keeps_map (keeps_argument _)

theorem keeps_basicCommand (c) : KeepsKeys (analyzeBasicCommand c) := by
  unfold analyzeBasicCommand
  split
  · exact keeps_report _ _
  · exact keeps_map (keeps_zip (keeps_argument _) (keeps_zip
      (keeps_items (fun e => keeps_andThen (keeps_argUnit _) (fun _ => keeps_map (keeps_argument _))) _)
      (keeps_zip (keeps_items keeps_argument _) (keeps_items keeps_redirection _))))

theorem keeps_command (b c) : KeepsKeys (analyzeCommand b c) := by
  unfold analyzeCommand
  split
  · split
    · exact keeps_report _ _
    · exact keeps_map (keeps_items keeps_argument _)
  · exact keeps_map (keeps_zip (keeps_basicCommand _) (keeps_items keeps_basicCommand _))

theorem keeps_commandBlock (b) : KeepsKeys (analyzeCommandBlock b) :=
  keeps_map (keeps_zip (keeps_command _ _) (keeps_items (keeps_command _) _))

/-- The node is not a dict literal. -/
def NotDict (_ : Ctx) (n : Node) : Prop := ∀ items p, n ≠ .expr (.lit (.dict items) p)

mutual

theorem keeps_expr (fl) : ∀ e c, Everywhere NotDict c (.expr e) → KeepsKeys (analyzeExpr fl e)
  | .illFormed, _, _ => by rw [analyzeExpr]; exact keeps_fail
  | .self_ pos, _, _ => by
    rw [analyzeExpr]
    split
    · exact keeps_map keeps_resolveSelf
    · exact keeps_report _ _
  | .ident x pos, _, _ => by rw [analyzeExpr]; exact keeps_map (keeps_resolveIdent x pos)
  | .lit l pos, c, h => by rw [analyzeExpr]; exact keeps_map (keeps_lit fl l pos c h)
  | .unary op e pos, c, h => by
    rw [analyzeExpr]
    refine keeps_andThen (keeps_expr fl e c (h.child (.operand ..))) ?_
    intro x
    split
    · exact keeps_report _ _
    · exact keeps_ok _
  | .binary l op r pos, c, h => by
    rw [analyzeExpr]
    exact keeps_map (keeps_zip (keeps_expr fl l c (h.child (.left ..))) (keeps_expr fl r c (h.child (.right ..))))
  | .if_ e t f pos, c, h => by
    rw [analyzeExpr]
    exact keeps_map (keeps_zip (keeps_expr fl e c (h.child (.ifCond ..)))
      (keeps_zip (keeps_inBlock (keeps_block fl t _ (h.child (.ifThen ..))))
        (keeps_inBlock (keeps_block fl f _ (h.child (.ifElse ..))))))
  | .access o f pos, c, h => by
    rw [analyzeExpr]
    exact keeps_map (keeps_zip (keeps_expr fl o c (h.child (.object ..))) (keeps_expr fl f c (h.child (.field ..))))
  | .call f args pos, c, h => by
    rw [analyzeExpr]
    exact keeps_map (keeps_zip (keeps_expr fl f c (h.child (.callee ..)))
      (keeps_exprs fl args c (fun a ha => h.child (.arg _ _ _ _ _ ha))))
  | .command b pos, _, _ => by rw [analyzeExpr]; exact keeps_map (keeps_commandBlock b)

theorem keeps_exprs (fl) : ∀ es c, (∀ e ∈ es, Everywhere NotDict c (.expr e)) → KeepsKeys (analyzeExprs fl es)
  | [], _, _ => by rw [analyzeExprs]; exact keeps_ok _
  | e :: es, c, h => by
    rw [analyzeExprs]
    exact keeps_map (keeps_zip (keeps_expr fl e c (h e (by simp))) (keeps_exprs fl es c (fun x hx => h x (by simp [hx]))))

theorem keeps_lit (fl) : ∀ l p c, Everywhere NotDict c (.expr (.lit l p)) → KeepsKeys (analyzeLit fl l)
  | .nil, _, _, _ | .bool _, _, _, _ | .int _, _, _, _ | .float _, _, _, _ | .byte _, _, _, _
  | .string _, _, _, _ => by rw [analyzeLit]; exact keeps_ok _
  | .array es, p, c, h => by
    rw [analyzeLit]
    exact keeps_map (keeps_exprs fl es c (fun e he => h.child (.item _ _ _ _ he)))
  | .dict items, p, c, h => absurd rfl (h.here items p)
  | .function params body, p, c, h => by
    intro st
    have hb := keeps_block ⟨true, false⟩ body _ (h.child (.body ..))
    rw [analyzeLit]
    dsimp only
    split <;> (dsimp only; rw [exitFrame_keys, hb, keeps_declareParams]; rfl)
  | .ident x, _, _, _ => by
    rw [analyzeLit]
    split
    · exact keeps_fail
    · exact keeps_ok _

theorem keeps_lvalue (fl pos) : ∀ e c, Everywhere NotDict c (.expr e) → KeepsKeys (analyzeLvalue fl pos e)
  | .ident x ipos, _, _ => by
    rw [analyzeLvalue]
    split
    · exact keeps_report _ _
    · exact keeps_map (keeps_resolve _ _)
  | .access o f apos, c, h => by
    rw [analyzeLvalue]
    exact keeps_map (keeps_zip (keeps_expr fl o c (h.child (.object ..))) (keeps_expr fl f c (h.child (.field ..))))
  | .illFormed, _, _ | .self_ _, _, _ | .lit _ _, _, _ | .unary _ _ _, _, _ | .binary _ _ _ _, _, _
  | .if_ _ _ _ _, _, _ | .call _ _ _, _, _ | .command _ _, _, _ => by
    rw [analyzeLvalue] <;> first | exact keeps_report _ _ | (intros; simp_all)

theorem keeps_stmt (fl) : ∀ s c, Everywhere NotDict c (.stmt s) → KeepsKeys (analyzeStmt fl s)
  | .illFormed, _, _ => by rw [analyzeStmt]; exact keeps_fail
  | .let_ x init pos, c, h => by
    rw [analyzeStmt]
    exact keeps_map (keeps_zip (keeps_declare x pos) (keeps_expr fl init _ (h.child (.letInit ..))))
  | .assign l r pos, c, h => by
    rw [analyzeStmt]
    exact keeps_map (keeps_zip (keeps_lvalue fl pos l c (h.child (.assignLeft ..)))
      (keeps_expr fl r c (h.child (.assignRight ..))))
  | .return_ e pos, c, h => by
    rw [analyzeStmt]
    refine keeps_map (keeps_zip ?_ (keeps_expr fl e c (h.child (.returned ..))))
    split
    · exact keeps_ok _
    · exact keeps_report _ _
  | .break_ pos, _, _ => by
    rw [analyzeStmt]
    split
    · exact keeps_ok _
    · exact keeps_report _ _
  | .while_ e b pos, c, h => by
    rw [analyzeStmt]
    exact keeps_map (keeps_zip (keeps_expr fl e c (h.child (.whileCond ..)))
      (keeps_inBlock (keeps_block _ b _ (h.child (.whileBody ..)))))
  | .for_ x e b pos, c, h => by
    rw [analyzeStmt]
    refine keeps_map (keeps_zip (keeps_expr fl e c (h.child (.forExpr ..)))
      (keeps_inBlock (keeps_zip ?_ (keeps_block _ b _ (h.child (.forBody ..))))))
    split
    · exact keeps_fail
    · exact keeps_declare x pos
  | .expr e, c, h => by rw [analyzeStmt]; exact keeps_map (keeps_expr fl e c (h.child (.stmtExpr ..)))

theorem keeps_block (fl) : ∀ b c, Everywhere NotDict c (.block b) → KeepsKeys (analyzeBlock fl b)
  | [], _, _ => by rw [analyzeBlock]; exact keeps_ok _
  | s :: ss, c, h => by
    rw [analyzeBlock]
    exact keeps_map (keeps_zip (keeps_stmt fl s c (h.child (.first ..))) (keeps_block fl ss _ (h.child (.rest ..))))

end

/-- The items of a dict literal, when analysing the values neither fails to be `AnGood` nor touches the keys. -/
theorem goodAt_items_keys {J : SemError → Prop} {c : Ctx} {fl : Flags} {S : (Sym × Pos) × Expr → Prop} :
    ∀ (items : List ((Sym × Pos) × Expr)),
    (∀ i ∈ items, UserName i.1.1) →
    (∀ i ∈ items, AnGood J (S i) c c (analyzeExpr fl i.2)) →
    (∀ i ∈ items, KeepsKeys (analyzeExpr fl i.2)) →
    ∀ st, Shaped st → Matches c st →
    (¬ ((items.map (·.1.1)).Nodup ∧ ∀ i ∈ items, i.1.1 ∉ st.dictKeys) → ∀ x p, J ⟨.duplicateKey x, p⟩) →
    GoodAt J (((items.map (·.1.1)).Nodup ∧ ∀ i ∈ items, i.1.1 ∉ st.dictKeys) ∧ ∀ i ∈ items, S i) c
      (analyzeItemsDict fl items) st := by
  intro items
  induction items with
  | nil =>
    intro _ _ _ st hs hm hj
    rw [analyzeItemsDict]
    exact (an_ok J _ c _ (by simp)).2 st hs hm
  | cons i items ih =>
    obtain ⟨⟨x, pos⟩, e⟩ := i
    intro hu hg hk st hs hm hj
    rw [analyzeItemsDict]
    have hux : UserName x := hu ((x, pos), e) (by simp)
    have hux' : symIll x = false := symIll_false hux
    have hge := hg ((x, pos), e) (by simp)
    have hke := hk ((x, pos), e) (by simp)
    have hm1 : Matches c (insertKey x pos st).2 := by
      simp only [insertKey, hux']
      by_cases h : x ∈ st.dictKeys
      · simp only [h]; exact hm
      · simp only [h]; exact hm
    have hs1 : Shaped (insertKey x pos st).2 := (tidy_insertKey x pos).shaped hs
    have hge1 := hge.2 _ hs1 hm1
    have hs2 := hge.1.shaped hs1
    have hm2 := hge1.1
    have hkeys := hke (insertKey x pos st).2
    by_cases hx : x ∈ st.dictKeys
    · have hJ := hj (fun hh => hh.2 ((x, pos), e) (by simp) hx)
      have hins : GoodAt J (x ∉ st.dictKeys) c (insertKey x pos) st := by
        simp only [GoodAt, insertKey, hux', hx]
        exact ⟨hm, [⟨.duplicateKey x, pos⟩], rfl, by simpa using hJ x pos, by simp [A.report], by simp [A.report]⟩
      have h1 := goodAt_zip hins hge1
      have e2 : (A.zip (insertKey x pos) (analyzeExpr fl e) st).2 = (analyzeExpr fl e (insertKey x pos st).2).2 := by
        simp only [A.zip]; split <;> rfl
      have h2 := ih (fun i hi => hu i (by simp [hi])) (fun i hi => hg i (by simp [hi]))
        (fun i hi => hk i (by simp [hi])) _ hs2 hm2 (fun _ => hJ)
      rw [← e2] at h2
      refine goodAt_map ((goodAt_zip h1 h2).mono (fun _ h => h) ?_)
      rintro ⟨⟨h, -⟩, -⟩
      exact absurd hx h
    · have hst : (insertKey x pos st).2.dictKeys = x :: st.dictKeys := by
        simp [insertKey, hux', hx]
      have hins : GoodAt J (x ∉ st.dictKeys) c (insertKey x pos) st := by
        simp only [GoodAt, insertKey, hux', hx]
        exact ⟨hm, [], by simp, by simp, by simp, fun _ => by simp⟩
      have h1 := goodAt_zip hins hge1
      have e2 : (A.zip (insertKey x pos) (analyzeExpr fl e) st).2 = (analyzeExpr fl e (insertKey x pos st).2).2 := by
        simp only [A.zip]; split <;> rfl
      have hiff : (((items.map (·.1.1)).Nodup ∧ ∀ i ∈ items, i.1.1 ∉ (analyzeExpr fl e (insertKey x pos st).2).2.dictKeys) ↔
          ((((x, pos), e) :: items).map (·.1.1)).Nodup ∧ ∀ i ∈ ((x, pos), e) :: items, i.1.1 ∉ st.dictKeys) := by
        rw [hkeys, hst]
        simp only [List.map_cons, List.nodup_cons, List.mem_map, List.mem_cons, not_or, forall_eq_or_imp]
        constructor
        · rintro ⟨h1, h2⟩
          refine ⟨⟨?_, h1⟩, hx, fun i hi => (h2 i hi).2⟩
          rintro ⟨i, hi, hix⟩
          exact (h2 i hi).1 hix
        · rintro ⟨⟨h1, h2⟩, -, h3⟩
          refine ⟨h2, fun i hi => ⟨fun hix => h1 ⟨i, hi, hix⟩, h3 i hi⟩⟩
      have h2 := ih (fun i hi => hu i (by simp [hi])) (fun i hi => hg i (by simp [hi]))
        (fun i hi => hk i (by simp [hi])) _ hs2 hm2 (fun hh => hj (fun h => hh (hiff.mpr h)))
      rw [← e2] at h2
      refine goodAt_map ((goodAt_zip h1 h2).mono (fun _ h => h) ?_)
      rintro ⟨⟨-, hSe⟩, hk2, hS⟩
      rw [e2] at hk2
      refine ⟨hiff.mp hk2, ?_⟩
      intro i hi
      rcases List.mem_cons.mp hi with rfl | hi
      · exact hSe
      · exact hS i hi

/-- The items of a dict literal when duplicate keys are allowed to be reported. -/
theorem an_items_any {J : SemError → Prop} {c : Ctx} {fl : Flags} {S : (Sym × Pos) × Expr → Prop}
    (items : List ((Sym × Pos) × Expr)) (hu : ∀ i ∈ items, UserName i.1.1)
    (hg : ∀ i ∈ items, AnGood J (S i) c c (analyzeExpr fl i.2)) (hj : ∀ x p, J ⟨.duplicateKey x, p⟩) :
    AnGood J (∀ i ∈ items, S i) c c (analyzeItemsDict fl items) := by
  induction items with
  | nil => rw [analyzeItemsDict]; exact an_ok _ _ _ _ (by simp)
  | cons i items ih =>
    obtain ⟨⟨x, pos⟩, e⟩ := i
    rw [analyzeItemsDict]
    have hux' : symIll x = false := symIll_false (hu ((x, pos), e) (by simp))
    have hins : AnGood J True c c (insertKey x pos) := by
      refine ⟨tidy_insertKey x pos, fun st hs hm => ?_⟩
      simp only [GoodAt, insertKey, hux']
      by_cases hx : x ∈ st.dictKeys
      · simp only [hx]
        exact ⟨hm, [⟨.duplicateKey x, pos⟩], rfl, by simpa using hj x pos, by simp [A.report], by simp⟩
      · simp only [hx]
        exact ⟨hm, [], by simp, by simp, by simp, by simp⟩
    refine (an_map (an_zip (an_zip hins (hg ((x, pos), e) (by simp)))
      (ih (fun i hi => hu i (by simp [hi])) (fun i hi => hg i (by simp [hi]))))).mono (fun _ h => h) ?_
    rintro ⟨⟨-, h1⟩, h2⟩ i hi
    rcases List.mem_cons.mp hi with rfl | hi
    · exact h1
    · exact h2 i hi

end Hush

import Verif.Lemmas.AnalyzeStatic
import Verif.Spec.Binding

/-!
The analyser produces correct translations: invariants of the frames during analysis.
-/

namespace Hush
open Ast (Expr Lit Stmt Block)
open Spec

/-- What only grows in a frame during analysis. -/
def FrameLe (f g : Frame) : Prop :=
  (∀ c ∈ f.captures, c ∈ g.captures) ∧ (∀ s, f.selfSlot = some s → g.selfSlot = some s) ∧ f.slots ≤ g.slots

theorem FrameLe.refl (f : Frame) : FrameLe f f := ⟨fun _ h => h, fun _ h => h, Nat.le_refl _⟩

theorem FrameLe.trans {f g h : Frame} (a : FrameLe f g) (b : FrameLe g h) : FrameLe f h :=
  ⟨fun c hc => b.1 c (a.1 c hc), fun s hs => b.2.1 s (a.2.1 s hs), Nat.le_trans a.2.2 b.2.2⟩

/-- All frames grow. -/
inductive Grows : List Frame → List Frame → Prop
  | nil : Grows [] []
  | cons {f g fs gs} : FrameLe f g → Grows fs gs → Grows (f :: fs) (g :: gs)

theorem Grows.refl : ∀ fs, Grows fs fs
  | [] => .nil
  | f :: fs => .cons (FrameLe.refl f) (Grows.refl fs)

theorem Grows.trans {fs gs hs} (a : Grows fs gs) (b : Grows gs hs) : Grows fs hs := by
  induction a generalizing hs with
  | nil => exact b
  | cons h _ ih => cases b with | cons h' b => exact .cons (h.trans h') (ih b)

/-- The descriptions of the frames contain what the frames contain. -/
inductive Final : List Frame → List FrameEnv → Prop
  | nil : Final [] []
  | cons {f e fs es} : (∀ c ∈ f.captures, c ∈ e.info.captures) → (∀ s, f.selfSlot = some s → e.info.selfSlot = some s) →
      f.slots ≤ e.info.slots → Final fs es → Final (f :: fs) (e :: es)

theorem Final.mono {fs gs es} (a : Grows fs gs) (b : Final gs es) : Final fs es := by
  induction a generalizing es with
  | nil => exact b
  | cons h _ ih =>
    cases b with
    | cons h1 h2 h3 b =>
      exact .cons (fun c hc => h1 c (h.1 c hc)) (fun s hs => h2 s (h.2.1 s hs)) (Nat.le_trans h.2.2 h3) (ih b)

/-- The slots given out so far in a frame; `D` are those of declarations. -/
def given (D : List Nat) (f : Frame) : List Nat := D ++ f.captures.map (·.to) ++ f.selfSlot.toList

/-- A frame of the analyser represents the variables of a function. -/
structure FrameInv (D : List Nat) (f : Frame) (e : FrameEnv) (es : List FrameEnv) : Prop where
  scopes : ∀ x, UserName x → f.scopes.map (fun s => Scope.find s x) = e.scopes.map (fun s => s.lookup x)
  closed : ∀ x s root, f.scopes.getLast? = some root → Scope.find root (closedName x) = some s →
    ∃ p, ⟨p, s⟩ ∈ f.captures ∧ Refers es x p
  captures : ∀ c ∈ f.captures, ∃ x, Refers es x c.from_
  nodup : (given D f).Nodup
  below : ∀ s ∈ given D f, s < f.slots

/-- All frames. -/
inductive FramesInv : List (List Nat) → List Frame → List FrameEnv → Prop
  | nil : FramesInv [] [] []
  | cons {D f e Ds fs es} : FrameInv D f e es → FramesInv Ds fs es → FramesInv (D :: Ds) (f :: fs) (e :: es)

theorem closedName_inj {x y : Sym} (h : closedName x = closedName y) : x = y :=
  List.append_cancel_right h

theorem lookup_findSome (x : Sym) (fs : List Scope) (es : List (List (Sym × Nat)))
    (h : fs.map (fun s => Scope.find s x) = es.map (fun s => s.lookup x)) :
    fs.findSome? (fun s => Scope.find s x) = es.findSome? (fun s => s.lookup x) := by
  induction fs generalizing es with
  | nil => cases es <;> simp_all
  | cons f fs ih =>
    cases es with
    | nil => simp at h
    | cons e es =>
      simp only [List.map_cons, List.cons.injEq] at h
      simp only [List.findSome?_cons, h.1]
      cases List.lookup x e <;> simp [ih es h.2]

theorem FrameInv.lookup {D f e es} (h : FrameInv D f e es) {x : Sym} (hx : UserName x) :
    f.resolve x = e.lookup x := lookup_findSome x _ _ (h.scopes x hx)

theorem insertRoot_find {x y : Sym} (hne : x ≠ y) (n) (ss : List Scope) :
    (insertRoot y n ss).map (fun s => Scope.find s x) = ss.map (fun s => Scope.find s x) := by
  induction ss with
  | nil => rfl
  | cons s ss ih =>
    cases ss with
    | nil => simp [insertRoot, find_cons, hne]
    | cons t ss => simp only [insertRoot, List.map_cons]; rw [ih]; rfl

theorem insertRoot_last (y n) (ss : List Scope) (root) (h : (insertRoot y n ss).getLast? = some root) :
    ∃ r, ss.getLast? = some r ∧ root = (y, n) :: r := by
  induction ss with
  | nil => simp [insertRoot] at h
  | cons s ss ih =>
    cases ss with
    | nil => simp [insertRoot] at h; exact ⟨s, rfl, h.symm⟩
    | cons t ss =>
      have hne : insertRoot y n (t :: ss) ≠ [] := by
        intro hh
        have := insertRoot_length y n (t :: ss)
        rw [hh] at this
        simp at this
      obtain ⟨a, as, ha⟩ := List.exists_cons_of_ne_nil hne
      simp only [insertRoot] at h
      rw [ha, List.getLast?_cons_cons, ← ha] at h
      obtain ⟨r, hr, hr'⟩ := ih h
      exact ⟨r, by rw [List.getLast?_cons_cons]; exact hr, hr'⟩

theorem frameLe_capture (f : Frame) (x p) : FrameLe f (f.capture x p).2 := by
  simp only [Frame.capture]
  split
  · exact FrameLe.refl f
  · exact ⟨fun c hc => by simp [hc], fun s hs => hs, by simp⟩

theorem resolveFrames_grows {x : Sym} : ∀ {fs slot fs'}, resolveFrames x fs = some (slot, fs') → Grows fs fs' := by
  intro fs
  induction fs with
  | nil => intro _ _ h; simp [resolveFrames] at h
  | cons f fs ih =>
    intro slot fs' h
    rw [resolveFrames] at h
    split at h
    · cases h; exact Grows.refl _
    · split at h
      · simp at h
      · rename_i h'
        cases h
        exact .cons (frameLe_capture _ _ _) (ih h')

theorem given_fresh {D : List Nat} {f : Frame} (h : ∀ s ∈ given D f, s < f.slots) : f.slots ∉ given D f :=
  fun hm => absurd (h _ hm) (Nat.lt_irrefl _)

theorem resolveFrames_inv {x : Sym} (hx : UserName x) : ∀ {fs slot fs' Ds es}, resolveFrames x fs = some (slot, fs') →
    FramesInv Ds fs es → Final fs' es → FramesInv Ds fs' es ∧ Refers es x slot := by
  intro fs
  induction fs with
  | nil => intro _ _ _ _ h; simp [resolveFrames] at h
  | cons f fs ih =>
    intro slot fs' Ds es h hi hf
    cases hi with
    | @cons D _ e Ds _ es hi his =>
    rw [resolveFrames] at h
    split at h
    · rename_i s hs
      cases h
      refine ⟨.cons hi his, .own ?_⟩
      rw [← hi.lookup hx]; exact hs
    · rename_i hn
      split at h
      · simp at h
      · rename_i parent rest' h'
        have hn' : e.lookup x = none := by rw [← hi.lookup hx]; exact hn
        cases h
        cases hf with
        | cons hf1 hf2 hf3 hf =>
        obtain ⟨hir, href⟩ := ih h' his hf
        simp only [Frame.capture] at hf1 hf2 hf3 ⊢
        split at hf1
        · rename_i s hs
          simp only [Option.bind_eq_bind, Option.bind_eq_some_iff] at hs
          obtain ⟨root, hr, hs'⟩ := hs
          obtain ⟨p, hp, hp'⟩ := hi.closed x s root hr hs'
          exact ⟨.cons hi hir, .captured hn' hp' (hf1 _ hp)⟩
        · rename_i hs
          refine ⟨.cons ⟨?_, ?_, ?_, ?_, ?_⟩ hir, .captured hn' href (hf1 _ (by simp))⟩
          · intro y hy
            rw [← hi.scopes y hy]
            exact insertRoot_find (userName_ne_closed hy) _ _
          · intro y s root hr hs'
            obtain ⟨r, hr', rfl⟩ := insertRoot_last _ _ _ _ hr
            rw [find_cons] at hs'
            split at hs'
            · rename_i he
              cases hs'
              rw [closedName_inj he]
              exact ⟨parent, by simp, href⟩
            · obtain ⟨p, hp, hp'⟩ := hi.closed y s r hr' hs'
              exact ⟨p, by simp [hp], hp'⟩
          · intro c hc
            simp only [List.mem_append, List.mem_singleton] at hc
            rcases hc with hc | rfl
            · exact hi.captures c hc
            · exact ⟨x, href⟩
          · have hfr := given_fresh hi.below
            have hnd := hi.nodup
            simp only [given, List.map_append, List.map_cons, List.map_nil] at hnd hfr ⊢
            have hp : (D ++ (f.captures.map (·.to) ++ [f.slots]) ++ f.selfSlot.toList).Perm
                (f.slots :: (D ++ f.captures.map (·.to) ++ f.selfSlot.toList)) := by
              simp only [← List.append_assoc]
              rw [List.append_assoc _ [f.slots]]
              exact List.perm_middle
            rw [hp.nodup_iff, List.nodup_cons]
            exact ⟨hfr, hnd⟩
          · have hb := hi.below
            simp only [given, List.map_append, List.map_cons, List.map_nil, List.mem_append, List.mem_singleton] at hb ⊢
            rintro s ((hs | hs | hs) | hs)
            · exact Nat.lt_succ_of_lt (hb s (.inl (.inl hs)))
            · exact Nat.lt_succ_of_lt (hb s (.inl (.inr hs)))
            · subst hs; exact Nat.lt_succ_self _
            · exact Nat.lt_succ_of_lt (hb s (.inr hs))

/-- An analysis step that leaves the scopes as they are: frames grow, and if the descriptions contain what the frames
contain afterwards, the result is related to the variables as given by `R`. -/
structure Binds (a : A α) (R : List FrameEnv → α → List Nat → Prop) : Prop where
  grows : ∀ {st x st'}, a st = (some x, st') → Grows st.frames st'.frames
  sound : ∀ {st x st' D Ds es}, a st = (some x, st') → Final st'.frames es → FramesInv (D :: Ds) st.frames es →
    ∃ D', FramesInv ((D ++ D') :: Ds) st'.frames es ∧ R es x D'

/-- Nothing is declared. -/
def Pure_ (R : List FrameEnv → α → Prop) : List FrameEnv → α → List Nat → Prop := fun es x D => D = [] ∧ R es x

theorem binds_ok {R : List FrameEnv → α → Prop} (a : α) (h : ∀ es, R es a) : Binds (A.ok a) (Pure_ R) where
  grows h := by cases h; exact Grows.refl _
  sound := by
    intro st x st' D Ds es hh _ hi
    cases hh
    exact ⟨[], by simpa using hi, rfl, h es⟩

theorem binds_fail {R} : Binds (A.fail : A α) R where
  grows h := by simp at h
  sound h := by simp at h

theorem binds_report {R} (k p) : Binds (A.report k p : A α) R where
  grows h := by simp at h
  sound h := by simp at h

theorem binds_map {f : α → β} {a : A α} {R S} (h : Binds a R) (hr : ∀ es x D, R es x D → S es (f x) D) :
    Binds (A.map f a) S where
  grows hh := by
    obtain ⟨x, hx, _⟩ := A.map_some.mp hh
    exact h.grows hx
  sound := by
    intro st x st' D Ds es hh hf hi
    obtain ⟨x, hx, rfl⟩ := A.map_some.mp hh
    obtain ⟨D', h1, h2⟩ := h.sound hx hf hi
    exact ⟨D', h1, hr _ _ _ h2⟩

/-- Relations of a pair. -/
def Both (R : List FrameEnv → α → List Nat → Prop) (S : List FrameEnv → β → List Nat → Prop) :
    List FrameEnv → α × β → List Nat → Prop :=
  fun es x D => ∃ D₁ D₂, D = D₁ ++ D₂ ∧ R es x.1 D₁ ∧ S es x.2 D₂

theorem binds_zip {a : A α} {b : A β} {R S} (ha : Binds a R) (hb : Binds b S) : Binds (A.zip a b) (Both R S) where
  grows hh := by
    obtain ⟨st₁, h1, h2⟩ := A.zip_some.mp hh
    exact (ha.grows h1).trans (hb.grows h2)
  sound := by
    intro st x st' D Ds es hh hf hi
    obtain ⟨st₁, h1, h2⟩ := A.zip_some.mp hh
    obtain ⟨D₁, hi1, hr1⟩ := ha.sound h1 (Final.mono (hb.grows h2) hf) hi
    obtain ⟨D₂, hi2, hr2⟩ := hb.sound h2 hf hi1
    exact ⟨D₁ ++ D₂, by rw [← List.append_assoc]; exact hi2, D₁, D₂, rfl, hr1, hr2⟩

theorem binds_andThen {a : A α} {f : α → A β} {R} {S : α → List FrameEnv → β → List Nat → Prop} (ha : Binds a R) (hf : ∀ x, Binds (f x) (S x)) :
    Binds (A.andThen a f) (fun es y D => ∃ x D₁ D₂, D = D₁ ++ D₂ ∧ R es x D₁ ∧ S x es y D₂) where
  grows hh := by
    obtain ⟨x, st₁, h1, h2⟩ := A.andThen_some.mp hh
    exact (ha.grows h1).trans ((hf x).grows h2)
  sound := by
    intro st y st' D Ds es hh hfin hi
    obtain ⟨x, st₁, h1, h2⟩ := A.andThen_some.mp hh
    obtain ⟨D₁, hi1, hr1⟩ := ha.sound h1 (Final.mono ((hf x).grows h2) hfin) hi
    obtain ⟨D₂, hi2, hr2⟩ := (hf x).sound h2 hfin hi1
    exact ⟨D₁ ++ D₂, by rw [← List.append_assoc]; exact hi2, x, D₁, D₂, rfl, hr1, hr2⟩

theorem binds_mono {a : A α} {R S} (h : Binds a R) (hr : ∀ es x D, R es x D → S es x D) : Binds a S where
  grows := h.grows
  sound := by
    intro st x st' D Ds es hh hf hi
    obtain ⟨D', h1, h2⟩ := h.sound hh hf hi
    exact ⟨D', h1, hr _ _ _ h2⟩

theorem binds_resolve {x : Sym} (hx : UserName x) (p) : Binds (resolve x p) (Pure_ (fun es s => Refers es x s)) where
  grows := by
    intro st s st' h
    simp only [resolve] at h
    split at h
    · simp at h
    · rename_i h'
      cases h
      exact resolveFrames_grows h'
  sound := by
    intro st s st' D Ds es h hf hi
    simp only [resolve] at h
    split at h
    · simp at h
    · rename_i h'
      cases h
      obtain ⟨h1, h2⟩ := resolveFrames_inv hx h' hi hf
      exact ⟨[], by simpa using h1, rfl, h2⟩

theorem binds_resolveIdent {x : Sym} (hx : UserName x) (p) :
    Binds (resolveIdent x p) (Pure_ (fun es s => Refers es x s)) := by
  unfold resolveIdent
  split
  · exact binds_fail
  · exact binds_resolve hx p

theorem binds_resolveSelf : Binds resolveSelf
    (Pure_ (fun es s => ∃ f fs, es = f :: fs ∧ f.info.selfSlot = some s)) where
  grows := by
    intro st s st' h
    obtain ⟨frames, keys, errs, cr⟩ := st
    cases frames with
    | nil => simp [resolveSelf] at h
    | cons f fs =>
      simp only [resolveSelf] at h
      split at h
      · cases h; exact Grows.refl _
      · rename_i hn
        cases h
        exact .cons ⟨fun c hc => hc, fun s hs => by simp [hn] at hs, by simp⟩ (Grows.refl _)
  sound := by
    intro st s st' D Ds es h hf hi
    obtain ⟨frames, keys, errs, cr⟩ := st
    cases frames with
    | nil => simp [resolveSelf] at h
    | cons f fs =>
      simp only [resolveSelf] at h
      cases hi with
      | @cons _ _ e _ _ es hi his =>
      split at h
      · rename_i s' hs
        cases h
        cases hf with
        | cons h1 h2 h3 hf => exact ⟨[], by simpa using FramesInv.cons hi his, rfl, e, es, rfl, h2 _ hs⟩
      · rename_i hn
        cases h
        cases hf with
        | cons h1 h2 h3 hf =>
          refine ⟨[], ?_, rfl, e, es, rfl, h2 _ rfl⟩
          rw [List.append_nil]
          refine .cons ⟨hi.scopes, hi.closed, hi.captures, ?_, ?_⟩ his
          · have hfr := given_fresh hi.below
            have hnd := hi.nodup
            simp only [given, hn, Option.toList, List.append_nil] at hnd hfr ⊢
            rw [List.nodup_append]
            refine ⟨hnd, by simp, ?_⟩
            intro a ha b hb
            simp only [List.mem_singleton] at hb
            subst hb
            exact fun he => hfr (he ▸ ha)
          · have hb := hi.below
            intro s hs
            simp only [given, hn, Option.toList, List.append_nil, List.mem_append, List.mem_singleton] at hb hs ⊢
            rcases hs with hs | hs
            · exact Nat.lt_succ_of_lt (hb s hs)
            · subst hs; exact Nat.lt_succ_self _

/-! ### Commands -/

theorem forall2_items {f : α → A β} {P : List FrameEnv → α → β → Prop} (xs : List α)
    (h : ∀ x ∈ xs, Binds (f x) (Pure_ (fun es y => P es x y))) :
    Binds (analyzeItems f xs) (Pure_ (fun es ys => List.Forall₂ (P es) xs ys)) := by
  induction xs with
  | nil => exact binds_ok _ (fun _ => .nil)
  | cons x xs ih =>
    refine binds_map (binds_zip (h x (by simp)) (ih (fun y hy => h y (by simp [hy])))) ?_
    rintro es y D ⟨D₁, D₂, rfl, ⟨rfl, h1⟩, rfl, h2⟩
    exact ⟨rfl, .cons h1 h2⟩

theorem binds_unit (u : ArgUnit) (hw : ∀ x ∈ unitVars u, UserName x) :
    Binds (analyzeArgUnit u) (Pure_ (fun es v => UnitTo es u v)) := by
  cases u with
  | literal s => exact binds_ok _ (fun _ => .literal s)
  | dollar x p =>
    refine binds_map (binds_resolveIdent (hw x (by simp [unitVars])) p) ?_
    rintro es s D ⟨rfl, h⟩
    exact ⟨rfl, .dollar p h⟩

theorem binds_part (a : Ast.ArgPart) (hw : ∀ x ∈ argVars ⟨[a], ⟨1, 1⟩⟩, UserName x) :
    Binds (analyzeArgPart a) (Pure_ (fun es v => PartTo es a v)) := by
  cases a with
  | unit u =>
    refine binds_map (binds_unit u (fun x hx => hw x (by simpa [argVars] using hx))) ?_
    rintro es s D ⟨rfl, h⟩
    exact ⟨rfl, .unit h⟩
  | expansion e =>
    cases e with
    | home => exact binds_ok _ (fun _ => .home)
    | range a b => exact binds_ok _ (fun _ => .range a b)
    | collection items =>
      refine binds_map (forall2_items items (fun u hu => binds_unit u (fun x hx => hw x ?_))) ?_
      · simp only [argVars, List.flatMap_cons, List.flatMap_nil, List.append_nil, List.mem_flatMap]
        exact ⟨u, hu, hx⟩
      · rintro es s D ⟨rfl, h⟩
        exact ⟨rfl, .collection h⟩
    | star => exact binds_ok _ (fun _ => .star)
    | percent => exact binds_ok _ (fun _ => .percent)
    | charClass s => exact binds_ok _ (fun _ => .charClass s)

theorem binds_argument (a : Ast.Argument) (hw : ArgWritten a) :
    Binds (analyzeArgument a) (Pure_ (fun es v => ArgTo es a v)) := by
  unfold analyzeArgument
  split
  · exact binds_fail
  · refine binds_map (forall2_items a.parts (fun p hp => binds_part p (fun x hx => hw.2 x ?_))) ?_
    · simp only [argVars, List.flatMap_cons, List.flatMap_nil, List.append_nil, List.mem_flatMap] at hx ⊢
      exact ⟨p, hp, hx⟩
    · rintro es s D ⟨rfl, h⟩
      exact ⟨rfl, h, rfl⟩

theorem binds_redirection (r : Ast.Redirection) (hw : RedirWritten r) :
    Binds (analyzeRedirection r) (Pure_ (fun es v => RedirTo es r v)) := by
  cases r with
  | illFormed => exact binds_fail
  | output n t =>
    cases t with
    | fd m => exact binds_ok _ (fun _ => .fd n m)
    | overwrite a =>
      refine binds_map (binds_argument a hw) ?_
      rintro es s D ⟨rfl, h⟩; exact ⟨rfl, .overwrite n h⟩
    | append a =>
      refine binds_map (binds_argument a hw) ?_
      rintro es s D ⟨rfl, h⟩; exact ⟨rfl, .append n h⟩
  | input l a =>
    refine binds_map (binds_argument a hw) ?_
    rintro es s D ⟨rfl, h⟩; exact ⟨rfl, .input l h⟩

theorem binds_envItem (e : ArgUnit × Ast.Argument) (h1 : ∀ x ∈ unitVars e.1, UserName x) (h2 : ArgWritten e.2) :
    Binds (analyzeEnvItem e) (Pure_ (fun es y => UnitTo es e.1 y.1 ∧ ArgTo es e.2 y.2)) := by
  refine binds_mono (binds_andThen (binds_unit e.1 h1)
    (S := fun key => Pure_ (fun es y => y.1 = key ∧ ArgTo es e.2 y.2)) (fun key => ?_)) ?_
  · refine binds_map (binds_argument e.2 h2) ?_
    rintro es s D ⟨rfl, h⟩; exact ⟨rfl, rfl, h⟩
  · rintro es y D ⟨x, D₁, D₂, rfl, ⟨rfl, hx⟩, rfl, rfl, hy⟩
    exact ⟨rfl, hx, hy⟩

theorem binds_basic (c : Ast.BasicCommand) (hw : BasicWritten c) :
    Binds (analyzeBasicCommand c) (Pure_ (fun es v => BasicTo es c v)) := by
  unfold analyzeBasicCommand
  split
  · exact binds_report _ _
  · refine binds_map (binds_zip (binds_argument _ hw.1) (binds_zip
      (forall2_items c.env (fun e he => binds_envItem e (hw.2.1 e he).1 (hw.2.1 e he).2))
      (binds_zip (forall2_items c.arguments (fun a ha => binds_argument a (hw.2.2.1 a ha)))
        (forall2_items c.redirections (fun a ha => binds_redirection a (hw.2.2.2 a ha)))))) ?_
    rintro es y D ⟨_, _, rfl, ⟨rfl, h1⟩, _, _, rfl, ⟨rfl, h2⟩, _, _, rfl, ⟨rfl, h3⟩, rfl, h4⟩
    exact ⟨rfl, h1, h2, h3, h4, rfl, rfl⟩

theorem ofArgument_name {a : Ast.Argument} {b} (h : Prog.Builtin.ofArgument a = some b) :
    a.parts = [.unit (.literal (builtinName b))] := by
  unfold Prog.Builtin.ofArgument at h
  split at h
  · rename_i lit hl
    rw [hl]
    unfold Prog.Builtin.ofBytes at h
    repeat' split at h
    all_goals first | (cases h; subst_vars; decide +kernel) | simp at h
  · simp at h

theorem binds_command (inAsync) (c : Ast.Command) (hw : ∀ b ∈ c.head :: c.tail, BasicWritten b) :
    Binds (analyzeCommand inAsync c) (Pure_ (fun es v => CommandTo es c v)) := by
  unfold analyzeCommand
  split
  · rename_i b hb
    split
    · exact binds_report _ _
    · rename_i hc
      refine binds_map (forall2_items c.head.arguments (fun a ha => binds_argument a ((hw _ (by simp)).2.2.1 a ha))) ?_
      rintro es s D ⟨rfl, h⟩
      refine ⟨rfl, ?_⟩
      obtain ⟨⟨prog, env, args, redirs, abort, pos⟩, tail⟩ := c
      simp only [Bool.or_eq_true, Bool.not_eq_true', List.isEmpty_eq_false_iff, not_or, ne_eq, Decidable.not_not] at hc
      obtain ⟨⟨_, h1⟩, h2⟩ := hc
      cases h1; cases h2
      exact .builtin (ofArgument_name hb) h env abort pos
  · refine binds_map (binds_zip (binds_basic _ (hw _ (by simp)))
      (forall2_items c.tail (fun a ha => binds_basic a (hw a (by simp [ha]))))) ?_
    rintro es y D ⟨_, _, rfl, ⟨rfl, h1⟩, rfl, h2⟩
    exact ⟨rfl, .external h1 h2⟩

theorem binds_commandBlock (b : Ast.CommandBlock) (hw : ∀ c ∈ b.head :: b.tail, ∀ bc ∈ c.head :: c.tail, BasicWritten bc) :
    Binds (analyzeCommandBlock b) (Pure_ (fun es v => CommandBlockTo es b v)) := by
  refine binds_map (binds_zip (binds_command _ _ (hw _ (by simp)))
    (forall2_items b.tail (fun c hc => binds_command _ c (hw c (by simp [hc]))))) ?_
  rintro es y D ⟨_, _, rfl, ⟨rfl, h1⟩, rfl, h2⟩
  exact ⟨rfl, rfl, h1, h2⟩

end Hush

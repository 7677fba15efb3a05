import Verif.Spec.Alpha
import Verif.Lemmas.AnalyzeStatic

/-!
The analyser gives the same result for programs that differ only in the choice of names. Two runs of the analyser are followed together: a joint state has both names
of every variable, and the states of the two runs are its two sides.
-/

namespace Hush
open Spec

/-! ### Joint states -/

/-- An entry of a scope: a declared variable, or a captured one. -/
inductive JEntry where
  | user (x x' : Sym) (n : Nat)
  | closed (x x' : Sym) (n : Nat)

def JEntry.left : JEntry → Sym × Nat
  | .user x _ n => (x, n)
  | .closed x _ n => (closedName x, n)

def JEntry.right : JEntry → Sym × Nat
  | .user _ x n => (x, n)
  | .closed _ x n => (closedName x, n)

def JEntry.names : JEntry → Option (Sym × Sym)
  | .user x x' _ => some (x, x')
  | .closed _ _ _ => none

structure JFrame where
  slots : Nat
  captures : List Prog.Capture
  selfSlot : Option Nat
  scopes : List (List JEntry)

def JFrame.left (j : JFrame) : Frame := ⟨j.slots, j.captures, j.selfSlot, j.scopes.map (·.map JEntry.left)⟩
def JFrame.right (j : JFrame) : Frame := ⟨j.slots, j.captures, j.selfSlot, j.scopes.map (·.map JEntry.right)⟩

/-- The declarations of a frame. -/
def JFrame.names (j : JFrame) : List (List (Sym × Sym)) := j.scopes.map (·.filterMap JEntry.names)

/-- The entries are proper: captured variables mean the same declaration of the enclosing functions. -/
def JEntry.Ok (g : Bound) : JEntry → Prop
  | .user x x' _ => UserName x ∧ UserName x'
  | .closed x x' _ => SameVar g.flatten.flatten x x'

def JFrame.Ok (g : Bound) (j : JFrame) : Prop := j.scopes ≠ [] ∧ ∀ s ∈ j.scopes, ∀ e ∈ s, e.Ok g

def JOk : List JFrame → Prop
  | [] => True
  | j :: js => j.Ok (js.map JFrame.names) ∧ JOk js

structure JState where
  frames : List JFrame
  keys : List Sym
  errors : List SemError
  crashed : Bool

def JState.left (J : JState) : AState := ⟨J.frames.map JFrame.left, J.keys, J.errors, J.crashed⟩
def JState.right (J : JState) : AState := ⟨J.frames.map JFrame.right, J.keys, J.errors, J.crashed⟩
def JState.ctx (J : JState) : Bound := J.frames.map JFrame.names
def JState.Ok (J : JState) : Prop := J.frames ≠ [] ∧ JOk J.frames

/-- The two runs go alike from states with the declarations `g`, and afterwards the declarations satisfy `P`. -/
def AnalyzedAlike (g : Bound) (P : Bound → Prop) (a a' : A α) : Prop :=
  ∀ J : JState, J.Ok → J.ctx = g → ∃ v J', a J.left = (v, JState.left J') ∧ a' J.right = (v, JState.right J') ∧ J'.Ok ∧ P J'.ctx

/-- The declarations outside the innermost scope. -/
def outerOf : Bound → Option (List (List (Sym × Sym)) × Bound)
  | (_ :: f) :: fs => some (f, fs)
  | _ => none

theorem outer_declare (x x' : Sym) (g : Bound) : outerOf (g.declare x x') = outerOf g := by
  unfold Bound.declare
  split <;> rfl

variable {g : Bound} {P Q : Bound → Prop}

theorem al_ok (v : α) (h : P g) : AnalyzedAlike g P (A.ok v) (A.ok v) := fun J hJ hg => ⟨some v, J, rfl, rfl, hJ, hg ▸ h⟩
theorem al_fail (h : P g) : AnalyzedAlike g P (A.fail : A α) A.fail := fun J hJ hg => ⟨none, J, rfl, rfl, hJ, hg ▸ h⟩
theorem al_report (k : SemErrorKind) (p : Pos) (h : P g) : AnalyzedAlike g P (A.report k p : A α) (A.report k p) := fun J hJ hg =>
  ⟨none, { J with errors := J.errors ++ [⟨k, p⟩] }, rfl, rfl, hJ, hg ▸ h⟩

theorem al_mono {a a' : A α} (h : AnalyzedAlike g P a a') (hPQ : ∀ x, P x → Q x) : AnalyzedAlike g Q a a' := fun J hJ hg => by
  obtain ⟨v, J', h1, h2, h3, h4⟩ := h J hJ hg
  exact ⟨v, J', h1, h2, h3, hPQ _ h4⟩

theorem al_zip {a a' : A α} {b b' : A β} (ha : AnalyzedAlike g P a a') (hb : ∀ g', P g' → AnalyzedAlike g' Q b b') : AnalyzedAlike g Q (A.zip a b) (A.zip a' b') := fun J hJ hg => by
  obtain ⟨v, J1, h1, h2, h3, h4⟩ := ha J hJ hg
  obtain ⟨u, J2, k1, k2, k3, k4⟩ := hb _ h4 J1 h3 rfl
  simp only [A.zip, h1, h2, k1, k2]
  cases v with
  | none => exact ⟨none, J2, rfl, rfl, k3, k4⟩
  | some v =>
    cases u with
    | none => exact ⟨none, J2, rfl, rfl, k3, k4⟩
    | some u => exact ⟨some (v, u), J2, rfl, rfl, k3, k4⟩

theorem al_map {f : α → β} {a a' : A α} (ha : AnalyzedAlike g P a a') : AnalyzedAlike g P (A.map f a) (A.map f a') := fun J hJ hg => by
  obtain ⟨v, J1, h1, h2, h3, h4⟩ := ha J hJ hg
  simp only [A.map, h1, h2]
  exact ⟨_, J1, rfl, rfl, h3, h4⟩

theorem al_andThen {a a' : A α} {f f' : α → A β} (ha : AnalyzedAlike g (· = g) a a') (hf : ∀ x, AnalyzedAlike g (· = g) (f x) (f' x)) :
    AnalyzedAlike g (· = g) (A.andThen a f) (A.andThen a' f') := fun J hJ hg => by
  obtain ⟨v, J1, h1, h2, h3, h4⟩ := ha J hJ hg
  simp only [A.andThen, h1, h2]
  cases v with
  | none => exact ⟨none, J1, rfl, rfl, h3, h4⟩
  | some v => exact hf v J1 h3 h4

theorem al_ite {a a' b b' : A α} (c : Prop) [Decidable c] (ha : AnalyzedAlike g P a a') (hb : AnalyzedAlike g P b b') :
    AnalyzedAlike g P (if c then a else b) (if c then a' else b') := by split <;> assumption

/-- Two steps which keep the declarations. -/
theorem al_both {a a' : A α} {b b' : A β} (ha : AnalyzedAlike g (· = g) a a') (hb : AnalyzedAlike g (· = g) b b') : AnalyzedAlike g (· = g) (A.zip a b) (A.zip a' b') :=
  al_zip ha (fun _ h => h ▸ hb)

theorem al_items {R : α → α → Prop} {f f' : α → A β} (h : ∀ x x', R x x' → AnalyzedAlike g (· = g) (f x) (f' x')) :
    ∀ {l l'}, List.Forall₂ R l l' → AnalyzedAlike g (· = g) (analyzeItems f l) (analyzeItems f' l')
  | _, _, .nil => al_ok _ rfl
  | _, _, .cons hx hl => al_map (al_both (h _ _ hx) (al_items h hl))

theorem al_inBlock {a a' : A α} (h : AnalyzedAlike g.block (fun g' => outerOf g' = outerOf g.block) a a') : AnalyzedAlike g (· = g) (inBlock a) (inBlock a') := by
  rintro ⟨fs, k, e, c⟩ ⟨hne, hok⟩ rfl
  cases fs with
  | nil => exact absurd rfl hne
  | cons j js =>
    obtain ⟨v, ⟨fs', k', e', c'⟩, h1, h2, ⟨h3, h3'⟩, h4⟩ := h ⟨{ j with scopes := [] :: j.scopes } :: js, k, e, c⟩
      ⟨by simp, ⟨⟨by simp, fun s hs => by
        rcases List.mem_cons.1 hs with rfl | hs
        · simp
        · exact hok.1.2 s hs⟩, hok.2⟩⟩ rfl
    cases fs' with
    | nil => exact absurd rfl h3
    | cons j' js' =>
      obtain ⟨n', cs', sl', ss'⟩ := j'
      cases ss' with
      | nil => exact absurd rfl h3'.1.1
      | cons s' ss' =>
        simp only [JState.ctx, List.map_cons, JFrame.names, Bound.block, outerOf, Option.some.injEq, Prod.mk.injEq] at h4
        refine ⟨v, ⟨⟨n', cs', sl', ss'⟩ :: js', k', e', c'⟩, ?_, ?_, ⟨by simp, ⟨⟨?_, fun s hs => h3'.1.2 s (List.mem_cons_of_mem _ hs)⟩, h3'.2⟩⟩, ?_⟩
        · have h1 : a (AState.enterBlock (JState.left ⟨j :: js, k, e, c⟩)) = _ := h1
          simp only [inBlock, h1]
          rfl
        · have h2 : a' (AState.enterBlock (JState.right ⟨j :: js, k, e, c⟩)) = _ := h2
          simp only [inBlock, h2]
          rfl
        · rintro rfl
          exact hok.1.1 (List.map_eq_nil_iff.1 h4.1.symm)
        · show (_ : Bound) = _
          simp only [JState.ctx, List.map_cons, JFrame.names, h4.1]
          exact congrArg _ h4.2

/-! ### Variables -/

theorem sameVar_inj {l : List (Sym × Sym)} {x x' y y' : Sym} (h : SameVar l x x') (k : SameVar l y y') : x = y ↔ x' = y' := by
  induction h with
  | here x x' l =>
    cases k with
    | here => simp
    | there k1 k2 _ => exact ⟨fun h => absurd h.symm k1, fun h => absurd h.symm k2⟩
  | there h1 h2 _ ih =>
    cases k with
    | here => exact ⟨fun h => absurd h h1, fun h => absurd h h2⟩
    | there _ _ k => exact ih k

theorem al_lookup {x x' : Sym} (hx : UserName x) (hx' : UserName x') {l : List (Sym × Sym)} : ∀ {s : List JEntry},
    SameVar (s.filterMap JEntry.names ++ l) x x' →
    (∃ n, Scope.find (s.map JEntry.left) x = some n ∧ Scope.find (s.map JEntry.right) x' = some n) ∨
    (Scope.find (s.map JEntry.left) x = none ∧ Scope.find (s.map JEntry.right) x' = none ∧ SameVar l x x')
  | [], h => .inr ⟨rfl, rfl, h⟩
  | .user y y' n :: s, h => by
    simp only [Scope.find, List.map_cons, JEntry.left, JEntry.right, List.lookup_cons]
    cases h with
    | here => exact .inl ⟨n, by simp, by simp⟩
    | there h1 h2 h =>
      rw [beq_eq_false_iff_ne.2 h1, beq_eq_false_iff_ne.2 h2]
      exact al_lookup hx hx' h
  | .closed y y' n :: s, h => by
    simp only [Scope.find, List.map_cons, JEntry.left, JEntry.right, List.lookup_cons]
    rw [beq_eq_false_iff_ne.2 (userName_ne_closed hx), beq_eq_false_iff_ne.2 (userName_ne_closed hx')]
    exact al_lookup hx hx' (s := s) h

theorem al_frame {x x' : Sym} (hx : UserName x) (hx' : UserName x') {l : List (Sym × Sym)} : ∀ {ss : List (List JEntry)},
    SameVar ((ss.map (·.filterMap JEntry.names)).flatten ++ l) x x' →
    (∃ n, (ss.map (·.map JEntry.left)).findSome? (fun s => Scope.find s x) = some n ∧ (ss.map (·.map JEntry.right)).findSome? (fun s => Scope.find s x') = some n) ∨
    ((ss.map (·.map JEntry.left)).findSome? (fun s => Scope.find s x) = none ∧ (ss.map (·.map JEntry.right)).findSome? (fun s => Scope.find s x') = none ∧ SameVar l x x')
  | [], h => .inr ⟨rfl, rfl, h⟩
  | s :: ss, h => by
    rw [List.map_cons, List.flatten_cons, List.append_assoc] at h
    simp only [List.map_cons, List.findSome?_cons]
    rcases al_lookup hx hx' h with ⟨n, h1, h2⟩ | ⟨h1, h2, h3⟩
    · rw [h1, h2]; exact .inl ⟨n, rfl, rfl⟩
    · rw [h1, h2]; exact al_frame hx hx' h3

theorem al_closedName_inj {x y : Sym} : closedName x = closedName y ↔ x = y := by
  unfold closedName
  exact ⟨fun h => List.append_cancel_right h, fun h => by rw [h]⟩

theorem al_closed {x x' : Sym} (h : SameVar g.flatten.flatten x x') : ∀ {s : List JEntry}, (∀ e ∈ s, e.Ok g) →
    Scope.find (s.map JEntry.left) (closedName x) = Scope.find (s.map JEntry.right) (closedName x')
  | [], _ => rfl
  | .user y y' n :: s, hs => by
    have hy : UserName y ∧ UserName y' := hs _ List.mem_cons_self
    simp only [Scope.find, List.map_cons, JEntry.left, JEntry.right, List.lookup_cons]
    rw [beq_eq_false_iff_ne.2 (userName_ne_closed hy.1).symm, beq_eq_false_iff_ne.2 (userName_ne_closed hy.2).symm]
    exact al_closed h fun e he => hs e (List.mem_cons_of_mem _ he)
  | .closed y y' n :: s, hs => by
    have hy : SameVar g.flatten.flatten y y' := hs _ List.mem_cons_self
    have ih := al_closed h (s := s) fun e he => hs e (List.mem_cons_of_mem _ he)
    simp only [Scope.find, List.map_cons, JEntry.left, JEntry.right, List.lookup_cons] at ih ⊢
    have : (closedName x == closedName y) = (closedName x' == closedName y') := by
      rw [Bool.eq_iff_iff, beq_iff_eq, beq_iff_eq, al_closedName_inj, al_closedName_inj]
      exact sameVar_inj h hy
    rw [this, ih]

/-- `insertRoot` on joint scopes. -/
def jInsert (e : JEntry) : List (List JEntry) → List (List JEntry)
  | [] => []
  | [s] => [e :: s]
  | s :: ss => s :: jInsert e ss

theorem jInsert_left (x x' : Sym) (n : Nat) : ∀ ss, (jInsert (.closed x x' n) ss).map (·.map JEntry.left) = insertRoot (closedName x) n (ss.map (·.map JEntry.left))
  | [] => rfl
  | [s] => rfl
  | s :: s' :: ss => by
    have ih := jInsert_left x x' n (s' :: ss)
    simp only [jInsert, List.map_cons, insertRoot] at ih ⊢
    rw [ih]

theorem jInsert_right (x x' : Sym) (n : Nat) : ∀ ss, (jInsert (.closed x x' n) ss).map (·.map JEntry.right) = insertRoot (closedName x') n (ss.map (·.map JEntry.right))
  | [] => rfl
  | [s] => rfl
  | s :: s' :: ss => by
    have ih := jInsert_right x x' n (s' :: ss)
    simp only [jInsert, List.map_cons, insertRoot] at ih ⊢
    rw [ih]

theorem jInsert_names (x x' : Sym) (n : Nat) : ∀ ss, (jInsert (.closed x x' n) ss).map (·.filterMap JEntry.names) = ss.map (·.filterMap JEntry.names)
  | [] => rfl
  | [s] => rfl
  | s :: s' :: ss => by
    have ih := jInsert_names x x' n (s' :: ss)
    simp only [jInsert, List.map_cons] at ih ⊢
    rw [ih]

theorem jInsert_ok {e : JEntry} (he : e.Ok g) : ∀ {ss : List (List JEntry)}, (ss ≠ [] ∧ ∀ s ∈ ss, ∀ e ∈ s, e.Ok g) →
    jInsert e ss ≠ [] ∧ ∀ s ∈ jInsert e ss, ∀ e ∈ s, e.Ok g
  | [], h => absurd rfl h.1
  | [s], h => by
    refine ⟨by simp [jInsert], fun t ht => ?_⟩
    rw [jInsert, List.mem_singleton] at ht
    subst ht
    intro e' he'
    rcases List.mem_cons.1 he' with rfl | he'
    · exact he
    · exact h.2 s List.mem_cons_self e' he'
  | s :: s' :: ss, h => by
    have ih := jInsert_ok he (ss := s' :: ss) ⟨by simp, fun t ht => h.2 t (List.mem_cons_of_mem _ ht)⟩
    refine ⟨by simp [jInsert], fun t ht => ?_⟩
    rw [jInsert, List.mem_cons] at ht
    rcases ht with rfl | ht
    · exact h.2 _ List.mem_cons_self
    · exact ih.2 t ht
    · simp

theorem al_resolveFrames {x x' : Sym} (hx : UserName x) (hx' : UserName x') : ∀ {js : List JFrame}, JOk js →
    SameVar (js.map JFrame.names).flatten.flatten x x' → ∃ n js', resolveFrames x (js.map JFrame.left) = some (n, js'.map JFrame.left) ∧
      resolveFrames x' (js.map JFrame.right) = some (n, js'.map JFrame.right) ∧ JOk js' ∧ js'.map JFrame.names = js.map JFrame.names
  | [], _, h => by cases h
  | j :: js, hok, h => by
    rw [List.map_cons, List.flatten_cons, List.flatten_append] at h
    simp only [List.map_cons, resolveFrames, Frame.resolve]
    rcases al_frame hx hx' h with ⟨n, h1, h2⟩ | ⟨h1, h2, h3⟩
    · rw [show j.left.scopes.findSome? (fun s => Scope.find s x) = some n from h1, show j.right.scopes.findSome? (fun s => Scope.find s x') = some n from h2]
      exact ⟨n, j :: js, rfl, rfl, hok, rfl⟩
    · rw [show j.left.scopes.findSome? (fun s => Scope.find s x) = none from h1, show j.right.scopes.findSome? (fun s => Scope.find s x') = none from h2]
      obtain ⟨m, js', k1, k2, k3, k4⟩ := al_resolveFrames hx hx' hok.2 h3
      simp only [k1, k2]
      have hj : j.Ok (js'.map JFrame.names) := by rw [k4]; exact hok.1
      have h3' : SameVar (js'.map JFrame.names).flatten.flatten x x' := by rw [k4]; exact h3
      have hl : (j.left.scopes.getLast? >>= fun root => Scope.find root (closedName x)) = (j.right.scopes.getLast? >>= fun root => Scope.find root (closedName x')) := by
        simp only [JFrame.left, JFrame.right, List.getLast?_map]
        cases hs : j.scopes.getLast? with
        | none => rfl
        | some s => exact al_closed h3' (hj.2 s (List.mem_of_getLast? hs))
      cases hr : (j.right.scopes.getLast? >>= fun root => Scope.find root (closedName x')) with
      | some n =>
        refine ⟨n, j :: js', ?_, ?_, ⟨hj, k3⟩, by rw [List.map_cons, k4]⟩
        · simp only [Frame.capture, hl, hr, List.map_cons]
        · simp only [Frame.capture, hr, List.map_cons]
      | none =>
        refine ⟨j.slots, ⟨j.slots + 1, j.captures ++ [⟨m, j.slots⟩], j.selfSlot, jInsert (.closed x x' j.slots) j.scopes⟩ :: js', ?_, ?_,
          ⟨jInsert_ok (e := .closed x x' j.slots) h3' hj, k3⟩, ?_⟩
        · simp only [Frame.capture, hl, hr]
          simp only [List.map_cons, JFrame.left, jInsert_left]
        · simp only [Frame.capture, hr]
          simp only [List.map_cons, JFrame.right, jInsert_right]
        · rw [List.map_cons, k4]; simp only [JFrame.names, jInsert_names]

theorem al_resolve {x x' : Sym} (h : g.Uses x x') (p : Pos) : AnalyzedAlike g (· = g) (resolve x p) (resolve x' p) := by
  rintro ⟨fs, k, e, c⟩ ⟨hne, hok⟩ rfl
  obtain ⟨n, js', h1, h2, h3, h4⟩ := al_resolveFrames h.1 h.2.1 hok h.2.2
  refine ⟨some n, ⟨js', k, e, c⟩, ?_, ?_, ⟨?_, h3⟩, h4⟩
  · simp only [resolve, JState.left, h1]
  · simp only [resolve, JState.right, h2]
  · rintro rfl
    exact hne (List.map_eq_nil_iff.1 h4.symm)

theorem al_resolveIdent {x x' : Sym} (h : g.Uses x x') (p : Pos) : AnalyzedAlike g (· = g) (resolveIdent x p) (resolveIdent x' p) := by
  unfold resolveIdent
  rw [symIll_false h.1, symIll_false h.2.1]
  exact al_resolve h p

theorem al_self : AnalyzedAlike g (· = g) resolveSelf resolveSelf := by
  rintro ⟨fs, k, e, c⟩ ⟨hne, hok⟩ rfl
  cases fs with
  | nil => exact absurd rfl hne
  | cons j js =>
    obtain ⟨n, cs, sl, ss⟩ := j
    cases sl with
    | some m => exact ⟨some m, ⟨⟨n, cs, some m, ss⟩ :: js, k, e, c⟩, rfl, rfl, ⟨hne, hok⟩, rfl⟩
    | none => exact ⟨some n, ⟨⟨n + 1, cs, some n, ss⟩ :: js, k, e, c⟩, rfl, rfl, ⟨by simp, hok⟩, rfl⟩

theorem al_absent {x x' : Sym} (hx : UserName x) (hx' : UserName x') : ∀ {s : List JEntry}, (∀ p ∈ s.filterMap JEntry.names, x ≠ p.1 ∧ x' ≠ p.2) →
    Scope.find (s.map JEntry.left) x = none ∧ Scope.find (s.map JEntry.right) x' = none
  | [], _ => ⟨rfl, rfl⟩
  | .user y y' n :: s, h => by
    have hy := h (y, y') List.mem_cons_self
    have ih := al_absent hx hx' (s := s) fun p hp => h p (List.mem_cons_of_mem _ hp)
    simp only [Scope.find, List.map_cons, JEntry.left, JEntry.right, List.lookup_cons] at ih ⊢
    rw [beq_eq_false_iff_ne.2 hy.1, beq_eq_false_iff_ne.2 hy.2]
    exact ih
  | .closed y y' n :: s, h => by
    have ih := al_absent hx hx' (s := s) h
    simp only [Scope.find, List.map_cons, JEntry.left, JEntry.right, List.lookup_cons] at ih ⊢
    rw [beq_eq_false_iff_ne.2 (userName_ne_closed hx), beq_eq_false_iff_ne.2 (userName_ne_closed hx')]
    exact ih

theorem al_declare {x x' : Sym} (h : g.Fresh x x') (p : Pos) : AnalyzedAlike g (· = g.declare x x') (declare x p) (declare x' p) := by
  rintro ⟨fs, k, e, c⟩ ⟨hne, hok⟩ rfl
  cases fs with
  | nil => exact absurd rfl hne
  | cons j js =>
    obtain ⟨n, cs, sl, ss⟩ := j
    cases ss with
    | nil => exact absurd rfl hok.1.1
    | cons s ss =>
      obtain ⟨h1, h2⟩ := al_absent h.1 h.2.1 (h.2.2 _ _ _ rfl)
      refine ⟨some n, ⟨⟨n + 1, cs, sl, (.user x x' n :: s) :: ss⟩ :: js, k, e, c⟩, ?_, ?_, ⟨by simp, ⟨⟨by simp, fun t ht => ?_⟩, hok.2⟩⟩, rfl⟩
      · simp only [declare, JState.left, JFrame.left, List.map_cons, h1, JEntry.left]
      · simp only [declare, JState.right, JFrame.right, List.map_cons, h2, JEntry.right]
      · rcases List.mem_cons.1 ht with rfl | ht
        · intro e he
          rcases List.mem_cons.1 he with rfl | he
          · exact ⟨h.1, h.2.1⟩
          · exact hok.1.2 s List.mem_cons_self e he
        · exact hok.1.2 t (List.mem_cons_of_mem _ ht)

theorem al_declareOr {x x' : Sym} (h : g.Fresh x x') (p : Pos) :
    AnalyzedAlike g (· = g.declare x x') (if symIll x then A.fail else declare x p) (if symIll x' then A.fail else declare x' p) := by
  rw [symIll_false h.1, symIll_false h.2.1]
  exact al_declare h p

theorem al_params : ∀ {g g' : Bound} {ps ps'}, AlphaParams g ps ps' g' → AnalyzedAlike g (· = g') (declareParams ps) (declareParams ps')
  | _, _, _, _, .nil _ => al_ok _ rfl
  | _, _, _, _, .cons hf h => al_map (al_zip (al_declareOr hf _) (fun _ e => e ▸ al_params h))

theorem al_key (x : Sym) (p : Pos) : AnalyzedAlike g (· = g) (insertKey x p) (insertKey x p) := by
  intro J hJ hg
  unfold insertKey
  split
  · exact ⟨none, J, rfl, rfl, hJ, hg⟩
  · rw [show J.left.dictKeys = J.keys from rfl, show J.right.dictKeys = J.keys from rfl]
    split
    · exact al_report (.duplicateKey x) p (P := (· = g)) rfl J hJ hg
    · exact ⟨some x, { J with keys := x :: J.keys }, rfl, rfl, hJ, hg⟩

/-! ### Commands -/

theorem al_unit {u u'} (h : AlphaUnit g u u') : AnalyzedAlike g (· = g) (analyzeArgUnit u) (analyzeArgUnit u') := by
  cases h with
  | literal s => exact al_ok _ rfl
  | dollar p h => exact al_map (al_resolveIdent h p)

theorem al_part {u u'} (h : AlphaPart g u u') : AnalyzedAlike g (· = g) (analyzeArgPart u) (analyzeArgPart u') := by
  cases h with
  | unit h => exact al_map (al_unit h)
  | collection h => exact al_map (al_items (fun _ _ q => al_unit q) h)
  | _ => exact al_ok _ rfl

theorem al_argument {a a'} (h : AlphaArg g a a') : AnalyzedAlike g (· = g) (analyzeArgument a) (analyzeArgument a') := by
  unfold analyzeArgument argIll
  rw [← h.pos]
  exact al_ite _ (al_fail rfl) (al_map (al_items (fun _ _ q => al_part q) h.parts))

theorem al_redirection {a a'} (h : AlphaRedirection g a a') : AnalyzedAlike g (· = g) (analyzeRedirection a) (analyzeRedirection a') := by
  cases h with
  | illFormed => exact al_fail rfl
  | fd => exact al_ok _ rfl
  | overwrite n h => exact al_map (al_argument h)
  | append n h => exact al_map (al_argument h)
  | input b h => exact al_map (al_argument h)

theorem al_builtin {a a'} (h : AlphaArg g a a') : Prog.Builtin.ofArgument a = Prog.Builtin.ofArgument a' := by
  have hp := h.parts
  clear h
  obtain ⟨ps, p⟩ := a
  obtain ⟨ps', p'⟩ := a'
  dsimp only at hp
  cases hp with
  | nil => rfl
  | cons q hs =>
    cases hs with
    | nil =>
      cases q with
      | unit q => cases q <;> rfl
      | _ => rfl
    | cons q' hs =>
      cases q with
      | unit q => cases q <;> rfl
      | _ => rfl

theorem al_env {e e' : ArgUnit × Ast.Argument} (h : AlphaUnit g e.1 e'.1 ∧ AlphaArg g e.2 e'.2) : AnalyzedAlike g (· = g) (analyzeEnvItem e) (analyzeEnvItem e') := by
  unfold analyzeEnvItem
  exact al_andThen (al_unit h.1) fun _ => al_map (al_argument h.2)

theorem al_basic {c c'} (h : AlphaBasic g c c') : AnalyzedAlike g (· = g) (analyzeBasicCommand c) (analyzeBasicCommand c') := by
  unfold analyzeBasicCommand
  rw [al_builtin h.program, h.pos, h.abortOnError]
  split
  · exact al_report _ _ rfl
  · exact al_map (al_both (al_argument h.program) (al_both (al_items (fun _ _ q => al_env q) h.env)
      (al_both (al_items (fun _ _ q => al_argument q) h.arguments) (al_items (fun _ _ q => al_redirection q) h.redirections))))

theorem al_isEmpty {R : α → β → Prop} {l l'} (h : List.Forall₂ R l l') : l.isEmpty = l'.isEmpty := by cases h <;> rfl

theorem al_command (b : Bool) {c c'} (h : AlphaCommand g c c') : AnalyzedAlike g (· = g) (analyzeCommand b c) (analyzeCommand b c') := by
  unfold analyzeCommand
  rw [al_builtin h.head.program, al_isEmpty h.tail, al_isEmpty h.head.redirections, h.head.pos, h.head.abortOnError]
  split
  · exact al_ite _ (al_report _ _ rfl) (al_map (al_items (fun _ _ q => al_argument q) h.head.arguments))
  · exact al_map (al_both (al_basic h.head) (al_items (fun _ _ q => al_basic q) h.tail))

theorem al_commands {b b'} (h : AlphaCommands g b b') : AnalyzedAlike g (· = g) (analyzeCommandBlock b) (analyzeCommandBlock b') := by
  unfold analyzeCommandBlock
  rw [h.kind]
  exact al_map (al_both (al_command _ h.head) (al_items (fun _ _ q => al_command _ q) h.tail))

/-! ### Programs -/

theorem alphaStmt_outer {g g' : Bound} {s s'} (h : AlphaStmt g s s' g') : outerOf g' = outerOf g := by
  cases h <;> first
    | rfl
    | exact outer_declare _ _ _

theorem alphaParams_outer {g g' : Bound} {ps ps'} (h : AlphaParams g ps ps' g') : outerOf g' = outerOf g := by
  induction h with
  | nil => rfl
  | cons _ _ ih => exact ih.trans (outer_declare _ _ _)

theorem fresh_block {x x' : Sym} (hx : UserName x) (hx' : UserName x') : g.block.Fresh x x' := by
  refine ⟨hx, hx', fun s f fs h p hp => ?_⟩
  cases g with
  | nil => cases h
  | cons f' fs' =>
    simp only [Bound.block, List.cons.injEq] at h
    rw [← h.1.1] at hp
    cases hp

mutual

theorem al_expr (fl) : ∀ (e : Ast.Expr) {g e'}, AlphaExpr g e e' → AnalyzedAlike g (· = g) (analyzeExpr fl e) (analyzeExpr fl e')
  | .illFormed, _, _, h => by cases h; rw [analyzeExpr]; exact al_fail rfl
  | .self_ pos, _, _, h => by
    cases h
    rw [analyzeExpr]
    exact al_ite _ (al_map al_self) (al_report _ _ rfl)
  | .ident x pos, _, _, h => by
    cases h with
    | ident _ h => rw [analyzeExpr, analyzeExpr]; exact al_map (al_resolveIdent h pos)
  | .lit l pos, _, _, h => by
    cases h with
    | lit _ h => rw [analyzeExpr, analyzeExpr]; exact al_map (al_lit fl l h)
  | .unary op e pos, _, _, h => by
    cases h with
    | unary _ _ h =>
      rw [analyzeExpr, analyzeExpr]
      exact al_andThen (al_expr fl e h) fun _ => al_ite _ (al_report _ _ rfl) (al_ok _ rfl)
  | .binary a op b pos, _, _, h => by
    cases h with
    | binary _ _ h1 h2 => rw [analyzeExpr, analyzeExpr]; exact al_map (al_both (al_expr fl a h1) (al_expr fl b h2))
  | .if_ c t e pos, _, _, h => by
    cases h with
    | if_ _ h1 h2 h3 =>
      rw [analyzeExpr, analyzeExpr]
      exact al_map (al_both (al_expr fl c h1) (al_both (al_inBlock (al_block fl t h2)) (al_inBlock (al_block fl e h3))))
  | .access o f pos, _, _, h => by
    cases h with
    | access _ h1 h2 => rw [analyzeExpr, analyzeExpr]; exact al_map (al_both (al_expr fl o h1) (al_expr fl f h2))
  | .call f args pos, _, _, h => by
    cases h with
    | call _ h1 h2 => rw [analyzeExpr, analyzeExpr]; exact al_map (al_both (al_expr fl f h1) (al_exprs fl args h2))
  | .command b pos, _, _, h => by
    cases h with
    | command _ h => rw [analyzeExpr, analyzeExpr]; exact al_map (al_commands h)
  termination_by t => sizeOf t

theorem al_exprs (fl) : ∀ (es : List Ast.Expr) {g es'}, AlphaExprs g es es' → AnalyzedAlike g (· = g) (analyzeExprs fl es) (analyzeExprs fl es')
  | [], _, _, h => by cases h; rw [analyzeExprs]; exact al_ok _ rfl
  | e :: es, _, _, h => by
    cases h with
    | cons h1 h2 => rw [analyzeExprs, analyzeExprs]; exact al_map (al_both (al_expr fl e h1) (al_exprs fl es h2))
  termination_by t => sizeOf t

theorem al_lit (fl) : ∀ (l : Ast.Lit) {g l'}, AlphaLit g l l' → AnalyzedAlike g (· = g) (analyzeLit fl l) (analyzeLit fl l')
  | .nil, _, _, h => by cases h; rw [analyzeLit]; exact al_ok _ rfl
  | .bool _, _, _, h => by cases h; rw [analyzeLit]; exact al_ok _ rfl
  | .int _, _, _, h => by cases h; rw [analyzeLit]; exact al_ok _ rfl
  | .float _, _, _, h => by cases h; rw [analyzeLit]; exact al_ok _ rfl
  | .byte _, _, _, h => by cases h; rw [analyzeLit]; exact al_ok _ rfl
  | .string _, _, _, h => by cases h; rw [analyzeLit]; exact al_ok _ rfl
  | .ident _, _, _, h => by cases h; rw [analyzeLit]; exact al_ite _ (al_fail rfl) (al_ok _ rfl)
  | .array es, _, _, h => by
    cases h with
    | array h => rw [analyzeLit, analyzeLit]; exact al_map (al_exprs fl es h)
  | .dict items, _, _, h => by
    cases h with
    | dict h =>
      intro J hJ hg
      rw [analyzeLit, analyzeLit]
      exact al_map (f := Prog.Lit.dict) (al_itemsDict fl items h) { J with keys := [] } hJ hg
  | .function params body, g, _, h => by
    cases h with
    | @function _ g1 _ ps' _ b' hp hb =>
      intro J hJ hg
      rw [analyzeLit, analyzeLit]
      dsimp only
      have hlen : params.length = ps'.length := by
        clear hb
        have : ∀ {g g' : Bound} {ps ps'}, AlphaParams g ps ps' g' → ps.length = ps'.length := by
          intro g g' ps ps' h
          induction h with
          | nil => rfl
          | cons _ _ ih => simp [ih]
        exact this hp
      obtain ⟨v, J1, h1, h2, h3, h4⟩ := al_params hp ⟨⟨0, [], none, [[]]⟩ :: J.frames, J.keys, J.errors, J.crashed⟩
        ⟨by simp, ⟨⟨by simp, by simp⟩, hJ.2⟩⟩ (by rw [← hg]; rfl)
      obtain ⟨u, ⟨fs, k, e, c⟩, k1, k2, ⟨k3, k3'⟩, k4⟩ := al_block ⟨true, false⟩ body hb J1 h3 h4
      rw [show AState.enterFrame J.left = JState.left ⟨⟨0, [], none, [[]]⟩ :: J.frames, J.keys, J.errors, J.crashed⟩ from rfl,
        show AState.enterFrame J.right = JState.right ⟨⟨0, [], none, [[]]⟩ :: J.frames, J.keys, J.errors, J.crashed⟩ from rfl, h1, h2]
      simp only [k1, k2, hlen]
      have ho : outerOf (JState.ctx ⟨fs, k, e, c⟩) = some ([], g) := k4.trans (alphaParams_outer hp)
      cases fs with
      | nil => exact absurd rfl k3
      | cons j js =>
        obtain ⟨n, cs, sl, ss⟩ := j
        cases ss with
        | nil => exact absurd rfl k3'.1.1
        | cons s ss =>
          simp only [JState.ctx, List.map_cons, JFrame.names, outerOf, Option.some.injEq, Prod.mk.injEq] at ho
          have hjs : js ≠ [] := by
            rintro rfl
            rw [← hg] at ho
            exact hJ.1 (List.map_eq_nil_iff.1 ho.2.symm)
          have hss : ss = [] := List.map_eq_nil_iff.1 ho.1
          subst hss
          have e1 : AState.exitFrame (JState.left ⟨⟨n, cs, sl, [s]⟩ :: js, k, e, c⟩) = (⟨n, cs, sl⟩, JState.left ⟨js, k, e, c⟩) := by
            simp [AState.exitFrame, JState.left, JFrame.left]
          have e2 : AState.exitFrame (JState.right ⟨⟨n, cs, sl, [s]⟩ :: js, k, e, c⟩) = (⟨n, cs, sl⟩, JState.right ⟨js, k, e, c⟩) := by
            simp [AState.exitFrame, JState.right, JFrame.right]
          rw [e1, e2]
          cases v with
          | none => exact ⟨none, ⟨js, k, e, c⟩, rfl, rfl, ⟨hjs, k3'.2⟩, ho.2⟩
          | some v =>
            cases u with
            | none => exact ⟨none, ⟨js, k, e, c⟩, rfl, rfl, ⟨hjs, k3'.2⟩, ho.2⟩
            | some u => exact ⟨_, ⟨js, k, e, c⟩, rfl, rfl, ⟨hjs, k3'.2⟩, ho.2⟩
  termination_by t => sizeOf t

theorem al_itemsDict (fl) : ∀ (is : List ((Sym × Pos) × Ast.Expr)) {g is'}, AlphaItems g is is' → AnalyzedAlike g (· = g) (analyzeItemsDict fl is) (analyzeItemsDict fl is')
  | [], _, _, h => by cases h; rw [analyzeItemsDict]; exact al_ok _ rfl
  | ((x, pos), e) :: items, _, _, h => by
    cases h with
    | cons _ h1 h2 =>
      rw [analyzeItemsDict, analyzeItemsDict]
      exact al_map (al_both (al_both (al_key x pos) (al_expr fl e h1)) (al_itemsDict fl items h2))
  termination_by t => sizeOf t

theorem al_lvalue (fl pos) : ∀ (e : Ast.Expr) {g e'}, AlphaExpr g e e' → AnalyzedAlike g (· = g) (analyzeLvalue fl pos e) (analyzeLvalue fl pos e')
  | .ident x ipos, _, _, h => by
    cases h with
    | ident _ h =>
      rw [analyzeLvalue, analyzeLvalue, symIll_false h.1, symIll_false h.2.1]
      exact al_map (al_resolve h ipos)
  | .access o f apos, _, _, h => by
    cases h with
    | access _ h1 h2 => rw [analyzeLvalue, analyzeLvalue]; exact al_map (al_both (al_expr fl o h1) (al_expr fl f h2))
  | .illFormed, _, _, h => by cases h; exact al_report .invalidAssignment pos rfl
  | .self_ _, _, _, h => by cases h; exact al_report .invalidAssignment pos rfl
  | .lit _ _, _, _, h => by cases h; exact al_report .invalidAssignment pos rfl
  | .unary _ _ _, _, _, h => by cases h; exact al_report .invalidAssignment pos rfl
  | .binary _ _ _ _, _, _, h => by cases h; exact al_report .invalidAssignment pos rfl
  | .if_ _ _ _ _, _, _, h => by cases h; exact al_report .invalidAssignment pos rfl
  | .call _ _ _, _, _, h => by cases h; exact al_report .invalidAssignment pos rfl
  | .command _ _, _, _, h => by cases h; exact al_report .invalidAssignment pos rfl
  termination_by t => sizeOf t

theorem al_stmt (fl) : ∀ (s : Ast.Stmt) {g g' s'}, AlphaStmt g s s' g' → AnalyzedAlike g (· = g') (analyzeStmt fl s) (analyzeStmt fl s')
  | .illFormed, _, _, _, h => by cases h; rw [analyzeStmt]; exact al_fail rfl
  | .let_ x e pos, _, _, _, h => by
    cases h with
    | let_ _ hf h => rw [analyzeStmt, analyzeStmt]; exact al_map (al_zip (al_declare hf pos) (fun _ eq => by subst eq; exact al_expr fl e h))
  | .assign a b pos, _, _, _, h => by
    cases h with
    | assign _ h1 h2 => rw [analyzeStmt, analyzeStmt]; exact al_map (al_both (al_lvalue fl pos a h1) (al_expr fl b h2))
  | .return_ e pos, _, _, _, h => by
    cases h with
    | return_ _ h =>
      rw [analyzeStmt, analyzeStmt]
      exact al_map (al_both (al_ite _ (al_ok _ rfl) (al_report _ _ rfl)) (al_expr fl e h))
  | .break_ pos, _, _, _, h => by cases h; rw [analyzeStmt]; exact al_ite _ (al_ok _ rfl) (al_report _ _ rfl)
  | .while_ c b pos, _, _, _, h => by
    cases h with
    | while_ _ h1 h2 => rw [analyzeStmt, analyzeStmt]; exact al_map (al_both (al_expr fl c h1) (al_inBlock (al_block _ b h2)))
  | .for_ x e b pos, _, _, _, h => by
    cases h with
    | for_ _ h1 hx hx' h2 =>
      rw [analyzeStmt, analyzeStmt]
      refine al_map (al_both (al_expr fl e h1) (al_inBlock (al_zip (al_declareOr (fresh_block hx hx') pos) (fun _ eq => ?_))))
      subst eq
      exact al_mono (al_block _ b h2) fun _ hq => hq.trans (outer_declare _ _ _)
  | .expr e, _, _, _, h => by
    cases h with
    | expr h => rw [analyzeStmt, analyzeStmt]; exact al_map (al_expr fl e h)
  termination_by t => sizeOf t

theorem al_block (fl) : ∀ (b : List Ast.Stmt) {g b'}, AlphaBlock g b b' → AnalyzedAlike g (fun g' => outerOf g' = outerOf g) (analyzeBlock fl b) (analyzeBlock fl b')
  | [], _, _, h => by cases h; rw [analyzeBlock]; exact al_ok _ rfl
  | s :: ss, _, _, h => by
    cases h with
    | cons h1 h2 =>
      rw [analyzeBlock, analyzeBlock]
      refine al_map (al_zip (al_stmt fl s h1) (fun _ eq => ?_))
      subst eq
      exact al_mono (al_block fl ss h2) fun _ hq => hq.trans (alphaStmt_outer h1)
  termination_by t => sizeOf t

end

end Hush

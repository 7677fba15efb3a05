import Verif.Spec.Shell
import Verif.Lemmas.InterpLimit
import Verif.Lemmas.Exec

/-!
Lemmas about the execution of command blocks in scripts.
-/

namespace Hush
open Hush.Spec
open Hush.Exec (Os Ev X runBlock replyOf execBlock)

theorem afterEvents_snoc (os : List Event → Os) (e : Event) : ∀ (evs past : List Event) (t : List Ev),
    afterEvents os past t (evs ++ [e]) = afterEvent (os (past ++ evs)) (afterEvents os past t evs) e
  | [], past, t => by simp [afterEvents]
  | x :: evs, past, t => by
    have := afterEvents_snoc os e evs (past ++ [x]) (afterEvent (os past) t x)
    simpa [afterEvents] using this

theorem history_snoc (os : List Event → Os) (evs : List Event) (e : Event) :
    history os (evs ++ [e]) = afterEvent (os evs) (history os evs) e := by
  simpa [history] using afterEvents_snoc os e evs [] []

/-- Up to the position of an error. -/
inductive Alike : Except Exec.XStop α → Except Exec.XStop α → Prop
  | refl (r) : Alike r r
  | io (msg p p') : Alike (.error (.io msg p)) (.error (.io msg p'))

/-- The position of a block matters only for that of an error. -/
theorem runBlock_pos (os : Os) (pos pos' : Pos) (b : ExBlock) (kind : Ast.BlockKind) (t : List Ev) :
    (runBlock os pos b kind t).2 = (runBlock os pos' b kind t).2 ∧ Alike (runBlock os pos b kind t).1 (runBlock os pos' b kind t).1 := by
  cases kind with
  | capture =>
    simp only [runBlock, Bind.bind, X.bind, Exec.call]
    cases os.fails t .pipe with
    | some msg => exact ⟨rfl, .io _ _ _⟩
    | none =>
      dsimp only
      cases os.fails (t ++ [⟨.pipe, true⟩]) .pipe with
      | some msg => exact ⟨rfl, .io _ _ _⟩
      | none =>
        dsimp only
        generalize execBlock os .captureOut .captureErr b _ = x
        rcases x with ⟨e | ess, t'⟩
        · exact ⟨rfl, .refl _⟩
        · dsimp only [Exec.receive]
          cases os.received t' .captureOut with
          | error msg => exact ⟨rfl, .io _ _ _⟩
          | ok out =>
            dsimp only
            cases os.received t' .captureErr with
            | error msg => exact ⟨rfl, .io _ _ _⟩
            | ok err => exact ⟨rfl, .refl _⟩
  | _ => exact ⟨rfl, .refl _⟩

/-- The outcome of a block of a script. -/
def BlockOutcome (w : World) (b : Prog.CommandBlock) (pos : Pos) (s : RState) (r : Except Stop Out) (s' : RState) (ex : ExBlock) : Prop :=
  match w.command s.trace b.kind ex with
  | .value t => r = done (t.build [] s.heap).1 pos ∧ s' = { s with trace := s.trace ++ [.command b.kind ex], heap := (t.build [] s.heap).2 }
  | .panic p => r = .error (.panic p) ∧ s' = { s with trace := s.trace ++ [.command b.kind ex] }
  | .crash => r = .error (.crash .native) ∧ s' = { s with trace := s.trace ++ [.command b.kind ex] }
  | .exit c => r = .error (.exit c) ∧ s' = { s with trace := s.trace ++ [.command b.kind ex] }

theorem ends_command {w : World} {m : Nat} {tail : Option Nat} {b : Prog.CommandBlock} {pos : Pos} {s : RState} {r : Except Stop Out} {s' : RState}
    (hk : b.kind ≠ .asynchronous) (h : Ends w (.expr m tail (.command b pos)) s r s') :
    (∃ e, buildBlock (argEnv w s) b.head b.tail = .error e ∧ r = .error e ∧ s' = s) ∨
    ∃ ex, buildBlock (argEnv w s) b.head b.tail = .ok ex ∧ BlockOutcome w b pos s r s' ex := by
  obtain ⟨-, N, hN⟩ := ends_iff.1 h
  have h := hN N (Nat.le_refl _)
  simp only [step, stepExpr, evalCommand, Bind.bind, M.andThen, M.get] at h
  cases hb : buildBlock (argEnv w s) b.head b.tail with
  | error e => rw [hb] at h; cases h; exact .inl ⟨e, rfl, rfl, rfl⟩
  | ok ex =>
    rw [hb] at h
    refine .inr ⟨ex, rfl, ?_⟩
    simp only [M.lift, M.ret, record, M.modify] at h
    unfold BlockOutcome
    cases hk' : b.kind with
    | asynchronous => exact absurd hk' hk
    | _ =>
      rw [hk'] at h
      cases hc : w.command s.trace _ ex <;> rw [hc] at h <;> cases h <;> exact ⟨rfl, rfl⟩

end Hush

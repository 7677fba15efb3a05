import Verif.Lemmas.InterpParts
import Verif.Lemmas.Elements
import Verif.Spec.Operators

/-!
Rules for `if`, `while` and sequences of statements.
-/

namespace Hush
open Spec

theorem ends_branching {w : World} {m : Nat} {tail : Option Nat} {c : Prog.Expr} {t e : List Prog.Stmt} {pos : Pos} {s r s'} :
    Ends w (.expr m tail (.if_ c t e pos)) s r s' ↔ Branching w m c t e pos s r s' := by
  rw [ends_iff]
  simp only [step, stepExpr]
  rw [lim_value (fun v p x => by
    cases v
    case bool b => exact (Mono.run w _).bind (fun _ => .const _)
    all_goals exact .const _)]
  have hb : ∀ b : Bool, ∀ s1, Lim (fun n => (do
      let o ← run w n (.block m none (if b then t else e))
      pure ⟨o.flow, pos, .nil⟩ : M Out)) s1 r s' ↔ ∃ r', Ends w (.block m none (if b then t else e)) s1 r' s' ∧ r = passed pos r' :=
    fun b s1 => lim_passed
  constructor
  · rintro (⟨v, p, x, s1, h1, h2⟩ | ⟨r', rfl, h, h1⟩)
    · cases v
      case bool b =>
        obtain ⟨r', h3, rfl⟩ := (hb b s1).1 h2
        cases b
        · exact .isFalse h1 h3
        · exact .isTrue h1 h3
      all_goals
        obtain ⟨rfl, rfl⟩ := lim_panic.1 h2
        exact .notBool h1 nofun
    · exact .conditionLeaves h1 h
  · intro h
    cases h with
    | conditionLeaves h hl => exact .inr ⟨_, rfl, hl, h⟩
    | notBool h hv =>
      rename_i v p obj
      refine .inl ⟨_, _, _, _, h, ?_⟩
      cases v
      case bool b => exact absurd rfl (hv b)
      all_goals exact lim_panic.2 ⟨rfl, rfl⟩
    | isTrue h h' => exact .inl ⟨_, _, _, _, h, (hb true _).2 ⟨_, h', rfl⟩⟩
    | isFalse h h' => exact .inl ⟨_, _, _, _, h, (hb false _).2 ⟨_, h', rfl⟩⟩

theorem ends_looping {w : World} {m : Nat} {c : Prog.Expr} {b : List Prog.Stmt} {s r s'} :
    Ends w (.loop m c b) s r s' ↔ Looping w m c b s r s' := by
  constructor
  · rintro ⟨hr, n, hn⟩
    induction n generalizing s with
    | zero => cases hn; exact absurd rfl hr
    | succ n ih =>
      simp only [run, step, bind, M.andThen] at hn
      rcases hc : run w n (.expr m none c) s with ⟨e | ⟨f, p, x⟩, s1⟩ <;> rw [hc] at hn
      · cases hn
        exact .conditionLeaves ⟨hr, n, hc⟩ (leaving_error e)
      · have h1 : Eval w m c s (.ok ⟨f, p, x⟩) s1 := ⟨nofun, n, hc⟩
        cases f with
        | return_ v => cases hn; exact .conditionLeaves h1 (fun _ _ _ h => by cases h)
        | break_ => cases hn; exact .conditionLeaves h1 (fun _ _ _ h => by cases h)
        | regular v =>
          simp only [Out.regular] at hn
          cases v
          case bool y =>
            cases y
            · cases hn; exact .isFalse h1
            · simp only [M.andThen] at hn
              rcases hb : run w n (.block m none b) s1 with ⟨e | ⟨f, p', x'⟩, s2⟩ <;> rw [hb] at hn
              · cases hn; exact .bodyStops h1 ⟨hr, n, hb⟩
              · have h2 : Ends w (.block m none b) s1 (.ok ⟨f, p', x'⟩) s2 := ⟨nofun, n, hb⟩
                cases f with
                | regular v => exact .again h1 h2 (ih hn)
                | return_ v => cases hn; exact .bodyReturns h1 h2
                | break_ => cases hn; exact .bodyBreaks h1 h2
          all_goals
            cases hn
            exact .notBool h1 nofun
  · intro h
    induction h with
    | conditionLeaves h hl => exact ends_iff.2 (lim_leave h hl)
    | notBool h hv =>
      rename_i s v p obj s'
      refine ends_iff.2 (lim_go h ?_)
      cases v
      case bool b => exact absurd rfl (hv b)
      all_goals exact lim_panic.2 ⟨rfl, rfl⟩
    | isFalse h => exact ends_iff.2 (lim_go h (lim_pure.2 ⟨rfl, rfl⟩))
    | bodyStops h h' => exact ends_iff.2 (lim_go h (lim_fails (lim_ends h')))
    | bodyReturns h h' => exact ends_iff.2 (lim_go h (lim_then (lim_ends h') (lim_pure.2 ⟨rfl, rfl⟩)))
    | bodyBreaks h h' => exact ends_iff.2 (lim_go h (lim_then (lim_ends h') (lim_pure.2 ⟨rfl, rfl⟩)))
    | again h h' _ ih => exact ends_iff.2 (lim_go h (lim_then (lim_ends h') (lim_ends ih)))

theorem ends_sequence {w : World} {m : Nat} {b : List Prog.Stmt} {s r s'} :
    Ends w (.block m none b) s r s' ↔ Sequence w m b s r s' := by
  induction b generalizing s with
  | nil =>
    rw [ends_iff]
    simp only [step]
    rw [lim_pure]
    constructor
    · rintro ⟨rfl, rfl⟩; exact .empty _
    · intro h; cases h; exact ⟨rfl, rfl⟩
  | cons x rest ih =>
    cases rest with
    | nil =>
      rw [ends_iff]
      simp only [step]
      rw [← ends_iff_run]
      constructor
      · exact .last
      · intro h; cases h; assumption
    | cons y rest =>
      rw [ends_iff]
      simp only [step]
      rw [lim_value (fun _ _ _ => Mono.run w _)]
      constructor
      · rintro (⟨v, p, z, s1, h1, h2⟩ | ⟨r', rfl, h, h1⟩)
        · exact .next h1 (ih.1 (ends_iff_run.2 h2))
        · exact .leaves h1 h
      · intro h
        cases h with
        | leaves h hl => exact .inr ⟨_, rfl, hl, h⟩
        | next h h' => exact .inl ⟨_, _, _, _, h, lim_ends (ih.2 h')⟩

end Hush

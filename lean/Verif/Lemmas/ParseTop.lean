import Verif.Lemmas.ParseComplete
import Verif.Spec.Unparse

/-!
The top-level loop of the parser, and expressions written with minimal parentheses.
-/

namespace Hush
open Ast (Expr Lit Stmt Block)
open Spec

/-- Where a block stops: at the end, at a closing keyword, or after a `return`. -/
theorem blockLoop_ends {ps : PState → Res Stmt} : ∀ (n : Nat) (st : PState) (b : Block) (st' : PState),
    blockLoop ps n st = .ok b st' →
    st'.toks.head?.all (fun t => t.kind.isBlockTerminator) = true ∨ ∃ s, b.getLast? = some s ∧ isRet s = true := by
  intro n
  induction n with
  | zero => intro st b st' h; cases h
  | succ n ih =>
    intro st b st' h
    unfold blockLoop at h
    split at h
    · rename_i hnil; cases h; simp [hnil]
    · rename_i t ts hts
      split at h
      · rename_i ht; cases h; simp [hts, ht]
      · revert h
        generalize Res.sync _ _ = r
        intro h
        cases r with
        | ok a st1 =>
          simp only [Res.bind] at h
          split at h
          · rename_i hr; cases h; right; exact ⟨a, rfl, by rw [← isReturn_eq]; exact hr⟩
          · cases hb : blockLoop ps n st1 with
            | ok b1 st2 =>
              rw [hb] at h
              cases h
              rcases ih _ _ _ hb with h1 | ⟨s, h1, h2⟩
              · exact Or.inl h1
              · right
                refine ⟨s, ?_, h2⟩
                cases b1 with
                | nil => cases h1
                | cons c b1 => simpa [List.getLast?_cons_cons] using h1
            | err => rw [hb] at h; cases h
            | crash => rw [hb] at h; cases h
            | timeout => rw [hb] at h; cases h
        | err => cases h
        | crash => cases h
        | timeout => cases h

/-- A block that ends in `return`. -/
def ReturnBlock (b : Block) (ts : List Token) : Prop :=
  ∃ f, Derives (.block b f) ts ∧ ∃ s, b.getLast? = some s ∧ isRet s = true

theorem sound_parseLoop {m : Nat} : ∀ (n : Nat) (st : PState),
    Sound (fun b ts rest => rest = [] → ∃ bs pre ts', ts = pre ++ ts' ∧ Many ReturnBlock bs pre ∧ IsProgram b ts') st
      (parseLoop (parseBlock m) n st) := by
  intro n
  induction n with
  | zero => intro st; trivial
  | succ n ih =>
    intro st
    unfold parseLoop
    have hstop : ∀ b st', parseBlock m st = .ok b st' →
        st'.toks.head?.all (fun t => t.kind.isBlockTerminator) = true ∨ ∃ s, b.getLast? = some s ∧ isRet s = true := by
      cases m with
      | zero => intro b st' h; cases h
      | succ m => exact fun b st' h => blockLoop_ends _ _ _ _ h
    have hs := (sound_both m).2 st
    revert hs hstop
    generalize parseBlock m st = r
    intro hstop hs
    have hrefine : ∀ b st', r = .ok b st' →
        Sound (fun b ts rest => rest = [] → ∃ bs pre ts', ts = pre ++ ts' ∧ Many ReturnBlock bs pre ∧ IsProgram b ts') st
          (match st'.toks with
            | [] => Res.ok b st'
            | t :: _ =>
              if t.kind.isBlockTerminator then
                parseLoop (parseBlock m) n ⟨[], .unexpected t (.msg "statement") :: st'.errors⟩
              else parseLoop (parseBlock m) n st') := by
      rintro b st' rfl
      cases hts : st'.toks with
      | nil =>
        refine ⟨hs.1, fun he => ?_⟩
        obtain ⟨ts, h1, f, h2, h3⟩ := hs.2 he
        refine ⟨ts, h1, fun _ => ⟨[], [], ts, rfl, .nil, f, h2, ?_⟩⟩
        simpa [hts, nextKind] using h3
      | cons t r =>
        dsimp only
        split
        · have := ih ⟨[], .unexpected t (.msg "statement") :: st'.errors⟩
          revert this
          generalize parseLoop _ _ _ = r'
          intro h'
          have hl : Later st' ⟨[], .unexpected t (.msg "statement") :: st'.errors⟩ :=
            ⟨List.nil_suffix, List.suffix_cons _ _⟩
          cases r' with
          | ok b2 st2 =>
            refine ⟨(hs.1.trans hl).trans h'.1, fun he => ?_⟩
            have h1 := hs.1.2.length_le
            have h2 := h'.1.2.length_le
            rw [he] at h2
            simp at h2; omega
          | err e s st2 => exact (hs.1.trans hl).trans h'
          | crash => trivial
          | timeout => trivial
        · rename_i hnt
          have := ih st'
          revert this
          generalize parseLoop _ _ _ = r'
          intro h'
          cases r' with
          | ok b2 st2 =>
            refine ⟨hs.1.trans h'.1, fun he => ?_⟩
            obtain ⟨e1, e2⟩ := later_errors hs.1 h'.1 he
            obtain ⟨ts, h1, f, h2, h3⟩ := hs.2 e1
            obtain ⟨ts2, h4, h5⟩ := h'.2 e2
            refine ⟨ts ++ ts2, by rw [h1, h4, List.append_assoc], fun hnil => ?_⟩
            obtain ⟨bs, pre, ts', h6, h7, h8⟩ := h5 hnil
            refine ⟨b :: bs, ts ++ pre, ts', by rw [h6, List.append_assoc], .cons ⟨f, h2, ?_⟩ h7, h8⟩
            rcases hstop b st' rfl with h9 | h9
            · simp [hts] at h9; exact absurd h9 hnt
            · exact h9
          | err e s st2 => exact hs.1.trans h'
          | crash => trivial
          | timeout => trivial
    cases r with
    | ok b st' => exact hrefine b st' rfl
    | err e s st' => exact hs
    | crash => trivial
    | timeout => trivial

theorem parse_sound {ts : List Token} {b : Block} (h : parse ts = .ok b ⟨[], []⟩) :
    ∃ bs pre ts', ts = pre ++ ts' ∧ Many ReturnBlock bs pre ∧ IsProgram b ts' := by
  have := sound_parseLoop (m := parseBudget ts) (ts.length + 2) ⟨ts, []⟩
  rw [show parseLoop (parseBlock (parseBudget ts)) (ts.length + 2) ⟨ts, []⟩ = parse ts from rfl, h] at this
  obtain ⟨ts', h1, h2⟩ := this.2 rfl
  obtain ⟨bs, pre, ts'', h3, h4, h5⟩ := h2 rfl
  simp at h1
  exact ⟨bs, pre, ts'', by rw [h1, h3], h4, h5⟩


/-! ### Writing expressions -/

theorem levelUp {k : Nat} {e : Expr} {ts : List Token} (h : Derives (.level k e) ts) :
    ∀ j, Derives (.level (k + j) e) ts := by
  intro j
  induction j with
  | zero => exact h
  | succ j ih => exact .up ih

theorem levelLe {k l : Nat} {e : Expr} {ts : List Token} (h : Derives (.level k e) ts) (hkl : k ≤ l) :
    Derives (.level l e) ts := by
  obtain ⟨j, rfl⟩ := Nat.exists_eq_add_of_le hkl
  exact levelUp h j

/-- What a tree of the given precedence is in the grammar. -/
def AtPrec : Nat → Expr → List Token → Prop
  | 0, e, ts => Derives (.postfix e) ts
  | k + 1, e, ts => Derives (.level k e) ts

theorem AtPrec.le {k l : Nat} {e : Expr} {ts : List Token} (h : AtPrec k e ts) (hkl : k ≤ l) : AtPrec l e ts := by
  cases l with
  | zero =>
    have : k = 0 := by omega
    subst this; exact h
  | succ l =>
    cases k with
    | zero => exact levelLe (Derives.noPrefix h) (Nat.zero_le _)
    | succ k => exact levelLe (h : Derives (.level k e) ts) (by omega)

theorem prec_le (t : Tree) : t.prec ≤ 8 := by
  cases t with
  | bin l op r p => cases op <;> simp [Tree.prec]
  | _ => simp [Tree.prec]

theorem AtPrec.atPrec {t : Tree} {ts : List Token} {e : Expr} (h : AtPrec t.prec e ts) (k : Nat) :
    AtPrec k e (atPrec k t ts) := by
  unfold Spec.atPrec
  split
  · exact h.le (by assumption)
  · have h8 : AtPrec 8 e ts := h.le (prec_le t)
    have : AtPrec 0 e (parens ts) := Derives.noPostfix (.paren h8)
    exact this.le (Nat.zero_le _)

mutual
theorem write_derives : ∀ t : Tree, AtPrec t.prec t.expr t.write
  | .ident x p => by simp only [Tree.prec, Tree.expr, Tree.write]; exact Derives.noPostfix .ident
  | .lit l p => by simp only [Tree.prec, Tree.expr, Tree.write]; exact Derives.noPostfix .lit
  | .neg t p => by
    simp only [Tree.prec, Tree.expr, Tree.write]
    exact Derives.minus ((write_derives t).atPrec 1)
  | .not t p => by
    simp only [Tree.prec, Tree.expr, Tree.write]
    exact Derives.not ((write_derives t).atPrec 1)
  | .try_ t p => by
    simp only [Tree.prec, Tree.expr, Tree.write]
    exact Derives.try_ ((write_derives t).atPrec 0)
  | .bin l op r p => by
    have hl := write_derives l
    have hr := write_derives r
    have e : Tree.prec (.bin l op r p) = binLevel op + 1 := by cases op <;> rfl
    obtain ⟨k, hk⟩ : ∃ k, binLevel op = k + 1 := by cases op <;> exact ⟨_, rfl⟩
    rw [e]
    simp only [Tree.expr, Tree.write]
    rw [e, hk]
    exact Derives.binary (hl.atPrec (k + 1 + 1)) hk (hr.atPrec (k + 1))
  | .call f args p => by
    simp only [Tree.prec, Tree.expr, Tree.write]
    exact Derives.call ((write_derives f).atPrec 0) (writeArgs_derives args)
  | .index o i p => by
    simp only [Tree.prec, Tree.expr, Tree.write]
    exact Derives.index ((write_derives o).atPrec 0) ((write_derives i).le (l := 8) (prec_le i))
  | .dot o x p px => by
    simp only [Tree.prec, Tree.expr, Tree.write]
    exact Derives.dot ((write_derives o).atPrec 0)
theorem writeArgs_derives : ∀ ts : List Tree, Derives (.exprs (Tree.exprs ts)) (Tree.writeArgs ts)
  | [] => by simp only [Tree.exprs, Tree.writeArgs]; exact .exprsNil
  | [t] => by
    simp only [Tree.exprs, Tree.writeArgs]
    exact .exprsLast ((write_derives t).le (l := 8) (prec_le t))
  | t :: t' :: ts => by
    rw [Tree.exprs, Tree.writeArgs]
    · exact .exprsCons ((write_derives t).le (l := 8) (prec_le t)) (writeArgs_derives (t' :: ts))
    · simp
end

theorem write_program (t : Tree) : IsProgram [.expr t.expr] t.write :=
  ⟨.exprNotAssign, .blockLast (.exprStmt ((write_derives t).le (l := 8) (prec_le t))), rfl⟩

end Hush

import Verif.Spec.Output

/-!
Lemmas for C75.
-/

namespace Hush.Output
open Hush Spec

/-- What has been written, followed by what waits in the buffer. -/
def Stdout.total (o : Stdout) : List (Bool × UInt8) := o.seen ++ o.pending.map (true, ·)

theorem total_flush (o : Stdout) : o.flush.total = o.total := by
  simp [Stdout.total, Stdout.flush, Stdout.raw]

theorem flush_pending (o : Stdout) : o.flush.pending = [] := rfl

theorem flush_seen (o : Stdout) : o.flush.seen = o.total := rfl

theorem buffer_spec (s : Bytes) (o : Stdout) :
    (o.buffer s).total = o.total ++ s.map (true, ·) ∧
    ((o.buffer s).pending = o.pending ++ s ∨ (o.buffer s).pending = s ∨ (o.buffer s).pending = []) := by
  unfold Stdout.buffer
  split
  · exact ⟨by simp [Stdout.total], .inl rfl⟩
  · rename_i h1
    by_cases h2 : capacity - o.pending.length < s.length
    · rw [if_pos h2]
      by_cases h3 : capacity ≤ s.length
      · rw [if_pos h3]
        exact ⟨by simp [Stdout.total, Stdout.flush, Stdout.raw], .inr (.inr rfl)⟩
      · rw [if_neg h3]
        exact ⟨by simp [Stdout.total, Stdout.flush, Stdout.raw], .inr (.inl (by simp [Stdout.flush]))⟩
    · rw [if_neg h2]
      by_cases h3 : capacity ≤ s.length
      · rw [if_pos h3]
        have hp : o.pending = [] := by
          apply List.eq_nil_of_length_eq_zero
          have : 0 < capacity := by decide
          omega
        exact ⟨by simp [Stdout.total, Stdout.raw, hp], .inr (.inr hp)⟩
      · rw [if_neg h3]
        exact ⟨by simp [Stdout.total], .inl rfl⟩

theorem splitLast_none : ∀ {s : Bytes}, splitLast s = none → 10 ∉ s
  | [], _ => by simp
  | b :: s, h => by
    rw [splitLast] at h
    split at h
    · cases h
    · rename_i hs
      split at h
      · cases h
      · rename_i hb
        simp only [List.mem_cons, not_or]
        exact ⟨fun e => hb e.symm, splitLast_none hs⟩

theorem splitLast_some : ∀ {s lines tail : Bytes}, splitLast s = some (lines, tail) → s = lines ++ tail ∧ 10 ∉ tail ∧ lines ≠ []
  | [], _, _, h => by cases h
  | b :: s, lines, tail, h => by
    rw [splitLast] at h
    split at h
    · rename_i l t hs
      injection h with h
      injection h with h1 h2
      subst h1; subst h2
      obtain ⟨g1, g2, g3⟩ := splitLast_some hs
      exact ⟨by rw [g1]; rfl, g2, by simp⟩
    · rename_i hs
      split at h
      · rename_i hb
        injection h with h
        injection h with h1 h2
        subst h1; subst h2
        exact ⟨by rw [hb]; rfl, splitLast_none hs, by simp⟩
      · cases h

theorem write_total (s : Bytes) (o : Stdout) : (o.write s).total = o.total ++ s.map (true, ·) := by
  unfold Stdout.write
  split
  · rw [(buffer_spec _ _).1]
    split
    · rw [total_flush]
    · rfl
  · rename_i lines tail h
    obtain ⟨h1, -, -⟩ := splitLast_some h
    rw [(buffer_spec _ _).1]
    split
    · rename_i hp
      simp [Stdout.total, Stdout.raw, hp, h1]
    · rw [total_flush, (buffer_spec _ _).1, h1]
      simp

/-- What waits in the buffer ends like what was printed, and not with a line end. -/
def Waits (o : Stdout) (t : Bytes) : Prop := o.pending = [] ∨ (o.pending.getLast? = t.getLast? ∧ o.pending.getLast? ≠ some 10)

theorem getLast?_tail {t s : Bytes} (h : s ≠ []) : (t ++ s).getLast? = s.getLast? := by
  rw [List.getLast?_append]
  cases s with
  | nil => exact absurd rfl h
  | cons b s => simp [List.getLast?_cons]

theorem getLast?_ne {s : Bytes} (h : 10 ∉ s) : s.getLast? ≠ some 10 := fun e => h (List.mem_of_getLast? e)

theorem buffer_waits {s t : Bytes} {o : Stdout} (ho : Waits o t) (hs : 10 ∉ s) : Waits (o.buffer s) (t ++ s) := by
  cases s with
  | nil =>
    rcases (buffer_spec [] o).2 with h | h | h
    · unfold Waits; rw [h, List.append_nil, List.append_nil]; exact ho
    · exact .inl h
    · exact .inl h
  | cons b s =>
    rcases (buffer_spec (b :: s) o).2 with h | h | h
    · refine .inr ?_
      rw [h, getLast?_tail (by simp), getLast?_tail (by simp)]
      exact ⟨rfl, getLast?_ne hs⟩
    · refine .inr ?_
      rw [h, getLast?_tail (by simp)]
      exact ⟨rfl, getLast?_ne hs⟩
    · exact .inl h

theorem write_waits {s t : Bytes} {o : Stdout} (ho : Waits o t) : Waits (o.write s) (t ++ s) := by
  unfold Stdout.write
  split
  · rename_i h
    refine buffer_waits ?_ (splitLast_none h)
    split
    · exact .inl rfl
    · exact ho
  · rename_i lines tail h
    obtain ⟨h1, h2, h3⟩ := splitLast_some h
    rw [h1, ← List.append_assoc]
    refine buffer_waits (.inl ?_) h2
    split
    · rename_i hp; exact hp
    · rfl

theorem writes_spec : ∀ (ps : List Bytes) (o : Stdout) (t : Bytes), Waits o t →
    (ps.foldl (fun o s => o.write s) o).total = o.total ++ ps.flatten.map (true, ·) ∧ Waits (ps.foldl (fun o s => o.write s) o) (t ++ ps.flatten)
  | [], o, t, h => by simpa using h
  | s :: ps, o, t, h => by
    obtain ⟨h1, h2⟩ := writes_spec ps (o.write s) (t ++ s) (write_waits h)
    refine ⟨?_, ?_⟩
    · rw [List.foldl_cons, h1, write_total]; simp
    · rw [List.foldl_cons, List.flatten_cons, ← List.append_assoc]; exact h2

theorem step_waits {o : Stdout} {t : Bytes} (h : Waits o t) : ∀ a : Act, Waits (a.step o) (t ++ Printed [a])
  | .write ps => by
    have := (writes_spec ps o t h).2
    simpa [Printed, Act.step] using this
  | .flush => .inl rfl
  | .command out => by simpa [Printed, Act.step, Stdout.raw, Waits] using h
  | .replaced out => .inl rfl

theorem printed_append : ∀ (as cs : List Act), Printed (as ++ cs) = Printed as ++ Printed cs
  | [], _ => rfl
  | a :: as, cs => by
    cases a <;> simp [Printed, printed_append as cs]

theorem run_waits : ∀ (as : List Act) {o : Stdout} {t : Bytes}, Waits o t → Waits (as.foldl Act.step o) (t ++ Printed as)
  | [], o, t, h => by simpa [Printed] using h
  | a :: as, o, t, h => by
    rw [show a :: as = [a] ++ as from rfl, printed_append, ← List.append_assoc]
    exact run_waits as (step_waits h a)

/-- At the beginning of a line, nothing waits. -/
theorem line_start {as : List Act} (h : AtLineStart as) : (as.foldl Act.step ⟨[], []⟩).pending = [] := by
  obtain ⟨p, q, rfl, hp, hq⟩ := h
  rw [List.foldl_append]
  have h0 : (p.foldl Act.step ⟨[], []⟩).pending = [] := by
    rcases hp with rfl | hp
    · rfl
    · obtain ⟨p', rfl⟩ := List.getLast?_eq_some_iff.1 hp
      rw [List.foldl_append]
      rfl
  have := run_waits q (o := p.foldl Act.step ⟨[], []⟩) (t := []) (.inl h0)
  rw [List.nil_append] at this
  rcases this with h | ⟨h1, h2⟩
  · exact h
  · rcases hq with hq | hq
    · rw [hq] at h1
      exact List.getLast?_eq_none_iff.1 h1
    · exact absurd (h1.trans hq) h2

theorem step_total {o : Stdout} {a : Act} (h : ByCommands a = true → o.pending = []) : (a.step o).total = o.total ++ Adds a := by
  cases a with
  | write ps =>
    have : ∀ (ps : List Bytes) (o : Stdout), (ps.foldl (fun o s => o.write s) o).total = o.total ++ ps.flatten.map (true, ·) := by
      intro ps
      induction ps with
      | nil => intro o; simp
      | cons s ps ih => intro o; rw [List.foldl_cons, ih, write_total]; simp
    exact this ps o
  | flush => simp [Act.step, Adds, total_flush]
  | command out => simp [Act.step, Adds, Stdout.total, Stdout.raw, h rfl]
  | replaced out => simp [Act.step, Adds, Stdout.total, Stdout.raw, h rfl]

/-- The part of each of the two writers, whatever waits. -/
theorem step_part {o : Stdout} {a : Act} (h : ∀ out, a ≠ .replaced out) (b : Bool) :
    (a.step o).total.filter (·.1 == b) = o.total.filter (·.1 == b) ++ (Adds a).filter (·.1 == b) := by
  cases a with
  | write ps => rw [step_total (by simp [ByCommands]), List.filter_append]
  | flush => rw [step_total (by simp [ByCommands]), List.filter_append]
  | command out =>
    have e : ∀ (c : Bool) (s : Bytes), (s.map (c, ·)).filter (fun x => x.1 == b) = if c = b then s.map (c, ·) else [] := by
      intro c s
      induction s with
      | nil => simp
      | cons x s ih => by_cases hc : c = b <;> simp [hc] at ih ⊢
    simp only [Act.step, Adds, Stdout.total, Stdout.raw, List.filter_append, e]
    cases b <;> simp
  | replaced out => exact absurd rfl (h out)

end Hush.Output

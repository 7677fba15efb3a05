import Verif.Model.Threads
import Verif.Props.Launch

/-!
Property C83: asynchronous blocks and the directory of the shell.
-/

namespace Hush.Props
open Hush Hush.Spec
open Hush.Exec (Os runBlock execBlock Act)
open Hush.Spec.Exec (did moves)
open Hush.Threads (Makes callsOf)

theorem moves_cons (e : Exec.Ev) (t : List Exec.Ev) : moves (e :: t) = moves [e] ++ moves t := by
  rcases e with ⟨a, b⟩
  cases a <;> cases b <;> rfl

theorem callsOf_append (i : Nat) (a b : List (Nat × Exec.Ev)) : callsOf i (a ++ b) = callsOf i a ++ callsOf i b := by
  induction a with
  | nil => rfl
  | cons p a ih =>
    obtain ⟨j, e⟩ := p
    simp only [List.cons_append, callsOf]
    split
    · rw [ih]; rfl
    · exact ih

theorem moves_nil {t : List Exec.Ev} (h : moves t = []) {e : Exec.Ev} (he : e ∈ t) : moves [e] = [] := by
  induction t with
  | nil => cases he
  | cons x t ih =>
    rw [moves_cons, List.append_eq_nil_iff] at h
    rcases List.mem_cons.1 he with rfl | he
    · exact h.1
    · exact ih h.2 he

theorem mem_callsOf {i : Nat} {e : Exec.Ev} {m : List (Nat × Exec.Ev)} (h : (i, e) ∈ m) : e ∈ callsOf i m := by
  induction m with
  | nil => cases h
  | cons p m ih =>
    obtain ⟨j, x⟩ := p
    simp only [callsOf]
    rcases List.mem_cons.1 h with h | h
    · cases h
      rw [if_pos rfl]
      exact List.mem_cons_self
    · split
      · exact List.mem_cons_of_mem _ (ih h)
      · exact ih h

theorem moves_all {j : Nat} {m : List (Nat × Exec.Ev)} (h : ∀ i e, (i, e) ∈ m → i ≠ j → moves [e] = []) : moves (m.map (·.2)) = moves (callsOf j m) := by
  induction m with
  | nil => rfl
  | cons p m ih =>
    obtain ⟨i, e⟩ := p
    have ih := ih fun i e he => h i e (List.mem_cons_of_mem _ he)
    simp only [List.map_cons, callsOf]
    rw [moves_cons, ih]
    by_cases hi : i = j
    · rw [if_pos hi, moves_cons e (callsOf j m)]
    · rw [if_neg hi, h i e List.mem_cons_self hi]
      rfl

theorem makes_moves {bs : List ExBlock} {h : List Exec.Ev} (hm : Makes bs h)
    (hb : ∀ b ∈ bs, ∀ args abort pos, .builtin .cd args abort pos ∉ b.head :: b.tail) : moves h = [] := by
  induction hm with
  | start => rfl
  | block h1 h2 ih =>
    rw [directory_kept h2 (hb _ (by simp))]
    exact ih fun b hm => hb b (List.mem_append_left _ hm)

theorem moves_prefix {a b : List Exec.Ev} (h : a <+: b) (hb : moves b = []) {e : Exec.Ev} (he : e ∈ a) : moves [e] = [] :=
  moves_nil hb (h.subset he)

/-- C83, for threads beside which no other thread has a `cd` command: the directory in which a thread makes a call is the one that it has chosen
by its own `cd` commands before, whatever else happens in other threads. Missing: threads beside which others have `cd` commands, see
`async_directory_violated`. -/
theorem own_directory_partial {blocks : List (List ExBlock)} {threads : List (List Exec.Ev)} (hl : threads.length = blocks.length)
    (hb : ∀ (i : Nat) bs h, blocks[i]? = some bs → threads[i]? = some h → Makes bs h) {m : List (Nat × Exec.Ev)} (hm : Threads.Runs threads m) {j : Nat}
    (hj : ∀ (i : Nat) bs, blocks[i]? = some bs → i ≠ j → ∀ b ∈ bs, ∀ args abort pos, .builtin .cd args abort pos ∉ b.head :: b.tail)
    {before after : List (Nat × Exec.Ev)} {e : Exec.Ev} (he : m = before ++ (j, e) :: after) :
    ∃ own rest, threads[j]? = some (own ++ e :: rest) ∧ moves (before.map (·.2)) = moves own := by
  obtain ⟨h1, h2⟩ := hm
  have hlt : j < threads.length := h1 (j, e) (by rw [he]; simp)
  obtain ⟨rest, hr⟩ := h2 j _ (List.getElem?_eq_getElem hlt)
  refine ⟨callsOf j before, callsOf j after ++ rest, ?_, ?_⟩
  · rw [List.getElem?_eq_getElem hlt, ← hr, he, callsOf_append]
    simp [callsOf]
  · refine moves_all fun i x hx hi => ?_
    have hx' : (i, x) ∈ m := by rw [he]; exact List.mem_append_left _ hx
    have hil : i < threads.length := h1 (i, x) hx'
    have hib : i < blocks.length := hl ▸ hil
    have h3 := h2 i _ (List.getElem?_eq_getElem hil)
    exact moves_prefix h3 (makes_moves (hb i _ _ (List.getElem?_eq_getElem hib) (List.getElem?_eq_getElem hil)) (hj i _ (List.getElem?_eq_getElem hib) hi))
      (mem_callsOf hx')

/-- `{ [0] }`. -/
def oneProgram : ExBlock := ⟨simple [0] false, []⟩
/-- `{ cd [1] }`. -/
def oneMove : ExBlock := ⟨.builtin .cd [.literal [1]] true ⟨1, 1⟩, []⟩

/-- What a block does if all goes well. -/
def doing (b : ExBlock) : List Exec.Ev := (execBlock (smallOs []) .stdout .stderr b []).2

theorem doing_makes (b : ExBlock) : Makes [b] (doing b) := .block .start (Prod.ext rfl rfl)

/-- One thread after the other. -/
def oneByOne (i : Nat) (a : List Exec.Ev) (j : Nat) (b : List Exec.Ev) : List (Nat × Exec.Ev) := a.map (i, ·) ++ b.map (j, ·)

/-- The process that is started by `oneProgram`. -/
def oneLaunch : Exec.Launch := ⟨[0], none, [], [], .stdin, .stdout, .stderr⟩

theorem runs_two {a b : List Exec.Ev} {m : List (Nat × Exec.Ev)} (h : ∀ p ∈ m, p.1 < 2) (ha : callsOf 0 m = a) (hb : callsOf 1 m = b) : Threads.Runs [a, b] m := by
  refine ⟨h, fun i h hi => ?_⟩
  rcases i with _ | _ | i
  · cases hi; rw [ha]; exact List.prefix_rfl
  · cases hi; rw [hb]; exact List.prefix_rfl
  · cases hi

theorem makes_two (b b' : ExBlock) : ∀ (i : Nat) bs h, [[b], [b']][i]? = some bs → [doing b, doing b'][i]? = some h → Makes bs h := by
  rintro (_ | _ | i) bs h h1 h2
  · cases h1; cases h2; exact doing_makes b
  · cases h1; cases h2; exact doing_makes b'
  · cases h1

set_option maxRecDepth 10000 in
/-- C83 is violated in both directions. With `&{ cd [1] }` beside it, the program of the script's block `{ [0] }` is started in the directory `[1]`, or
not, depending on which thread comes first. And the program of `&{ [0] }` is started in the directory `[1]` if the script has `{ cd [1] }` after it
and that comes first. -/
theorem async_directory_violated :
    (∀ args abort pos, .builtin .cd args abort pos ∉ oneProgram.head :: oneProgram.tail) ∧
    (∃ m before after, Threads.Runs [doing oneProgram, doing oneMove] m ∧ m = before ++ (0, did (.spawn oneLaunch)) :: after ∧ moves (before.map (·.2)) = [[1]]) ∧
    (∃ m before after, Threads.Runs [doing oneProgram, doing oneMove] m ∧ m = before ++ (0, did (.spawn oneLaunch)) :: after ∧ moves (before.map (·.2)) = []) ∧
    ∃ m before after, Threads.Runs [doing oneMove, doing oneProgram] m ∧ m = before ++ (1, did (.spawn oneLaunch)) :: after ∧ moves (before.map (·.2)) = [[1]] := by
  refine ⟨fun args abort pos h => ?_, ?_, ?_, ?_⟩
  · simp [oneProgram, simple] at h
  · exact ⟨oneByOne 1 (doing oneMove) 0 (doing oneProgram), (oneByOne 1 (doing oneMove) 0 (doing oneProgram)).take 6,
      (oneByOne 1 (doing oneMove) 0 (doing oneProgram)).drop 7, runs_two (by decide) (by decide) (by decide), by decide, by decide⟩
  · exact ⟨oneByOne 0 (doing oneProgram) 1 (doing oneMove), (oneByOne 0 (doing oneProgram) 1 (doing oneMove)).take 3,
      (oneByOne 0 (doing oneProgram) 1 (doing oneMove)).drop 4, runs_two (by decide) (by decide) (by decide), by decide, by decide⟩
  · exact ⟨oneByOne 0 (doing oneMove) 1 (doing oneProgram), (oneByOne 0 (doing oneMove) 1 (doing oneProgram)).take 6,
      (oneByOne 0 (doing oneMove) 1 (doing oneProgram)).drop 7, runs_two (by decide) (by decide) (by decide), by decide, by decide⟩

/-- `{ cd [1]; [0] }`. -/
def moveProgram : ExBlock := ⟨.builtin .cd [.literal [1]] true ⟨1, 1⟩, [simple [0] false]⟩

set_option maxRecDepth 10000 in
-- The script's block `{ cd [1]; [0] }` beside `&{ [0] }`, which comes first here.
example : ∃ own rest, [doing moveProgram, doing oneProgram][0]? = some (own ++ did (.spawn oneLaunch) :: rest) ∧
    moves (((oneByOne 1 (doing oneProgram) 0 (doing moveProgram)).take 11).map (·.2)) = moves own ∧ moves own = [[1]] := by
  obtain ⟨own, rest, h1, h2⟩ := own_directory_partial (blocks := [[moveProgram], [oneProgram]]) (threads := [doing moveProgram, doing oneProgram]) rfl
    (makes_two _ _) (m := oneByOne 1 (doing oneProgram) 0 (doing moveProgram)) (runs_two (by decide) (by decide) (by decide)) (j := 0)
    (fun i bs hi hn b hb args abort pos h => by
      rcases i with _ | _ | i
      · exact hn rfl
      · cases hi
        rw [List.mem_singleton.1 hb] at h
        simp [oneProgram, simple] at h
      · cases hi)
    (before := (oneByOne 1 (doing oneProgram) 0 (doing moveProgram)).take 11) (after := (oneByOne 1 (doing oneProgram) 0 (doing moveProgram)).drop 12)
    (e := did (.spawn oneLaunch)) (by decide)
  exact ⟨own, rest, h1, h2, by rw [← h2]; decide⟩

end Hush.Props

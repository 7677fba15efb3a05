import Verif.Lemmas.HandlesBlock
import Verif.Props.Reaping

/-!
C71: the handles of the shell. `held` is computed from what happened: a call to the operating system makes handles, a closing ends one, and the read
ends of the pipes of a capture block go to the threads that read them.
-/

namespace Hush
namespace Props
open Hush.Exec (Os Act Launch Chan XStop CommandExec)
open Hush.Handles (Fd HEv Owned erase Final)
open Hush.Spec.Handles (held Same)
open Hush.Spec.Exec (did fds waits)

/-- **C71.** The model with handles makes the calls of the model without them, and has the same result: what is proved about the calls of a block holds for
the model with handles, and the other way round. -/
theorem handles_same_calls (os : Os) (pos : Pos) (b : ExBlock) (kind : Ast.BlockKind) (tr : List HEv) :
    Exec.runBlock os pos b kind (erase tr) =
      ((Handles.runBlock os pos b kind tr).1, erase (Handles.runBlock os pos b kind tr).2) := by
  have h := Handles.Erases.runBlock (os := os) (pos := pos) (b := b) (kind := kind) tr
  rw [h]
  cases (Handles.runBlock os pos b kind tr).1 <;> rfl

/-- **C71.** No handle leaks: when the block has ended, in whatever way, the shell holds exactly the handles it held before. Only if it was replaced by
another program, or blocks for ever, there is no such time. -/
theorem handles_released {os : Os} {pos : Pos} {b : ExBlock} {kind : Ast.BlockKind} {tr tr' : List HEv} {r : Except XStop Tree}
    (h : Handles.runBlock os pos b kind tr = (r, tr')) (hr : r ≠ .error .hang ∧ r ≠ .error .replaced) : Same (held tr') (held tr) := by
  obtain ⟨evs, h1, h2⟩ := Handles.runBlock_over (os := os) (pos := pos) (b := b) (kind := kind) tr
  rw [h] at h1 h2
  dsimp only at h1 h2
  subst h1
  have hm := h2.after (fun e he => by
    subst he
    cases e <;> first
      | rfl
      | exact absurd rfl hr.1
      | exact absurd rfl hr.2)
  intro f
  rw [hm.now]
  simp

/-- **C71.** No handle is closed, or given to a thread, that is not held: none is closed twice. This holds in every case, up to the point reached. -/
theorem handles_closed_once {os : Os} {pos : Pos} {b : ExBlock} {kind : Ast.BlockKind} {tr tr' : List HEv} {r : Except XStop Tree}
    (h : Handles.runBlock os pos b kind tr = (r, tr')) (hs : Spec.Handles.Sound tr) : Spec.Handles.Sound tr' := by
  obtain ⟨evs, h1, h2⟩ := Handles.runBlock_over (os := os) (pos := pos) (b := b) (kind := kind) tr
  rw [h] at h1
  dsimp only at h1
  subst h1
  have := Handles.SoundFrom.append (tr := []) (e1 := tr) (e2 := evs) (by simpa [Handles.SoundFrom, Spec.Handles.Sound] using hs) (by simpa using h2.sound)
  simpa [Handles.SoundFrom, Spec.Handles.Sound] using this

/-- A wait for a process. -/
def isWait (h : HEv) : Prop := ∃ id r ok, h = .os ⟨.wait id r, ok⟩

/-- **C71.** Whenever the shell waits for a process, the only handles it has got since the block began are: duplicates of the output and the error output
of the block, which builtin commands keep (see `nothing_held_while_waiting` for other commands), and, in a capture block, the write ends of pipes. -/
theorem handles_while_waiting {os : Os} {pos : Pos} {b : ExBlock} {kind : Ast.BlockKind} {tr tr' : List HEv} {r : Except XStop Tree}
    (h : Handles.runBlock os pos b kind tr = (r, tr')) :
    ∃ evs, tr' = tr ++ evs ∧ ∀ pre w post, evs = pre ++ w :: post → isWait w → ∀ f ∈ held (tr ++ pre), f ∈ held tr ∨
      (∃ c, (erase (tr ++ pre))[f.id]? = some (did (.clone c)) ∧ kind = .capture ∧ (c = .captureOut ∨ c = .captureErr)) ∨
      (∃ n, (erase (tr ++ pre))[f.id]? = some (did (.dup n)) ∧ kind ≠ .capture ∧ (n = 1 ∨ n = 2)) ∨
      (kind = .capture ∧ f.write = true ∧ (erase (tr ++ pre))[f.id]? = some (did .pipe)) := by
  obtain ⟨evs, h1, h2⟩ := Handles.runBlock_over (os := os) (pos := pos) (b := b) (kind := kind) tr
  rw [h] at h1
  dsimp only at h1
  refine ⟨evs, h1, fun pre w post he hw f hf => ?_⟩
  have hw' : Handles.IsWait w := by obtain ⟨_, _, _, rfl⟩ := hw; trivial
  rcases h2.waits pre post w he hw' f hf with h | h
  · exact .inl h
  · right
    cases kind with
    | capture =>
      rcases h with ⟨c, hc, h⟩ | h
      · refine .inl ⟨c, ?_, rfl, hc⟩
        rcases hc with rfl | rfl <;> exact h
      · exact .inr (.inr ⟨rfl, h.1, h.2⟩)
    | _ =>
      obtain ⟨c, hc, h⟩ := h
      rcases hc with rfl | rfl
      · exact .inr (.inl ⟨1, h, nofun, .inl rfl⟩)
      · exact .inr (.inl ⟨2, h, nofun, .inr rfl⟩)

/-- **C71.** While it waits for the processes of a command, the shell holds nothing that it has got for that command: neither the two handles for the output
given to it (`out`, `err`) nor any handle made since, so in particular no end of its pipes. -/
theorem nothing_held_while_waiting {os : Os} {out err : Owned} {head : ExBasic} {tail : List ExBasic} {tr tr' : List HEv} {r : Except XStop CommandExec}
    (h : Handles.execCommand os out err (.external head tail) tr = (r, tr')) (hout : out.1 ∈ held tr) (herr : err.1 ∈ held tr) (hne : out.1 ≠ err.1) :
    ∃ evs, tr' = tr ++ evs ∧ ∀ pre w post, evs = pre ++ w :: post → isWait w → ∀ f ∈ held (tr ++ pre), f ∈ held tr ∧ f ≠ out.1 ∧ f ≠ err.1 := by
  obtain ⟨evs, h1, h2⟩ := Handles.runs_over (Handles.Runs.command (os := os) (out := out) (err := err) (c := .external head tail)) (tr := tr)
    ⟨fun f hf => by
      rcases List.mem_cons.1 hf with rfl | hf
      · exact hout
      · obtain rfl := List.mem_singleton.1 hf
        exact herr, by simpa using hne⟩
  rw [h] at h1
  refine ⟨evs, h1, fun pre w post he hw f hf => ?_⟩
  have hw' : Handles.IsWait w := by obtain ⟨_, _, _, rfl⟩ := hw; trivial
  obtain ⟨h3, h4⟩ := h2.waits pre post w he hw' f hf
  have := h4 ⟨_, _, rfl⟩
  exact ⟨h3, fun e => this (by rw [e]; simp), fun e => this (by rw [e]; simp)⟩

/-- **C71.** The write end of each pipe of a pipeline is given to one process only: the one of the stage before the pipe. With
`nothing_held_while_waiting` and `O_CLOEXEC`: while the shell waits, the next stage reads the end of its input as soon as that process has ended or
closed its output. -/
theorem one_writer {os : Os} {out err : Chan} {head : ExBasic} {tail : List ExBasic} {t t' : List Exec.Ev} {r : CommandExec}
    (h : Exec.execCommand os out err (.external head tail) t = (.ok r, t')) (hout : ∀ p, out ≠ .writer p) (herr : ∀ p, err ≠ .writer p) :
    ∃ (evs : List Exec.Ev) (pipes : List Nat), t' = t ++ evs ∧ pipes.length = tail.length ∧ pipes.Nodup ∧
      (∀ p ∈ pipes, t.length ≤ p ∧ t'[p]? = some (did .pipe)) ∧
      ∀ (id : Nat) (l : Launch), t.length ≤ id → t'[id]? = some (did (.spawn l)) →
        ∀ (i p : Nat), pipes[i]? = some p → ∀ n < 3, fds l n = .writer p → (waits evs)[i]?.map Prod.fst = some id := by
  obtain ⟨pipes, ids, evs, es, rfl, hlp, hnd, hpp, hli, hws, hle, hs, _, _, hst⟩ := Exec.execExternal_ok h
  refine ⟨evs, pipes, rfl, hlp, hnd, hpp, ?_⟩
  intro id l hid hl i p hpi n hn hw
  -- the process is that of some stage
  have hmem : id ∈ ids := by
    have := Exec.mem_starts hid hl
    rwa [hs, List.mem_reverse] at this
  obtain ⟨j, hj, hjid⟩ := List.getElem_of_mem hmem
  obtain ⟨id', l', tb, ta, hid', ⟨tp, te, t1, T', t2, _, _, _, _, hred, rfl, rfl, hf⟩, hpre⟩ := hst j _ (List.getElem?_eq_getElem (by simp; omega))
  rw [List.getElem?_eq_getElem hj, hjid] at hid'
  obtain rfl := Option.some.inj hid'
  obtain ⟨rest, hrest⟩ := hpre
  rw [← hrest] at hl
  have hll : l' = l := by
    simp [did] at hl
    exact hl
  subst hll
  rw [hf n hn] at hw
  obtain ⟨k, hk, hT⟩ := Handles.redirects_writer hred hn hw
  have hji : j = i := by
    unfold Spec.Exec.wires at hT
    split at hT
    · split at hT <;> cases hT
    · split at hT
      · split at hT
        · exact absurd hT (hout p)
        · have hjl : j < pipes.length := by omega
          rw [List.getD_eq_getElem?_getD, List.getElem?_eq_getElem hjl] at hT
          obtain ⟨hil, hi⟩ := List.getElem?_eq_some_iff.1 hpi
          refine (List.getElem_inj (h₀ := hjl) (h₁ := hil) hnd).1 ?_
          rw [hi]
          cases hT
          rfl
      · split at hT
        · exact absurd hT (herr p)
        · cases hT
  subst hji
  have hz : (ids.zip es)[j]? = some (t2.length, es[j]) :=
    List.getElem?_zip_eq_some.2 ⟨by rw [List.getElem?_eq_getElem hj, hjid], List.getElem?_eq_getElem (by omega)⟩
  rw [hws, hz]
  rfl

/-- **C71.** The shell waits for what was captured (`receive`) only when it holds no handle of the block any more, so none of the write ends of the capture
pipes: the threads that read them see the end as soon as the processes have ended. This is so in every case, also if the block fails. -/
theorem captured_after_closing {os : Os} {pos : Pos} {b : ExBlock} {kind : Ast.BlockKind} {tr tr' : List HEv} {r : Except XStop Tree}
    (h : Handles.runBlock os pos b kind tr = (r, tr')) :
    ∃ evs, tr' = tr ++ evs ∧ ∀ pre c post, evs = pre ++ .receive c :: post → Same (held (tr ++ pre)) (held tr) := by
  obtain ⟨evs, h1, h2⟩ := Handles.receives_closed (os := os) (pos := pos) (b := b) (kind := kind) tr
  rw [h] at h1
  exact ⟨evs, h1, h2⟩

/-! ### Examples -/

/-- A pipeline of three, the last with a here-string and its error output going to its output. -/
def threeStages : ExBlock :=
  ⟨.external (basic [0] false []) [basic [0] false [], basic [0] false [.input true (.literal [97]), .output 2 (.fd 1)]], []⟩

/-- Captured, it makes 16 handles; at the end the shell holds none. -/
example : (held (Handles.runBlock (smallOs []) ⟨1, 1⟩ threeStages .capture []).2) = [] ∧
    (waits (erase (Handles.runBlock (smallOs []) ⟨1, 1⟩ threeStages .capture []).2)).length = 3 := by decide +kernel

/-- And it waits for both outputs, at the very end. -/
example : ((Handles.runBlock (smallOs []) ⟨1, 1⟩ threeStages .capture []).2).drop 33 =
    [.close ⟨0, true⟩, .close ⟨1, true⟩, .receive .captureOut, .receive .captureErr] := by decide +kernel

/-- Also when the program of its second stage cannot be started. -/
example : (held (Handles.runBlock (smallOs [[1]]) ⟨1, 1⟩ ⟨.external (basic [0] false []) [basic [1] false [], basic [2] false []], []⟩ .capture []).2) = [] := by
  decide +kernel

/-- The hypotheses of `nothing_held_while_waiting`, with a handle of somebody else that stays. -/
example : ∃ (tr : List HEv) (out err : Owned), out.1 ∈ held tr ∧ err.1 ∈ held tr ∧ out.1 ≠ err.1 ∧
    (Handles.execCommand (smallOs []) out err threeStages.head tr).1.toOption.isSome ∧
    held (Handles.execCommand (smallOs []) out err threeStages.head tr).2 = [⟨0, false⟩] :=
  ⟨[.os (did (.openRead [97])), .os (did (.dup 1)), .os (did (.dup 2))], (⟨1, false⟩, .stdout), (⟨2, false⟩, .stderr), by decide +kernel⟩

/-- Those of `one_writer`: the two pipes are made by the calls 4 and 0, and the processes are started by the calls 8, 5 and 2 (the last stage first). -/
example : ∃ r t', Exec.execCommand (smallOs []) .stdout .stderr (.external (basic [0] false []) [basic [0] false [], basic [0] false [.output 2 (.fd 1)]]) [] =
    (.ok r, t') := ⟨_, _, rfl⟩

end Props
end Hush

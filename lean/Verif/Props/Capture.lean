import Verif.Lemmas.Capture

/-!
Property C76: capture blocks and pipelines never deadlock, and all output is captured.
-/

namespace Hush.Props
open Hush Hush.Spec Hush.Capture

/-- C76: however much the processes of a capture block write, to their standard output and to their standard error, and in whatever order, and however they read: as long as
the shell does not have all of the output, a process or a thread of the shell can make a step. -/
theorem capture_no_deadlock (cap : Nat) (hc : 0 < cap) (block : List (List Proc)) (labels : List Label) (N : Net)
    (_ : Run cap (start block) labels N) (h : ¬ N.final) : ∃ a M, Step cap N a M :=
  can_step hc N h

/-- C76: a capture block ends, if its processes do: there is a bound on the number of steps of all of its runs. With `capture_no_deadlock`, each run, if continued as long as
possible, ends with the output in the hands of the shell. -/
theorem capture_ends (cap : Nat) (block : List (List Proc)) : ∃ bound, ∀ labels N, Run cap (start block) labels N → labels.length ≤ bound :=
  ⟨(start block).measure, fun _ _ h => by have := run_length h; omega⟩

/-- C76: every run of a capture block can be continued to its end. -/
theorem capture_finishes (cap : Nat) (hc : 0 < cap) (block : List (List Proc)) (labels : List Label) (N : Net)
    (_ : Run cap (start block) labels N) : ∃ more M, Run cap N more M ∧ M.final := by
  rename_i hrun
  clear hrun
  generalize hm : N.measure = m
  induction m using Nat.strongRecOn generalizing N with
  | ind m ih =>
    by_cases hf : N.final
    · exact ⟨[], N, .nil, hf⟩
    · obtain ⟨a, M, hs⟩ := can_step hc N hf
      obtain ⟨more, K, hr, hk⟩ := ih M.measure (hm ▸ step_decreases hs) M rfl
      exact ⟨a :: more, K, .cons hs hr, hk⟩

/-- C76: in the end, the shell has got exactly what was written to the standard output and to the standard error of the block, in order, and all processes of the last
pipeline have exited and been waited for. -/
theorem capture_complete (cap : Nat) (block : List (List Proc)) (labels : List Label) (N : Net)
    (h : Run cap (start block) labels N) (hf : N.final) :
    N.gotOut = BlockOutput .out labels ∧ N.gotErr = BlockOutput .err labels ∧ N.rest = [] ∧ ∀ l ∈ N.chain, l.proc = .exit := by
  have hs := run_sane h (start_sane block)
  have hg := run_got h
  rw [(hs.out hf.1).1, (hs.err hf.2).1, List.append_nil, List.append_nil] at hg
  exact ⟨hg.1.trans (by simp [start]), hg.2.trans (by simp [start]), hs.last (hs.out hf.1).2,
    fun l hl => hs.closed (hs.out hf.1).2 l.proc (List.mem_map_of_mem hl)⟩

/-- C76: a pipe keeps the order of what it transports and loses nothing: at any moment after the start of a pipeline, what a process has received from the one before, followed
by what is still in the pipe, of at most `cap` bytes, is exactly what that one has sent. -/
theorem pipeline_in_order (cap : Nat) (block : List (List Proc)) (before since : List Label) (N : Net)
    (h : Run cap (start block) (before ++ .started :: since) N) (hs : .started ∉ since) (i : Nat) :
    ∃ pipe : Bytes, pipe.length ≤ cap ∧ ReceivedBy (i + 1) since ++ pipe = SentBy i since := by
  obtain ⟨K, _, h2⟩ := run_split h
  cases h2 with
  | cons h3 h4 =>
    refine ⟨N.inputAt (i + 1), run_inputs h4 hs (i + 1) (by rw [step_started h3]; exact Nat.zero_le _), ?_⟩
    rw [run_fifo h4 hs, step_started h3]; rfl

/-- C76: a process which gets the end of the file from the one before has received all that that one sends, before and ever after. -/
theorem pipeline_all_received (cap : Nat) (block : List (List Proc)) (before since after : List Label) (i : Nat) (N : Net)
    (h : Run cap (start block) (before ++ .started :: (since ++ .ended (i + 1) :: after)) N) (hs : .started ∉ since) (ha : .started ∉ after) :
    ReceivedBy (i + 1) since = SentBy i (since ++ .ended (i + 1) :: after) := by
  obtain ⟨K, _, h2⟩ := run_split h
  cases h2 with
  | cons h3 h4 =>
    obtain ⟨L, h5, h6⟩ := run_split h4
    cases h6 with
    | cons h7 h8 =>
      obtain ⟨_, e2, e3⟩ := step_ended h7
      have := run_fifo h5 hs i
      rw [step_started h3, e3, List.append_nil, List.nil_append] at this
      have h9 := run_exited h8 ha e2
      simp only [SentBy] at h9 this ⊢
      simp [h9, this]

/-- A process which copies a byte to its standard output and to its standard error. -/
def copier : Proc := .read fun x => match x with
  | some b => .write .out b (.write .err b .exit)
  | none => .exit

/-- The run of `${ p | q }`, where `p` writes `A` and `q` copies it, with pipes of one byte. -/
example : ∃ N, Run 1 (start [[.write .out 65 .exit, copier]])
    [.started, .sent 0 65, .received 1 65, .wrote .out 65, .wrote .err 65, .silent, .silent, .silent, .silent, .silent, .silent, .silent] N ∧ N.final ∧ N.gotOut = [65] ∧ N.gotErr = [65] := by
  refine ⟨_, .cons (.next (p := [.write .out 65 .exit, copier]) (by decide) rfl) (.cons (.send (pre := []) rfl rfl (fun e => by cases e) (by decide))
    (.cons (.receive (pre := [_]) rfl (by simp) rfl rfl) (.cons (.output (pre := [_]) rfl rfl (by decide)) (.cons (.error (pre := [_]) rfl rfl (by decide))
    (.cons (.wait rfl rfl) (.cons (.wait rfl rfl) (.cons (.close (by decide) rfl rfl) (.cons (.readOut (s := [65]) (t := []) rfl (by simp))
    (.cons (.readErr (s := [65]) (t := []) rfl (by simp)) (.cons (.endOut rfl rfl rfl) (.cons (.endErr rfl rfl rfl) .nil))))))))))), ⟨rfl, rfl⟩, rfl, rfl⟩

/-- The second process of `${ p | q }` reads what `p` wrote, and then gets the end of the file, as in `pipeline_all_received`. -/
example : ∃ N, Run 1 (start [[.write .out 65 .exit, .read fun _ => .read fun _ => .exit]])
    ([] ++ .started :: ([.sent 0 65, .received 1 65] ++ .ended 1 :: [.silent])) N ∧
    ReceivedBy 1 [.sent 0 65, .received 1 65] = [65] ∧ SentBy 0 [.sent 0 65, .received 1 65] = [65] := by
  refine ⟨_, .cons (.next (p := [.write .out 65 .exit, .read fun _ => .read fun _ => .exit]) (by decide) rfl)
    (.cons (.send (pre := []) rfl rfl (fun e => by cases e) (by decide)) (.cons (.receive (pre := [_]) rfl (by simp) rfl rfl)
    (.cons (.eof (pre := []) rfl rfl rfl rfl) (.cons (.wait rfl rfl) .nil)))), by decide, by decide⟩

end Hush.Props

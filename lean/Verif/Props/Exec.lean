import Verif.Lemmas.Pipeline

/-!
Execution of command blocks: sequence (C35), reporting of failures (C36), pipelines (C37), capture (C38), redirections (C39),
here-strings (C40) and exit statuses (C41). All theorems hold for every behaviour of the operating system (`Os`).
-/

namespace Hush
namespace Props
open Hush.Exec
open Hush.Spec.Exec (did Names Table fds given OutFd Redirects Starts waits starts written processes Succeeded Tells TellsAll
  Executed InSequence wires Piped statusNumber reported reportedList)

/-! ### Examples: an operating system where everything works except what is listed -/

/-- Programs whose name is in `broken` cannot be started; a program named by one byte exits with that code. -/
def smallOs (broken : List Bytes) : Os where
  fails _ a := match a with
    | .spawn l => if l.program ∈ broken then some [110, 111] else none
    | _ => none
  ended t id := match t[id]? with
    | some ⟨.spawn l, _⟩ => .code (l.program.headD 0).toNat
    | _ => .neither
  glob _ _ := some []
  capacity := 4
  received _ _ := .ok []
  replaced _ := 0
  posText _ := []

/-- A command with a program and redirections; `guarded` is the `?`. -/
def basic (program : Bytes) (guarded : Bool) (rs : List ExRedirection) : ExBasic :=
  ⟨.literal program, [], [], rs, !guarded, ⟨1, 1⟩⟩

/-- A command that is not a pipeline. -/
def simple (program : Bytes) (guarded : Bool) : ExCommand := .external (basic program guarded []) []

/-! ### C35 -/

/-- **C35, partial.** The commands of a block are executed one after the other in source order: for each all its processes
are started and waited for before the next is looked at; a failure without `?` ends the block and one with `?` does not; at
the end the statuses of all commands that failed are returned. Missing: this assumes that no call to the operating system
failed; a command that cannot be started ends the block even with `?`, see `guarded_start_violated`. Blocks that do not
return (a panic such as a pattern expanding to several names, `exec`, blocking) are not described. -/
theorem block_in_sequence_partial {os : Os} {out err : Chan} {b : ExBlock} {r : List (List ErrorStatus)} {t t' : List Ev}
    (h : execBlock os out err b t = (.ok r, t')) (hok : ∀ e ∈ t', e.ok = true) :
    ∃ evs, t' = t ++ evs ∧ InSequence os out err (b.head :: b.tail) t evs r := by
  rcases execBlock_ok h with h | ⟨t0, a, _, _, rfl, _, _⟩
  · exact h
  · have := hok ⟨a, false⟩ (by simp)
    cases this

/-- Two commands succeed, a guarded one fails, another fails, and one is not reached. -/
example : ∃ r t', execBlock (smallOs []) .stdout .stderr
      ⟨simple [0] false, [simple [3] true, simple [0] false, simple [5] false, simple [0] false]⟩ [] = (.ok r, t') ∧
    (∀ e ∈ t', e.ok = true) ∧ (waits t').map Prod.snd = [.code 0, .code 3, .code 0, .code 5] ∧
    r.map (·.map (·.status)) = [[3], [5]] :=
  ⟨_, _, rfl, by decide, by decide, by decide⟩

/-- The value is nil exactly when nothing failed. -/
theorem combine_nil {d : Bytes} {ts : List Tree} (h : ∀ t ∈ ts, t ≠ .nil) : combine d ts = .nil ↔ ts = [] := by
  match ts, h with
  | [], _ => simp [combine]
  | [t], h => simpa [combine] using h t (by simp)
  | _ :: _ :: _, _ => simp [combine]

theorem blockValue_nil {os : Os} {r : List (List ErrorStatus)} (h : ∀ ss ∈ r, ss ≠ []) : blockValue os r = .nil ↔ r = [] := by
  unfold blockValue
  rw [combine_nil, List.map_eq_nil_iff]
  intro t ht hn
  rcases List.mem_map.1 ht with ⟨ss, hss, rfl⟩
  unfold pipelineValue at hn
  rw [combine_nil, List.map_eq_nil_iff] at hn
  · exact h ss hss hn
  · intro t ht hn
    rcases List.mem_map.1 ht with ⟨s, _, rfl⟩
    cases hn

/-- **C35, partial.** The value of a block is nil exactly when every process of it that was started, and therefore waited for,
succeeded. Missing: as for `block_in_sequence_partial`. -/
theorem block_nil_partial {os : Os} {pos : Pos} {b : ExBlock} {v : Tree} {t t' : List Ev}
    (h : runBlock os pos b .synchronous t = (.ok v, t')) (hok : ∀ e ∈ t', e.ok = true) :
    ∃ evs, t' = t ++ evs ∧ (v = .nil ↔ ∀ w ∈ waits evs, Succeeded w.2) := by
  rcases X.bind_ok.1 h with ⟨r, t1, h1, h2⟩
  rcases X.pure_ok.1 h2 with ⟨rfl, rfl⟩
  rcases block_in_sequence_partial h1 hok with ⟨evs, rfl, hs⟩
  refine ⟨evs, rfl, ?_⟩
  rw [blockValue_nil (inSequence_nil hs).2]
  exact (inSequence_nil hs).1

example : ∃ v t', runBlock (smallOs []) ⟨1, 1⟩ ⟨simple [0] false, [simple [0] true]⟩ .synchronous [] = (.ok v, t') ∧
    (∀ e ∈ t', e.ok = true) ∧ v = .nil := ⟨_, _, rfl, by decide, rfl⟩

example : ∃ v t', runBlock (smallOs []) ⟨1, 1⟩ ⟨simple [7] true, [simple [0] true]⟩ .synchronous [] = (.ok v, t') ∧
    (∀ e ∈ t', e.ok = true) ∧ v ≠ .nil := ⟨_, _, rfl, by decide, nofun⟩

/-- **C35 is violated.** A command with `?` that cannot be started ends the block: the second command is not run. -/
theorem guarded_start_violated :
    ¬ ∀ (os : Os) (c d : ExBasic), c.abortOnError = false → c.redirections = [] → d.redirections = [] →
      ∀ r t', execBlock os .stdout .stderr ⟨.external c [], [.external d []]⟩ [] = (.ok r, t') →
        ∃ (id : Nat) (l : Launch) (ta tb : List Ev), Names os ta d.program l.program tb ∧ t'[id]? = some (did (.spawn l)) := by
  intro h
  rcases h (smallOs [[9]]) (basic [9] true []) (basic [0] false []) rfl rfl rfl
    [[⟨[110, 111], 127, ⟨1, 1⟩⟩]]
    [did (.dup 1), did (.dup 2), did (.dup 0), ⟨.spawn ⟨[9], none, [], [], .stdin, .stdout, .stderr⟩, false⟩] rfl with
    ⟨id, l, ta, tb, _, hid⟩
  match id, hid with
  | 0, hid => simp [did] at hid
  | 1, hid => simp [did] at hid
  | 2, hid => simp [did] at hid
  | 3, hid => simp [did] at hid
  | n + 4, hid => simp at hid

/-! ### C36 -/

theorem reportedList_append (a b : List Tree) : reportedList (a ++ b) = reportedList a ++ reportedList b := by
  induction a with
  | nil => rfl
  | cons t ts ih => simp [reportedList, ih]

theorem reported_combine {d : Bytes} {ts : List Tree} : reported (combine d ts) = reportedList ts := by
  match ts with
  | [] => simp [combine, reported, reportedList]
  | [t] => simp [combine, reportedList]
  | _ :: _ :: _ => simp [combine, reported, reportedList]

theorem reported_block (os : Os) (r : List (List ErrorStatus)) :
    reported (blockValue os r) = r.flatten.map (fun s => ((s.status : Int), os.posText s.pos)) := by
  unfold blockValue
  rw [reported_combine]
  induction r with
  | nil => simp [reportedList]
  | cons ss r ih =>
    rw [List.map_cons, reportedList, ih, List.flatten_cons, List.map_append]
    congr 1
    unfold pipelineValue
    rw [reported_combine]
    clear ih
    induction ss with
    | nil => simp [reportedList]
    | cons s ss ih => simp [reportedList, ih, statusValue, reported]

/-- **C36, partial.** The value of a block contains the status and position of every failure of a command that was executed
(`InSequence`), in order. Missing: this assumes that no call to the operating system failed, see
`failures_lost_violated`. -/
theorem failures_reported_partial {os : Os} {pos : Pos} {b : ExBlock} {v : Tree} {t t' : List Ev}
    (h : runBlock os pos b .synchronous t = (.ok v, t')) (hok : ∀ e ∈ t', e.ok = true) :
    ∃ evs r, t' = t ++ evs ∧ InSequence os .stdout .stderr (b.head :: b.tail) t evs r ∧
      reported v = r.flatten.map (fun s => ((s.status : Int), os.posText s.pos)) := by
  rcases X.bind_ok.1 h with ⟨r, t1, h1, h2⟩
  rcases X.pure_ok.1 h2 with ⟨rfl, rfl⟩
  rcases block_in_sequence_partial h1 hok with ⟨evs, rfl, hs⟩
  exact ⟨evs, r, rfl, hs, reported_block os r⟩

/-- A pipeline of which two stages fail, and another failing command. -/
example : ∃ v t', runBlock (smallOs []) ⟨1, 1⟩
      ⟨.external (basic [3] true []) [basic [0] false [], basic [4] true []], [simple [5] true]⟩ .synchronous [] = (.ok v, t') ∧
    (∀ e ∈ t', e.ok = true) ∧ (reported v).map Prod.fst = [3, 4, 5] :=
  ⟨_, _, rfl, by decide, by decide⟩

/-- **C36, partial.** The same for a capture block: its value has the errors in the field `error` of the context of the
error, next to what was captured; without errors it is the dict of what was captured. -/
theorem failures_captured_partial {os : Os} {pos : Pos} {b : ExBlock} {v : Tree} {t t' : List Ev}
    (h : runBlock os pos b .capture t = (.ok v, t')) (hok : ∀ e ∈ t', e.ok = true) :
    ∃ evs r out err, t' = t ++ [did .pipe, did .pipe] ++ evs ∧
      InSequence os .captureOut .captureErr (b.head :: b.tail) (t ++ [did .pipe, did .pipe]) evs r ∧
      os.received t' .captureOut = .ok out ∧ os.received t' .captureErr = .ok err ∧
      ((r = [] ∧ v = .dict [(.string (bs "stdout"), .string out), (.string (bs "stderr"), .string err)]) ∨
       (r ≠ [] ∧ ∃ d ctx, v = .error d (.dict [(.string (bs "stdout"), .string out), (.string (bs "stderr"), .string err),
          (.string (bs "error"), ctx)]) ∧
        reported (.error d ctx) = r.flatten.map (fun s => ((s.status : Int), os.posText s.pos)))) := by
  rcases X.bind_ok.1 h with ⟨_, t1, h1, h⟩
  rcases X.bind_ok.1 h with ⟨_, t2, h2, h⟩
  rcases X.bind_ok.1 h with ⟨r, t3, h3, h⟩
  rcases X.bind_ok.1 h with ⟨out, t4, h4, h⟩
  rcases X.bind_ok.1 h with ⟨err, t5, h5, h⟩
  rcases X.pure_ok.1 h with ⟨rfl, rfl⟩
  rcases call_ok.1 h1 with ⟨_, _, rfl⟩
  rcases call_ok.1 h2 with ⟨_, _, rfl⟩
  have hr4 : os.received t3 .captureOut = .ok out ∧ t4 = t3 := by
    unfold receive at h4
    cases hx : os.received t3 .captureOut <;> rw [hx] at h4 <;> cases h4
    exact ⟨rfl, rfl⟩
  rcases hr4 with ⟨hout, rfl⟩
  have hr5 : os.received t4 .captureErr = .ok err ∧ t5 = t4 := by
    unfold receive at h5
    cases hx : os.received t4 .captureErr <;> rw [hx] at h5 <;> cases h5
    exact ⟨rfl, rfl⟩
  rcases hr5 with ⟨herr, rfl⟩
  rcases block_in_sequence_partial h3 hok with ⟨evs, rfl, hs⟩
  refine ⟨evs, r, out, err, by simp, by simpa using hs, hout, herr, ?_⟩
  have hne := (inSequence_nil hs).2
  by_cases hr : r = []
  · subst hr
    exact .inl ⟨rfl, rfl⟩
  · refine .inr ⟨hr, ?_⟩
    have hv : blockValue os r ≠ .nil := fun hh => hr ((blockValue_nil hne).1 hh)
    have hrep := reported_block os r
    have herr : ∃ d ctx, blockValue os r = .error d ctx := by
      unfold blockValue at hv ⊢
      match r, hr, hne with
      | [ss], _, hne =>
        match ss, hne ss (by simp) with
        | [s], _ => exact ⟨_, _, rfl⟩
        | _ :: _ :: _, _ => exact ⟨_, _, rfl⟩
      | _ :: _ :: _, _, _ => exact ⟨_, _, rfl⟩
    rcases herr with ⟨d, ctx, hd⟩
    rw [hd] at hrep ⊢
    exact ⟨d, ctx, rfl, hrep⟩

example : ∃ v t', runBlock (smallOs []) ⟨1, 1⟩ ⟨simple [3] true, [simple [5] true]⟩ .capture [] = (.ok v, t') ∧
    (∀ e ∈ t', e.ok = true) := ⟨_, _, rfl, by decide⟩

/-- **C36 is violated.** When a command cannot be started, the failures of the commands before it are lost: here the first
fails with 3 and only the 127 of the second is in the value. -/
theorem failures_lost_violated :
    ∃ v t', runBlock (smallOs [[9]]) ⟨1, 1⟩ ⟨simple [3] true, [simple [9] true]⟩ .synchronous [] = (.ok v, t') ∧
      (waits t').map Prod.snd = [.code 3] ∧ (reported v).map Prod.fst = [127] :=
  ⟨_, _, rfl, by decide, by decide⟩

/-! ### C37 -/

/-- **C37.** A pipeline of any length: there is one new pipe between each stage and the next; stage `i` is given the read end
of the pipe before it (the shell's input for the first) and the write end of the pipe after it (the output of the block for
the last), before its own redirections are applied. -/
theorem pipeline_connects {os : Os} {out err : Chan} {head : ExBasic} {tail : List ExBasic} {r : CommandExec} {t t' : List Ev}
    (h : execCommand os out err (.external head tail) t = (.ok r, t')) :
    ∃ evs, t' = t ++ evs ∧ Piped os out err (head :: tail) t evs := by
  rcases execCommand_ok h with ⟨evs, es, rfl, hex, _, _⟩
  exact ⟨evs, rfl, (hex.2.2.2.1 head tail rfl).1⟩

/-- A started process without redirections has the descriptors it was given. -/
theorem fds_given {os : Os} {c : ExBasic} {T : Table} {t t' : List Ev} {id : Nat} {l : Launch} (h : Starts os c T t id l t')
    (hr : c.redirections = []) (n : Nat) (hn : n < 3) : fds l n = T n := by
  rcases h with ⟨_, _, _, T', _, _, _, _, _, hred, _, _, hf⟩
  rw [hr] at hred
  cases hred
  exact hf n hn

/-- **C37.** Between two neighbours without redirections: the standard output of the first and the standard input of the
second are the two ends of the same pipe. The first stage reads the input of the shell, the last writes to the output of the
block. -/
theorem neighbours_connected {os : Os} {out err : Chan} {head : ExBasic} {tail : List ExBasic} {r : CommandExec}
    {t t' : List Ev} (h : execCommand os out err (.external head tail) t = (.ok r, t'))
    (hplain : ∀ c ∈ head :: tail, c.redirections = []) :
    ∃ ls : List Launch, ls.length = tail.length + 1 ∧
      (∀ l ∈ ls, ∃ id : Nat, t.length ≤ id ∧ t'[id]? = some (did (.spawn l))) ∧
      (∀ l, ls[0]? = some l → l.stdin = .stdin) ∧
      (∀ l, ls[tail.length]? = some l → l.stdout = out) ∧
      ∀ i l m, ls[i]? = some l → ls[i + 1]? = some m →
        ∃ p, t'[p]? = some (did .pipe) ∧ l.stdout = .writer p ∧ m.stdin = .reader p := by
  rcases execExternal_ok h with ⟨pipes, ids, evs, es, rfl, hlp, hnd, hpp, hli, hw, hle, hs, _, _, hst⟩
  have key : ∀ i : Fin (tail.length + 1), ∃ l, (∃ id : Nat, t.length ≤ id ∧ (t ++ evs)[id]? = some (did (.spawn l))) ∧
      ∀ n < 3, fds l n = wires pipes out err i n := by
    intro i
    have hi : i.1 < (head :: tail).length := i.2
    rcases hst i _ (List.getElem?_eq_getElem hi) with ⟨id, l, tb, ta, hid, hstart, hta⟩
    refine ⟨l, ⟨id, ?_, ?_⟩, fds_given hstart (hplain _ (List.getElem_mem hi))⟩
    · have hm : id ∈ starts t.length evs := by
        rw [hs]; exact List.mem_reverse.2 (List.mem_of_getElem? hid)
      clear hs
      generalize t.length = n at hm ⊢
      clear hst hw h hpp hta
      induction evs generalizing n with
      | nil => simp [starts] at hm
      | cons e evs ih =>
        rcases e with ⟨act, ok⟩
        cases act <;> cases ok <;> simp only [starts, List.mem_cons] at hm <;>
          first
          | exact Nat.le_of_succ_le (ih _ hm)
          | (rcases hm with rfl | hm
             · exact Nat.le_refl _
             · exact Nat.le_of_succ_le (ih _ hm))
    · rcases hstart with ⟨_, _, _, _, t2, _, _, _, _, _, rfl, rfl, _⟩
      exact prefix_get hta (get_last _ _)
  rcases Classical.axiomOfChoice key with ⟨f, hf⟩
  have hget : ∀ i l, (List.ofFn f)[i]? = some l → ∃ hi : i < tail.length + 1, l = f ⟨i, hi⟩ := by
    intro i l hl
    rcases List.getElem?_eq_some_iff.1 hl with ⟨h1, h2⟩
    simp only [List.length_ofFn] at h1
    refine ⟨h1, ?_⟩
    rw [← h2, List.getElem_ofFn]
  refine ⟨List.ofFn f, by simp, ?_, ?_, ?_, ?_⟩
  · intro l hl
    rcases List.getElem?_of_mem hl with ⟨i, hi⟩
    rcases hget i l hi with ⟨hlt, rfl⟩
    exact (hf ⟨i, hlt⟩).1
  · intro l hl
    rcases hget 0 l hl with ⟨hi, rfl⟩
    have h0 := (hf ⟨0, hi⟩).2 0 (by omega)
    simpa [fds, wires] using h0
  · intro l hl
    rcases hget _ l hl with ⟨hi, rfl⟩
    have h0 := (hf ⟨_, hi⟩).2 1 (by omega)
    simpa [fds, wires, hlp] using h0
  · intro i l m hl hm
    rcases hget i l hl with ⟨hi, rfl⟩
    rcases hget (i + 1) m hm with ⟨hi', rfl⟩
    have hlt : i < pipes.length := by omega
    have h1 := (hf ⟨i, hi⟩).2 1 (by omega)
    have h2 := (hf ⟨i + 1, hi'⟩).2 0 (by omega)
    refine ⟨pipes[i], (hpp _ (List.getElem_mem hlt)).2, ?_, ?_⟩
    · have hne : i ≠ pipes.length := by omega
      simpa [fds, wires, hne, hlt, List.getD] using h1
    · simpa [fds, wires, hlt, List.getD] using h2

/-- A pipeline of three commands. -/
example : ∃ r t', execCommand (smallOs []) .stdout .stderr
      (.external (basic [3] true []) [basic [0] false [], basic [4] true []]) [] = (.ok r, t') ∧
    (∀ c ∈ [basic [3] true [], basic [0] false [], basic [4] true []], c.redirections = []) :=
  ⟨_, _, rfl, by decide⟩

/-! ### C38 -/

/-- **C38, partial.** In a capture block, a process that is the last (or only) stage of a command and has no redirections
writes its error output, and its output, to what is captured. Missing: other stages of a pipeline write their error output to
that of the shell, see `stage_stderr_violated`; so does a command run by the builtin `spawn0`; blocks in which a call to the
operating system fails. -/
theorem last_stage_captured_partial {os : Os} {pos : Pos} {b : ExBlock} {v : Tree} {t t' : List Ev}
    (h : runBlock os pos b .capture t = (.ok v, t')) (hok : ∀ e ∈ t', e.ok = true)
    (hext : ∀ c ∈ b.head :: b.tail, ∃ head tail, c = .external head tail) :
    ∀ id ∈ starts t.length (t'.drop t.length), ∃ head tail i c l tb ta, .external head tail ∈ b.head :: b.tail ∧
      (head :: tail)[i]? = some c ∧ t'[id]? = some (did (.spawn l)) ∧ Names os tb c.program l.program ta ∧
      (i = tail.length → c.redirections = [] → l.stdout = .captureOut ∧ l.stderr = .captureErr) := by
  intro id hid
  rcases failures_captured_partial h hok with ⟨evs, r, out, err, rfl, hs, _⟩
  have hid' : id ∈ starts (t ++ [did .pipe, did .pipe]).length evs := by
    rw [List.append_assoc, List.drop_left, starts_append] at hid
    simpa [starts, did] using hid
  rcases inSequence_process hs hid' with ⟨c, hc, tb, evs', es, hex, hpre, hm⟩
  rcases hext c hc with ⟨head, tail, rfl⟩
  rcases executed_process hex hm with ⟨pipes, i, c, l, tb', ta, hlen, hi, hstart, hta⟩
  have hstart' := hstart
  rcases hstart with ⟨tp, te, t1, T', t2, hn, _, _, _, _, rfl, rfl, _⟩
  refine ⟨head, tail, i, c, l, tb', tp, hc, hi, prefix_get (hta.trans hpre) (get_last _ _), hn, ?_⟩
  rintro rfl hr
  have h1 := fds_given hstart' hr 1 (by omega)
  have h2 := fds_given hstart' hr 2 (by omega)
  exact ⟨by simpa [fds, wires, hlen] using h1, by simpa [fds, wires, hlen] using h2⟩

/-- A pipeline and a simple command. -/
example : ∃ v t', runBlock (smallOs []) ⟨1, 1⟩ ⟨.external (basic [3] true []) [basic [5] true []], [simple [5] true]⟩ .capture []
      = (.ok v, t') ∧ (∀ e ∈ t', e.ok = true) ∧ (starts 0 t').length = 3 :=
  ⟨_, _, rfl, by decide, by decide⟩

/-- **C38 is violated.** The first stage of a pipeline in a capture block, without any redirection, is started with the error
output of the shell instead of the captured one. -/
theorem stage_stderr_violated :
    ∃ (v : Tree) (t' : List Ev) (id : Nat) (l : Launch), runBlock (smallOs []) ⟨1, 1⟩
        ⟨.external (basic [3] true []) [basic [5] true []], []⟩ .capture [] = (.ok v, t') ∧
      t'[id]? = some (did (.spawn l)) ∧ l.program = [3] ∧ l.stderr = .stderr :=
  ⟨_, _, 8, ⟨[3], none, [], [], .stdin, .writer 4, .stderr⟩, rfl, by decide, rfl, rfl⟩

/-! ### C39 -/

/-- **C39.** A started command has the descriptors obtained by applying its redirections from left to right
(`Spec.Exec.Redirects`) to what it was given. -/
theorem redirections_in_order {os : Os} {c : ExBasic} {s : Stdio} {child : Child} {t t' : List Ev}
    (h : execBasic os c s t = (.ok child, t')) : ∃ l, Starts os c (given s) t child.id l t' :=
  (execBasic_ok h).2

theorem redirectAll_append {os : Os} {pos : Pos} {rs : List ExRedirection} {r : ExRedirection} {s : Stdio} :
    redirectAll os pos (rs ++ [r]) s = (do let s' ← redirectAll os pos rs s; redirect os r s' pos) := by
  induction rs generalizing s with
  | nil =>
    funext t
    show X.bind (redirect os r s pos) (fun s => X.pure s) t = redirect os r s pos t
    unfold X.bind X.pure
    rcases redirect os r s pos t with ⟨_ | a, t1⟩ <;> rfl
  | cons r' rs ih =>
    funext t
    show X.bind (redirect os r' s pos) _ t = X.bind (X.bind (redirect os r' s pos) _) _ t
    unfold X.bind
    rcases redirect os r' s pos t with ⟨_ | a, t1⟩
    · rfl
    · exact congrFun (ih (s := a)) t1

/-- The descriptors at the start of a process. -/
theorem execBasic_launch {os : Os} {c : ExBasic} {s : Stdio} {child : Child} {t t1 : List Ev} {l : Launch}
    (h : execBasic os c s t = (.ok child, t1 ++ [did (.spawn l)])) :
    ∃ t0 s', (∀ rs s'' t'', execBasic os { c with redirections := rs } s t = (.ok s'', t'') → ∃ s1 l1 t1,
        redirectAll os c.pos rs s t0 = (.ok s1, t1) ∧ t'' = t1 ++ [did (.spawn l1)] ∧ s1 = ⟨l1.stdin, l1.stdout, l1.stderr⟩) ∧
      redirectAll os c.pos c.redirections s t0 = (.ok s', t1) ∧ s' = ⟨l.stdin, l.stdout, l.stderr⟩ := by
  rcases X.bind_ok.1 h with ⟨program, t1, h1, h⟩
  rcases X.bind_ok.1 h with ⟨env, t2, h2, h⟩
  rcases X.bind_ok.1 h with ⟨args, t3, h3, h⟩
  rcases X.bind_ok.1 h with ⟨s', t4, h4, h⟩
  rcases X.bind_ok.1 h with ⟨id, t5, h5, h⟩
  rcases X.pure_ok.1 h with ⟨rfl, rfl⟩
  rcases call_ok.1 h5 with ⟨_, _, heq⟩
  rcases List.append_inj' heq rfl with ⟨rfl, he⟩
  simp only [did, List.cons.injEq, Ev.mk.injEq, Act.spawn.injEq, and_true] at he
  subst he
  refine ⟨t3, s', ?_, h4, rfl⟩
  intro rs s'' t'' h
  rcases X.bind_ok.1 h with ⟨program', t1', h1', h⟩
  rw [h1] at h1'
  cases h1'
  rcases X.bind_ok.1 h with ⟨env', t2', h2', h⟩
  rw [h2] at h2'
  cases h2'
  rcases X.bind_ok.1 h with ⟨args', t3', h3', h⟩
  rw [h3] at h3'
  cases h3'
  rcases X.bind_ok.1 h with ⟨s1, t4', h4', h⟩
  rcases X.bind_ok.1 h with ⟨id', t5', h5', h⟩
  rcases X.pure_ok.1 h with ⟨rfl, rfl⟩
  rcases call_ok.1 h5' with ⟨_, _, rfl⟩
  exact ⟨s1, _, t4', h4', rfl, rfl⟩

/-- **C39.** The last redirection `n>m` of a command makes descriptor `n` denote what `m` denotes without it, that is, after
the redirections before it; the other descriptors are the same. -/
theorem last_redirection_fd {os : Os} {c : ExBasic} {rs : List ExRedirection} {n m : Nat} {s : Stdio} {ch1 ch2 : Child}
    {t t1 t2 : List Ev} {l1 l2 : Launch}
    (h1 : execBasic os { c with redirections := rs } s t = (.ok ch1, t1 ++ [did (.spawn l1)]))
    (h2 : execBasic os { c with redirections := rs ++ [.output n (.fd m)] } s t = (.ok ch2, t2 ++ [did (.spawn l2)])) :
    fds l2 n = fds l1 m ∧ ∀ k < 3, k ≠ n → fds l2 k = fds l1 k := by
  rcases execBasic_launch h1 with ⟨t0, s', hall, hr1, hs1⟩
  rcases hall _ _ _ h2 with ⟨s2, l2', t2', hr2, heq, hs2⟩
  rcases List.append_inj' heq rfl with ⟨rfl, he⟩
  simp only [did, List.cons.injEq, Ev.mk.injEq, Act.spawn.injEq, and_true] at he
  subst he
  simp only at hr1 hr2
  rw [redirectAll_append] at hr2
  rcases X.bind_ok.1 hr2 with ⟨s3, t3, h3, h4⟩
  rw [hr1] at h3
  cases h3
  subst hs1; subst hs2
  rcases X.bind_ok.1 h4 with ⟨ch, t4, h5, h6⟩
  have hch : OutFd m ∧ ch = fds l1 m := by
    unfold resolveTarget at h5
    simp only at h5
    by_cases hm1 : m = 1
    · rw [if_pos hm1] at h5
      rcases X.bind_ok.1 h5 with ⟨_, _, _, h8⟩
      rcases X.pure_ok.1 h8 with ⟨rfl, _⟩
      subst hm1
      exact ⟨.inl rfl, rfl⟩
    · rw [if_neg hm1] at h5
      by_cases hm2 : m = 2
      · rw [if_pos hm2] at h5
        rcases X.bind_ok.1 h5 with ⟨_, _, _, h8⟩
        rcases X.pure_ok.1 h8 with ⟨rfl, _⟩
        subst hm2
        exact ⟨.inr rfl, rfl⟩
      · rw [if_neg hm2] at h5
        exact (X.panic_ok.1 h5).elim
  rcases hch with ⟨_, rfl⟩
  rcases l2 with ⟨_, _, _, _, i2, o2, e2⟩
  by_cases hn1 : n = 1
  · rw [if_pos hn1] at h6
    have h7 := (X.pure_ok.1 h6).1
    simp only [Stdio.mk.injEq] at h7
    rcases h7 with ⟨rfl, rfl, rfl⟩
    subst hn1
    refine ⟨rfl, fun k hk hkn => ?_⟩
    match k, hk with
    | 0, _ => rfl
    | 2, _ => rfl
  · rw [if_neg hn1] at h6
    by_cases hn2 : n = 2
    · rw [if_pos hn2] at h6
      have h7 := (X.pure_ok.1 h6).1
      simp only [Stdio.mk.injEq] at h7
      rcases h7 with ⟨rfl, rfl, rfl⟩
      subst hn2
      refine ⟨rfl, fun k hk hkn => ?_⟩
      match k, hk with
      | 0, _ => rfl
      | 1, _ => rfl
      | 2, _ => exact (hkn rfl).elim
    · rw [if_neg hn2] at h6
      exact (X.panic_ok.1 h6).elim

/-- `1>file 2>1`: the error output is the file. -/
example : ∃ ch1 ch2 t1 t2 l1 l2,
    execBasic (smallOs []) { basic [0] false [] with redirections := [.output 1 (.overwrite (.literal [102]))] }
      ⟨.stdin, .stdout, .stderr⟩ [] = (.ok ch1, t1 ++ [did (.spawn l1)]) ∧
    execBasic (smallOs [])
        { basic [0] false [] with redirections := [.output 1 (.overwrite (.literal [102]))] ++ [.output 2 (.fd 1)] }
      ⟨.stdin, .stdout, .stderr⟩ [] = (.ok ch2, t2 ++ [did (.spawn l2)]) ∧ fds l2 2 = .file 0 :=
  ⟨⟨1, ⟨1, 1⟩⟩, ⟨2, ⟨1, 1⟩⟩, [did (.openWrite [102] false)], [did (.openWrite [102] false), did (.clone (.file 0))],
    ⟨[0], none, [], [], .stdin, .file 0, .stderr⟩, ⟨[0], none, [], [], .stdin, .file 0, .file 0⟩, rfl, rfl, rfl⟩

/-- **C39.** The last redirection `n>file` or `n>>file` of a command makes descriptor `n` denote the file it opens, truncated
or for appending, and leaves the other descriptors as they are without it. -/
theorem last_redirection_file {os : Os} {c : ExBasic} {rs : List ExRedirection} {n : Nat} {a : ExArg} {append : Bool}
    {s : Stdio} {ch1 ch2 : Child} {t t1 t2 : List Ev} {l1 l2 : Launch}
    (h1 : execBasic os { c with redirections := rs } s t = (.ok ch1, t1 ++ [did (.spawn l1)]))
    (h2 : execBasic os { c with redirections := rs ++ [.output n (if append then .append a else .overwrite a)] } s t =
      (.ok ch2, t2 ++ [did (.spawn l2)])) :
    (∃ (id : Nat) (path : Bytes) (ta tb : List Ev), fds l2 n = .file id ∧ t2[id]? = some (did (.openWrite path append)) ∧
      Names os ta a path tb) ∧ ∀ k < 3, k ≠ n → fds l2 k = fds l1 k := by
  rcases execBasic_launch h1 with ⟨t0, s', hall, hr1, hs1⟩
  rcases hall _ _ _ h2 with ⟨s2, l2', t2', hr2, heq, hs2⟩
  rcases List.append_inj' heq rfl with ⟨rfl, he⟩
  simp only [did, List.cons.injEq, Ev.mk.injEq, Act.spawn.injEq, and_true] at he
  subst he
  simp only at hr1 hr2
  rw [redirectAll_append] at hr2
  rcases X.bind_ok.1 hr2 with ⟨s3, t3, h3, h4⟩
  rw [hr1] at h3
  cases h3
  subst hs1; subst hs2
  rcases X.bind_ok.1 h4 with ⟨ch, t4, h5, h6⟩
  have hch : ∃ path ta, ch = .file ta.length ∧ t4 = ta ++ [did (.openWrite path append)] ∧ Names os t1 a path ta := by
    cases append <;>
    · rcases X.bind_ok.1 h5 with ⟨path, ta, h7, h8⟩
      rcases X.bind_ok.1 h8 with ⟨id, tb, h9, h10⟩
      rcases X.pure_ok.1 h10 with ⟨rfl, rfl⟩
      rcases call_ok.1 h9 with ⟨_, rfl, rfl⟩
      exact ⟨path, ta, rfl, rfl, resolveOne_ok h7⟩
  rcases hch with ⟨path, ta, rfl, rfl, hnames⟩
  rcases l2 with ⟨_, _, _, _, i2, o2, e2⟩
  by_cases hn1 : n = 1
  · rw [if_pos hn1] at h6
    have h7 := X.pure_ok.1 h6
    simp only [Stdio.mk.injEq] at h7
    rcases h7 with ⟨⟨rfl, rfl, rfl⟩, rfl⟩
    subst hn1
    refine ⟨⟨ta.length, path, t1, ta, rfl, get_last _ _, hnames⟩, fun k hk hkn => ?_⟩
    match k, hk with
    | 0, _ => rfl
    | 2, _ => rfl
  · rw [if_neg hn1] at h6
    by_cases hn2 : n = 2
    · rw [if_pos hn2] at h6
      have h7 := X.pure_ok.1 h6
      simp only [Stdio.mk.injEq] at h7
      rcases h7 with ⟨⟨rfl, rfl, rfl⟩, rfl⟩
      subst hn2
      refine ⟨⟨ta.length, path, t1, ta, rfl, get_last _ _, hnames⟩, fun k hk hkn => ?_⟩
      match k, hk with
      | 0, _ => rfl
      | 1, _ => rfl
      | 2, _ => exact (hkn rfl).elim
    · rw [if_neg hn2] at h6
      exact (X.panic_ok.1 h6).elim

/-- `2>1 1>>file`: the error output is the former output. -/
example : ∃ ch1 ch2 t1 t2 l1 l2,
    execBasic (smallOs []) { basic [0] false [] with redirections := [.output 2 (.fd 1)] }
      ⟨.stdin, .stdout, .stderr⟩ [] = (.ok ch1, t1 ++ [did (.spawn l1)]) ∧
    execBasic (smallOs [])
        { basic [0] false [] with redirections := [.output 2 (.fd 1)] ++
          [.output 1 (if true then .append (.literal [102]) else .overwrite (.literal [102]))] }
      ⟨.stdin, .stdout, .stderr⟩ [] = (.ok ch2, t2 ++ [did (.spawn l2)]) ∧ fds l2 2 = .stdout :=
  ⟨⟨1, ⟨1, 1⟩⟩, ⟨2, ⟨1, 1⟩⟩, [did (.clone .stdout)], [did (.clone .stdout), did (.openWrite [102] true)],
    ⟨[0], none, [], [], .stdin, .stdout, .stdout⟩, ⟨[0], none, [], [], .stdin, .file 1, .stdout⟩, rfl, rfl, rfl⟩

/-! ### C40 -/

/-- **C40, partial.** A command whose last redirection is `<< text` and that is started reads from a new pipe into which
exactly the text and a newline were written, for text of any length. Missing: the text is written before anybody reads it, so
a command with a text that does not fit into a pipe is never started, see `here_string_violated`. -/
theorem here_string_partial {os : Os} {c : ExBasic} {rs : List ExRedirection} {text : Bytes} {s : Stdio} {ch : Child}
    {t t1 : List Ev} {l : Launch}
    (h : execBasic os { c with redirections := rs ++ [.input true (.literal text)] } s t = (.ok ch, t1 ++ [did (.spawn l)])) :
    ∃ t0 : List Ev, l.stdin = .reader t0.length ∧ t <+: t0 ∧ t0 ++ [did .pipe] <+: t1 ∧
      written t0.length (t1.drop t0.length) = text ++ [10] := by
  have hpos := h
  rcases X.bind_ok.1 h with ⟨program, u1, h1, h⟩
  rcases X.bind_ok.1 h with ⟨env, u2, h2, h⟩
  rcases X.bind_ok.1 h with ⟨args, u3, h3, h⟩
  rcases X.bind_ok.1 h with ⟨s', u4, h4, h⟩
  rcases X.bind_ok.1 h with ⟨id, u5, h5, h⟩
  rcases X.pure_ok.1 h with ⟨rfl, rfl⟩
  rcases call_ok.1 h5 with ⟨_, _, heq⟩
  rcases List.append_inj' heq rfl with ⟨rfl, he⟩
  simp only [did, List.cons.injEq, Ev.mk.injEq, Act.spawn.injEq, and_true] at he
  subst he
  simp only at h4
  rw [redirectAll_append] at h4
  rcases X.bind_ok.1 h4 with ⟨s3, u6, h6, h7⟩
  rcases X.bind_ok.1 h7 with ⟨ch, u7, h8, h9⟩
  rcases X.pure_ok.1 h9 with ⟨rfl, rfl⟩
  rcases X.bind_ok.1 h8 with ⟨source, u8, h10, h11⟩
  rcases X.bind_ok.1 h11 with ⟨id, u9, h12, h13⟩
  rcases X.bind_ok.1 h13 with ⟨_, u10, h14, h15⟩
  rcases X.bind_ok.1 h15 with ⟨_, u11, h16, h17⟩
  rcases X.pure_ok.1 h17 with ⟨rfl, rfl⟩
  have hsrc := resolveOne_ok h10
  cases hsrc
  rcases call_ok.1 h12 with ⟨_, rfl, rfl⟩
  rcases writePipe_ok h14 with ⟨_, rfl⟩
  rcases writePipe_ok h16 with ⟨_, rfl⟩
  rcases redirectAll_ok h6 with ⟨_, h18, _⟩
  have hsil := (Names.silent (resolveOne_ok h1)).trans ((resolveEnv_silent h2).trans ((resolveAll_silent h3).trans
    (Redirects.silent h18)))
  refine ⟨u6, rfl, hsil.prefix, ⟨[did (.write u6.length text), did (.write u6.length [10])], by simp⟩, ?_⟩
  simp [written, did]

/-- A text of three bytes. -/
example : ∃ ch t1 l, execBasic (smallOs []) { basic [0] false [] with redirections := [] ++ [.input true (.literal [1, 2, 3])] }
    ⟨.stdin, .stdout, .stderr⟩ [] = (.ok ch, t1 ++ [did (.spawn l)]) :=
  ⟨⟨3, ⟨1, 1⟩⟩, [did .pipe, did (.write 0 [1, 2, 3]), did (.write 0 [10])], ⟨[0], none, [], [], .reader 0, .stdout, .stderr⟩, rfl⟩

theorem step_ok {m : X α} {f : α → X β} {a : α} {t t1 : List Ev} (h : m t = (.ok a, t1)) : (m >>= f) t = f a t1 := by
  show X.bind m f t = _
  unfold X.bind
  rw [h]

theorem step_stop {m : X α} {f : α → X β} {e : XStop} {t t1 : List Ev} (h : m t = (.error e, t1)) :
    (m >>= f) t = (.error e, t1) := by
  show X.bind m f t = _
  unfold X.bind
  rw [h]

/-- **C40 is violated.** Whatever the capacity of a pipe, a command with a text that does not fit into it together with the
newline blocks forever before the command is started, although no call fails. -/
theorem here_string_violated (os : Os) (hos : ∀ t a, os.fails t a = none) (program text : Bytes) (s : Stdio) (t : List Ev)
    (hlong : os.capacity < text.length + 1) :
    ∃ t', execBasic os (basic program false [.input true (.literal text)]) s t = (.error .hang, t') ∧
      starts t.length (t'.drop t.length) = [] := by
  have hone : resolveOne os (bs "redirection") (.literal text) ⟨1, 1⟩ t = (.ok text, t) := rfl
  have hpipe : call os .pipe ⟨1, 1⟩ t = (.ok t.length, t ++ [did .pipe]) := call_ok.2 ⟨hos _ _, rfl, rfl⟩
  have key : ∃ t', resolveInput os true (.literal text) ⟨1, 1⟩ t = (.error .hang, t') ∧ starts t.length (t'.drop t.length) = [] := by
    by_cases hc : text.length ≤ os.capacity
    · have hw : writePipe os t.length 0 text ⟨1, 1⟩ (t ++ [did .pipe]) =
          (.ok (), t ++ [did .pipe] ++ [did (.write t.length text)]) := by
        unfold writePipe
        rw [if_pos (by omega)]
        exact (step_ok (call_ok.2 ⟨hos _ _, rfl, rfl⟩)).trans rfl
      have hw2 : writePipe os t.length text.length [cNL] ⟨1, 1⟩ (t ++ [did .pipe] ++ [did (.write t.length text)]) =
          (.error .hang, t ++ [did .pipe] ++ [did (.write t.length text)]) := by
        unfold writePipe
        rw [if_neg (by simp; omega)]
        rfl
      refine ⟨t ++ [did .pipe] ++ [did (.write t.length text)], ?_, by simp [did, starts]⟩
      exact (step_ok hone).trans ((step_ok hpipe).trans ((step_ok hw).trans (step_stop hw2)))
    · have hw : writePipe os t.length 0 text ⟨1, 1⟩ (t ++ [did .pipe]) = (.error .hang, t ++ [did .pipe]) := by
        unfold writePipe
        rw [if_neg (by omega)]
        rfl
      refine ⟨t ++ [did .pipe], ?_, by simp [did, starts]⟩
      exact (step_ok hone).trans ((step_ok hpipe).trans (step_stop hw))
  rcases key with ⟨t', h1, h2⟩
  refine ⟨t', ?_, h2⟩
  have hr : redirectAll os ⟨1, 1⟩ [.input true (.literal text)] s t = (.error .hang, t') :=
    step_stop (step_stop h1)
  exact (step_ok (m := resolveOne os _ _ _) (t := t) rfl).trans ((step_ok (m := resolveEnv os _ _) (t := t) rfl).trans
    ((step_ok (m := resolveAll os _ _) (t := t) rfl).trans (step_stop hr)))

/-- An operating system and a text as in the theorem. -/
example : (∀ t a, (smallOs []).fails t a = none) ∧ (smallOs []).capacity < [1, 2, 3, 4].length + 1 := by
  refine ⟨fun t a => ?_, by decide⟩
  cases a <;> simp [smallOs]

/-! ### C41 -/

/-- **C41.** A process is successful exactly when it exits with code 0. -/
theorem success_iff {os : Os} {c : Child} {t t' : List Ev} {r : Option ErrorStatus}
    (h : waitChild os c t = (.ok r, t')) : r = none ↔ os.ended t c.id = .code 0 := by
  rw [(waitChild_ok.1 h).1]
  exact statusOf_none

/-- **C41.** Different exit codes of failed processes give different statuses. -/
theorem codes_distinct {pos pos' : Pos} {n m : Nat} {s s' : ErrorStatus} (h : statusOf pos (.code n) = some s)
    (h' : statusOf pos' (.code m) = some s') (hne : n ≠ m) : s.status ≠ s'.status := by
  rw [(statusOf_some h).1, (statusOf_some h').1]
  exact hne

example : ∃ s s', statusOf ⟨1, 1⟩ (.code 1) = some s ∧ statusOf ⟨1, 1⟩ (.code 2) = some s' := ⟨_, _, rfl, rfl⟩

/-- **C41.** Termination by a signal (signals are positive) is a failure, with a status that is no exit code (these are at
most 255) and that is different for different signals. -/
theorem signals_distinct {pos pos' : Pos} {n : Nat} (hn : 0 < n) :
    ∃ s, statusOf pos (.signal n) = some s ∧ 255 < s.status ∧
      ∀ m s', statusOf pos' (.signal m) = some s' → m ≠ n → s'.status ≠ s.status := by
  cases h : statusOf pos (.signal n) with
  | none => cases statusOf_none.1 h
  | some s =>
    have hs := (statusOf_some h).1
    refine ⟨s, rfl, ?_, ?_⟩
    · rw [hs]; show 255 < 255 + n; omega
    · intro m s' h' hne
      rw [hs, (statusOf_some h').1]
      show 255 + m ≠ 255 + n
      omega

example : ∃ s, statusOf ⟨1, 1⟩ (.signal 9) = some s ∧ s.status = 264 := ⟨_, rfl, rfl⟩

end Props
end Hush

import Verif.Lemmas.Reaping
import Mathlib.Data.List.Induction
import Verif.Props.Shell

/-!
Property C70: every process is waited for; and what a block has done when it does not come to its end (C35, C36).
-/

namespace Hush.Props
open Hush Hush.Spec
open Hush.Exec (Os Chan Act XStop ErrorStatus Ended execBlock runBlock execCommand CommandExec)
open Hush.Spec.Exec (did waits processes positions LastFailed StoppedIn Interrupted Executed InSequence orphans reported WaitsOwn)

/-! ### What a block does, whatever happens -/

/-- C35, C36: whatever happens in a block, its commands were executed one after the other, either up to the end or to the first failure without `?`, with
all calls successful and the statuses of all failures as result; or up to a command that stopped. If it stopped because a call to the operating system
failed, the result is one error status, 127, with the message and the position of a part of that command; otherwise the block stops in the same way
(a panic, `exec`, blocking, or the unfinished `alias`). -/
theorem block_outcome {os : Os} {out err : Chan} {b : ExBlock} {r : Except XStop (List (List ErrorStatus))} {t t' : List Exec.Ev}
    (h : execBlock os out err b t = (r, t')) : ∃ evs, t' = t ++ evs ∧
      ((∃ ss, r = .ok ss ∧ InSequence os out err (b.head :: b.tail) t evs ss ∧ ∀ e ∈ evs, e.ok = true) ∨
       (∃ msg pos, r = .ok [[⟨msg, 127, pos⟩]] ∧ Interrupted os out err (b.head :: b.tail) t evs (.io msg pos)) ∨
       (∃ e, r = .error e ∧ (∀ msg pos, e ≠ .io msg pos) ∧ Interrupted os out err (b.head :: b.tail) t evs e)) :=
  Exec.execBlock_outcome h

-- The second of three commands fails with `?`; the first part of the third, a pipeline, cannot be started, but the second part was.
example : ∃ t', execBlock (smallOs [[9]]) .stdout .stderr
      ⟨simple [0] false, [simple [3] true, .external (basic [9] true []) [basic [0] true []], simple [0] false]⟩ [] =
        (.ok [[⟨[110, 111], 127, ⟨1, 1⟩⟩]], t') ∧ (waits t').map (·.2) = [.code 0, .code 3] ∧ (Spec.Exec.starts 0 t').length = 3 :=
  ⟨_, rfl, by decide, by decide⟩

/-- The calls of a block: those of its commands, after two for the pipes if the output is captured. -/
theorem runBlock_parts {os : Os} {pos : Pos} {b : ExBlock} {kind : Ast.BlockKind} {r : Except XStop Tree} {t t' : List Exec.Ev}
    (h : runBlock os pos b kind t = (r, t')) : ∃ pre, waits pre = [] ∧ (∀ n, Spec.Exec.starts n pre = []) ∧
      (t' = t ++ pre ∨ ∃ out err x, execBlock os out err b (t ++ pre) = (x, t') ∧ ∀ e, x = .error e → r = .error e) := by
  have sync : ∀ {x : Except XStop Tree × List Exec.Ev},
      (execBlock os .stdout .stderr b >>= fun ess => (pure (Exec.blockValue os ess) : Exec.X Tree)) t = x → x = (r, t') →
      ∃ pre, waits pre = [] ∧ (∀ n, Spec.Exec.starts n pre = []) ∧
      (t' = t ++ pre ∨ ∃ out err x, execBlock os out err b (t ++ pre) = (x, t') ∧ ∀ e, x = .error e → r = .error e) := by
    intro x hx hr
    subst hr
    refine ⟨[], rfl, fun _ => rfl, .inr ⟨.stdout, .stderr, ?_⟩⟩
    rw [List.append_nil]
    rcases hb : execBlock os .stdout .stderr b t with ⟨e | ess, t1⟩
    · have : (execBlock os .stdout .stderr b >>= fun ess => (pure (Exec.blockValue os ess) : Exec.X Tree)) t = (.error e, t1) := by
        change Exec.X.bind _ _ t = _
        unfold Exec.X.bind
        rw [hb]
      rw [this] at hx
      cases hx
      exact ⟨_, rfl, fun e' he => by cases he; rfl⟩
    · have : (execBlock os .stdout .stderr b >>= fun ess => (pure (Exec.blockValue os ess) : Exec.X Tree)) t = (.ok (Exec.blockValue os ess), t1) :=
        Exec.X.bind_ok.2 ⟨_, _, hb, rfl⟩
      rw [this] at hx
      cases hx
      exact ⟨_, rfl, fun e' he => by cases he⟩
  cases kind with
  | synchronous => exact sync h rfl
  | asynchronous => exact sync h rfl
  | capture =>
    simp only [runBlock, Bind.bind, Exec.X.bind, Exec.call] at h
    cases h1 : os.fails t .pipe with
    | some msg =>
      rw [h1] at h
      cases h
      exact ⟨_, rfl, fun _ => rfl, .inl rfl⟩
    | none =>
      rw [h1] at h
      dsimp only at h
      cases h2 : os.fails (t ++ [⟨.pipe, true⟩]) .pipe with
      | some msg =>
        rw [h2] at h
        cases h
        exact ⟨[⟨.pipe, true⟩, ⟨.pipe, false⟩], rfl, fun _ => rfl, .inl (by simp)⟩
      | none =>
        rw [h2] at h
        dsimp only at h
        refine ⟨[⟨.pipe, true⟩, ⟨.pipe, true⟩], rfl, fun _ => rfl, .inr ⟨.captureOut, .captureErr, ?_⟩⟩
        have happ : t ++ [⟨.pipe, true⟩, ⟨.pipe, true⟩] = t ++ [⟨Act.pipe, true⟩] ++ [⟨.pipe, true⟩] := by simp
        rw [happ]
        rcases hb : execBlock os .captureOut .captureErr b (t ++ [⟨Act.pipe, true⟩] ++ [⟨.pipe, true⟩]) with ⟨e | ess, t1⟩
        · rw [hb] at h
          cases h
          exact ⟨_, hb, fun e' he => by cases he; rfl⟩
        · rw [hb] at h
          dsimp only [Exec.receive] at h
          refine ⟨.ok ess, ?_, nofun⟩
          cases h3 : os.received t1 .captureOut with
          | error msg => rw [h3] at h; cases h; exact hb
          | ok o =>
            rw [h3] at h
            dsimp only at h
            cases h4 : os.received t1 .captureErr with
            | error msg => rw [h4] at h; cases h; exact hb
            | ok o2 => rw [h4] at h; cases h; exact hb

/-! ### C70 -/

/-- The processes left behind, and why. -/
def LeftBehind (b : ExBlock) (n : Nat) (evs : List Exec.Ev) : Prop :=
  orphans n evs = [] ∨ ∃ c ∈ b.head :: b.tail, ∃ evs1 evs2, evs = evs1 ++ evs2 ∧ orphans n evs1 = [] ∧ waits evs2 = [] ∧
    orphans n evs = Spec.Exec.starts (n + evs1.length) evs2 ∧ (orphans n evs).length < (processes c).length

/-- **C70, partial.** Whatever happens in a block: every process waited for was started by this block, and none is waited for twice; and the processes started but
not waited for, if there are any, are the parts of one pipeline, the last command of the block looked at, of which another part could not be started.
Missing: those processes are never waited for, see `reaped_violated`. -/
theorem reaped_partial {os : Os} {pos : Pos} {b : ExBlock} {kind : Ast.BlockKind} {r : Except XStop Tree} {t t' : List Exec.Ev}
    (h : runBlock os pos b kind t = (r, t')) : ∃ evs, t' = t ++ evs ∧ WaitsOwn t.length evs ∧ LeftBehind b t.length evs := by
  obtain ⟨pre, hw, hs, rfl | ⟨out, err, x, hx, _⟩⟩ := runBlock_parts h
  · refine ⟨pre, rfl, Exec.waitsOwn_none hw, .inl ?_⟩
    unfold orphans; rw [hs]; rfl
  · have hpre : WaitsOwn t.length pre := Exec.waitsOwn_none hw
    have hop : orphans t.length pre = [] := by unfold orphans; rw [hs]; rfl
    obtain ⟨evs, rfl, ho⟩ := block_outcome hx
    refine ⟨pre ++ evs, by simp, ?_⟩
    have fin : ∀ e, Interrupted os out err (b.head :: b.tail) (t ++ pre) evs e → WaitsOwn t.length (pre ++ evs) ∧ LeftBehind b t.length (pre ++ evs) := by
      intro e hi
      obtain ⟨h1, c, hc, e1, e2, rfl, h2, h3, h4, h5⟩ := Exec.interrupted_own hi
      rw [List.length_append] at h1 h2 h4 h5
      have happ := Exec.orphans_append hpre h1
      rw [hop, List.nil_append] at happ
      refine ⟨Exec.waitsOwn_append hpre h1, ?_⟩
      rcases h5 with h5 | h5
      · exact .inl (by rw [happ]; exact h5)
      · refine .inr ⟨c, hc, pre ++ e1, e2, by simp, ?_, h3, ?_, by rw [happ]; exact h5⟩
        · have h1' : WaitsOwn (t.length + pre.length) e1 := by
            refine ⟨?_, fun id hid => ?_⟩
            · have := h1.1; rwa [Exec.waits_append, h3, List.append_nil] at this
            · have hin := h1.2 id (by rw [Exec.waits_append, h3, List.append_nil]; exact hid)
              rw [Exec.starts_append] at hin
              rcases List.mem_append.1 hin with hin | hin
              · exact hin
              · exfalso
                have : id ∈ orphans (t.length + pre.length) (e1 ++ e2) := by rw [h4]; simpa [Nat.add_assoc] using hin
                unfold orphans at this
                have h7 := (List.mem_filter.1 this).2
                rw [Exec.waits_append, h3, List.append_nil] at h7
                simp only [decide_eq_true_eq] at h7
                exact h7 hid
          rw [Exec.orphans_append hpre h1', hop, h2]; rfl
        · rw [happ, h4]; simp
    rcases ho with ⟨ss, _, hi, _⟩ | ⟨msg, p, _, hi⟩ | ⟨e, _, _, hi⟩
    · have h1 := Exec.inSequence_own hi
      rw [List.length_append] at h1
      exact ⟨Exec.waitsOwn_append hpre h1.1, .inl (by rw [Exec.orphans_append hpre h1.1, hop, h1.2]; rfl)⟩
    · exact fin _ hi
    · exact fin _ hi

/-- A block without pipelines. -/
def NoPipelines (b : ExBlock) : Prop := ∀ head tail, .external head tail ∈ b.head :: b.tail → tail = []

/-- C70: a block without pipelines leaves no process behind, whatever happens in it, even if calls fail or it ends with a panic. -/
theorem reaped_without_pipelines {os : Os} {pos : Pos} {b : ExBlock} {kind : Ast.BlockKind} {r : Except XStop Tree} {t t' : List Exec.Ev}
    (hb : NoPipelines b) (h : runBlock os pos b kind t = (r, t')) : ∃ evs, t' = t ++ evs ∧ orphans t.length evs = [] := by
  obtain ⟨evs, h1, _, h2 | ⟨c, hc, _, _, _, _, _, _, hl⟩⟩ := reaped_partial h
  · exact ⟨evs, h1, h2⟩
  · refine ⟨evs, h1, List.length_eq_zero_iff.1 ?_⟩
    cases c with
    | external head tail =>
      obtain rfl := hb head tail hc
      simp only [processes, List.map_cons, List.map_nil, List.length_cons, List.length_nil] at hl
      omega
    | builtin k args abort p =>
      cases k <;> simp only [processes, List.length_cons, List.length_nil] at hl <;> omega

/-- C70: a block of which no call fails and that gives a value leaves no process behind. -/
theorem reaped_all_ok {os : Os} {pos : Pos} {b : ExBlock} {kind : Ast.BlockKind} {v : Tree} {t t' : List Exec.Ev}
    (h : runBlock os pos b kind t = (.ok v, t')) (hok : ∀ e ∈ t', e.ok = true) : ∃ evs, t' = t ++ evs ∧ orphans t.length evs = [] := by
  obtain ⟨pre, hw, hs, rfl | ⟨out, err, x, hx, hr⟩⟩ := runBlock_parts h
  · exact ⟨pre, rfl, by unfold orphans; rw [hs]; rfl⟩
  · have hpre : WaitsOwn t.length pre := Exec.waitsOwn_none hw
    have hop : orphans t.length pre = [] := by unfold orphans; rw [hs]; rfl
    obtain ⟨evs, rfl, ho⟩ := block_outcome hx
    refine ⟨pre ++ evs, by simp, ?_⟩
    rcases ho with ⟨ss, _, hi, _⟩ | ⟨msg, p, _, hi⟩ | ⟨e, he, _, _⟩
    · have h1 := Exec.inSequence_own hi
      rw [List.length_append] at h1
      rw [Exec.orphans_append hpre h1.1, hop, h1.2]; rfl
    · obtain ⟨init, hin⟩ := Exec.interrupted_failed hi
      have := hok ⟨init.2, false⟩ (by rw [hin]; simp)
      cases this
    · cases hr e he

/-- C70: in each command all processes are started before one of them is waited for: the parts of a pipeline run at the same time. -/
theorem started_before_waiting {os : Os} {out err : Chan} {c : ExCommand} {r : CommandExec} {t t' : List Exec.Ev}
    (h : execCommand os out err c t = (.ok r, t')) :
    ∃ evs1 evs2, t' = t ++ evs1 ++ evs2 ∧ waits evs1 = [] ∧ ∀ n, Spec.Exec.starts n evs2 = [] := Exec.execCommand_phases h

example : ∃ r t', execCommand (smallOs []) .stdout .stderr (.external (basic [1] true []) [basic [2] true [], basic [0] true []]) [] = (.ok r, t') ∧
    (Spec.Exec.starts 0 t').length = 3 ∧ (waits t').length = 3 := ⟨_, _, rfl, by decide, by decide⟩

/-- **C70 is violated.** If the first part of a pipeline cannot be started, the parts after it, which are started before it, are never waited for: the block
`{ a | b }` without `a` ends with an error while the process `b` is left behind. -/
theorem reaped_violated : ¬ ∀ (os : Os) (pos : Pos) (b : ExBlock) (v : Tree) (t' : List Exec.Ev),
    runBlock os pos b .synchronous [] = (.ok v, t') → orphans 0 t' = [] := by
  intro h
  have := h (smallOs [[9]]) ⟨1, 1⟩ ⟨.external (basic [9] false []) [basic [0] false []], []⟩ _ _ rfl
  revert this
  decide

-- A block with a builtin, two failing commands and a pattern that expands to nothing, without pipelines.
example : NoPipelines ⟨.builtin .spawn0 [.literal [3], .literal [4]] false ⟨1, 1⟩, [simple [0] false, .external ⟨.pattern [42], [], [], [], true, ⟨2, 1⟩⟩ []]⟩ := by
  intro head tail h
  simp [simple] at h
  rcases h with h | h <;> exact h.2

/-! ### Scripts -/

/-- C70 for scripts: of all blocks of a script, executed one after the other, every process waited for was started before by the script, and none is
waited for twice. -/
theorem script_waits (os : List Event → Os) (evs : List Event) : WaitsOwn 0 (history os evs) := by
  induction evs using List.reverseRecOn with
  | nil => exact ⟨.nil, nofun⟩
  | append_singleton evs e ih =>
    rw [history_snoc]
    have fin : ∀ kind b, e = .command kind b → WaitsOwn 0 (runBlock (os evs) noPos b kind (history os evs)).2 := by
      intro kind b he
      rcases hr : runBlock (os evs) noPos b kind (history os evs) with ⟨r, t'⟩
      obtain ⟨x, rfl, h2, _⟩ := reaped_partial hr
      exact Exec.waitsOwn_append ih (by rw [Nat.zero_add]; exact h2)
    cases e with
    | command kind b =>
      cases kind with
      | asynchronous => exact ih
      | synchronous =>
        exact fin _ _ rfl
      | capture =>
        exact fin _ _ rfl
    | _ => exact ih

/-- C70 for scripts: a script whose blocks have no pipelines never leaves a process behind. -/
theorem script_reaped (os : List Event → Os) (evs : List Event) (h : ∀ kind b, .command kind b ∈ evs → NoPipelines b) :
    orphans 0 (history os evs) = [] := by
  induction evs using List.reverseRecOn with
  | nil => rfl
  | append_singleton evs e ih =>
    have ih := ih fun kind b hb => h kind b (List.mem_append_left _ hb)
    rw [history_snoc]
    have fin : ∀ kind b, e = .command kind b → orphans 0 (runBlock (os evs) noPos b kind (history os evs)).2 = [] := by
      intro kind b he
      rcases hr : runBlock (os evs) noPos b kind (history os evs) with ⟨r, t'⟩
      obtain ⟨x, rfl, h2, _⟩ := reaped_partial hr
      obtain ⟨y, h3, h4⟩ := reaped_without_pipelines (h kind b (by rw [he]; simp)) hr
      obtain rfl := List.append_cancel_left h3
      change orphans 0 (history os evs ++ x) = []
      rw [Exec.orphans_append (script_waits os evs) (by rw [Nat.zero_add]; exact h2), ih, Nat.zero_add, h4]
      rfl
    cases e with
    | command kind b =>
      cases kind with
      | asynchronous => exact ih
      | synchronous => exact fin _ _ rfl
      | capture => exact fin _ _ rfl
    | _ => exact ih

-- Two blocks, the first of which fails.
example : (waits (history scriptOs [.command .synchronous (scriptEx (bs "false")), .command .capture (scriptEx (bs "echo"))])).map (·.2) =
    [.code 1, .code 0] ∧ NoPipelines (scriptEx (bs "false")) := by
  refine ⟨by decide +kernel, fun head tail h => ?_⟩
  simp [scriptEx] at h
  exact h.2

end Hush.Props

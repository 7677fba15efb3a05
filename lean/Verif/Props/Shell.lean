import Verif.Lemmas.Shell
import Verif.Props.Exec
import Verif.Props.Async

/-!
Property C65: command blocks of scripts.
-/

namespace Hush.Props
open Hush Hush.Spec
open Hush.Exec (Os Ev runBlock replyOf blockValue)
open Hush.Spec.Exec (InSequence did waits Succeeded reported)

theorem build_nil_iff {t : Tree} {h : Heap} (ht : t = .nil ∨ ∃ d c, t = .error d c) : (t.build [] h).1 = .nil ↔ t = .nil := by
  rcases ht with rfl | ⟨d, c, rfl⟩
  · simp [Tree.build]
  · simp [Tree.build, Heap.newError]

/-- The world gives the value of the execution, unless it blocks or stops. -/
theorem shell_value {os : List Event → Os} {w : World} (hw : Shell os w) {evs : List Event} {kind : Ast.BlockKind} {b : ExBlock} (hk : kind ≠ .asynchronous)
    {t : Tree} (hb : ¬ Blocks (os evs) b kind (history os evs)) (h : w.command evs kind b = .value t) :
    ∃ pos, runBlock (os evs) pos b kind (history os evs) = (.ok t, history os (evs ++ [.command kind b])) := by
  obtain ⟨pos, hp⟩ := hw evs kind b hk
  have hs : history os (evs ++ [.command kind b]) = (runBlock (os evs) pos b kind (history os evs)).2 := by
    rw [history_snoc, (runBlock_pos (os evs) pos noPos b kind _).1]
    cases kind with
    | asynchronous => exact absurd rfl hk
    | _ => rfl
  have hl := (runBlock_pos (os evs) pos noPos b kind (history os evs)).2
  refine ⟨pos, ?_⟩
  rw [hs]
  unfold Blocks at hb
  rcases hr : runBlock (os evs) pos b kind (history os evs) with ⟨e | t', l⟩
  · rw [hr] at hp hl
    cases e with
    | hang =>
      exfalso
      cases hl' : (runBlock (os evs) noPos b kind (history os evs)).1 with
      | error e' => rw [hl'] at hl hb; cases hl; exact hb rfl
      | ok t' => rw [hl'] at hl; cases hl
    | io msg p => rw [hp _ rfl] at h; cases h
    | panic p => rw [hp _ rfl] at h; cases h
    | replaced => rw [hp _ rfl] at h; cases h
    | todo => rw [hp _ rfl] at h; cases h
  · rw [hr] at hp
    have := hp _ rfl
    rw [h] at this
    cases this
    rfl

theorem blockValue_kind (os : Os) (r : List (List Exec.ErrorStatus)) : blockValue os r = .nil ∨ ∃ d c, blockValue os r = .error d c := by
  unfold blockValue
  match r with
  | [] => exact .inl rfl
  | [ss] =>
    match ss with
    | [] => exact .inl rfl
    | [s] => exact .inr ⟨_, _, rfl⟩
    | _ :: _ :: _ => exact .inr ⟨_, _, rfl⟩
  | _ :: _ :: _ => exact .inr ⟨_, _, rfl⟩

/-- C65, a block `{ ... }` of a script: its arguments are made from the variables at that moment; its commands are executed in sequence, after all
calls to the operating system that the script made before; the value is nil if all processes succeeded and an error otherwise, and
the variables are as before. Missing: as for C35, blocks of which a call to the operating system fails. -/
theorem script_block_partial {os : List Event → Os} {w : World} (hw : Shell os w) {m : Nat} {tail : Option Nat} {b : Prog.CommandBlock} {pos : Pos}
    {s : RState} {v : Value} {s' : RState} (hk : b.kind = .synchronous) (h : Ends w (.expr m tail (.command b pos)) s (done v pos) s')
    (hb : ∀ ex, buildBlock (argEnv w s) b.head b.tail = .ok ex → ¬ Blocks (os s.trace) ex .synchronous (history os s.trace))
    (hok : ∀ e ∈ history os s'.trace, e.ok = true) :
    ∃ ex evs r, buildBlock (argEnv w s) b.head b.tail = .ok ex ∧ history os s'.trace = history os s.trace ++ evs ∧
      InSequence (os s.trace) .stdout .stderr (ex.head :: ex.tail) (history os s.trace) evs r ∧
      (v = .nil ↔ ∀ x ∈ waits evs, Succeeded x.2) ∧ (v = .nil ∨ ∃ d c, v = .error d c) ∧
      (∃ tree, tree.build [] s.heap = (v, s'.heap) ∧
        reported tree = r.flatten.map (fun st => ((st.status : Int), (os s.trace).posText st.pos))) ∧ s'.stack = s.stack := by
  rcases ends_command (by rw [hk]; nofun) h with ⟨e, _, h, _⟩ | ⟨ex, he, ho⟩
  · cases h
  · rw [BlockOutcome, hk] at ho
    cases hc : w.command s.trace .synchronous ex with
    | value t =>
      rw [hc] at ho
      obtain ⟨h1, rfl⟩ := ho
      cases h1
      obtain ⟨p, hr⟩ := shell_value hw (by decide) (hb ex he) hc
      obtain ⟨evs, r, h1, h2, h3⟩ := failures_reported_partial hr hok
      obtain ⟨evs', h4, h5⟩ := block_nil_partial hr hok
      have : evs' = evs := List.append_cancel_left (h4.symm.trans h1)
      subst this
      have hkind : t = .nil ∨ ∃ d c, t = .error d c := by
        obtain ⟨r', t1, -, hx⟩ := Exec.X.bind_ok.1 hr
        obtain ⟨rfl, -⟩ := Exec.X.pure_ok.1 hx
        exact blockValue_kind _ _
      refine ⟨ex, evs', r, he, h1, h2, (build_nil_iff hkind).trans h5, ?_, ⟨t, rfl, h3⟩, rfl⟩
      rcases hkind with rfl | ⟨d, c, rfl⟩
      · exact .inl rfl
      · exact .inr ⟨_, _, rfl⟩
    | _ => rw [hc] at ho; cases ho.1

/-- C65, a block `${ ... }` of a script without failures: the value is a new dict with what the commands wrote to their output and error output. -/
theorem script_capture_partial {os : List Event → Os} {w : World} (hw : Shell os w) {m : Nat} {tail : Option Nat} {b : Prog.CommandBlock} {pos : Pos}
    {s : RState} {v : Value} {s' : RState} (hk : b.kind = .capture) (h : Ends w (.expr m tail (.command b pos)) s (done v pos) s')
    (hb : ∀ ex, buildBlock (argEnv w s) b.head b.tail = .ok ex → ¬ Blocks (os s.trace) ex .capture (history os s.trace))
    (hok : ∀ e ∈ history os s'.trace, e.ok = true) :
    ∃ ex evs r out err, buildBlock (argEnv w s) b.head b.tail = .ok ex ∧
      history os s'.trace = history os s.trace ++ [did .pipe, did .pipe] ++ evs ∧
      InSequence (os s.trace) .captureOut .captureErr (ex.head :: ex.tail) (history os s.trace ++ [did .pipe, did .pipe]) evs r ∧
      (os s.trace).received (history os s'.trace) .captureOut = .ok out ∧ (os s.trace).received (history os s'.trace) .captureErr = .ok err ∧
      (r = [] → ∃ a, v = .dict a ∧ s.heap.dicts.length ≤ a ∧
        s'.heap.dict a = [(.string (bs "stdout"), .string out), (.string (bs "stderr"), .string err)]) ∧
      (r ≠ [] → ∃ d c, v = .error d c) ∧ s'.stack = s.stack := by
  rcases ends_command (by rw [hk]; nofun) h with ⟨e, _, h, _⟩ | ⟨ex, he, ho⟩
  · cases h
  · rw [BlockOutcome, hk] at ho
    cases hc : w.command s.trace .capture ex with
    | value t =>
      rw [hc] at ho
      obtain ⟨h1, rfl⟩ := ho
      cases h1
      obtain ⟨p, hr⟩ := shell_value hw (by decide) (hb ex he) hc
      obtain ⟨evs, r, out, err, h1, h2, h3, h4, h5⟩ := failures_captured_partial hr hok
      refine ⟨ex, evs, r, out, err, he, h1, h2, h3, h4, fun hr => ?_, fun hr => ?_, rfl⟩
      · rcases h5 with ⟨-, rfl⟩ | ⟨h5, -⟩
        · exact ⟨_, rfl, Nat.le_refl _, by simp [Tree.build, Tree.buildEntries, Heap.newDict, Heap.dict]⟩
        · exact absurd hr h5
      · rcases h5 with ⟨h5, -⟩ | ⟨-, d, c, rfl, -⟩
        · exact absurd h5 hr
        · exact ⟨_, _, rfl⟩
    | _ => rw [hc] at ho; cases ho.1

/-- C65: a block of which an argument cannot be made (for instance of a function) is a panic, and no call is made to the operating system. -/
theorem script_arguments_first {os : List Event → Os} {w : World} {m : Nat} {tail : Option Nat} {b : Prog.CommandBlock} {pos : Pos}
    {s : RState} {r : Except Stop Out} {s' : RState} {e : Stop} (hk : b.kind ≠ .asynchronous) (h : Ends w (.expr m tail (.command b pos)) s r s')
    (he : buildBlock (argEnv w s) b.head b.tail = .error e) : r = .error e ∧ s' = s ∧ history os s'.trace = history os s.trace := by
  rcases ends_command hk h with ⟨e', he', rfl, rfl⟩ | ⟨ex, he', _⟩ <;> rw [he] at he' <;> cases he'
  exact ⟨rfl, rfl, rfl⟩

/-- C65: what a script does besides executing blocks makes no calls to the operating system that a block could see: the calls of a block come right
after those of the block before. -/
theorem script_history (os : List Event → Os) (evs : List Event) (e : Event) (h : ∀ kind b, kind ≠ .asynchronous → e ≠ .command kind b) :
    history os (evs ++ [e]) = history os evs := by
  rw [history_snoc]
  cases e with
  | command kind b =>
    cases kind with
    | asynchronous => rfl
    | _ => exact absurd rfl (h _ b (by decide))
  | _ => rfl

/-! ### Examples -/

/-- A world on an operating system. -/
def shellWorld (os : List Event → Os) (w : World) : World :=
  { w with command := fun evs kind b => (replyOf (os evs) (runBlock (os evs) noPos b kind (history os evs))).getD (.value .nil) }

-- Every operating system has such a world.
example (os : List Event → Os) (w : World) : Shell os (shellWorld os w) := by
  intro evs kind b _
  refine ⟨noPos, fun r hr => ?_⟩
  simp only [shellWorld, hr, Option.getD_some]

/-- An operating system where programs exit with the code given by their name, and otherwise all works. -/
def scriptOs : List Event → Os := fun _ => { smallOs [] with
  ended := fun t id => match t[id]? with
    | some ⟨.spawn l, _⟩ => if l.program = bs "false" then .code 1 else .code 0
    | _ => .neither
  received := fun _ c => .ok (if c = .captureOut then bs "out" else []) }

/-- A state of a script with a variable. -/
def scriptState : RState := { RState.init [] [] with stack := [.regular (.dict 3), .regular (.string (bs "a b"))] }

/-- The block `{ echo $x }`, with another program. -/
def scriptBlock (kind : Ast.BlockKind) (program : Bytes) : Prog.CommandBlock :=
  ⟨kind, .external ⟨⟨[.unit (.literal program)], q 2⟩, [], [⟨[.unit (.dollar 1 (q 7))], q 7⟩], [], true, q 2⟩ [], []⟩

/-- What is executed for it. -/
def scriptEx (program : Bytes) : ExBlock := ⟨.external ⟨.literal program, [], [.literal (bs "a b")], [], true, q 2⟩ [], []⟩

set_option maxRecDepth 10000 in
example : buildBlock (argEnv (shellWorld scriptOs nilWorld) scriptState) (scriptBlock .synchronous (bs "echo")).head [] = .ok (scriptEx (bs "echo")) := by
  decide +kernel

/-- The state after the block. -/
def scriptAfter (kind : Ast.BlockKind) (program : Bytes) : RState :=
  (run (shellWorld scriptOs nilWorld) 3 (.expr 0 none (.command (scriptBlock kind program) (q 0))) scriptState).2

-- The block `{ echo $x }` gives nil and starts one process, which succeeds.
example : Ends (shellWorld scriptOs nilWorld) (.expr 0 none (.command (scriptBlock .synchronous (bs "echo")) (q 0))) scriptState (done .nil (q 0))
      (scriptAfter .synchronous (bs "echo")) ∧
    (∀ ex, buildBlock (argEnv (shellWorld scriptOs nilWorld) scriptState) (scriptBlock .synchronous (bs "echo")).head [] = .ok ex →
      ¬ Blocks (scriptOs scriptState.trace) ex .synchronous (history scriptOs scriptState.trace)) ∧
    (∀ e ∈ history scriptOs (scriptAfter .synchronous (bs "echo")).trace, e.ok = true) ∧
    (waits (history scriptOs (scriptAfter .synchronous (bs "echo")).trace)).map (·.2) = [.code 0] := by
  refine ⟨⟨nofun, 3, Prod.ext (by decide +kernel) rfl⟩, fun ex h => ?_, by decide +kernel, by decide +kernel⟩
  have : ex = scriptEx (bs "echo") := by
    have h' : buildBlock (argEnv (shellWorld scriptOs nilWorld) scriptState) (scriptBlock .synchronous (bs "echo")).head [] =
      .ok (scriptEx (bs "echo")) := by decide +kernel
    rw [h'] at h; cases h; rfl
  subst this
  unfold Blocks
  have h2 : (match (runBlock (scriptOs scriptState.trace) noPos (scriptEx (bs "echo")) .synchronous (history scriptOs scriptState.trace)).1 with
    | .ok _ => true | .error _ => false) = true := by decide +kernel
  intro h3
  rw [h3] at h2
  cases h2

-- The block `{ false $x }` gives an error, and `${ echo $x }` a dict.
example : (∃ d c, (run (shellWorld scriptOs nilWorld) 3 (.expr 0 none (.command (scriptBlock .synchronous (bs "false")) (q 0))) scriptState).1 =
      done (.error d c) (q 0)) ∧
    (run (shellWorld scriptOs nilWorld) 3 (.expr 0 none (.command (scriptBlock .capture (bs "echo")) (q 0))) scriptState).1 =
      done (.dict 4) (q 0) ∧
    (scriptAfter .capture (bs "echo")).heap.dict 4 = [(.string (bs "stdout"), .string (bs "out")), (.string (bs "stderr"), .string [])] :=
  ⟨⟨_, _, rfl⟩, by decide +kernel, by decide +kernel⟩

-- An argument that is a function.
example (w : World) : ∃ e, buildBlock (argEnv w { scriptState with stack := [.regular .nil, .regular (.function (.hush 0))] })
      (scriptBlock .synchronous (bs "echo")).head [] = .error (.panic ⟨e, q 7⟩) := ⟨_, rfl⟩

end Hush.Props

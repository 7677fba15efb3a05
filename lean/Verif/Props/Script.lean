import Verif.Props.Reaping

/-!
Property C65 for blocks of scripts of which calls to the operating system fail.
-/

namespace Hush.Props
open Hush Hush.Spec
open Hush.Exec (Os runBlock execBlock replyOf blockValue XStop ErrorStatus receive)
open Hush.Spec.Exec (InSequence Interrupted reported did)

/-- How the script goes on after a block that was stopped other than by a failed call: a panic in the block is a panic of the script, with its position; if
the shell was replaced by another program, the exit code is that of the program; the unfinished `alias` is a Rust panic. -/
def StopsScript (os : Os) (t : List Exec.Ev) (e : XStop) (r : Except Stop Out) : Prop :=
  (∃ p, e = .panic p ∧ r = .error (.panic p)) ∨ (e = .replaced ∧ r = .error (.exit (os.replaced t))) ∨ (e = .todo ∧ r = .error (.crash .native))

/-- C65, a block `{ ... }` of a script, whatever the operating system does, provided the block does not block forever: the calls of the block come right after
those of the script so far, and the variables are as before. Either all calls succeeded, the commands were executed in sequence, and the value tells of all
failures (nil: there are none). Or the commands were executed in sequence up to one of which a call failed, and the value is an error that
tells of this failure only (status 127, and the position of a part of that command). Or the script stops. -/
theorem script_block_outcome {os : List Event → Os} {w : World} (hw : Shell os w) {m : Nat} {tail : Option Nat} {b : Prog.CommandBlock} {pos : Pos}
    {s s' : RState} {r : Except Stop Out} {ex : ExBlock} (hk : b.kind = .synchronous) (h : Ends w (.expr m tail (.command b pos)) s r s')
    (he : buildBlock (argEnv w s) b.head b.tail = .ok ex) (hb : ¬ Blocks (os s.trace) ex .synchronous (history os s.trace)) :
    ∃ evs, history os s'.trace = history os s.trace ++ evs ∧ s'.stack = s.stack ∧
      ((∃ ss v tree, InSequence (os s.trace) .stdout .stderr (ex.head :: ex.tail) (history os s.trace) evs ss ∧ (∀ e ∈ evs, e.ok = true) ∧
          r = done v pos ∧ (v = .nil ↔ ss = []) ∧ tree.build [] s.heap = (v, s'.heap) ∧
          reported tree = ss.flatten.map (fun st => ((st.status : Int), (os s.trace).posText st.pos))) ∨
       (∃ msg p d c tree, Interrupted (os s.trace) .stdout .stderr (ex.head :: ex.tail) (history os s.trace) evs (.io msg p) ∧
          r = done (.error d c) pos ∧ tree.build [] s.heap = (.error d c, s'.heap) ∧ reported tree = [(127, (os s.trace).posText p)]) ∨
       (∃ e, Interrupted (os s.trace) .stdout .stderr (ex.head :: ex.tail) (history os s.trace) evs e ∧
          StopsScript (os s.trace) (history os s'.trace) e r)) := by
  rcases ends_command (by rw [hk]; nofun) h with ⟨e, he', _⟩ | ⟨ex', he', ho⟩ <;> rw [he] at he' <;> cases he'
  obtain ⟨p, hp⟩ := hw s.trace .synchronous ex (by decide)
  rcases hx : execBlock (os s.trace) .stdout .stderr ex (history os s.trace) with ⟨x, t'⟩
  obtain ⟨evs, rfl, hout⟩ := block_outcome hx
  -- the result of the block
  have hrun : ∀ p, runBlock (os s.trace) p ex .synchronous (history os s.trace) =
      (x.map (blockValue (os s.trace)), history os s.trace ++ evs) := by
    intro p
    have : runBlock (os s.trace) p ex .synchronous (history os s.trace) =
      Exec.X.bind (execBlock (os s.trace) .stdout .stderr ex) (fun ess => Exec.X.pure (blockValue (os s.trace) ess)) (history os s.trace) := rfl
    rw [this]
    unfold Exec.X.bind
    rw [hx]
    cases x <;> rfl
  have hhist : ∀ tr', tr' = s.trace ++ [.command .synchronous ex] → history os tr' = history os s.trace ++ evs := by
    rintro _ rfl
    rw [history_snoc]
    change (runBlock (os s.trace) noPos ex .synchronous (history os s.trace)).2 = _
    rw [hrun]
  unfold Blocks at hb
  rw [hrun] at hb hp
  rw [BlockOutcome, hk] at ho
  refine ⟨evs, ?_⟩
  rcases hout with ⟨ss, rfl, hs, hok⟩ | ⟨msg, q, rfl, hi⟩ | ⟨e, rfl, hne, hi⟩
  · rw [hp _ rfl] at ho
    obtain ⟨rfl, rfl⟩ := ho
    refine ⟨hhist _ rfl, rfl, .inl ⟨ss, _, _, hs, hok, rfl, ?_, rfl, ?_⟩⟩
    · rw [build_nil_iff (blockValue_kind _ _), blockValue_nil (Exec.inSequence_nil hs).2]
    · exact reported_block _ _
  · rw [hp _ rfl] at ho
    obtain ⟨rfl, rfl⟩ := ho
    exact ⟨hhist _ rfl, rfl, .inr (.inl ⟨msg, q, _, _, blockValue (os s.trace) [[⟨msg, 127, q⟩]], hi, rfl, rfl, reported_block _ _⟩)⟩
  · cases e with
    | hang => exact absurd rfl hb
    | io msg q => exact absurd rfl (hne msg q)
    | panic q =>
      rw [hp _ rfl] at ho
      obtain ⟨rfl, rfl⟩ := ho
      exact ⟨hhist _ rfl, rfl, .inr (.inr ⟨_, hi, .inl ⟨q, rfl, rfl⟩⟩)⟩
    | replaced =>
      rw [hp _ rfl] at ho
      obtain ⟨rfl, rfl⟩ := ho
      exact ⟨hhist _ rfl, rfl, .inr (.inr ⟨_, hi, .inr (.inl ⟨rfl, by rw [hhist _ rfl]⟩)⟩)⟩
    | todo =>
      rw [hp _ rfl] at ho
      obtain ⟨rfl, rfl⟩ := ho
      exact ⟨hhist _ rfl, rfl, .inr (.inr ⟨_, hi, .inr (.inr ⟨rfl, rfl⟩)⟩)⟩

/-- The value of a capture block as a tree: what was captured, and the failures if there are any. -/
def CaptureTree (os : Os) (ss : List (List ErrorStatus)) (out err : Bytes) (tree : Tree) : Prop :=
  (ss = [] ∧ tree = .dict [(.string (bs "stdout"), .string out), (.string (bs "stderr"), .string err)]) ∨
  (ss ≠ [] ∧ ∃ d ctx, tree = .error d (.dict [(.string (bs "stdout"), .string out), (.string (bs "stderr"), .string err), (.string (bs "error"), ctx)]) ∧
    reported (.error d ctx) = ss.flatten.map (fun st => ((st.status : Int), os.posText st.pos)))

theorem captureTree_value (os : Os) {ss : List (List ErrorStatus)} (hne : ∀ x ∈ ss, x ≠ []) (out err : Bytes) :
    CaptureTree os ss out err (Exec.captureValue out err (blockValue os ss)) := by
  by_cases hs : ss = []
  · subst hs
    exact .inl ⟨rfl, rfl⟩
  · refine .inr ⟨hs, ?_⟩
    have hv : blockValue os ss ≠ .nil := fun hh => hs ((blockValue_nil hne).1 hh)
    rcases blockValue_kind os ss with h | ⟨d, c, h⟩
    · exact absurd h hv
    · rw [h]
      refine ⟨d, c, rfl, ?_⟩
      rw [← h]
      exact reported_block os ss

/-- What happens in a capture block. -/
theorem capture_outcome {o : Os} {p : Pos} {ex : ExBlock} {r : Except XStop Tree} {t t' : List Exec.Ev} (h : runBlock o p ex .capture t = (r, t')) :
    (∃ msg, (t' = t ++ [⟨.pipe, false⟩] ∨ t' = t ++ [did .pipe, ⟨.pipe, false⟩]) ∧ r = .error (.io msg p)) ∨
    ∃ evs, t' = t ++ [did .pipe, did .pipe] ++ evs ∧
      ((∃ ss, (InSequence o .captureOut .captureErr (ex.head :: ex.tail) (t ++ [did .pipe, did .pipe]) evs ss ∧ (∀ e ∈ evs, e.ok = true) ∨
            ∃ msg p, Interrupted o .captureOut .captureErr (ex.head :: ex.tail) (t ++ [did .pipe, did .pipe]) evs (.io msg p) ∧ ss = [[⟨msg, 127, p⟩]]) ∧
          (∀ y ∈ ss, y ≠ []) ∧
          ((∃ out err, o.received t' .captureOut = .ok out ∧ o.received t' .captureErr = .ok err ∧ r = .ok (Exec.captureValue out err (blockValue o ss))) ∨
           (∃ c msg, (c = .captureOut ∨ c = .captureErr) ∧ o.received t' c = .error msg ∧ r = .error (.io msg p)))) ∨
       (∃ e, (∀ msg q, e ≠ .io msg q) ∧ Interrupted o .captureOut .captureErr (ex.head :: ex.tail) (t ++ [did .pipe, did .pipe]) evs e ∧ r = .error e)) := by
  have hdef : runBlock o p ex .capture t = Exec.X.bind (Exec.call o .pipe p) (fun _ => Exec.X.bind (Exec.call o .pipe p) fun _ =>
    Exec.X.bind (execBlock o .captureOut .captureErr ex) fun ess => Exec.X.bind (receive o .captureOut p) fun out =>
    Exec.X.bind (receive o .captureErr p) fun err => Exec.X.pure (Exec.captureValue out err (blockValue o ess))) t := rfl
  rw [hdef] at h
  clear hdef
  simp only [Exec.X.bind, Exec.call] at h
  cases hf1 : o.fails t .pipe with
  | some msg =>
    rw [hf1] at h
    cases h
    exact .inl ⟨_, .inl rfl, rfl⟩
  | none =>
    rw [hf1] at h
    dsimp only at h
    cases hf2 : o.fails (t ++ [⟨.pipe, true⟩]) .pipe with
    | some msg =>
      rw [hf2] at h
      cases h
      exact .inl ⟨_, .inr (by simp [did]), rfl⟩
    | none =>
      rw [hf2] at h
      dsimp only at h
      right
      rcases hx : execBlock o .captureOut .captureErr ex (t ++ [⟨.pipe, true⟩] ++ [⟨.pipe, true⟩]) with ⟨x, t1⟩
      rw [hx] at h
      obtain ⟨evs, rfl, hout⟩ := block_outcome hx
      have hl : t ++ [⟨.pipe, true⟩] ++ [⟨.pipe, true⟩] = t ++ [did .pipe, did .pipe] := by simp [did]
      rw [hl] at hout h
      clear hx
      -- what was captured
      have key : ∀ ss, x = .ok ss → t' = t ++ [did .pipe, did .pipe] ++ evs ∧
          ((∃ out err, o.received t' .captureOut = .ok out ∧ o.received t' .captureErr = .ok err ∧ r = .ok (Exec.captureValue out err (blockValue o ss))) ∨
           (∃ c msg, (c = .captureOut ∨ c = .captureErr) ∧ o.received t' c = .error msg ∧ r = .error (.io msg p))) := by
        rintro ss rfl
        dsimp only [receive] at h
        cases ho : o.received (t ++ [did .pipe, did .pipe] ++ evs) .captureOut with
        | error msg =>
          rw [ho] at h
          cases h
          exact ⟨rfl, .inr ⟨_, msg, .inl rfl, ho, rfl⟩⟩
        | ok out =>
          rw [ho] at h
          dsimp only at h
          cases he : o.received (t ++ [did .pipe, did .pipe] ++ evs) .captureErr with
          | error msg =>
            rw [he] at h
            cases h
            exact ⟨rfl, .inr ⟨_, msg, .inr rfl, he, rfl⟩⟩
          | ok err =>
            rw [he] at h
            cases h
            exact ⟨rfl, .inl ⟨out, err, ho, he, rfl⟩⟩
      rcases hout with ⟨ss, rfl, hs, hok⟩ | ⟨msg, q, rfl, hi⟩ | ⟨e, rfl, hne, hi⟩
      · obtain ⟨h1, h2⟩ := key _ rfl
        exact ⟨evs, h1, .inl ⟨ss, .inl ⟨hs, hok⟩, (Exec.inSequence_nil hs).2, h2⟩⟩
      · obtain ⟨h1, h2⟩ := key _ rfl
        exact ⟨evs, h1, .inl ⟨_, .inr ⟨msg, q, hi, rfl⟩, by simp, h2⟩⟩
      · cases h
        exact ⟨evs, rfl, .inr ⟨e, hne, hi, rfl⟩⟩

/-- C65, a block `${ ... }` of a script, whatever the operating system does, provided the block does not block forever. Either a pipe could not be made and
nothing was started, or what was captured cannot be read: then the script panics. Or the commands were executed as in `script_block_outcome`, and the value
has what was captured together with the failures. Or the script stops. -/
theorem script_capture_outcome {os : List Event → Os} {w : World} (hw : Shell os w) {m : Nat} {tail : Option Nat} {b : Prog.CommandBlock} {pos : Pos}
    {s s' : RState} {r : Except Stop Out} {ex : ExBlock} (hk : b.kind = .capture) (h : Ends w (.expr m tail (.command b pos)) s r s')
    (he : buildBlock (argEnv w s) b.head b.tail = .ok ex) (hb : ¬ Blocks (os s.trace) ex .capture (history os s.trace)) :
    s'.stack = s.stack ∧
      ((∃ p msg, (history os s'.trace = history os s.trace ++ [⟨.pipe, false⟩] ∨ history os s'.trace = history os s.trace ++ [did .pipe, ⟨.pipe, false⟩]) ∧
          r = .error (.panic ⟨.io msg, p⟩)) ∨
       ∃ evs, history os s'.trace = history os s.trace ++ [did .pipe, did .pipe] ++ evs ∧
        ((∃ ss, (InSequence (os s.trace) .captureOut .captureErr (ex.head :: ex.tail) (history os s.trace ++ [did .pipe, did .pipe]) evs ss ∧
              (∀ e ∈ evs, e.ok = true) ∨
            ∃ msg p, Interrupted (os s.trace) .captureOut .captureErr (ex.head :: ex.tail) (history os s.trace ++ [did .pipe, did .pipe]) evs (.io msg p) ∧
              ss = [[⟨msg, 127, p⟩]]) ∧
          ((∃ out err v tree, (os s.trace).received (history os s'.trace) .captureOut = .ok out ∧
              (os s.trace).received (history os s'.trace) .captureErr = .ok err ∧
              r = done v pos ∧ tree.build [] s.heap = (v, s'.heap) ∧ CaptureTree (os s.trace) ss out err tree) ∨
           (∃ c msg p, (c = .captureOut ∨ c = .captureErr) ∧ (os s.trace).received (history os s'.trace) c = .error msg ∧
              r = .error (.panic ⟨.io msg, p⟩)))) ∨
         (∃ e, Interrupted (os s.trace) .captureOut .captureErr (ex.head :: ex.tail) (history os s.trace ++ [did .pipe, did .pipe]) evs e ∧
            StopsScript (os s.trace) (history os s'.trace) e r))) := by
  rcases ends_command (by rw [hk]; nofun) h with ⟨e, he', _⟩ | ⟨ex', he', ho⟩ <;> rw [he] at he' <;> cases he'
  obtain ⟨p, hp⟩ := hw s.trace .capture ex (by decide)
  rw [BlockOutcome, hk] at ho
  have hst : s'.stack = s.stack := by
    cases hc : w.command s.trace .capture ex <;> rw [hc] at ho <;> rw [ho.2]
  refine ⟨hst, ?_⟩
  have htr : s'.trace = s.trace ++ [.command .capture ex] := by
    cases hc : w.command s.trace .capture ex <;> rw [hc] at ho <;> rw [ho.2]
  have hhist : history os s'.trace = (runBlock (os s.trace) p ex .capture (history os s.trace)).2 := by
    rw [htr, history_snoc, (runBlock_pos (os s.trace) p noPos ex .capture _).1]
    rfl
  have hal := (runBlock_pos (os s.trace) p noPos ex .capture (history os s.trace)).2
  unfold Blocks at hb
  rcases hr : runBlock (os s.trace) p ex .capture (history os s.trace) with ⟨x, t'⟩
  rw [hr] at hp hal hhist
  dsimp only at hhist hal
  rw [hhist]
  rcases capture_outcome hr with ⟨msg, hh, rfl⟩ | ⟨evs, rfl, ⟨ss, hc, hne, ⟨out, err, h1, h2, rfl⟩ | ⟨c, msg, h1, h2, rfl⟩⟩ | ⟨e, hne, hi, rfl⟩⟩
  · rw [hp _ rfl] at ho
    exact .inl ⟨p, msg, hh, ho.1⟩
  · rw [hp _ rfl] at ho
    obtain ⟨rfl, rfl⟩ := ho
    exact .inr ⟨evs, rfl, .inl ⟨ss, hc, .inl ⟨out, err, _, _, h1, h2, rfl, rfl, captureTree_value _ hne out err⟩⟩⟩
  · rw [hp _ rfl] at ho
    exact .inr ⟨evs, rfl, .inl ⟨ss, hc, .inr ⟨c, msg, p, h1, h2, ho.1⟩⟩⟩
  · refine .inr ⟨evs, rfl, .inr ⟨e, hi, ?_⟩⟩
    cases e with
    | hang =>
      exfalso
      cases hl' : (runBlock (os s.trace) noPos ex .capture (history os s.trace)).1 with
      | error e' => rw [hl'] at hal hb; cases hal; exact hb rfl
      | ok t' => rw [hl'] at hal; cases hal
    | io msg q => exact absurd rfl (hne msg q)
    | panic q =>
      rw [hp _ rfl] at ho
      exact .inl ⟨q, rfl, ho.1⟩
    | replaced =>
      rw [hp _ rfl] at ho
      exact .inr (.inl ⟨rfl, ho.1⟩)
    | todo =>
      rw [hp _ rfl] at ho
      exact .inr (.inr ⟨rfl, ho.1⟩)

/-! ### Examples -/

/-- An operating system where `echo` cannot be started. -/
def noEcho : List Event → Os := fun _ => smallOs [bs "echo"]

/-- The state after a block. -/
def afterNoEcho (kind : Ast.BlockKind) : RState :=
  (run (shellWorld noEcho nilWorld) 3 (.expr 0 none (.command (scriptBlock kind (bs "echo")) (q 0))) scriptState).2

theorem noEcho_runs (kind : Ast.BlockKind) (hk : kind ≠ .asynchronous) :
    buildBlock (argEnv (shellWorld noEcho nilWorld) scriptState) (scriptBlock kind (bs "echo")).head (scriptBlock kind (bs "echo")).tail =
        .ok (scriptEx (bs "echo")) ∧
      ¬ Blocks (noEcho scriptState.trace) (scriptEx (bs "echo")) kind (history noEcho scriptState.trace) := by
  have h1 : buildBlock (argEnv (shellWorld noEcho nilWorld) scriptState) (scriptBlock .synchronous (bs "echo")).head [] = .ok (scriptEx (bs "echo")) := by
    decide +kernel
  refine ⟨h1, ?_⟩
  have ok : (match (runBlock (noEcho scriptState.trace) noPos (scriptEx (bs "echo")) kind (history noEcho scriptState.trace)).1 with
    | .ok _ => true | .error _ => false) = true := by
    cases kind with
    | asynchronous => exact absurd rfl hk
    | _ => decide +kernel
  unfold Blocks
  intro h
  rw [h] at ok
  cases ok

-- The block `{ echo $x }` gives an error, the only thing that failed is the last call: this is the second case of `script_block_outcome`.
example : ∃ d c, Ends (shellWorld noEcho nilWorld) (.expr 0 none (.command (scriptBlock .synchronous (bs "echo")) (q 0))) scriptState (done (.error d c) (q 0))
      (afterNoEcho .synchronous) ∧
    (history noEcho (afterNoEcho .synchronous).trace).map (·.ok) = [true, true, true, false] :=
  ⟨_, _, ⟨nofun, 3, Prod.ext rfl rfl⟩, by decide +kernel⟩

-- The block `${ echo $x }` too, after its two pipes.
example : ∃ d c, Ends (shellWorld noEcho nilWorld) (.expr 0 none (.command (scriptBlock .capture (bs "echo")) (q 0))) scriptState (done (.error d c) (q 0))
      (afterNoEcho .capture) ∧
    (history noEcho (afterNoEcho .capture).trace).map (·.ok) = [true, true, true, true, true, false] :=
  ⟨_, _, ⟨nofun, 3, Prod.ext rfl rfl⟩, by decide +kernel⟩

end Hush.Props

import Verif.Spec.Reaping
import Verif.Lemmas.Pipeline

/-!
What has happened when the execution of commands stops (C70).
-/

namespace Hush
namespace Exec
open Hush.Spec.Exec (did moves waits starts processes positions LastFailed StoppedIn Interrupted Executed InSequence orphans WaitsOwn)

/-- A computation waiting for no process: if it comes to its end, no call failed and `n` processes were started; if not, at most `k` were started, and an
error of a call is that of the last one, with a position in `P`. -/
def Steps (os : Os) (P : List Pos) (n k : Nat) (m : X α) : Prop :=
  ∀ t r t', m t = (r, t') → ∃ evs, t' = t ++ evs ∧ waits evs = [] ∧
    match r with
    | .ok _ => (∀ e ∈ evs, e.ok = true) ∧ (starts t.length evs).length = n
    | .error e => (starts t.length evs).length ≤ k ∧ ∀ msg pos, e = .io msg pos → pos ∈ P ∧ LastFailed os t evs msg

theorem Steps.pure {os : Os} {P : List Pos} {k : Nat} (a : α) : Steps os P 0 k (Pure.pure a : X α) := by
  intro t r t' h
  cases h
  exact ⟨[], by simp, rfl, nofun, rfl⟩

theorem Steps.bind {os : Os} {P : List Pos} {n1 n2 k1 k2 k : Nat} {m : X α} {f : α → X β} (hm : Steps os P n1 k1 m)
    (hf : ∀ a, (∃ t t', m t = (.ok a, t')) → Steps os P n2 k2 (f a))
    (h1 : k1 ≤ k) (h2 : n1 + k2 ≤ k) : Steps os P (n1 + n2) k (m >>= f) := by
  intro t r t' h
  change X.bind m f t = _ at h
  unfold X.bind at h
  rcases hx : m t with ⟨e | a, t1⟩ <;> rw [hx] at h
  · cases h
    obtain ⟨evs, rfl, hw, hs, hp⟩ := hm _ _ _ hx
    exact ⟨evs, rfl, hw, Nat.le_trans hs h1, hp⟩
  · obtain ⟨evs, rfl, hw, hok, hs⟩ := hm _ _ _ hx
    obtain ⟨evs2, rfl, hw2, h3⟩ := hf a ⟨_, _, hx⟩ _ _ _ h
    refine ⟨evs ++ evs2, by simp, by simp [waits_append, hw, hw2], ?_⟩
    cases r with
    | ok b =>
      refine ⟨fun e he => ?_, ?_⟩
      · rcases List.mem_append.1 he with he | he
        · exact hok e he
        · exact h3.1 e he
      · have := h3.2
        rw [starts_append, List.length_append]
        simp only [List.length_append] at this
        omega
    | error e =>
      refine ⟨?_, fun msg pos he => ?_⟩
      · have := h3.1
        rw [starts_append, List.length_append]
        simp only [List.length_append] at this
        omega
      · obtain ⟨hp, init, a, rfl, hi, hfail⟩ := h3.2 msg pos he
        refine ⟨hp, evs ++ init, a, by simp, fun e he => ?_, by rw [← List.append_assoc]; exact hfail⟩
        rcases List.mem_append.1 he with he | he
        · exact hok e he
        · exact hi e he

theorem Steps.bind0 {os : Os} {P : List Pos} {n k : Nat} {m : X α} {f : α → X β} (hm : Steps os P 0 0 m) (hf : ∀ a, Steps os P n k (f a)) :
    Steps os P n k (m >>= f) := by
  have := Steps.bind hm (fun a _ => hf a) (Nat.zero_le k) (by omega)
  rwa [Nat.zero_add] at this

theorem Steps.call {os : Os} {P : List Pos} {a : Act} {pos : Pos} (hp : pos ∈ P) (ha : Other a) : Steps os P 0 0 (call os a pos) := by
  intro t r t' h
  unfold Exec.call at h
  have hw : ∀ b, waits [⟨a, b⟩] = [] ∧ starts t.length [⟨a, b⟩] = [] := by
    intro b
    cases a <;> first | exact ha.elim | (cases b <;> exact ⟨rfl, rfl⟩)
  cases hf : os.fails t a with
  | none =>
    rw [hf] at h
    cases h
    exact ⟨_, rfl, (hw _).1, by simp, by rw [(hw _).2]; rfl⟩
  | some msg =>
    rw [hf] at h
    cases h
    refine ⟨_, rfl, (hw _).1, by rw [(hw _).2]; exact Nat.le_refl _, fun msg' pos' he => ?_⟩
    cases he
    exact ⟨hp, [], a, rfl, nofun, by rw [List.append_nil]; exact hf⟩

theorem Steps.spawn {os : Os} {P : List Pos} {l : Launch} {pos : Pos} (hp : pos ∈ P) : Steps os P 1 0 (Exec.call os (.spawn l) pos) := by
  intro t r t' h
  unfold Exec.call at h
  cases hf : os.fails t (.spawn l) with
  | none =>
    rw [hf] at h
    cases h
    exact ⟨_, rfl, rfl, by simp, rfl⟩
  | some msg =>
    rw [hf] at h
    cases h
    refine ⟨_, rfl, rfl, Nat.le_refl _, fun msg' pos' he => ?_⟩
    cases he
    exact ⟨hp, [], _, rfl, nofun, by rw [List.append_nil]; exact hf⟩

theorem Steps.stop {os : Os} {P : List Pos} {n k : Nat} {e : XStop} (he : ∀ msg pos, e ≠ .io msg pos) : Steps os P n k (X.stop e : X α) := by
  intro t r t' h
  cases h
  exact ⟨[], by simp, rfl, Nat.zero_le _, fun msg pos h => absurd h (he msg pos)⟩

theorem Steps.panic {os : Os} {P : List Pos} {n k : Nat} {kind : PanicKind} {pos : Pos} : Steps os P n k (X.panic kind pos : X α) :=
  Steps.stop (by simp)

theorem Steps.resolve {os : Os} {P : List Pos} {a : ExArg} {pos : Pos} : Steps os P 0 0 (resolve os a pos) := by
  intro t r t' h
  cases a with
  | literal s => cases h; exact ⟨[], by simp, rfl, nofun, rfl⟩
  | pattern p =>
    simp only [Exec.resolve] at h
    split at h
    · cases h
      exact ⟨[], by simp, rfl, Nat.zero_le _, fun _ _ he => by cases he⟩
    · split at h
      · cases h
        exact ⟨_, rfl, rfl, Nat.zero_le _, fun _ _ he => by cases he⟩
      · cases h
        exact ⟨_, rfl, rfl, by simp, rfl⟩

theorem Steps.resolveOne {os : Os} {P : List Pos} {o : Bytes} {a : ExArg} {pos : Pos} : Steps os P 0 0 (resolveOne os o a pos) := by
  refine Steps.bind0 Steps.resolve (fun l => ?_)
  match l with
  | [] => exact .panic
  | [s] => exact .pure _
  | _ :: _ :: _ => exact .panic

theorem Steps.resolveAll {os : Os} {P : List Pos} {as : List ExArg} {pos : Pos} : Steps os P 0 0 (resolveAll os pos as) := by
  induction as with
  | nil => exact .pure _
  | cons a as ih => exact .bind0 .resolve (fun l => .bind0 ih (fun _ => .pure _))

theorem Steps.resolveEnv {os : Os} {P : List Pos} {es : List (Bytes × ExArg)} {pos : Pos} : Steps os P 0 0 (resolveEnv os pos es) := by
  induction es with
  | nil => exact .pure _
  | cons a as ih => exact .bind0 .resolveOne (fun l => .bind0 ih (fun _ => .pure _))

theorem Steps.target {os : Os} {P : List Pos} {t : ExTarget} {s : Stdio} {pos : Pos} (hp : pos ∈ P) : Steps os P 0 0 (resolveTarget os t s pos) := by
  cases t with
  | fd n =>
    unfold resolveTarget
    simp only
    split
    · exact .bind0 (.call hp trivial) (fun _ => .pure _)
    · split
      · exact .bind0 (.call hp trivial) (fun _ => .pure _)
      · exact .panic
  | overwrite a => exact .bind0 .resolveOne (fun _ => .bind0 (.call hp trivial) (fun _ => .pure _))
  | append a => exact .bind0 .resolveOne (fun _ => .bind0 (.call hp trivial) (fun _ => .pure _))

theorem Steps.writePipe {os : Os} {P : List Pos} {id held : Nat} {data : Bytes} {pos : Pos} (hp : pos ∈ P) :
    Steps os P 0 0 (writePipe os id held data pos) := by
  unfold Exec.writePipe
  split
  · exact .bind0 (.call hp trivial) (fun _ => .pure _)
  · exact .stop (fun _ _ => nofun)

theorem Steps.input {os : Os} {P : List Pos} {lit : Bool} {a : ExArg} {pos : Pos} (hp : pos ∈ P) : Steps os P 0 0 (resolveInput os lit a pos) := by
  refine .bind0 .resolveOne (fun s => ?_)
  cases lit with
  | true => exact .bind0 (.call hp trivial) (fun _ => .bind0 (.writePipe hp) (fun _ => .bind0 (.writePipe hp) (fun _ => .pure _)))
  | false => exact .bind0 (.call hp trivial) (fun _ => .pure _)

theorem Steps.redirect {os : Os} {P : List Pos} {r : ExRedirection} {s : Stdio} {pos : Pos} (hp : pos ∈ P) : Steps os P 0 0 (redirect os r s pos) := by
  cases r with
  | output n target =>
    refine .bind0 (.target hp) (fun c => ?_)
    split
    · exact .pure _
    · split
      · exact .pure _
      · exact .panic
  | input lit a => exact .bind0 (.input hp) (fun _ => .pure _)

theorem Steps.redirectAll {os : Os} {P : List Pos} {rs : List ExRedirection} {s : Stdio} {pos : Pos} (hp : pos ∈ P) :
    Steps os P 0 0 (redirectAll os pos rs s) := by
  induction rs generalizing s with
  | nil => exact .pure _
  | cons r rs ih => exact .bind0 (.redirect hp) (fun _ => ih)

theorem Steps.map {os : Os} {P : List Pos} {n k : Nat} {m : X α} (f : α → β) (hm : Steps os P n k m) :
    Steps os P n k (m >>= fun a => (Pure.pure (f a) : X β)) := by
  intro t r t' h
  change X.bind m _ t = _ at h
  unfold X.bind at h
  rcases hx : m t with ⟨e | a, t1⟩ <;> rw [hx] at h
  · cases h; exact hm _ _ _ hx
  · cases h; exact hm _ _ _ hx

theorem Steps.basic {os : Os} {P : List Pos} {c : ExBasic} {s : Stdio} (hp : c.pos ∈ P) : Steps os P 1 0 (execBasic os c s) :=
  .bind0 .resolveOne (fun _ => .bind0 .resolveEnv (fun _ => .bind0 .resolveAll (fun _ => .bind0 (.redirectAll hp) (fun _ =>
    .map _ (.spawn hp)))))

theorem Steps.startTail {os : Os} {P : List Pos} {out err : Chan} {cs : List ExBasic} (hp : ∀ c ∈ cs, c.pos ∈ P) :
    Steps os P cs.length cs.length (startTail os out err cs) := by
  induction cs with
  | nil => exact .pure _
  | cons c cs ih =>
    have hc : c.pos ∈ P := hp c (by simp)
    refine Steps.bind (n2 := 1) (k2 := 1) (ih fun c hc => hp c (by simp [hc])) (fun r _ => ?_) (by simp) (by simp)
    refine .bind0 (.call hc trivial) (fun id => ?_)
    refine Steps.bind (n1 := 1) (n2 := 0) (k2 := 0) (.basic hc) (fun child hch => ?_) (by omega) (by omega)
    obtain ⟨t, t', h⟩ := hch
    have : child.pos ∈ P := by rw [(execBasic_ok h).1]; exact hc
    exact .map _ (.call this trivial)

/-- Waiting never stops. -/
theorem waitAll_total (os : Os) (cs : List (Child × Bool)) (t : List Ev) : ∃ r t', waitAll os cs t = (.ok r, t') := by
  induction cs generalizing t with
  | nil => exact ⟨_, _, rfl⟩
  | cons c cs ih =>
    obtain ⟨r, t', h⟩ := ih (waitChild os c.1 t).2
    obtain ⟨c, b⟩ := c
    have hw : waitChild os c t = (.ok (statusOf c.pos (os.ended t c.id)), (waitChild os c t).2) := rfl
    cases hs : statusOf c.pos (os.ended t c.id) with
    | none => exact ⟨_, _, X.bind_ok.2 ⟨_, _, hw, X.bind_ok.2 ⟨_, _, h, by rw [hs]; rfl⟩⟩⟩
    | some e => exact ⟨_, _, X.bind_ok.2 ⟨_, _, hw, X.bind_ok.2 ⟨_, _, h, by rw [hs]; rfl⟩⟩⟩

theorem bind_error {m : X α} {f : α → X β} {t t' : List Ev} {e : XStop} (h : (m >>= f) t = (.error e, t')) :
    m t = (.error e, t') ∨ ∃ a t1, m t = (.ok a, t1) ∧ f a t1 = (.error e, t') := by
  change X.bind m f t = _ at h
  unfold X.bind at h
  rcases hx : m t with ⟨e | a, t1⟩ <;> rw [hx] at h
  · cases h; exact .inl rfl
  · exact .inr ⟨a, t1, rfl, h⟩

/-- The stages of a pipeline up to the start of the first. -/
theorem Steps.stages {os : Os} {out err : Chan} {head : ExBasic} {tail : List ExBasic} :
    Steps os (positions (.external head tail)) (tail.length + 1) tail.length
      (Exec.startTail os out err tail >>= fun r => Exec.call os (.dup 0) head.pos >>= fun _ => execBasic os head ⟨.stdin, r.1.1, r.1.2⟩) := by
  refine Steps.bind (k2 := 0) (.startTail fun c hc => ?_) (fun r _ => .bind0 (.call ?_ trivial) (fun _ => .basic ?_)) (Nat.le_refl _) (by omega)
  · exact List.mem_cons_of_mem _ (List.mem_map.2 ⟨c, hc, rfl⟩)
  · exact List.mem_cons_self
  · exact List.mem_cons_self

theorem stoppedIn_of {os : Os} {P : List Pos} {n k : Nat} {m : X α} {t t' : List Ev} {e : XStop} {c : ExCommand} (hm : Steps os P n k m)
    (h : m t = (.error e, t')) (hk : k = 0 ∨ k < (processes c).length) (hP : P = positions c)
    (hv : ∃ evs, t' = t ++ evs ∧ moves evs = []) : ∃ evs, t' = t ++ evs ∧ StoppedIn os c t evs e := by
  subst hP
  obtain ⟨evs, rfl, hw, hs, hp⟩ := hm _ _ _ h
  obtain ⟨evs', he, hv⟩ := hv
  obtain rfl := List.append_cancel_left he
  refine ⟨evs, rfl, hw, hv, ?_, hp⟩
  rcases hk with rfl | hk
  · exact .inl (List.length_eq_zero_iff.1 (Nat.le_zero.1 hs))
  · exact .inr (by omega)

theorem Steps.replaceBy {os : Os} {P : List Pos} {l : Launch} {pos : Pos} (hp : pos ∈ P) : Steps os P 0 0 (replaceBy os l pos : X α) :=
  .bind0 (.call hp trivial) (fun _ => .stop (fun _ _ hx => by cases hx))

/-- A builtin command that stops has not changed the directory. -/
theorem builtin_stays {os : Os} {b : Prog.Builtin} {args : List ExArg} {pos : Pos} {t t' : List Ev} {e : XStop}
    (h : execBuiltin os b args pos t = (.error e, t')) : ∃ evs, t' = t ++ evs ∧ moves evs = [] := by
  by_cases hb : b = .cd
  · subst hb
    rcases bind_error h with h | ⟨words, t1, h1, h⟩
    · exact Still.resolveAll _ _ _ h
    · obtain ⟨e1, rfl, hm1⟩ := Still.resolveAll _ _ _ h1
      match words, h with
      | [], h => cases h; exact ⟨e1, rfl, hm1⟩
      | [d], h =>
        rcases bind_error h with h | ⟨_, _, _, h⟩
        · unfold call at h
          cases hf : os.fails (t ++ e1) (.chdir d) <;> rw [hf] at h <;> cases h
          exact ⟨e1 ++ [⟨.chdir d, false⟩], by simp, by rw [moves_append, hm1]; rfl⟩
        · cases h
      | _ :: _ :: _, h => cases h; exact ⟨e1, rfl, hm1⟩
  · exact Still.builtin hb _ _ _ h

theorem execBuiltin_stopped {os : Os} {b : Prog.Builtin} {args : List ExArg} {abort : Bool} {pos : Pos} {t t' : List Ev} {e : XStop}
    (h : execBuiltin os b args pos t = (.error e, t')) : ∃ evs, t' = t ++ evs ∧ StoppedIn os (.builtin b args abort pos) t evs e := by
  have hv := builtin_stays h
  -- everything but starting and waiting
  have gen : ∀ (m : X (Option ErrorStatus)) n, Steps os [pos] n 0 m → m t = (.error e, t') →
      ∃ evs, t' = t ++ evs ∧ StoppedIn os (.builtin b args abort pos) t evs e := fun m n hm h => stoppedIn_of hm h (.inl rfl) rfl hv
  have hp : pos ∈ [pos] := List.mem_singleton.2 rfl
  cases b with
  | alias => exact gen _ 0 (.bind0 .resolveAll fun _ => .stop (fun _ _ hx => by cases hx)) h
  | cd =>
    refine gen _ 0 (.bind0 .resolveAll fun words => ?_) h
    match words with
    | [] => exact .panic
    | [d] => exact .map _ (.call hp trivial)
    | _ :: _ :: _ => exact .panic
  | exec =>
    refine gen _ 0 (.bind0 .resolveAll fun words => ?_) h
    match words with
    | [] => exact .panic
    | _ :: _ => exact .replaceBy hp
  | exec0 =>
    refine gen _ 0 (.bind0 .resolveAll fun words => ?_) h
    match words with
    | [] => exact .panic
    | [_] => exact .panic
    | _ :: _ :: _ => exact .replaceBy hp
  | spawn0 =>
    -- waiting does not stop, so the start does
    let start (words : List Bytes) : X Nat := match words with
      | [] => X.panic (.invalidCommandArgs (bs "argument") 0) pos
      | [_] => X.panic (.invalidCommandArgs (bs "arg0") 0) pos
      | cmd :: arg0 :: args => call os (.spawn (launchPlain cmd (some arg0) args)) pos
    have hst : Steps os [pos] 1 0 (resolveAll os pos args >>= start) := by
      refine .bind0 .resolveAll fun words => ?_
      match words with
      | [] => exact .panic
      | [_] => exact .panic
      | _ :: _ :: _ => exact .spawn hp
    refine stoppedIn_of (c := .builtin .spawn0 args abort pos) hst (t := t) (t' := t') (e := e) ?_ (.inl rfl) rfl hv
    rcases bind_error h with h | ⟨words, t1, h1, h⟩
    · change X.bind _ _ t = _
      unfold X.bind
      rw [h]
    · change X.bind _ _ t = _
      unfold X.bind
      rw [h1]
      match words, h with
      | [], h => exact Prod.ext (by cases h; rfl) (by cases h; rfl)
      | [_], h => exact Prod.ext (by cases h; rfl) (by cases h; rfl)
      | cmd :: arg0 :: args, h =>
        rcases bind_error h with h | ⟨id, t2, _, h⟩
        · exact h
        · cases h

theorem execCommand_stopped {os : Os} {out err : Chan} {c : ExCommand} {t t' : List Ev} {e : XStop}
    (h : execCommand os out err c t = (.error e, t')) : ∃ evs, t' = t ++ evs ∧ StoppedIn os c t evs e := by
  cases c with
  | builtin b args abort pos =>
    rcases bind_error h with h | ⟨_, _, _, h⟩
    · exact execBuiltin_stopped h
    · cases h
  | external head tail =>
    refine stoppedIn_of (Steps.stages (os := os) (out := out) (err := err)) (t' := t') (t := t) (e := e) ?_ (.inr (by simp [processes])) rfl
      (Still.external _ _ _ h)
    rcases bind_error h with h | ⟨r, t1, h1, h⟩
    · change X.bind _ _ t = _
      unfold X.bind
      rw [h]
    · change X.bind _ _ t = _
      unfold X.bind
      rw [h1]
      change X.bind _ _ t1 = _
      unfold X.bind
      rcases bind_error h with h | ⟨_, t2, h2, h⟩
      · rw [h]
      · rw [h2]
        rcases bind_error h with h | ⟨ch, t3, _, h⟩
        · exact h
        · obtain ⟨r', t', hw⟩ := waitAll_total os ((ch, head.abortOnError) :: r.2) t3
          rw [hw] at h
          cases h

/-- The two calls before a command belong to it. -/
theorem stoppedIn_prepend {os : Os} {c : ExCommand} {t pre evs : List Ev} {e : XStop} (hok : ∀ x ∈ pre, x.ok = true) (hw : waits pre = [])
    (hs : ∀ n, starts n pre = []) (hm : moves pre = []) (h : StoppedIn os c (t ++ pre) evs e) : StoppedIn os c t (pre ++ evs) e := by
  obtain ⟨h1, h0, h2, h3⟩ := h
  refine ⟨by rw [waits_append, hw, h1]; rfl, by rw [moves_append, hm, h0]; rfl, ?_, fun msg pos he => ?_⟩
  · rw [starts_append, hs]
    rw [List.length_append] at h2
    exact h2
  · obtain ⟨hp, init, a, rfl, hi, hf⟩ := h3 msg pos he
    refine ⟨hp, pre ++ init, a, by simp, fun x hx => ?_, by rw [← List.append_assoc]; exact hf⟩
    rcases List.mem_append.1 hx with hx | hx
    · exact hok x hx
    · exact hi x hx

theorem commandPos_mem (c : ExCommand) : commandPos c ∈ positions c := by
  cases c <;> simp [commandPos, positions]

/-- A computation of which no call fails if it comes to its end. -/
def Clean (m : X α) : Prop := ∀ t a t', m t = (.ok a, t') → ∃ evs, t' = t ++ evs ∧ ∀ e ∈ evs, e.ok = true

theorem Steps.clean {os : Os} {P : List Pos} {n k : Nat} {m : X α} (h : Steps os P n k m) : Clean m := by
  intro t a t' hm
  obtain ⟨evs, h1, _, h2, _⟩ := h _ _ _ hm
  exact ⟨evs, h1, h2⟩

theorem Clean.bind {m : X α} {f : α → X β} (hm : Clean m) (hf : ∀ a, Clean (f a)) : Clean (m >>= f) := by
  intro t b t' h
  obtain ⟨a, t1, h1, h2⟩ := X.bind_ok.1 h
  obtain ⟨e1, rfl, ho1⟩ := hm _ _ _ h1
  obtain ⟨e2, rfl, ho2⟩ := hf _ _ _ _ h2
  refine ⟨e1 ++ e2, by simp, fun e he => ?_⟩
  rcases List.mem_append.1 he with he | he
  · exact ho1 e he
  · exact ho2 e he

theorem Clean.pure (a : α) : Clean (Pure.pure a : X α) := by
  intro t b t' h
  cases h
  exact ⟨[], by simp, nofun⟩

theorem Clean.stop {e : XStop} : Clean (X.stop e : X α) := fun _ _ _ h => by cases h

theorem Clean.wait {os : Os} {c : Child} : Clean (waitChild os c) := by
  intro t b t' h
  cases h
  exact ⟨_, rfl, by simp⟩

theorem Clean.call {os : Os} {a : Act} {pos : Pos} : Clean (call os a pos) := by
  intro t b t' h
  obtain ⟨_, _, rfl⟩ := call_ok.1 h
  exact ⟨_, rfl, by simp [did]⟩

theorem Clean.waitAll {os : Os} {cs : List (Child × Bool)} : Clean (waitAll os cs) := by
  induction cs with
  | nil => exact .pure _
  | cons c cs ih =>
    refine .bind .wait fun e => .bind ih fun r => ?_
    cases e <;> exact .pure _

theorem Clean.builtin {os : Os} {b : Prog.Builtin} {args : List ExArg} {pos : Pos} : Clean (execBuiltin os b args pos) := by
  refine .bind (Steps.resolveAll (P := [])).clean fun words => ?_
  match b, words with
  | .alias, _ => exact .stop
  | .cd, [] => exact .stop
  | .cd, [_] => exact .bind .call fun _ => .pure _
  | .cd, _ :: _ :: _ => exact .stop
  | .exec, [] => exact .stop
  | .exec, _ :: _ => exact .bind .call fun _ => .stop
  | .exec0, [] => exact .stop
  | .exec0, [_] => exact .stop
  | .exec0, _ :: _ :: _ => exact .bind .call fun _ => .stop
  | .spawn0, [] => exact .stop
  | .spawn0, [_] => exact .stop
  | .spawn0, _ :: _ :: _ => exact .bind .call fun _ => .wait

theorem Clean.command {os : Os} {out err : Chan} {c : ExCommand} : Clean (execCommand os out err c) := by
  cases c with
  | builtin b args abort pos => exact .bind .builtin fun _ => .pure _
  | external head tail =>
    exact .bind (Steps.startTail (P := tail.map (·.pos)) fun c hc => List.mem_map.2 ⟨c, hc, rfl⟩).clean fun r => .bind .call fun _ =>
      .bind (Steps.basic (P := [head.pos]) (List.mem_singleton.2 rfl)).clean fun _ => .waitAll

theorem Clean.commands {os : Os} {out err : Chan} {cs : List ExCommand} : Clean (execCommands os out err cs) := by
  induction cs with
  | nil => exact .pure _
  | cons c cs ih =>
    refine .bind .call fun _ => .bind .call fun _ => .bind .command fun r => ?_
    cases hr : r.abort
    · exact .bind ih fun _ => .pure _
    · exact .pure _

/-- The commands of a block stopped. -/
theorem execCommands_stopped {os : Os} {out err : Chan} {cs : List ExCommand} {e : XStop} {t t' : List Ev}
    (h : execCommands os out err cs t = (.error e, t')) : ∃ evs, t' = t ++ evs ∧ Interrupted os out err cs t evs e := by
  induction cs generalizing t t' with
  | nil => cases h
  | cons c cs ih =>
    have hc := commandPos_mem c
    have hd : ∀ (c : Chan) (d : Bytes), obtain c ≠ .chdir d := by
      intro c d
      cases c <;> nofun
    have one : ∀ a, Other a → (∀ d, a ≠ .chdir d) → ∀ t, call os a (commandPos c) t = (.error e, t') → ∃ evs, t' = t ++ evs ∧ StoppedIn os c t evs e :=
      fun a ha hd t h => stoppedIn_of (Steps.call hc ha) h (.inl rfl) rfl (Still.call hd _ _ _ h)
    rcases bind_error h with h | ⟨_, t1, h1, h⟩
    · obtain ⟨evs, rfl, hs⟩ := one _ (obtain_other _) (hd _) _ h
      exact ⟨evs, rfl, .here hs⟩
    · obtain ⟨p1, rfl, hw1, hs1⟩ := Silent.call (obtain_other _) h1
      obtain ⟨q1, hq1, ho1⟩ := Clean.call _ _ _ h1
      obtain rfl := List.append_cancel_left hq1
      obtain ⟨q1, hq1, hm1⟩ := Still.call (hd _) _ _ _ h1
      obtain rfl := List.append_cancel_left hq1
      rcases bind_error h with h | ⟨_, t2, h2, h⟩
      · obtain ⟨evs, rfl, hs⟩ := one _ (obtain_other _) (hd _) _ h
        exact ⟨p1 ++ evs, by simp, .here (stoppedIn_prepend ho1 hw1 hs1 hm1 hs)⟩
      · obtain ⟨p2, rfl, hw2, hs2⟩ := Silent.call (obtain_other _) h2
        obtain ⟨q2, hq2, ho2⟩ := Clean.call _ _ _ h2
        obtain rfl := List.append_cancel_left hq2
        obtain ⟨q2, hq2, hm2⟩ := Still.call (hd _) _ _ _ h2
        obtain rfl := List.append_cancel_left hq2
        have hm : moves (p1 ++ p2) = [] := by rw [moves_append, hm1, hm2]; rfl
        have ho : ∀ x ∈ p1 ++ p2, x.ok = true := fun x hx => (List.mem_append.1 hx).elim (ho1 x) (ho2 x)
        have hw : waits (p1 ++ p2) = [] := by rw [waits_append, hw1, hw2]; rfl
        have hs : ∀ n, starts n (p1 ++ p2) = [] := fun n => by rw [starts_append, hs1, hs2]; rfl
        rw [List.append_assoc] at h
        rcases bind_error h with h | ⟨r, t3, h3, h⟩
        · obtain ⟨evs, rfl, hst⟩ := execCommand_stopped h
          exact ⟨p1 ++ p2 ++ evs, by simp, .here (stoppedIn_prepend ho hw hs hm hst)⟩
        · obtain ⟨evs, es, rfl, hex, ht, ha⟩ := execCommand_ok h3
          obtain ⟨q3, hq3, ho3⟩ := Clean.command _ _ _ h3
          obtain rfl := List.append_cancel_left hq3
          have hex' := executed_prepend hw hs hm hex
          cases hab : r.abort with
          | true => rw [hab, if_pos rfl] at h; cases h
          | false =>
            rw [hab, if_neg (by simp)] at h
            rcases bind_error h with h | ⟨_, _, _, h⟩
            · obtain ⟨evs', rfl, hi⟩ := ih h
              refine ⟨p1 ++ p2 ++ evs ++ evs', by simp, .later hex' (fun x hx => (List.mem_append.1 hx).elim (ho x) (ho3 x)) ?_ ?_⟩
              · intro hh; rw [ha.2 hh] at hab; cases hab
              · simpa using hi
            · cases h

/-! ### Waiting -/

theorem starts_bounds {n : Nat} {evs : List Ev} {id : Nat} (h : id ∈ starts n evs) : n ≤ id ∧ id < n + evs.length := by
  induction evs generalizing n with
  | nil => simp [starts] at h
  | cons e es ih =>
    have hcons : id ∈ n :: starts (n + 1) es := by
      rcases e with ⟨act, ok⟩
      cases act <;> cases ok <;> first | exact h | exact List.mem_cons_of_mem _ h
    rcases List.mem_cons.1 hcons with rfl | h
    · simp
    · have := ih h
      simp only [List.length_cons]
      omega

theorem starts_nodup (n : Nat) (evs : List Ev) : (starts n evs).Nodup := by
  induction evs generalizing n with
  | nil => exact .nil
  | cons e es ih =>
    have hcons : (n :: starts (n + 1) es).Nodup := List.nodup_cons.2 ⟨fun h => by have := (starts_bounds h).1; omega, ih _⟩
    rcases e with ⟨act, ok⟩
    cases act <;> cases ok <;> first | exact hcons | exact (List.nodup_cons.1 hcons).2

theorem waitsOwn_append {n : Nat} {a b : List Ev} (ha : WaitsOwn n a) (hb : WaitsOwn (n + a.length) b) : WaitsOwn n (a ++ b) := by
  refine ⟨?_, fun id hid => ?_⟩
  · rw [waits_append, List.map_append, List.nodup_append]
    refine ⟨ha.1, hb.1, fun x hx y hy hxy => ?_⟩
    have h1 := starts_bounds (ha.2 x hx)
    have h2 := starts_bounds (hb.2 y hy)
    omega
  · rw [waits_append, List.map_append] at hid
    rw [starts_append]
    rcases List.mem_append.1 hid with h | h
    · exact List.mem_append_left _ (ha.2 _ h)
    · exact List.mem_append_right _ (hb.2 _ h)

theorem waitsOwn_none {n : Nat} {a : List Ev} (h : waits a = []) : WaitsOwn n a := by
  unfold WaitsOwn
  rw [h]
  exact ⟨.nil, nofun⟩

theorem executed_own {os : Os} {out err : Chan} {c : ExCommand} {t evs : List Ev} {es : List Ended} (h : Executed os out err c t evs es) :
    WaitsOwn t.length evs ∧ orphans t.length evs = [] := by
  obtain ⟨_, _, h3, _⟩ := h
  refine ⟨⟨?_, fun id hid => ?_⟩, ?_⟩
  · rw [h3]; exact List.pairwise_reverse.2 ((starts_nodup _ _).imp fun h => h.symm)
  · rw [h3] at hid; exact List.mem_reverse.1 hid
  · unfold orphans
    rw [List.filter_eq_nil_iff]
    intro id hid
    rw [h3]
    simp [hid]

theorem orphans_append {n : Nat} {a b : List Ev} (ha : WaitsOwn n a) (hb : WaitsOwn (n + a.length) b) :
    orphans n (a ++ b) = orphans n a ++ orphans (n + a.length) b := by
  unfold orphans
  rw [starts_append, List.filter_append, waits_append, List.map_append]
  congr 1
  · refine List.filter_congr fun id hid => ?_
    have h1 := starts_bounds hid
    have : id ∉ (waits b).map Prod.fst := fun h => by have := (starts_bounds (hb.2 _ h)).1; omega
    simp only [List.mem_append, this, or_false]
  · refine List.filter_congr fun id hid => ?_
    have h1 := starts_bounds hid
    have : id ∉ (waits a).map Prod.fst := fun h => by have := (starts_bounds (ha.2 _ h)).2; omega
    simp only [List.mem_append, this, false_or]

theorem inSequence_own {os : Os} {out err : Chan} {cs : List ExCommand} {t evs : List Ev} {ss : List (List ErrorStatus)}
    (h : InSequence os out err cs t evs ss) : WaitsOwn t.length evs ∧ orphans t.length evs = [] := by
  induction h with
  | done => exact ⟨waitsOwn_none rfl, rfl⟩
  | @next c t evs es ss cs evs' sss hex _ _ _ ih =>
    have h1 := executed_own hex
    rw [List.length_append] at ih
    exact ⟨waitsOwn_append h1.1 ih.1, by rw [orphans_append h1.1 ih.1, h1.2, ih.2]; rfl⟩
  | stop hex _ _ => exact executed_own hex

/-- The processes left behind by commands that stop are those of the command that stopped. -/
theorem interrupted_own {os : Os} {out err : Chan} {cs : List ExCommand} {t evs : List Ev} {e : XStop}
    (h : Interrupted os out err cs t evs e) : WaitsOwn t.length evs ∧ ∃ c ∈ cs, ∃ evs1 evs2, evs = evs1 ++ evs2 ∧ orphans t.length evs1 = [] ∧
      waits evs2 = [] ∧ orphans t.length evs = starts (t ++ evs1).length evs2 ∧
      (orphans t.length evs = [] ∨ (orphans t.length evs).length < (processes c).length) := by
  induction h with
  | @here c t evs e cs hs =>
    obtain ⟨hw, _, hl, _⟩ := hs
    have ho : orphans t.length evs = starts t.length evs := by
      unfold orphans
      rw [hw]
      exact List.filter_eq_self.2 (by simp)
    exact ⟨waitsOwn_none hw, c, by simp, [], evs, rfl, rfl, hw, by rw [List.append_nil]; exact ho, by rw [ho]; exact hl⟩
  | @later c t evs es cs evs' e hex _ _ _ ih =>
    have h1 := executed_own hex
    rw [List.length_append] at ih
    obtain ⟨h2, c', hc, e1, e2, rfl, h3, h4, h5, h6⟩ := ih
    have hw1 : WaitsOwn (t.length + evs.length) e1 := by
      refine ⟨?_, fun id hid => ?_⟩
      · have := h2.1; rwa [waits_append, h4, List.append_nil] at this
      · have := h2.2 id (by rw [waits_append, h4, List.append_nil]; exact hid)
        rw [starts_append] at this
        rcases List.mem_append.1 this with h | h
        · exact h
        · exfalso
          -- not among the orphans
          have : id ∈ orphans (t.length + evs.length) (e1 ++ e2) := by rw [h5]; simpa [Nat.add_assoc] using h
          unfold orphans at this
          rw [List.mem_filter] at this
          have h7 := this.2
          rw [waits_append, h4, List.append_nil] at h7
          simp only [decide_eq_true_eq] at h7
          exact h7 hid
    refine ⟨waitsOwn_append h1.1 h2, c', List.mem_cons_of_mem _ hc, evs ++ e1, e2, by simp, ?_, h4, ?_, ?_⟩
    · rw [orphans_append h1.1 hw1, h1.2, h3]; rfl
    · rw [orphans_append h1.1 h2, h1.2, h5, ← List.append_assoc]; rfl
    · rw [orphans_append h1.1 h2, h1.2]; exact h6

/-- All processes of a command are started before one of them is waited for. -/
theorem execCommand_phases {os : Os} {out err : Chan} {c : ExCommand} {r : CommandExec} {t t' : List Ev} (h : execCommand os out err c t = (.ok r, t')) :
    ∃ evs1 evs2, t' = t ++ evs1 ++ evs2 ∧ waits evs1 = [] ∧ ∀ n, starts n evs2 = [] := by
  cases c with
  | builtin b args abort pos =>
    obtain ⟨e, t1, h1, h2⟩ := X.bind_ok.1 h
    obtain ⟨-, rfl⟩ := X.pure_ok.1 h2
    rcases builtin_ok h1 with ⟨_, _, ⟨evs, rfl, hw, hs⟩, _⟩ | ⟨_, evs, l, id, e, rfl, _, hw, hs, _⟩
    · exact ⟨evs, [], by simp, hw, fun _ => rfl⟩
    · exact ⟨evs ++ [did (.spawn l)], [did (.wait id e)], by simp, by rw [waits_append, hw]; rfl, fun _ => rfl⟩
  | external head tail =>
    obtain ⟨x, t1, h1, h⟩ := X.bind_ok.1 h
    obtain ⟨_, t2, h2, h⟩ := X.bind_ok.1 h
    obtain ⟨ch, t3, h3, h⟩ := X.bind_ok.1 h
    obtain ⟨evs1, rfl, hw, _⟩ := Steps.stages (os := os) (out := out) (err := err) (head := head) (tail := tail) t (.ok ch) t3
      (X.bind_ok.2 ⟨_, _, h1, X.bind_ok.2 ⟨_, _, h2, h3⟩⟩)
    obtain ⟨evs2, es, rfl, _, _, hs, _⟩ := waitAll_ok h
    exact ⟨evs1, evs2, rfl, hw, hs⟩

/-- What a block does, whatever happens. -/
theorem execBlock_outcome {os : Os} {out err : Chan} {b : ExBlock} {r : Except XStop (List (List ErrorStatus))} {t t' : List Ev}
    (h : execBlock os out err b t = (r, t')) : ∃ evs, t' = t ++ evs ∧
      ((∃ ss, r = .ok ss ∧ InSequence os out err (b.head :: b.tail) t evs ss ∧ ∀ e ∈ evs, e.ok = true) ∨
       (∃ msg pos, r = .ok [[⟨msg, 127, pos⟩]] ∧ Interrupted os out err (b.head :: b.tail) t evs (.io msg pos)) ∨
       (∃ e, r = .error e ∧ (∀ msg pos, e ≠ .io msg pos) ∧ Interrupted os out err (b.head :: b.tail) t evs e)) := by
  unfold execBlock at h
  rcases hx : execCommands os out err (b.head :: b.tail) t with ⟨e | ss, t1⟩ <;> rw [hx] at h
  · obtain ⟨evs, rfl, hi⟩ := execCommands_stopped hx
    cases e with
    | io msg pos => cases h; exact ⟨evs, rfl, .inr (.inl ⟨msg, pos, rfl, hi⟩)⟩
    | panic p => cases h; exact ⟨evs, rfl, .inr (.inr ⟨_, rfl, nofun, hi⟩)⟩
    | hang => cases h; exact ⟨evs, rfl, .inr (.inr ⟨_, rfl, (fun _ _ h => by cases h), hi⟩)⟩
    | replaced => cases h; exact ⟨evs, rfl, .inr (.inr ⟨_, rfl, (fun _ _ h => by cases h), hi⟩)⟩
    | todo => cases h; exact ⟨evs, rfl, .inr (.inr ⟨_, rfl, (fun _ _ h => by cases h), hi⟩)⟩
  · cases h
    obtain ⟨evs, rfl, hi⟩ := execCommands_ok hx
    obtain ⟨evs', he, ho⟩ := Clean.commands _ _ _ hx
    obtain rfl := List.append_cancel_left he
    exact ⟨evs, rfl, .inl ⟨ss, rfl, hi, ho⟩⟩

/-- If a call failed, its event is the last. -/
theorem interrupted_failed {os : Os} {out err : Chan} {cs : List ExCommand} {t evs : List Ev} {msg : Bytes} {pos : Pos}
    (h : Interrupted os out err cs t evs (.io msg pos)) : ∃ x : List Ev × Act, evs = x.1 ++ [⟨x.2, false⟩] := by
  generalize he : XStop.io msg pos = e at h
  induction h with
  | here hs =>
    subst he
    obtain ⟨init, a, h1, _⟩ := (hs.2.2.2 _ _ rfl).2
    exact ⟨(init, a), h1⟩
  | @later c t evs es cs evs' e _ _ _ _ ih =>
    obtain ⟨x, rfl⟩ := ih he
    exact ⟨(evs ++ x.1, x.2), by simp⟩

end Exec
end Hush

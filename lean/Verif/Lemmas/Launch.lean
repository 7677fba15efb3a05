import Verif.Lemmas.Reaping
import Verif.Lemmas.Expansion
import Verif.Spec.Launch

namespace Hush
namespace Exec
open Spec.Exec

/-- From the calls `t`, all programs started by a computation, whatever its result is, satisfy `P` with the calls before. -/
def MakesAt (P : List Ev → Act → Prop) (m : X α) (t : List Ev) : Prop :=
  ∀ r t', m t = (r, t') → t <+: t' ∧ ∀ n a, t.length ≤ n → t'[n]? = some (did a) → StartsProgram a → P (t'.take n) a

theorem MakesAt.bind {P : List Ev → Act → Prop} {m : X α} {f : α → X β} {t : List Ev} (hm : MakesAt P m t)
    (hf : ∀ a t1, m t = (.ok a, t1) → MakesAt P (f a) t1) : MakesAt P (m >>= f) t := fun r t' h => by
  change X.bind m f t = _ at h
  unfold X.bind at h
  rcases hx : m t with ⟨_ | a, t1⟩
  · rw [hx] at h
    cases h
    exact hm _ _ hx
  · rw [hx] at h
    obtain ⟨h1, h1'⟩ := hm _ _ hx
    obtain ⟨⟨e, rfl⟩, h2'⟩ := hf a t1 hx _ _ h
    refine ⟨h1.trans (List.prefix_append _ _), fun n b hn hb hr => ?_⟩
    by_cases hlt : n < t1.length
    · rw [List.getElem?_append_left hlt] at hb
      rw [List.take_append_of_le_length (by omega)]
      exact h1' n b hn hb hr
    · exact h2' n b (by omega) hb hr

/-- A computation that starts no program. -/
def Quiet (m : X α) : Prop := ∀ t, MakesAt (fun _ _ => False) m t

theorem Quiet.at {P : List Ev → Act → Prop} {m : X α} (h : Quiet m) (t : List Ev) : MakesAt P m t := fun r t' hm =>
  ⟨(h t r t' hm).1, fun n a hn ha hr => ((h t r t' hm).2 n a hn ha hr).elim⟩

theorem Quiet.bind {m : X α} {f : α → X β} (hm : Quiet m) (hf : ∀ a, Quiet (f a)) : Quiet (m >>= f) :=
  fun t => .bind (hm t) fun a t1 _ => hf a t1

theorem quiet_nil {t : List Ev} {P : List Ev → Act → Prop} :
    t <+: t ∧ ∀ n a, t.length ≤ n → t[n]? = some (did a) → StartsProgram a → P (t.take n) a :=
  ⟨List.prefix_refl _, fun n a hn ha => by rw [List.getElem?_eq_none hn] at ha; cases ha⟩

theorem quiet_one {t : List Ev} {e : Ev} {P : List Ev → Act → Prop} (h : ∀ a, e = did a → StartsProgram a → P t a) :
    t <+: t ++ [e] ∧ ∀ n a, t.length ≤ n → (t ++ [e])[n]? = some (did a) → StartsProgram a → P ((t ++ [e]).take n) a := by
  refine ⟨List.prefix_append _ _, fun n a hn ha hr => ?_⟩
  have : n = t.length := by
    have := (List.getElem?_eq_some_iff.1 ha).1
    simp at this
    omega
  subst this
  rw [List.getElem?_append_right (Nat.le_refl _)] at ha
  rw [List.take_left]
  simp at ha
  exact h a ha hr

theorem Quiet.pure {a : α} : Quiet (Pure.pure a : X α) := fun t r t' h => by
  cases h
  exact quiet_nil (P := fun _ _ => False)

theorem Quiet.stop {e : XStop} : Quiet (X.stop e : X α) := fun t r t' h => by
  cases h
  exact quiet_nil (P := fun _ _ => False)

theorem MakesAt.call {P : List Ev → Act → Prop} {os : Os} {a : Act} {pos : Pos} {t : List Ev} (h : StartsProgram a → P t a) :
    MakesAt P (call os a pos) t := fun r t' hc => by
  unfold Hush.Exec.call at hc
  cases hf : os.fails t a <;> rw [hf] at hc <;> cases hc
  · exact quiet_one fun b hb hr => by cases hb; exact h hr
  · exact quiet_one fun b hb _ => by cases hb

theorem Quiet.call {os : Os} {a : Act} {pos : Pos} (h : ¬ StartsProgram a) : Quiet (call os a pos) := fun _ => .call h

theorem Quiet.resolve {os : Os} {a : ExArg} {pos : Pos} : Quiet (resolve os a pos) := fun t r t' h => by
  unfold Hush.Exec.resolve at h
  cases a with
  | literal s => cases h; exact quiet_nil (P := fun _ _ => False)
  | pattern p =>
    simp only at h
    split at h
    · cases h; exact quiet_nil (P := fun _ _ => False)
    · split at h <;> cases h <;> refine quiet_one (P := fun _ _ => False) fun a ha hr => ?_ <;> first | (cases ha; exact hr.elim) | cases ha

theorem Quiet.resolveOne {os : Os} {o : Bytes} {a : ExArg} {pos : Pos} : Quiet (resolveOne os o a pos) :=
  .bind .resolve fun l => by
    match l with
    | [] => exact .stop
    | [_] => exact .pure
    | _ :: _ :: _ => exact .stop

theorem Quiet.resolveAll {os : Os} {pos : Pos} : ∀ {as : List ExArg}, Quiet (resolveAll os pos as)
  | [] => .pure
  | _ :: _ => .bind .resolve fun _ => .bind Quiet.resolveAll fun _ => .pure

theorem Quiet.resolveEnv {os : Os} {pos : Pos} : ∀ {es : List (Bytes × ExArg)}, Quiet (resolveEnv os pos es)
  | [] => .pure
  | (_, _) :: _ => .bind .resolveOne fun _ => .bind Quiet.resolveEnv fun _ => .pure

theorem Quiet.openFile {os : Os} {a : ExArg} {append : Bool} {pos : Pos} : Quiet (openFile os a append pos) :=
  .bind .resolveOne fun _ => .bind (.call id) fun _ => .pure

theorem Quiet.ite {c : Prop} [Decidable c] {a b : X α} (ha : Quiet a) (hb : Quiet b) : Quiet (if c then a else b) := by
  split
  · exact ha
  · exact hb

theorem Quiet.resolveTarget {os : Os} {t : ExTarget} {s : Stdio} {pos : Pos} : Quiet (resolveTarget os t s pos) := by
  cases t with
  | overwrite a => exact .openFile
  | append a => exact .openFile
  | fd n => exact .ite (.bind (.call id) fun _ => .pure) (.ite (.bind (.call id) fun _ => .pure) .stop)

theorem Quiet.writePipe {os : Os} {i held : Nat} {data : Bytes} {pos : Pos} : Quiet (writePipe os i held data pos) :=
  .ite (.bind (.call id) fun _ => .pure) .stop

theorem Quiet.resolveInput {os : Os} {literal : Bool} {a : ExArg} {pos : Pos} : Quiet (resolveInput os literal a pos) :=
  .bind .resolveOne fun _ => .ite
    (.bind (.call id) fun _ => .bind .writePipe fun _ => .bind .writePipe fun _ => .pure)
    (.bind (.call id) fun _ => .pure)

theorem Quiet.redirect {os : Os} {r : ExRedirection} {s : Stdio} {pos : Pos} : Quiet (redirect os r s pos) := by
  cases r with
  | output source target => exact .bind .resolveTarget fun _ => .ite .pure (.ite .pure .stop)
  | input literal a => exact .bind .resolveInput fun _ => .pure

theorem Quiet.redirectAll {os : Os} {pos : Pos} : ∀ {rs : List ExRedirection} {s : Stdio}, Quiet (redirectAll os pos rs s)
  | [], _ => .pure
  | _ :: _, _ => .bind .redirect fun _ => Quiet.redirectAll

theorem Quiet.waitChild {os : Os} {c : Child} : Quiet (waitChild os c) := fun t r t' h => by
  cases h
  refine quiet_one (P := fun _ _ => False) fun a ha hr => ?_
  cases ha
  exact hr.elim

theorem Quiet.waitAll {os : Os} : ∀ {cs : List (Child × Bool)}, Quiet (waitAll os cs)
  | [] => .pure
  | (_, _) :: _ => .bind .waitChild fun e => .bind Quiet.waitAll fun _ => by cases e <;> exact .pure

/-- A part of a pipeline is started as written. -/
def PartOf (os : Os) (cs : List ExBasic) (t : List Ev) (a : Act) : Prop :=
  ∃ c ∈ cs, ∃ T tb l, a = .spawn l ∧ Starts os c T tb t.length l (t ++ [did (.spawn l)])

theorem makes_execBasic {os : Os} {c : ExBasic} {s : Stdio} {cs : List ExBasic} (hc : c ∈ cs) (t : List Ev) :
    MakesAt (PartOf os cs) (execBasic os c s) t := by
  refine .bind (Quiet.resolveOne.at t) fun program tp h1 => .bind (Quiet.resolveEnv.at _) fun env te h2 =>
    .bind (Quiet.resolveAll.at _) fun args t1 h3 => .bind (Quiet.redirectAll.at _) fun s' t2 h4 => .bind (.call fun _ => ?_)
      fun _ t3 _ => Quiet.pure.at t3
  obtain ⟨T', h5, h6⟩ := redirectAll_ok h4
  refine ⟨c, hc, given s, t, _, rfl, tp, te, t1, T', t2, resolveOne_ok h1, rfl, resolveEnv_assigns h2, resolveAll_words h3, h5,
    rfl, rfl, fun n hn => ?_⟩
  rw [← h6 n hn]
  rfl

theorem makes_startTail {os : Os} {out err : Chan} {all : List ExBasic} :
    ∀ {cs : List ExBasic}, (∀ c ∈ cs, c ∈ all) → ∀ t, MakesAt (PartOf os all) (startTail os out err cs) t
  | [], _, t => Quiet.pure.at t
  | c :: cs, h, t =>
    .bind (makes_startTail (fun d hd => h d (by simp [hd])) t) fun _ _ _ => .bind ((Quiet.call id).at _) fun _ _ _ =>
      .bind (makes_execBasic (h c (by simp)) _) fun _ _ _ => .bind ((Quiet.call id).at _) fun _ _ _ => Quiet.pure.at _

/-- All programs started by a command are started as written in it. -/
theorem makes_command {os : Os} {out err : Chan} (c : ExCommand) (t : List Ev) :
    MakesAt (AsWritten os c) (execCommand os out err c) t := by
  cases c with
  | external head tail =>
    have key : MakesAt (PartOf os (head :: tail)) (execCommand os out err (.external head tail)) t :=
      .bind (makes_startTail (fun d hd => by simp [hd]) t) fun _ _ _ => .bind ((Quiet.call id).at _) fun _ _ _ =>
        .bind (makes_execBasic (by simp) _) fun _ _ _ => Quiet.waitAll.at _
    intro r t' h
    refine ⟨(key r t' h).1, fun n a hn ha hr => ?_⟩
    obtain ⟨c, hc, T, tb, l, rfl, hs⟩ := (key r t' h).2 n a hn ha hr
    exact .part hc hs
  | builtin b args abort pos =>
    refine .bind (.bind (Quiet.resolveAll.at t) fun ws t1 h1 => ?_) fun _ _ _ => Quiet.pure.at _
    have hw := resolveAll_words h1
    cases b with
    | «alias» => exact Quiet.stop.at _
    | cd =>
      match ws with
      | [] => exact Quiet.stop.at _
      | [_] => exact .bind ((Quiet.call id).at _) fun _ _ _ => Quiet.pure.at _
      | _ :: _ :: _ => exact Quiet.stop.at _
    | exec =>
      match ws, hw with
      | [], _ => exact Quiet.stop.at _
      | _ :: _, hw => exact .bind (.call fun _ => .exec hw) fun _ _ _ => Quiet.stop.at _
    | exec0 =>
      match ws, hw with
      | [], _ => exact Quiet.stop.at _
      | [_], _ => exact Quiet.stop.at _
      | _ :: _ :: _, hw => exact .bind (.call fun _ => .exec0 hw) fun _ _ _ => Quiet.stop.at _
    | spawn0 =>
      match ws, hw with
      | [], _ => exact Quiet.stop.at _
      | [_], _ => exact Quiet.stop.at _
      | _ :: _ :: _, hw => exact .bind (.call fun _ => .spawn0 hw) fun _ _ _ => Quiet.waitChild.at _

/-- A command other than `cd`. -/
def NotCd (c : ExCommand) : Prop := ∀ args abort pos, c ≠ .builtin .cd args abort pos

theorem Still.command {os : Os} {out err : Chan} {c : ExCommand} (h : NotCd c) : Still (execCommand os out err c) := by
  cases c with
  | external head tail => exact .external
  | builtin b args abort pos => exact .bind (.builtin fun hb => h args abort pos (by rw [hb])) fun _ => .pure

/-- The first of some commands: a program is started as written, in the directory of before. -/
theorem makes_still {os : Os} {out err : Chan} (c : ExCommand) (t : List Ev) :
    MakesAt (fun u a => AsWritten os c u a ∧ moves u = moves t) (execCommand os out err c) t := by
  intro r t' h
  obtain ⟨hp, hm⟩ := makes_command c t r t' h
  refine ⟨hp, fun n a hn ha hr => ⟨hm n a hn ha hr, ?_⟩⟩
  have hc : NotCd c := by
    rintro args abort pos rfl
    cases hm n a hn ha hr
  obtain ⟨evs, rfl, he⟩ := Still.command hc _ _ _ h
  rw [List.take_append, List.take_of_length_le hn, moves_append]
  have : moves evs = moves (evs.take (n - t.length)) ++ moves (evs.drop (n - t.length)) := by
    rw [← moves_append, List.take_append_drop]
  rw [he] at this
  rw [(List.append_eq_nil_iff.1 this.symm).1, List.append_nil]

/-- A program started by some commands: by one of them, as written, in the directory left by the `cd` commands before it. -/
def Located (os : Os) (cs : List ExCommand) (t u : List Ev) (a : Act) : Prop :=
  ∃ before c after dirs, cs = before ++ c :: after ∧ AsWritten os c u a ∧ Dirs os before dirs ∧ moves u = moves t ++ dirs

/-- A finished command leaves the directory as it was, or is a `cd`. -/
theorem command_moves {os : Os} {out err : Chan} {c : ExCommand} {r : CommandExec} {t t' : List Ev}
    (h : execCommand os out err c t = (.ok r, t')) : ∃ ds, Dirs os [c] ds ∧ moves t' = moves t ++ ds := by
  obtain ⟨evs, es, rfl, hex, _, _⟩ := execCommand_ok h
  cases c with
  | external head tail =>
    exact ⟨[], .other nofun .nil, by rw [moves_append, (hex.2.2.2.1 head tail rfl).2]⟩
  | builtin b args abort pos =>
    obtain ⟨tb, ws, ta, _, _, hw, ⟨rfl, dir, rfl, _, hm⟩ | ⟨rfl, _, _, _, _, _, hm, _⟩⟩ := hex.2.2.2.2 b args abort pos rfl
    · exact ⟨[dir], .cd hw .nil, by rw [moves_append, hm]⟩
    · exact ⟨[], .other nofun .nil, by rw [moves_append, hm]⟩

theorem dirs_append {os : Os} {cs cs' : List ExCommand} {ds ds' : List Bytes} (h : Dirs os cs ds) (h' : Dirs os cs' ds') :
    Dirs os (cs ++ cs') (ds ++ ds') := by
  induction h with
  | nil => exact h'
  | cd hw _ ih => exact .cd hw ih
  | other hn _ ih => exact .other hn ih

theorem obtain_not_runs (c : Chan) : ¬ StartsProgram (obtain c) := by cases c <;> exact id

theorem obtain_moves {os : Os} {c : Chan} {pos : Pos} {id : Nat} {t t' : List Ev} (h : call os (obtain c) pos t = (.ok id, t')) :
    moves t' = moves t := by
  obtain ⟨evs, rfl, he⟩ := Still.call (os := os) (a := obtain c) (pos := pos) (by cases c <;> exact nofun) _ _ _ h
  rw [moves_append, he, List.append_nil]

theorem makes_commands {os : Os} {out err : Chan} :
    ∀ (cs : List ExCommand) (t : List Ev), MakesAt (Located os cs t) (execCommands os out err cs) t
  | [], t => Quiet.pure.at t
  | c :: cs, t => by
    refine .bind ((Quiet.call (obtain_not_runs out)).at t) fun _ t1 h1 => .bind ((Quiet.call (obtain_not_runs err)).at _) fun _ t2 h2 => ?_
    have hm : moves t2 = moves t := (obtain_moves h2).trans (obtain_moves h1)
    refine .bind (fun r t' h => ?_) fun r t3 h3 => ?_
    · refine ⟨(makes_still c t2 r t' h).1, fun n a hn ha hr => ?_⟩
      obtain ⟨hw, hv⟩ := (makes_still c t2 r t' h).2 n a hn ha hr
      exact ⟨[], c, cs, [], rfl, hw, .nil, by rw [hv, hm, List.append_nil]⟩
    · simp only
      split
      · exact Quiet.pure.at _
      · refine .bind (fun r' t' h => ?_) fun _ _ _ => Quiet.pure.at _
        obtain ⟨ds, hd, hv⟩ := command_moves h3
        refine ⟨(makes_commands cs t3 r' t' h).1, fun n a hn ha hr => ?_⟩
        obtain ⟨before, d, after, dirs, rfl, hw, hds, hu⟩ := (makes_commands cs t3 r' t' h).2 n a hn ha hr
        exact ⟨c :: before, d, after, ds ++ dirs, rfl, hw, dirs_append hd hds, by rw [hu, hv, hm, List.append_assoc]⟩

theorem makes_block {os : Os} {out err : Chan} (b : ExBlock) (t : List Ev) :
    MakesAt (Located os (b.head :: b.tail) t) (execBlock os out err b) t := fun r t' h => by
  unfold execBlock at h
  have := makes_commands (os := os) (out := out) (err := err) (b.head :: b.tail) t
  split at h
  · rename_i h1
    cases h
    exact this _ _ h1
  · exact this _ _ h

theorem Quiet.receive {os : Os} {c : Chan} {pos : Pos} : Quiet (receive os c pos) := fun t r t' h => by
  unfold Hush.Exec.receive at h
  split at h <;> cases h <;> exact quiet_nil (P := fun _ _ => False)

theorem makes_run {os : Os} {pos : Pos} (b : ExBlock) (kind : Ast.BlockKind) (t : List Ev) :
    MakesAt (Located os (b.head :: b.tail) t) (runBlock os pos b kind) t := by
  cases kind with
  | capture =>
    refine .bind ((Quiet.call id).at t) fun _ t1 h1 => .bind ((Quiet.call id).at _) fun _ t2 h2 => .bind (fun r t' h => ?_) fun _ _ _ =>
      .bind (Quiet.receive.at _) fun _ _ _ => .bind (Quiet.receive.at _) fun _ _ _ => Quiet.pure.at _
    refine ⟨(makes_block b t2 r t' h).1, fun n a hn ha hr => ?_⟩
    obtain ⟨before, c, after, dirs, hb, hw, hd, hu⟩ := (makes_block b t2 r t' h).2 n a hn ha hr
    refine ⟨before, c, after, dirs, hb, hw, hd, ?_⟩
    rw [hu, (call_ok.1 h2).2.2, (call_ok.1 h1).2.2, moves_append, moves_append]
    simp [moves, did]
  | synchronous => exact .bind (makes_block b t) fun _ _ _ => Quiet.pure.at _
  | asynchronous => exact .bind (makes_block b t) fun _ _ _ => Quiet.pure.at _

/-- A call that fails, other than the expansion of a pattern, is the last one, and its error is the result. -/
def LastIo (os : Os) (m : X α) : Prop := ∀ t r t', m t = (r, t') → t <+: t' ∧
  ∀ n a, t.length ≤ n → t'[n]? = some ⟨a, false⟩ → (∀ p, a ≠ .glob p) →
    n + 1 = t'.length ∧ ∃ msg pos, r = .error (.io msg pos) ∧ os.fails (t'.take n) a = some msg

theorem LastIo.bind {os : Os} {m : X α} {f : α → X β} (hm : LastIo os m) (hf : ∀ a, LastIo os (f a)) : LastIo os (m >>= f) := fun t r t' h => by
  change X.bind m f t = _ at h
  unfold X.bind at h
  rcases hx : m t with ⟨_ | a, t1⟩
  · rw [hx] at h
    cases h
    refine ⟨(hm _ _ _ hx).1, fun n a hn ha hg => ?_⟩
    obtain ⟨h1, msg, pos, h2, h3⟩ := (hm _ _ _ hx).2 n a hn ha hg
    cases h2
    exact ⟨h1, msg, pos, rfl, h3⟩
  · rw [hx] at h
    obtain ⟨h1, h1'⟩ := hm _ _ _ hx
    obtain ⟨⟨e, rfl⟩, h2'⟩ := hf a _ _ _ h
    refine ⟨h1.trans (List.prefix_append _ _), fun n b hn hb hg => ?_⟩
    by_cases hlt : n < t1.length
    · rw [List.getElem?_append_left hlt] at hb
      obtain ⟨_, _, _, h, _⟩ := h1' n b hn hb hg
      cases h
    · exact h2' n b (by omega) hb hg

theorem lastIo_nil {os : Os} {t : List Ev} {r : Except XStop α} : t <+: t ∧
    ∀ n a, t.length ≤ n → t[n]? = some ⟨a, false⟩ → (∀ p, a ≠ .glob p) →
      n + 1 = t.length ∧ ∃ msg pos, r = .error (.io msg pos) ∧ os.fails (t.take n) a = some msg :=
  ⟨List.prefix_refl _, fun n a hn ha => by rw [List.getElem?_eq_none hn] at ha; cases ha⟩

theorem lastIo_one {os : Os} {t : List Ev} {e : Ev} {r : Except XStop α}
    (h : ∀ a, e = ⟨a, false⟩ → (∀ p, a ≠ .glob p) → ∃ msg pos, r = .error (.io msg pos) ∧ os.fails t a = some msg) :
    t <+: t ++ [e] ∧ ∀ n a, t.length ≤ n → (t ++ [e])[n]? = some ⟨a, false⟩ → (∀ p, a ≠ .glob p) →
      n + 1 = (t ++ [e]).length ∧ ∃ msg pos, r = .error (.io msg pos) ∧ os.fails ((t ++ [e]).take n) a = some msg := by
  refine ⟨List.prefix_append _ _, fun n a hn ha hr => ?_⟩
  have : n = t.length := by
    have := (List.getElem?_eq_some_iff.1 ha).1
    simp at this
    omega
  subst this
  rw [List.getElem?_append_right (Nat.le_refl _)] at ha
  rw [List.take_left]
  simp at ha
  exact ⟨by simp, h a ha hr⟩

theorem LastIo.pure {os : Os} {a : α} : LastIo os (Pure.pure a : X α) := fun t r t' h => by
  cases h
  exact lastIo_nil

theorem LastIo.stop {os : Os} {e : XStop} : LastIo os (X.stop e : X α) := fun t r t' h => by
  cases h
  exact lastIo_nil

theorem LastIo.call {os : Os} {a : Act} {pos : Pos} : LastIo os (call os a pos) := fun t r t' hc => by
  unfold Hush.Exec.call at hc
  cases hf : os.fails t a <;> rw [hf] at hc <;> cases hc
  · exact lastIo_one fun b hb _ => by cases hb
  · exact lastIo_one fun b hb _ => by cases hb; exact ⟨_, _, rfl, hf⟩

theorem LastIo.resolve {os : Os} {a : ExArg} {pos : Pos} : LastIo os (resolve os a pos) := fun t r t' h => by
  unfold Hush.Exec.resolve at h
  cases a with
  | literal s => cases h; exact lastIo_nil
  | pattern p =>
    simp only at h
    split at h
    · cases h; exact lastIo_nil
    · split at h
      · cases h
        refine lastIo_one fun a ha hg => ?_
        cases ha
        exact absurd rfl (hg _)
      · cases h
        exact lastIo_one fun a ha _ => by cases ha

theorem LastIo.resolveOne {os : Os} {o : Bytes} {a : ExArg} {pos : Pos} : LastIo os (resolveOne os o a pos) :=
  .bind .resolve fun l => by
    match l with
    | [] => exact .stop
    | [_] => exact .pure
    | _ :: _ :: _ => exact .stop

theorem LastIo.resolveAll {os : Os} {pos : Pos} : ∀ {as : List ExArg}, LastIo os (resolveAll os pos as)
  | [] => .pure
  | _ :: _ => .bind .resolve fun _ => .bind LastIo.resolveAll fun _ => .pure

theorem LastIo.resolveEnv {os : Os} {pos : Pos} : ∀ {es : List (Bytes × ExArg)}, LastIo os (resolveEnv os pos es)
  | [] => .pure
  | (_, _) :: _ => .bind .resolveOne fun _ => .bind LastIo.resolveEnv fun _ => .pure

theorem LastIo.ite {os : Os} {c : Prop} [Decidable c] {a b : X α} (ha : LastIo os a) (hb : LastIo os b) : LastIo os (if c then a else b) := by
  split
  · exact ha
  · exact hb

theorem LastIo.openFile {os : Os} {a : ExArg} {append : Bool} {pos : Pos} : LastIo os (openFile os a append pos) :=
  .bind .resolveOne fun _ => .bind .call fun _ => .pure

theorem LastIo.resolveTarget {os : Os} {t : ExTarget} {s : Stdio} {pos : Pos} : LastIo os (resolveTarget os t s pos) := by
  cases t with
  | overwrite a => exact .openFile
  | append a => exact .openFile
  | fd n => exact .ite (.bind .call fun _ => .pure) (.ite (.bind .call fun _ => .pure) .stop)

theorem LastIo.writePipe {os : Os} {i held : Nat} {data : Bytes} {pos : Pos} : LastIo os (writePipe os i held data pos) :=
  .ite (.bind .call fun _ => .pure) .stop

theorem LastIo.resolveInput {os : Os} {literal : Bool} {a : ExArg} {pos : Pos} : LastIo os (resolveInput os literal a pos) :=
  .bind .resolveOne fun _ => .ite
    (.bind .call fun _ => .bind .writePipe fun _ => .bind .writePipe fun _ => .pure)
    (.bind .call fun _ => .pure)

theorem LastIo.redirect {os : Os} {r : ExRedirection} {s : Stdio} {pos : Pos} : LastIo os (redirect os r s pos) := by
  cases r with
  | output source target => exact .bind .resolveTarget fun _ => .ite .pure (.ite .pure .stop)
  | input literal a => exact .bind .resolveInput fun _ => .pure

theorem LastIo.redirectAll {os : Os} {pos : Pos} : ∀ {rs : List ExRedirection} {s : Stdio}, LastIo os (redirectAll os pos rs s)
  | [], _ => .pure
  | _ :: _, _ => .bind .redirect fun _ => LastIo.redirectAll

theorem LastIo.execBasic {os : Os} {c : ExBasic} {s : Stdio} : LastIo os (execBasic os c s) :=
  .bind .resolveOne fun _ => .bind .resolveEnv fun _ => .bind .resolveAll fun _ => .bind .redirectAll fun _ =>
    .bind .call fun _ => .pure

theorem LastIo.waitChild {os : Os} {c : Child} : LastIo os (waitChild os c) := fun t r t' h => by
  cases h
  exact lastIo_one fun a ha _ => by cases ha

theorem LastIo.startTail {os : Os} {out err : Chan} : ∀ {cs : List ExBasic}, LastIo os (startTail os out err cs)
  | [] => .pure
  | _ :: _ => .bind LastIo.startTail fun _ => .bind .call fun _ => .bind .execBasic fun _ => .bind .call fun _ => .pure

theorem LastIo.waitAll {os : Os} : ∀ {cs : List (Child × Bool)}, LastIo os (waitAll os cs)
  | [] => .pure
  | (_, _) :: _ => .bind .waitChild fun e => .bind LastIo.waitAll fun _ => by cases e <;> exact .pure

theorem LastIo.builtin {os : Os} {b : Prog.Builtin} {args : List ExArg} {pos : Pos} :
    LastIo os (execBuiltin os b args pos) := .bind .resolveAll fun ws => by
  cases b with
  | «alias» => exact .stop
  | cd =>
    match ws with
    | [] => exact .stop
    | [_] => exact .bind .call fun _ => .pure
    | _ :: _ :: _ => exact .stop
  | exec =>
    match ws with
    | [] => exact .stop
    | _ :: _ => exact .bind .call fun _ => .stop
  | exec0 =>
    match ws with
    | [] => exact .stop
    | [_] => exact .stop
    | _ :: _ :: _ => exact .bind .call fun _ => .stop
  | spawn0 =>
    match ws with
    | [] => exact .stop
    | [_] => exact .stop
    | _ :: _ :: _ => exact .bind .call fun _ => .waitChild

theorem LastIo.command {os : Os} {out err : Chan} : ∀ {c : ExCommand}, LastIo os (execCommand os out err c)
  | .builtin _ _ _ _ => .bind .builtin fun _ => .pure
  | .external _ _ => .bind .startTail fun _ => .bind .call fun _ => .bind .execBasic fun _ => .waitAll

theorem LastIo.commands {os : Os} {out err : Chan} : ∀ {cs : List ExCommand}, LastIo os (execCommands os out err cs)
  | [] => .pure
  | _ :: _ => .bind .call fun _ => .bind .call fun _ => .bind .command fun _ => .ite .pure (.bind LastIo.commands fun _ => .pure)

theorem inSequence_moves {os : Os} {out err : Chan} {cs : List ExCommand} {t evs : List Ev} {r : List (List ErrorStatus)}
    (h : InSequence os out err cs t evs r) : ∃ before after ds, cs = before ++ after ∧ Dirs os before ds ∧ moves evs = ds ∧ (r = [] → after = []) := by
  have one : ∀ {c : ExCommand} {t evs : List Ev} {es : List Ended}, Executed os out err c t evs es → ∃ ds, Dirs os [c] ds ∧ moves evs = ds := by
    intro c t evs es hex
    cases c with
    | external head tail => exact ⟨[], .other nofun .nil, (hex.2.2.2.1 head tail rfl).2⟩
    | builtin b args abort pos =>
      obtain ⟨tb, ws, ta, _, _, hw, ⟨rfl, dir, rfl, _, hm⟩ | ⟨rfl, _, _, _, _, _, hm, _⟩⟩ := hex.2.2.2.2 b args abort pos rfl
      · exact ⟨[dir], .cd hw .nil, hm⟩
      · exact ⟨[], .other nofun .nil, hm⟩
  induction h with
  | done => exact ⟨[], [], [], rfl, .nil, rfl, fun _ => rfl⟩
  | @next c t evs es ss cs evs' sss hex _ _ _ ih =>
    obtain ⟨d, hd, hm⟩ := one hex
    obtain ⟨before, after, ds, rfl, hds, hms, hr⟩ := ih
    refine ⟨c :: before, after, d ++ ds, rfl, dirs_append hd hds, by rw [moves_append, hm, hms], fun h => hr ?_⟩
    split at h
    · exact h
    · cases h
  | @stop c t evs es ss cs hex _ _ =>
    obtain ⟨d, hd, hm⟩ := one hex
    exact ⟨[c], cs, d, rfl, hd, hm, nofun⟩

theorem interrupted_moves {os : Os} {out err : Chan} {cs : List ExCommand} {t evs : List Ev} {e : XStop}
    (h : Interrupted os out err cs t evs e) : ∃ before c after ds, cs = before ++ c :: after ∧ Dirs os before ds ∧ moves evs = ds := by
  induction h with
  | @here c t evs e cs hs => exact ⟨[], c, cs, [], rfl, .nil, hs.2.1⟩
  | @later c t evs es cs evs' e hex _ _ _ ih =>
    obtain ⟨before, c', after, ds, rfl, hds, hms⟩ := ih
    cases c with
    | external head tail =>
      exact ⟨_ :: before, c', after, ds, rfl, .other nofun hds, by rw [moves_append, (hex.2.2.2.1 head tail rfl).2, hms]; rfl⟩
    | builtin b args abort pos =>
      obtain ⟨tb, ws, ta, _, _, hw, ⟨rfl, dir, rfl, _, hm⟩ | ⟨rfl, _, _, _, _, _, hm, _⟩⟩ := hex.2.2.2.2 b args abort pos rfl
      · exact ⟨_ :: before, c', after, dir :: ds, rfl, .cd hw hds, by rw [moves_append, hm, hms]; rfl⟩
      · exact ⟨_ :: before, c', after, ds, rfl, .other nofun hds, by rw [moves_append, hm, hms]; rfl⟩

/-! ### Words without wildcards -/

theorem combos_texts (alts : List (List Bytes)) :
    Spec.combos (alts.map (List.map Spec.Atom.text)) = (Spec.combos alts).map (List.map Spec.Atom.text) := by
  induction alts with
  | nil => rfl
  | cons p ps ih =>
    simp only [List.map_cons, Spec.combos, ih, List.flatMap_map, List.map_flatMap, List.map_map]
    rfl

theorem means_texts {args : List ExArg} {ws : List (List Bytes)}
    (h : List.Forall₂ Spec.Means args (ws.map (List.map Spec.Atom.text))) : args = ws.map (fun w => .literal w.flatten) := by
  induction ws generalizing args with
  | nil => cases h; rfl
  | cons w ws ih =>
    cases h with
    | cons h1 h2 =>
      rw [ih h2, List.map_cons]
      congr 1
      generalize hx : w.map Spec.Atom.text = x at h1
      cases h1 with
      | literal ss =>
        have : Function.Injective Spec.Atom.text := fun a b h => by cases h; rfl
        rw [List.map_injective_iff.2 this hx]
      | pattern _ h =>
        obtain ⟨a, ha, hn⟩ := h
        subst hx
        obtain ⟨s, _, rfl⟩ := List.mem_map.1 ha
        exact absurd rfl (hn s)

/-- Literal arguments stand for themselves. -/
theorem allWords_literals {os : Os} {t t' : List Ev} {l ws : List Bytes} (h : AllWords os t (l.map .literal) ws t') : ws = l ∧ t' = t := by
  induction l generalizing t ws with
  | nil => cases h; exact ⟨rfl, rfl⟩
  | cons s l ih =>
    cases h with
    | cons h1 h2 =>
      cases h1
      obtain ⟨rfl, rfl⟩ := ih h2
      exact ⟨rfl, rfl⟩

theorem assigns_literals {os : Os} {t t' : List Ev} {l vs : List (Bytes × Bytes)}
    (h : Assigns os t (l.map fun kv => (kv.1, .literal kv.2)) vs t') : vs = l ∧ t' = t := by
  induction l generalizing t vs with
  | nil => cases h; exact ⟨rfl, rfl⟩
  | cons s l ih =>
    cases h with
    | cons h1 h2 =>
      cases h1
      obtain ⟨rfl, rfl⟩ := ih h2
      exact ⟨rfl, rfl⟩

theorem assigns_keys {os : Os} {t t' : List Ev} {es : List (Bytes × ExArg)} {vs : List (Bytes × Bytes)} (h : Assigns os t es vs t') :
    vs.map Prod.fst = es.map Prod.fst := by
  induction h with
  | nil => rfl
  | cons _ _ ih => rw [List.map_cons, List.map_cons, ih]

theorem assigns_append {os : Os} {t t' : List Ev} {es es' : List (Bytes × ExArg)} {vs : List (Bytes × Bytes)}
    (h : Assigns os t (es ++ es') vs t') : ∃ vs1 vs2 t1, vs = vs1 ++ vs2 ∧ Assigns os t es vs1 t1 ∧ Assigns os t1 es' vs2 t' := by
  induction es generalizing t vs with
  | nil => exact ⟨[], vs, t, rfl, .nil, h⟩
  | cons e es ih =>
    cases h with
    | cons h1 h2 =>
      obtain ⟨vs1, vs2, t1, rfl, h3, h4⟩ := ih h2
      exact ⟨_ :: vs1, vs2, t1, rfl, .cons h1 h3, h4⟩

end Exec
end Hush

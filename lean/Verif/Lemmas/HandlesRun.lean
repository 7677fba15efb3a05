import Verif.Lemmas.HandlesHeld

/-!
The handles held by each part of the execution of a command (C71).
-/

namespace Hush
namespace Handles
open Hush.Exec
open Hush.Spec.Handles

theorem Plain.bind {m : X α} {f : α → X β} (hm : Plain m) (hf : ∀ a, Plain (f a)) : Plain (m >>= f) := by
  intro t
  obtain ⟨e1, h1, hp1⟩ := hm t
  change ∃ evs, (X.bind m f t).2 = _ ∧ _
  unfold X.bind
  rcases hx : m t with ⟨e | a, t1⟩ <;> rw [hx] at h1 <;> dsimp only at h1 ⊢
  · exact ⟨e1, h1, hp1⟩
  · subst h1
    obtain ⟨e2, h2, hp2⟩ := hf a (t ++ e1)
    exact ⟨e1 ++ e2, by rw [h2, List.append_assoc], fun e he => (List.mem_append.1 he).elim (hp1 e) (hp2 e)⟩

theorem Plain.pure (a : α) : Plain (Pure.pure a : X α) := fun t => ⟨[], (List.append_nil t).symm, nofun⟩
theorem Plain.stop {e : XStop} : Plain (X.stop e : X α) := fun t => ⟨[], (List.append_nil t).symm, nofun⟩
theorem Plain.panic {k : PanicKind} {pos : Pos} : Plain (X.panic k pos : X α) := .stop

theorem Plain.call {os : Os} {a : Act} {pos : Pos} (h : ∀ n b, made n ⟨a, b⟩ = []) (hw : ∀ id r, a ≠ .wait id r) : Plain (call os a pos) := by
  intro t
  unfold Exec.call
  cases os.fails t a
  · exact ⟨_, rfl, fun e he => by obtain rfl := List.mem_singleton.1 he; exact ⟨fun n => h n _, hw⟩⟩
  · exact ⟨_, rfl, fun e he => by obtain rfl := List.mem_singleton.1 he; exact ⟨fun n => h n _, hw⟩⟩

theorem Plain.resolve {os : Os} {a : ExArg} {pos : Pos} : Plain (resolve os a pos) := by
  intro t
  cases a with
  | literal s => exact ⟨[], (List.append_nil t).symm, nofun⟩
  | pattern p =>
    simp only [Exec.resolve]
    cases Glob.chars p with
    | none => exact ⟨[], (List.append_nil t).symm, nofun⟩
    | some cs =>
      cases os.glob t p
      · exact ⟨_, rfl, fun e he => by obtain rfl := List.mem_singleton.1 he; exact ⟨fun _ => rfl, nofun⟩⟩
      · exact ⟨_, rfl, fun e he => by obtain rfl := List.mem_singleton.1 he; exact ⟨fun _ => rfl, nofun⟩⟩

theorem Plain.resolveOne {os : Os} {o : Bytes} {a : ExArg} {pos : Pos} : Plain (resolveOne os o a pos) := by
  refine .bind .resolve fun l => ?_
  match l with
  | [] => exact .panic
  | [s] => exact .pure _
  | _ :: _ :: _ => exact .panic

theorem Plain.resolveAll {os : Os} {as : List ExArg} {pos : Pos} : Plain (resolveAll os pos as) := by
  induction as with
  | nil => exact .pure _
  | cons a as ih => exact .bind .resolve fun _ => .bind ih fun _ => .pure _

theorem Plain.resolveEnv {os : Os} {es : List (Bytes × ExArg)} {pos : Pos} : Plain (resolveEnv os pos es) := by
  induction es with
  | nil => exact .pure _
  | cons a as ih => exact .bind .resolveOne fun _ => .bind ih fun _ => .pure _

theorem Plain.writePipe {os : Os} {id held : Nat} {data : Bytes} {pos : Pos} : Plain (writePipe os id held data pos) := by
  unfold Exec.writePipe
  split
  · exact .bind (.call (fun _ b => by cases b <;> rfl) nofun) fun _ => .pure _
  · exact .stop

theorem Plain.receive {os : Os} {c : Chan} {pos : Pos} : Plain (receive os c pos) := by
  intro t
  unfold Exec.receive
  cases os.received t c <;> exact ⟨[], (List.append_nil t).symm, nofun⟩

/-! ### Parts of a command -/

theorem Keeps.closeSome (xs fs : List Fd) : Keeps (xs ++ fs) (fun _ => fs) (closeAll xs) := by
  intro tr ho
  have hx : Owns xs tr := ⟨fun f h => ho.1 f (List.mem_append_left _ h), (List.nodup_append.1 ho.2).1⟩
  have hm := closes_moves (fs := xs) (tr := tr)
  have := hm.frame ho
  rw [List.nil_append] at this
  exact ⟨_, rfl, closes_sound hx, closes_nowait, this⟩

theorem Keeps.handle {os : Os} {a : Act} {pos : Pos} {chan : Nat → Chan} (hw : ∀ id r, a ≠ .wait id r) (hm : ∀ n, made n ⟨a, true⟩ = [⟨n, false⟩]) :
    Keeps [] (fun o => [o.1]) (newHandle os a pos chan) := by
  refine .bind (gs := fun id => [⟨id, false⟩]) ?_ fun id => ?_
  · have := Keeps.call (os := os) (a := a) (pos := pos) hw (fun n => by rw [hm]; simp)
    exact this.perm (.refl _) fun n => by rw [hm]
  · have := Keeps.pure (fs := [⟨id, false⟩]) ((⟨id, false⟩, chan id) : Owned)
    intro tr ho
    exact this tr ho

theorem Keeps.target {os : Os} {t : ExTarget} {s : HStdio} {pos : Pos} : Keeps [] (fun o => [o.1]) (resolveTarget os t s pos) := by
  cases t with
  | overwrite a => exact .bind (.lift .resolveOne) fun _ => .handle nofun fun _ => rfl
  | append a => exact .bind (.lift .resolveOne) fun _ => .handle nofun fun _ => rfl
  | fd n =>
    unfold resolveTarget
    dsimp only
    split
    · exact .handle nofun fun _ => rfl
    · split
      · exact .handle nofun fun _ => rfl
      · intro tr ho
        exact ⟨[], by simp [Handles.lift, X.panic, X.stop], .nil, nofun, fun _ => .refl ho⟩

theorem Keeps.input {os : Os} {lit : Bool} {a : ExArg} {pos : Pos} : Keeps [] (fun o => [o.1]) (resolveInput os lit a pos) := by
  refine .bind (.lift .resolveOne) fun s => ?_
  cases lit with
  | false => exact .handle nofun fun _ => rfl
  | true =>
    refine .bind (Keeps.call nofun fun n => by simp [made]) fun id => ?_
    refine .bind (gs := fun _ => [⟨id, true⟩, ⟨id, false⟩]) ?_ fun _ => ?_
    · refine (Keeps.owning0 (gs := fun _ => []) (.bind (.lift .writePipe) fun _ => .lift .writePipe) [⟨id, false⟩, ⟨id, true⟩]).perm (.refl _) fun _ => ?_
      exact .swap _ _ _
    · exact .bind (.closeSome [⟨id, true⟩] [⟨id, false⟩]) fun _ => fun tr ho => Keeps.pure (fs := [⟨id, false⟩]) ((⟨id, false⟩, Chan.reader id) : Owned) tr ho

theorem Keeps.stopped {fs : List Fd} {gs : α → List Fd} {e : XStop} : Keeps fs gs (Handles.owning fs (Handles.lift (X.stop e : X α))) := by
  refine fun tr ho => ?_
  have hl : Handles.lift (X.stop e : X α) tr = (.error e, tr) := by simp [Handles.lift, X.stop]
  unfold Handles.owning
  rw [hl]
  dsimp only
  cases hF : Final e with
  | true => exact ⟨[], by simp, .nil, nofun, nofun⟩
  | false => exact ⟨_, rfl, closes_sound ho, closes_nowait, fun _ => closes_moves⟩

theorem Keeps.redirect {os : Os} {r : ExRedirection} {s : HStdio} {pos : Pos} : Keeps s.fds HStdio.fds (redirect os r s pos) := by
  cases r with
  | output n target =>
    refine .bind (Keeps.target.owning0 s.fds) fun c => ?_
    obtain ⟨i, o, e⟩ := s
    split
    · refine .bind (gs := fun _ => [i.1, c.1, e.1]) ?_ fun _ => fun tr ho => Keeps.pure _ tr ho
      refine (Keeps.closeSome [o.1] [i.1, c.1, e.1]).perm ?_ fun _ => .refl _
      exact ((List.Perm.swap i.1 o.1 _).trans (.cons i.1 (.swap c.1 o.1 _))).trans (.swap c.1 i.1 _) |>.trans (.refl _)
    · split
      · refine .bind (gs := fun _ => [i.1, o.1, c.1]) ?_ fun _ => fun tr ho => Keeps.pure _ tr ho
        refine (Keeps.closeSome [e.1] [i.1, o.1, c.1]).perm ?_ fun _ => .refl _
        exact List.Perm.symm (List.perm_iff_count.2 fun x => by simp [HStdio.fds, List.count_cons]; omega)
      · exact .stopped
  | input lit a =>
    refine .bind (Keeps.input.owning0 s.fds) fun c => ?_
    obtain ⟨i, o, e⟩ := s
    refine .bind (gs := fun _ => [c.1, o.1, e.1]) ?_ fun _ => fun tr ho => Keeps.pure _ tr ho
    refine (Keeps.closeSome [i.1] [c.1, o.1, e.1]).perm ?_ fun _ => .refl _
    exact .swap _ _ _

theorem Keeps.redirectAll {os : Os} {rs : List ExRedirection} {s : HStdio} {pos : Pos} : Keeps s.fds HStdio.fds (redirectAll os pos rs s) := by
  induction rs generalizing s with
  | nil => exact fun tr ho => Keeps.pure s tr ho
  | cons r rs ih => exact .bind .redirect fun _ => ih

theorem Keeps.basic {os : Os} {c : ExBasic} {s : HStdio} : Keeps s.fds (fun _ => []) (execBasic os c s) :=
  .bind (Keeps.owning0 (gs := fun _ => []) (.lift .resolveOne) s.fds) fun _ =>
    .bind (Keeps.owning0 (gs := fun _ => []) (.lift .resolveEnv) s.fds) fun _ =>
    .bind (Keeps.owning0 (gs := fun _ => []) (.lift .resolveAll) s.fds) fun _ =>
    .bind .redirectAll fun s' =>
    .bind (Keeps.owning0 (gs := fun _ => []) (.lift (.call (fun _ b => by cases b <;> rfl) (fun _ _ hx => by cases hx))) s'.fds) fun _ =>
    .bind .close fun _ => .pure _

theorem Keeps.startTail {os : Os} {out err : Owned} {cs : List ExBasic} :
    Keeps [out.1, err.1] (fun r => [r.1.1.1, r.1.2.1]) (startTail os out err cs) := by
  induction cs with
  | nil => exact fun tr ho => Keeps.pure ((out, err), []) tr ho
  | cons c cs ih =>
    refine .bind ih fun r => .bind (Keeps.owning0 (Keeps.call (fun _ _ hx => by cases hx) fun n => by simp [made]) _) fun id => ?_
    refine .bind (gs := fun _ => [⟨id, true⟩]) ?_ fun child => ?_
    · refine (Keeps.basic.owning [⟨id, true⟩]).perm ?_ fun _ => .refl _
      exact .cons _ ((List.perm_append_comm (l₁ := [r.1.1.1, r.1.2.1]) (l₂ := [⟨id, true⟩])))
    · refine .bind (Keeps.owning0 (.handle (fun _ _ hx => by cases hx) fun _ => rfl) _) fun e => ?_
      intro tr ho
      have := Keeps.pure (fs := [e.1, ⟨id, true⟩]) ((((⟨id, true⟩, .writer id), e), (child, c.abortOnError) :: r.2) : (Owned × Owned) × List (Child × Bool))
      exact (this.perm (.refl _) fun _ => .swap _ _ _) tr ho

/-! ### Waiting -/

/-- From `tr`, with `fs` owned, `evs` happened, and at each wait only handles satisfying `P` were held. -/
structure Waited (fs : List Fd) (P : Fd → Prop) (tr evs : List HEv) : Prop where
  sound : SoundFrom tr evs
  waits : ∀ a b h, evs = a ++ h :: b → IsWait h → ∀ f ∈ held (tr ++ a), P f

/-- What is known about the execution of a command, given its handles. -/
def Runs (fs : List Fd) (P : List HEv → Fd → Prop) (m : HX α) : Prop :=
  ∀ tr, Owns fs tr → ∃ evs, (m tr).2 = tr ++ evs ∧ Waited fs (P tr) tr evs ∧
    (∀ e, (m tr).1 = .error e → Final e = true ∨ Moves fs tr evs []) ∧ (∀ a, (m tr).1 = .ok a → Moves fs tr evs [])

theorem waitAll_events {os : Os} {cs : List (Child × Bool)} : ∀ t, ∃ evs, (waitAll os cs t).2 = t ++ evs ∧ ∀ e ∈ evs, ∀ n, made n e = [] := by
  induction cs with
  | nil => exact fun t => ⟨[], (List.append_nil t).symm, nofun⟩
  | cons c cs ih =>
    intro t
    obtain ⟨c, ab⟩ := c
    obtain ⟨evs, h1, h2⟩ := ih (t ++ [⟨.wait c.id (os.ended t c.id), true⟩])
    refine ⟨⟨.wait c.id (os.ended t c.id), true⟩ :: evs, ?_, fun e he => ?_⟩
    · obtain ⟨r, t', hr⟩ := waitAll_total os cs (t ++ [⟨.wait c.id (os.ended t c.id), true⟩])
      rw [hr] at h1
      dsimp only at h1
      subst h1
      have hw : waitChild os c t = (.ok (statusOf c.pos (os.ended t c.id)), t ++ [⟨.wait c.id (os.ended t c.id), true⟩]) := rfl
      have : ∃ r', waitAll os ((c, ab) :: cs) t = (.ok r', t ++ [⟨.wait c.id (os.ended t c.id), true⟩] ++ evs) := by
        cases hs : statusOf c.pos (os.ended t c.id) with
        | none => exact ⟨_, X.bind_ok.2 ⟨_, _, hw, X.bind_ok.2 ⟨_, _, hr, by rw [hs]; rfl⟩⟩⟩
        | some e => exact ⟨_, X.bind_ok.2 ⟨_, _, hw, X.bind_ok.2 ⟨_, _, hr, by rw [hs]; rfl⟩⟩⟩
      obtain ⟨r', hr'⟩ := this
      rw [hr']
      simp
    · rcases List.mem_cons.1 he with rfl | he
      · exact fun _ => rfl
      · exact h2 e he

theorem held_plain {tr : List HEv} {evs : List Ev} {a b : List HEv} (h : ∀ e ∈ evs, ∀ n, made n e = []) (hs : evs.map HEv.os = a ++ b) :
    held (tr ++ a) = held tr := by
  obtain ⟨l1, l2, hl, rfl, _⟩ := List.map_eq_append_iff.1 hs
  rw [held_append]
  exact heldFrom_plain fun e he => h e (by rw [hl]; exact List.mem_append_left _ he)

/-- A part that does not wait, then waiting. -/
theorem Runs.external {os : Os} {fs : List Fd} {m : HX α} {f : α → List (Child × Bool)} (hm : Keeps fs (fun _ => []) m) :
    Runs fs (fun tr g => g ∈ held tr ∧ g ∉ fs) (m >>= fun a => lift (waitAll os (f a))) := by
  intro tr ho
  obtain ⟨e1, h1, hs1, hw1, h2⟩ := hm tr ho
  have nowait : ∀ a b h, e1 = a ++ h :: b → IsWait h → ∀ g ∈ held (tr ++ a), g ∈ held tr ∧ g ∉ fs := fun a b h he hw =>
    absurd hw (hw1 h (by rw [he]; simp))
  have hb : (m >>= fun a => lift (waitAll os (f a))) tr = HX.bind m (fun a => lift (waitAll os (f a))) tr := rfl
  rw [hb]
  unfold HX.bind
  rcases hx : m tr with ⟨e | a, tr1⟩ <;> rw [hx] at h1 h2 <;> dsimp only at h1 h2 ⊢
  · refine ⟨e1, h1, ⟨hs1, nowait⟩, fun e' he => ?_, nofun⟩
    cases he
    cases hF : Final e
    · exact .inr (h2 hF)
    · exact .inl rfl
  · subst h1
    obtain ⟨e2, h3, h4⟩ := waitAll_events (os := os) (cs := f a) (erase (tr ++ e1))
    have hmv : Moves fs tr (e1 ++ e2.map .os) [] := by
      refine h2.trans ⟨fun g => ?_, nofun, .nil⟩
      rw [held_append, heldFrom_plain h4]
      simp
    refine ⟨e1 ++ e2.map .os, by rw [lift_trace h3, List.append_assoc], ⟨hs1.append os_sound, fun a' b h he hw g hg => ?_⟩, fun _ _ => .inr hmv, fun _ _ => hmv⟩
    rcases List.append_eq_append_iff.1 he with ⟨a2, rfl, he2⟩ | ⟨a2, he2, he3⟩
    · rw [← List.append_assoc, held_plain h4 he2, h2.now] at hg
      simpa using hg
    · cases a2 with
      | nil =>
        rw [List.append_nil] at he2
        subst he2
        rw [h2.now] at hg
        simpa using hg
      | cons x xs =>
        simp only [List.cons_append, List.cons.injEq] at he3
        obtain ⟨rfl, _⟩ := he3
        exact nowait a' xs h he2 hw g hg

/-- A builtin command makes no handles. -/
theorem builtin_events {os : Os} {b : Prog.Builtin} {args : List ExArg} {pos : Pos} :
    ∀ t, ∃ evs, (execBuiltin os b args pos t).2 = t ++ evs ∧ ∀ e ∈ evs, ∀ n, made n e = [] := by
  let Q : {α : Type} → X α → Prop := fun m => ∀ t, ∃ evs, (m t).2 = t ++ evs ∧ ∀ e ∈ evs, ∀ n, made n e = []
  have ofPlain : ∀ {α : Type} {m : X α}, Plain m → Q m := fun h t => by
    obtain ⟨evs, h1, h2⟩ := h t
    exact ⟨evs, h1, fun e he => (h2 e he).1⟩
  have bind : ∀ {α β : Type} {m : X α} {f : α → X β}, Q m → (∀ a, Q (f a)) → Q (m >>= f) := by
    intro α β m f hm hf t
    obtain ⟨e1, h1, hp1⟩ := hm t
    change ∃ evs, (X.bind m f t).2 = _ ∧ _
    unfold X.bind
    rcases hx : m t with ⟨e | a, t1⟩ <;> rw [hx] at h1 <;> dsimp only at h1 ⊢
    · exact ⟨e1, h1, hp1⟩
    · subst h1
      obtain ⟨e2, h2, hp2⟩ := hf a (t ++ e1)
      exact ⟨e1 ++ e2, by rw [h2, List.append_assoc], fun e he => (List.mem_append.1 he).elim (hp1 e) (hp2 e)⟩
  have call : ∀ a, (∀ n b, made n ⟨a, b⟩ = []) → Q (Exec.call os a pos) := by
    intro a h t
    unfold Exec.call
    cases os.fails t a <;> exact ⟨_, rfl, fun e he => by obtain rfl := List.mem_singleton.1 he; exact fun n => h n _⟩
  have wait : ∀ c, Q (waitChild os c) := fun c t => ⟨_, rfl, fun e he => by obtain rfl := List.mem_singleton.1 he; exact fun n => rfl⟩
  have made' : ∀ l n b, made n ⟨.exec l, b⟩ = [] := fun l n b => by cases b <;> rfl
  refine bind (ofPlain .resolveAll) fun words => ?_
  match b, words with
  | .alias, _ => exact ofPlain .stop
  | .cd, [] => exact ofPlain .panic
  | .cd, [_] => exact bind (call _ fun n b => by cases b <;> rfl) fun _ => ofPlain (.pure _)
  | .cd, _ :: _ :: _ => exact ofPlain .panic
  | .exec, [] => exact ofPlain .panic
  | .exec, _ :: _ => exact bind (call _ (made' _)) fun _ => ofPlain .stop
  | .exec0, [] => exact ofPlain .panic
  | .exec0, [_] => exact ofPlain .panic
  | .exec0, _ :: _ :: _ => exact bind (call _ (made' _)) fun _ => ofPlain .stop
  | .spawn0, [] => exact ofPlain .panic
  | .spawn0, [_] => exact ofPlain .panic
  | .spawn0, _ :: _ :: _ => exact bind (call _ fun n b => by cases b <;> rfl) fun _ => wait _

theorem hx_assoc (x : HX α) (y : α → HX β) (z : β → HX γ) : (x >>= y) >>= z = x >>= fun a => y a >>= z := by
  funext t
  change HX.bind (HX.bind x y) z t = HX.bind x (fun a => HX.bind (y a) z) t
  unfold HX.bind
  rcases x t with ⟨e | a, t1⟩ <;> rfl

theorem hx_pure (a : α) (y : α → HX β) : (Pure.pure a : HX α) >>= y = y a := rfl

/-- Every command. The handles for its output are closed before the first wait unless it is a builtin. -/
theorem Runs.command {os : Os} {out err : Owned} {c : ExCommand} :
    Runs [out.1, err.1] (fun tr g => g ∈ held tr ∧ ((∃ h t, c = .external h t) → g ∉ [out.1, err.1])) (execCommand os out err c) := by
  cases c with
  | external head tail =>
    have hk : Keeps [out.1, err.1] (fun _ => []) (startTail os out err tail >>= fun r => owning [r.1.1.1, r.1.2.1] (newHandle os (.dup 0) head.pos (fun _ => .stdin)) >>=
        fun i => execBasic os head ⟨i, r.1.1, r.1.2⟩ >>= fun child => Pure.pure ((child, head.abortOnError) :: r.2)) :=
      .bind .startTail fun r => .bind (.owning0 (.handle (fun _ _ hx => by cases hx) fun _ => rfl) _) fun i =>
        .bind (gs := fun _ => []) (by exact Keeps.basic (s := ⟨i, r.1.1, r.1.2⟩)) fun child => .pure _
    intro tr ho
    obtain ⟨evs, h1, h2, h3, h4⟩ := Runs.external (os := os) (f := id) hk tr ho
    have heq : execCommand os out err (.external head tail) tr = ((startTail os out err tail >>= fun r => owning [r.1.1.1, r.1.2.1] (newHandle os (.dup 0) head.pos (fun _ => .stdin)) >>=
        fun i => execBasic os head ⟨i, r.1.1, r.1.2⟩ >>= fun child => Pure.pure ((child, head.abortOnError) :: r.2)) >>= fun a => lift (waitAll os a)) tr := by
      simp only [hx_assoc, hx_pure]
      rfl
    rw [heq]
    exact ⟨evs, h1, ⟨h2.sound, fun a b h he hw f hf => ⟨(h2.waits a b h he hw f hf).1, fun _ => (h2.waits a b h he hw f hf).2⟩⟩, h3, h4⟩
  | builtin b args abort pos =>
    intro tr ho
    obtain ⟨es, h1, h2⟩ := builtin_events (os := os) (b := b) (args := args) (pos := pos) (erase tr)
    have hl := lift_trace h1
    have hmv : Moves [] tr (es.map .os) [] := by
      refine ⟨fun f => ?_, nofun, .nil⟩
      rw [held_append, heldFrom_plain h2]
      simp
    have hfr : Moves [out.1, err.1] tr (es.map .os) [out.1, err.1] := hmv.frame (xs := []) ho
    have hcl := hfr.trans closes_moves
    have hso : SoundFrom tr (es.map .os ++ [out.1, err.1].map .close) := os_sound.append (closes_sound hfr.owns)
    have hwt : ∀ a b h, es.map HEv.os ++ [out.1, err.1].map .close = a ++ h :: b → IsWait h → ∀ f ∈ held (tr ++ a),
        f ∈ held tr ∧ ((∃ hd t, ExCommand.builtin ‹_› args abort pos = .external hd t) → f ∉ [out.1, err.1]) := by
      intro a b h he hw f hf
      refine ⟨?_, fun ⟨_, _, hx⟩ => by cases hx⟩
      rcases List.append_eq_append_iff.1 he with ⟨a2, rfl, he2⟩ | ⟨a2, he2, he3⟩
      · exact absurd hw (closes_nowait h (by rw [he2]; simp))
      · rw [held_plain h2 he2] at hf
        exact hf
    have hb : execCommand os out err (.builtin b args abort pos) tr =
        HX.bind (owning [out.1, err.1] (lift (execBuiltin os b args pos))) (fun e => HX.bind (closeAll [out.1, err.1])
          fun _ => HX.pure ⟨e.toList, abort && e.isSome⟩) tr := rfl
    rw [hb]
    unfold HX.bind owning
    rcases hx : lift (execBuiltin os b args pos) tr with ⟨e | r, tr1⟩ <;> rw [hx] at hl <;> dsimp only at hl ⊢ <;> subst hl
    · cases hF : Final e with
      | true =>
        refine ⟨es.map .os, rfl, ⟨os_sound, fun a b h he hw f hf => ⟨?_, fun ⟨_, _, hx⟩ => by cases hx⟩⟩, fun e' he => .inl (by cases he; exact hF), nofun⟩
        rw [held_plain h2 he] at hf
        exact hf
      | false =>
        refine ⟨_, by rw [if_neg (by simp), List.append_assoc], ⟨hso, hwt⟩, fun _ _ => .inr hcl, nofun⟩
    · exact ⟨_, List.append_assoc _ _ _, ⟨hso, hwt⟩, nofun, fun _ _ => hcl⟩

end Handles
end Hush

import Verif.Spec.Places
import Verif.Spec.Shell

/-!
The positions of failures of command blocks are those of their commands.
-/

namespace Hush.Exec
open Hush.Spec

/-- Where it stops. -/
def AtStop (P : Pos → Prop) : XStop → Prop
  | .io _ p => P p
  | .panic q => P q.pos
  | _ => True

/-- The result is fine, or it stops at a fine position. -/
def XAt (P : Pos → Prop) (R : α → Prop) (m : X α) : Prop := ∀ t, match (m t).1 with
  | .ok a => R a
  | .error e => AtStop P e

variable {P : Pos → Prop} {R : α → Prop} {S : β → Prop} {os : Os}

theorem xat_pure {a : α} (h : R a) : XAt P R (pure a) := fun _ => h
theorem xat_bind {m : X α} {f : α → X β} (hm : XAt P R m) (hf : ∀ a, R a → XAt P S (f a)) : XAt P S (m >>= f) := by
  intro t
  have := hm t
  simp only [Bind.bind, X.bind]
  cases hr : m t with
  | mk r t' =>
    rw [hr] at this
    cases r with
    | ok a => exact hf a this t'
    | error e => exact this
theorem xat_panic {k p} (h : P p) : XAt P R (X.panic k p) := fun _ => h
theorem xat_stop {e} (h : AtStop P e) : XAt P R (X.stop e) := fun _ => h
theorem xat_call {a p} (h : P p) : XAt P (fun _ => True) (call os a p) := by
  intro t
  unfold call
  split <;> rename_i h' <;> split at h' <;> cases h'
  · trivial
  · exact h

def StatusAt (P : Pos → Prop) (e : ErrorStatus) : Prop := P e.pos

theorem xat_wait {c : Child} (h : P c.pos) : XAt P (fun e => ∀ x, e = some x → P x.pos) (waitChild os c) := by
  intro t x hx
  have hs : ∀ r, statusOf c.pos r = some x → x.pos = c.pos := by
    intro r hr
    cases r <;> simp only [statusOf] at hr
    all_goals first
      | (injection hr with hr; subst hr; rfl)
      | (split at hr
         · cases hr
         · injection hr with hr; subst hr; rfl)
  rw [hs _ hx]
  exact h

variable {p : Pos} (h : P p)
include h

theorem xat_resolve {a} : XAt P (fun _ => True) (resolve os a p) := by
  intro t
  unfold resolve
  cases a with
  | literal s => trivial
  | pattern q =>
    dsimp only
    cases Glob.chars q with
    | none => exact h
    | some _ =>
      dsimp only
      cases os.glob t q with
      | none => exact h
      | some ps => trivial

theorem xat_one {o a} : XAt P (fun _ => True) (resolveOne os o a p) := by
  refine xat_bind (xat_resolve h) fun l _ => ?_
  split
  · exact xat_pure trivial
  · exact xat_panic h

theorem xat_all : ∀ {as}, XAt P (fun _ => True) (resolveAll os p as)
  | [] => xat_pure trivial
  | _ :: _ => xat_bind (xat_resolve h) fun _ _ => xat_bind xat_all fun _ _ => xat_pure trivial

theorem xat_env : ∀ {es}, XAt P (fun _ => True) (resolveEnv os p es)
  | [] => xat_pure trivial
  | _ :: _ => xat_bind (xat_one h) fun _ _ => xat_bind xat_env fun _ _ => xat_pure trivial

theorem xat_replace {l} : XAt P R (replaceBy os l p) := xat_bind (xat_call h) fun _ _ => xat_stop trivial
theorem xat_spawnWait {l} : XAt P (fun e => ∀ x, e = some x → P x.pos) (spawnWait os l p) :=
  xat_bind (xat_call h) fun id _ => xat_wait (c := ⟨id, p⟩) h

theorem xat_builtin {b args} : XAt P (fun e => ∀ x, e = some x → P x.pos) (execBuiltin os b args p) := by
  refine xat_bind (xat_all h) fun as _ => ?_
  cases b with
  | alias => exact xat_stop trivial
  | cd =>
    dsimp only
    split
    · exact xat_panic h
    · exact xat_bind (xat_call h) fun _ _ => xat_pure nofun
    · exact xat_panic h
  | exec =>
    dsimp only
    split
    · exact xat_panic h
    · exact xat_replace h
  | exec0 =>
    dsimp only
    split
    · exact xat_panic h
    · exact xat_panic h
    · exact xat_replace h
  | spawn0 =>
    dsimp only
    split
    · exact xat_panic h
    · exact xat_panic h
    · exact xat_spawnWait h

theorem xat_open {a ap} : XAt P (fun _ => True) (openFile os a ap p) :=
  xat_bind (xat_one h) fun _ _ => xat_bind (xat_call h) fun _ _ => xat_pure trivial

theorem xat_target {t s} : XAt P (fun _ => True) (resolveTarget os t s p) := by
  cases t with
  | overwrite a => exact xat_open h
  | append a => exact xat_open h
  | fd n =>
    unfold resolveTarget
    dsimp only
    split
    · exact xat_bind (xat_call h) fun _ _ => xat_pure trivial
    split
    · exact xat_bind (xat_call h) fun _ _ => xat_pure trivial
    · exact xat_panic h

theorem xat_write {id n d} : XAt P (fun _ => True) (writePipe os id n d p) := by
  unfold writePipe
  split
  · exact xat_bind (xat_call h) fun _ _ => xat_pure trivial
  · exact xat_stop trivial

theorem xat_input {l a} : XAt P (fun _ => True) (resolveInput os l a p) := by
  refine xat_bind (xat_one h) fun s _ => ?_
  split
  · exact xat_bind (xat_call h) fun _ _ => xat_bind (xat_write h) fun _ _ => xat_bind (xat_write h) fun _ _ => xat_pure trivial
  · exact xat_bind (xat_call h) fun _ _ => xat_pure trivial

theorem xat_redirect {r s} : XAt P (fun _ => True) (redirect os r s p) := by
  cases r with
  | output n t =>
    refine xat_bind (xat_target h) fun c _ => ?_
    split
    · exact xat_pure trivial
    split
    · exact xat_pure trivial
    · exact xat_panic h
  | input l a => exact xat_bind (xat_input h) fun _ _ => xat_pure trivial

theorem xat_redirectAll : ∀ {rs s}, XAt P (fun _ => True) (redirectAll os p rs s)
  | [], _ => xat_pure trivial
  | _ :: _, _ => xat_bind (xat_redirect h) fun _ _ => xat_redirectAll

omit h
theorem xat_basic {c : ExBasic} {s} (h : P c.pos) : XAt P (fun d : Child => P d.pos) (execBasic os c s) :=
  xat_bind (xat_one h) fun _ _ => xat_bind (xat_env h) fun _ _ => xat_bind (xat_all h) fun _ _ =>
    xat_bind (xat_redirectAll h) fun _ _ => xat_bind (xat_call h) fun _ _ => xat_pure h

theorem xat_startTail {out err} : ∀ {cs : List ExBasic}, (∀ c ∈ cs, P c.pos) →
    XAt P (fun r => ∀ d ∈ r.2, P d.1.pos) (startTail os out err cs)
  | [], _ => xat_pure nofun
  | c :: cs, h => by
    obtain ⟨h1, h2⟩ := List.forall_mem_cons.1 h
    exact xat_bind (xat_startTail h2) fun r hr => xat_bind (xat_call h1) fun _ _ => xat_bind (xat_basic h1) fun d hd =>
      xat_bind (xat_call hd) fun _ _ => xat_pure (List.forall_mem_cons.2 ⟨hd, hr⟩)

theorem xat_waitAll : ∀ {cs : List (Child × Bool)}, (∀ d ∈ cs, P d.1.pos) → XAt P (fun r => ∀ e ∈ r.errors, P e.pos) (waitAll os cs)
  | [], _ => xat_pure nofun
  | (c, f) :: cs, h => by
    obtain ⟨h1, h2⟩ := List.forall_mem_cons.1 h
    refine xat_bind (xat_wait h1) fun e he => xat_bind (xat_waitAll h2) fun r hr => ?_
    cases e with
    | none => exact xat_pure hr
    | some x => exact xat_pure (List.forall_mem_cons.2 ⟨he x rfl, hr⟩)

theorem xat_command {out err} {c : ExCommand} (h : ∀ p ∈ commandMarks c, P p) : XAt P (fun r => ∀ e ∈ r.errors, P e.pos) (execCommand os out err c) := by
  cases c with
  | builtin b as f p =>
    refine xat_bind (xat_builtin (h p (List.mem_singleton.2 rfl))) fun e he => xat_pure fun x hx => he x ?_
    exact Option.mem_toList.1 hx
  | external hd tl =>
    obtain ⟨h1, h2⟩ := List.forall_mem_cons.1 h
    refine xat_bind (xat_startTail fun c hc => h2 _ (List.mem_map_of_mem hc)) fun r hr => ?_
    exact xat_bind (xat_call h1) fun _ _ => xat_bind (xat_basic h1) fun d hd => xat_waitAll (List.forall_mem_cons.2 ⟨hd, hr⟩)

theorem commandPos_mark (c : ExCommand) : commandPos c ∈ commandMarks c := by
  cases c <;> exact List.mem_cons_self ..

theorem xat_commands {out err} : ∀ {cs : List ExCommand}, (∀ p ∈ cs.flatMap commandMarks, P p) →
    XAt P (fun ess => ∀ es ∈ ess, ∀ e ∈ es, P e.pos) (execCommands os out err cs)
  | [], _ => xat_pure nofun
  | c :: cs, h => by
    have h1 : ∀ p ∈ commandMarks c, P p := fun p hp => h p (by rw [List.flatMap_cons]; exact List.mem_append_left _ hp)
    have h2 : ∀ p ∈ cs.flatMap commandMarks, P p := fun p hp => h p (by rw [List.flatMap_cons]; exact List.mem_append_right _ hp)
    have h3 := h1 _ (commandPos_mark c)
    refine xat_bind (xat_call h3) fun _ _ => xat_bind (xat_call h3) fun _ _ => xat_bind (xat_command h1) fun r hr => ?_
    have h4 : ∀ es ∈ (if r.errors.isEmpty then [] else [r.errors]), ∀ e ∈ es, P e.pos := by
      split
      · exact nofun
      · intro es hes; rw [List.mem_singleton.1 hes]; exact hr
    dsimp only
    split
    · exact xat_pure h4
    · exact xat_bind (xat_commands h2) fun l hl => xat_pure (List.forall_mem_append.2 ⟨h4, hl⟩)

theorem xat_block {out err} {b : ExBlock} (h : ∀ p ∈ blockMarks b, P p) : XAt P (fun ess => ∀ es ∈ ess, ∀ e ∈ es, P e.pos) (execBlock os out err b) := by
  intro t
  have h1 := xat_commands (os := os) (out := out) (err := err) h t
  unfold execBlock
  cases hr : execCommands os out err (b.head :: b.tail) t with
  | mk r t' =>
    rw [hr] at h1
    cases r with
    | ok a => exact h1
    | error e =>
      cases e with
      | io msg p =>
        intro es hes e he
        rw [List.mem_singleton.1 hes] at he
        rw [List.mem_singleton.1 he]
        exact h1
      | _ => exact h1

/-- Panics are at fine positions. -/
def XPan (P : Pos → Prop) (m : X α) : Prop := ∀ t q, (m t).1 = .error (.panic q) → P q.pos

theorem xpan_bind {m : X α} {f : α → X β} (hm : XPan P m) (hf : ∀ a, XPan P (f a)) : XPan P (m >>= f) := by
  intro t q h
  simp only [Bind.bind, X.bind] at h
  cases hr : m t with
  | mk r t' =>
    rw [hr] at h
    cases r with
    | ok a => exact hf a t' q h
    | error e => exact hm t q (by rw [hr]; simpa using h)

theorem xpan_pure {a : α} : XPan P (pure a) := nofun
theorem xpan_call {a p} : XPan P (call os a p) := by
  intro t q h
  unfold call at h
  split at h <;> cases h
theorem xpan_receive {c p} : XPan P (receive os c p) := by
  intro t q h
  unfold receive at h
  split at h <;> cases h
theorem xpan_block {out err b} (h : ∀ p ∈ blockMarks b, P p) : XPan P (execBlock os out err b) := by
  intro t q hq
  have := xat_block (os := os) (out := out) (err := err) h t
  rw [hq] at this
  exact this

/-- Where the execution of a block panics. -/
theorem xpan_runBlock {pos b kind} (h : ∀ p ∈ blockMarks b, P p) : XPan P (runBlock os pos b kind) := by
  have hn : XPan P (do let ess ← execBlock os .stdout .stderr b; pure (blockValue os ess)) := xpan_bind (xpan_block h) fun _ => xpan_pure
  cases kind with
  | capture =>
    exact xpan_bind xpan_call fun _ => xpan_bind xpan_call fun _ => xpan_bind (xpan_block h) fun _ =>
      xpan_bind xpan_receive fun _ => xpan_bind xpan_receive fun _ => xpan_pure
  | synchronous => exact hn
  | asynchronous => exact hn

theorem runBlock_no_io {pos b kind t msg p} (hk : kind ≠ .capture) : (runBlock os pos b kind t).1 ≠ .error (.io msg p) := by
  have hb : ∀ t, (execBlock os .stdout .stderr b t).1 ≠ .error (.io msg p) := by
    intro t h
    unfold execBlock at h
    split at h
    · cases h
    · rename_i hn
      cases hr : execCommands os .stdout .stderr (b.head :: b.tail) t with
      | mk r t' =>
        rw [hr] at h
        exact hn msg p t' (by rw [hr]; exact Prod.ext h rfl)
  have hn : ∀ t, ((do let ess ← execBlock os .stdout .stderr b; pure (blockValue os ess) : X Tree) t).1 ≠ .error (.io msg p) := by
    intro t h
    simp only [Bind.bind, X.bind] at h
    have := hb t
    cases hr : execBlock os .stdout .stderr b t with
    | mk r t' =>
      rw [hr] at h this
      cases r with
      | ok a => cases h
      | error e => exact this (by simpa using h)
  cases kind with
  | capture => exact absurd rfl hk
  | synchronous => exact hn t
  | asynchronous => exact hn t

end Hush.Exec

import Verif.Spec.Handles
import Verif.Lemmas.Reaping

/-!
The model with handles makes the calls of `Model/Exec`, and keeps track of the handles (C71).
-/

namespace Hush
namespace Handles
open Hush.Exec
open Hush.Spec.Handles

theorem erase_append (a b : List HEv) : erase (a ++ b) = erase a ++ erase b := by
  induction a with
  | nil => rfl
  | cons h hs ih => cases h <;> simp [erase, ih]

theorem erase_os (es : List Ev) : erase (es.map .os) = es := by
  induction es with
  | nil => rfl
  | cons e es ih => simp [erase, ih]

theorem erase_close (fs : List Fd) : erase (fs.map .close) = [] := by
  induction fs with
  | nil => rfl
  | cons e es ih => simp [erase, ih]

/-! ### Computations that only add to the trace -/

/-- A computation keeps the trace before it. -/
def Grows (m : X α) : Prop := ∀ t, t <+: (m t).2

theorem Grows.bind {m : X α} {f : α → X β} (hm : Grows m) (hf : ∀ a, Grows (f a)) : Grows (m >>= f) := by
  intro t
  have h1 := hm t
  change t <+: (X.bind m f t).2
  unfold X.bind
  rcases hx : m t with ⟨e | a, t1⟩ <;> rw [hx] at h1
  · exact h1
  · exact h1.trans (hf a t1)

theorem grows_of_steps {os : Os} {P : List Pos} {n k : Nat} {m : X α} (h : Steps os P n k m) : Grows m := by
  intro t
  rcases hx : m t with ⟨r, t1⟩
  obtain ⟨evs, rfl, _⟩ := h _ _ _ hx
  exact ⟨evs, rfl⟩

theorem Grows.pure (a : α) : Grows (Pure.pure a : X α) := fun _ => List.prefix_rfl
theorem Grows.stop {e : XStop} : Grows (X.stop e : X α) := fun _ => List.prefix_rfl

theorem Grows.call {os : Os} {a : Act} {pos : Pos} : Grows (call os a pos) := by
  intro t
  unfold Exec.call
  cases os.fails t a <;> exact ⟨_, rfl⟩

theorem Grows.wait {os : Os} {c : Child} : Grows (waitChild os c) := fun _ => ⟨_, rfl⟩

theorem Grows.waitAll {os : Os} {cs : List (Child × Bool)} : Grows (waitAll os cs) := by
  induction cs with
  | nil => exact .pure _
  | cons c cs ih =>
    refine .bind .wait fun e => .bind ih fun r => ?_
    cases e <;> exact .pure _

theorem Grows.builtin {os : Os} {b : Prog.Builtin} {args : List ExArg} {pos : Pos} : Grows (execBuiltin os b args pos) := by
  refine .bind (grows_of_steps (P := []) .resolveAll) fun words => ?_
  match b, words with
  | .alias, _ => exact .stop
  | .cd, [] => exact .stop
  | .cd, [_] => exact .bind .call fun _ => .pure _
  | .cd, _ :: _ :: _ => exact .stop
  | .exec, [] => exact .stop
  | .exec, _ :: _ => exact .bind .call fun _ => .stop
  | .exec0, [] => exact .stop
  | .exec0, [_] => exact .stop
  | .exec0, _ :: _ :: _ => exact .bind .call fun _ => .stop
  | .spawn0, [] => exact .stop
  | .spawn0, [_] => exact .stop
  | .spawn0, _ :: _ :: _ => exact .bind .call fun _ => .wait

theorem Grows.receive {os : Os} {c : Chan} {pos : Pos} : Grows (receive os c pos) := by
  intro t
  unfold Exec.receive
  cases os.received t c <;> exact List.prefix_rfl

/-! ### The calls are those of `Model/Exec` -/

/-- The same result up to `f`, and the same calls. -/
def Erases (m : HX α) (f : α → β) (x : X β) : Prop :=
  ∀ tr, x (erase tr) = ((m tr).1.map f, erase (m tr).2)

theorem Erases.lift {x : X α} (h : Grows x) : Erases (lift x) id x := by
  intro tr
  obtain ⟨evs, he⟩ := h (erase tr)
  unfold Handles.lift
  rw [erase_append, erase_os]
  refine Prod.ext ?_ ?_
  · cases (x (erase tr)).1 <;> rfl
  · change (x (erase tr)).2 = _
    rw [← he, List.drop_left]

theorem x_assoc (x : X α) (y : α → X β) (z : β → X γ) : (x >>= y) >>= z = x >>= fun a => y a >>= z := by
  funext t
  change X.bind (X.bind x y) z t = X.bind x (fun a => X.bind (y a) z) t
  unfold X.bind
  rcases x t with ⟨e | a, t1⟩ <;> rfl

theorem Erases.bind {m : HX α} {f : α → β} {x : X β} {k : α → HX γ} {g : γ → δ} {y : β → X δ} (hm : Erases m f x) (hk : ∀ a, Erases (k a) g (y (f a))) :
    Erases (m >>= k) g (x >>= y) := by
  intro tr
  have h1 := hm tr
  change X.bind x y (erase tr) = ((HX.bind m k tr).1.map g, erase (HX.bind m k tr).2)
  unfold X.bind HX.bind
  rw [h1]
  rcases m tr with ⟨e | a, tr1⟩
  · rfl
  · exact hk a tr1

theorem Erases.pure (a : α) (f : α → β) : Erases (Pure.pure a : HX α) f (Pure.pure (f a)) := fun _ => rfl

theorem Erases.owning {m : HX α} {f : α → β} {x : X β} (hm : Erases m f x) (fs : List Fd) : Erases (Handles.owning fs m) f x := by
  intro tr
  rw [hm tr]
  unfold Handles.owning
  rcases m tr with ⟨e | a, tr1⟩
  · dsimp only
    split
    · rfl
    · rw [erase_append, erase_close, List.append_nil]
  · rfl

/-- Closing makes no call. -/
theorem Erases.close {k : HX γ} {g : γ → δ} {y : X δ} (hk : Erases k g y) (fs : List Fd) : Erases (closeAll fs >>= fun _ => k) g y := by
  intro tr
  change _ = ((HX.bind _ _ tr).1.map g, erase (HX.bind _ _ tr).2)
  unfold HX.bind closeAll
  have := hk (tr ++ fs.map .close)
  rw [erase_append, erase_close, List.append_nil] at this
  exact this

theorem Erases.thread {k : HX γ} {g : γ → δ} {y : X δ} (hk : Erases k g y) (f : Fd) : Erases (toThread f >>= fun _ => k) g y := by
  intro tr
  change _ = ((HX.bind _ _ tr).1.map g, erase (HX.bind _ _ tr).2)
  unfold HX.bind toThread
  have := hk (tr ++ [.toThread f])
  rw [erase_append, show erase [HEv.toThread f] = [] from rfl, List.append_nil] at this
  exact this

theorem Erases.handle {os : Os} {a : Act} {pos : Pos} {chan : Nat → Chan} :
    Erases (Handles.newHandle os a pos chan) Prod.snd (call os a pos >>= fun id => Pure.pure (chan id)) :=
  .bind (.lift .call) fun id => .pure ((⟨id, false⟩, chan id) : Owned) Prod.snd

/-- A call for a handle and what comes after. -/
theorem Erases.obtains {os : Os} {a : Act} {pos : Pos} {chan : Chan} {k : Owned → HX γ} {g : γ → δ} {y : X δ} (fs : List Fd)
    (hk : ∀ f, Erases (k (f, chan)) g y) : Erases (Handles.owning fs (Handles.newHandle os a pos (fun _ => chan)) >>= k) g (call os a pos >>= fun _ => y) := by
  have h := Erases.bind (Erases.owning (Erases.handle (os := os) (a := a) (pos := pos) (chan := fun _ => chan)) fs) (k := fun o => k (o.1, chan)) (g := g)
    (y := fun _ => y) fun o => hk o.1
  rw [x_assoc] at h
  intro tr
  have h := h tr
  have hx : (Handles.owning fs (Handles.newHandle os a pos fun _ => chan) >>= fun o => k (o.1, chan)) tr =
      (Handles.owning fs (Handles.newHandle os a pos fun _ => chan) >>= k) tr := by
    change HX.bind _ _ tr = HX.bind _ _ tr
    unfold HX.bind
    rcases hh : Handles.owning fs (Handles.newHandle os a pos fun _ => chan) tr with ⟨e | o, tr1⟩
    · rfl
    · have : o.2 = chan := by
        have hn : Handles.newHandle os a pos (fun _ => chan) tr = HX.bind (Handles.lift (call os a pos)) (fun id => HX.pure (⟨id, false⟩, chan)) tr := rfl
        unfold Handles.owning at hh
        rw [hn] at hh
        unfold HX.bind HX.pure at hh
        rcases hl : Handles.lift (call os a pos) tr with ⟨e | id, tr2⟩ <;> rw [hl] at hh <;> cases hh
        rfl
      obtain ⟨f, c⟩ := o
      dsimp only at this ⊢
      rw [this]
  rw [hx] at h
  exact h

theorem Erases.target {os : Os} {t : ExTarget} {s : HStdio} {pos : Pos} :
    Erases (Handles.resolveTarget os t s pos) Prod.snd (Exec.resolveTarget os t s.chans pos) := by
  cases t with
  | overwrite a => exact .bind (.lift (grows_of_steps (P := []) .resolveOne)) fun _ => .handle
  | append a => exact .bind (.lift (grows_of_steps (P := []) .resolveOne)) fun _ => .handle
  | fd n =>
    unfold resolveTarget Exec.resolveTarget
    dsimp only
    split
    · exact .handle
    · split
      · exact .handle
      · intro tr; unfold Handles.lift; simp [X.panic, X.stop, Except.map]

theorem Erases.input {os : Os} {lit : Bool} {a : ExArg} {pos : Pos} :
    Erases (Handles.resolveInput os lit a pos) Prod.snd (Exec.resolveInput os lit a pos) := by
  refine .bind (.lift (grows_of_steps (P := []) .resolveOne)) fun s => ?_
  cases lit with
  | false => exact .handle
  | true =>
    refine .bind (.lift .call) fun id => ?_
    have hw : ∀ n d, Erases (Handles.lift (writePipe os id n d pos)) _root_.id (writePipe os id n d pos) := fun n d =>
      .lift (grows_of_steps (os := os) (P := [pos]) (.writePipe (List.mem_singleton.2 rfl)))
    have h2 : Erases (Handles.owning [⟨id, false⟩, ⟨id, true⟩] (do
        Handles.lift (writePipe os id 0 s pos)
        Handles.lift (writePipe os id s.length [cNL] pos))) _root_.id (do
        writePipe os id 0 s pos
        writePipe os id s.length [cNL] pos) := .owning (.bind (hw _ _) fun _ => hw _ _) _
    have h3 := Erases.bind h2 (k := fun _ => closeAll [⟨id, true⟩] >>= fun _ => Pure.pure ((⟨id, false⟩, .reader id) : Owned)) (g := Prod.snd)
      (y := fun _ => Pure.pure (.reader id)) fun _ => .close (.pure _ _) _
    rw [x_assoc] at h3
    exact h3

theorem Erases.redirect {os : Os} {r : ExRedirection} {s : HStdio} {pos : Pos} :
    Erases (Handles.redirect os r s pos) HStdio.chans (Exec.redirect os r s.chans pos) := by
  cases r with
  | output n target =>
    refine .bind (.owning .target _) fun c => ?_
    split
    · exact .close (.pure _ _) _
    · split
      · exact .close (.pure _ _) _
      · refine .owning (fun tr => ?_) _
        unfold Handles.lift; simp [X.panic, X.stop, Except.map]
  | input lit a => exact .bind (.owning .input _) fun c => .close (.pure _ _) _

theorem Erases.redirectAll {os : Os} {rs : List ExRedirection} {s : HStdio} {pos : Pos} :
    Erases (Handles.redirectAll os pos rs s) HStdio.chans (Exec.redirectAll os pos rs s.chans) := by
  induction rs generalizing s with
  | nil => exact .pure _ _
  | cons r rs ih => exact .bind .redirect fun _ => ih

theorem Erases.basic {os : Os} {c : ExBasic} {s : HStdio} : Erases (Handles.execBasic os c s) id (Exec.execBasic os c s.chans) :=
  .bind (.owning (.lift (grows_of_steps (P := []) .resolveOne)) _) fun _ =>
    .bind (.owning (.lift (grows_of_steps (P := []) .resolveEnv)) _) fun _ =>
    .bind (.owning (.lift (grows_of_steps (P := []) .resolveAll)) _) fun _ =>
    .bind .redirectAll fun _ => .bind (.owning (.lift .call) _) fun _ => .close (.pure _ _) _

/-- Without the handles. -/
def bare (r : (Owned × Owned) × List (Child × Bool)) : (Chan × Chan) × List (Child × Bool) := ((r.1.1.2, r.1.2.2), r.2)

theorem Erases.startTail {os : Os} {out err : Owned} {cs : List ExBasic} :
    Erases (Handles.startTail os out err cs) bare (Exec.startTail os out.2 err.2 cs) := by
  induction cs with
  | nil => exact .pure _ _
  | cons c cs ih =>
    refine .bind ih fun r => .bind (.owning (.lift .call) _) fun id => .bind (.owning .basic _) fun child => ?_
    exact .obtains _ fun f => .pure _ _

theorem Erases.handle0 {os : Os} {a : Act} {pos : Pos} {chan : Chan} {k : Owned → HX γ} {g : γ → δ} {y : X δ}
    (hk : ∀ f, Erases (k (f, chan)) g y) : Erases (Handles.newHandle os a pos (fun _ => chan) >>= k) g (call os a pos >>= fun _ => y) := by
  intro tr
  have h := Erases.obtains (os := os) (a := a) (pos := pos) [] hk tr
  rw [h]
  have : Handles.owning [] (Handles.newHandle os a pos (fun _ => chan)) = Handles.newHandle os a pos (fun _ => chan) := by
    funext tr
    unfold Handles.owning
    rcases Handles.newHandle os a pos (fun _ => chan) tr with ⟨e | x, tr1⟩
    · dsimp only; split <;> simp
    · rfl
  rw [this]

theorem Erases.command {os : Os} {out err : Owned} {c : ExCommand} : Erases (Handles.execCommand os out err c) id (Exec.execCommand os out.2 err.2 c) := by
  cases c with
  | builtin b args abort pos => exact .bind (.owning (.lift .builtin) _) fun e => .close (.pure _ _) _
  | external head tail =>
    refine .bind .startTail fun r => .obtains _ fun f => ?_
    exact .bind .basic fun child => .lift .waitAll

theorem Erases.commands {os : Os} {out err : Chan} {cs : List ExCommand} : Erases (Handles.execCommands os out err cs) id (Exec.execCommands os out err cs) := by
  induction cs with
  | nil => exact .pure _ _
  | cons c cs ih =>
    refine .handle0 fun o => .obtains _ fun e => .bind .command fun r => ?_
    change Erases (if r.abort then _ else _) id (if r.abort then _ else _)
    split
    · exact .pure _ _
    · exact .bind ih fun _ => .pure _ _

theorem Erases.block {os : Os} {own : List Fd} {out err : Chan} {b : ExBlock} : Erases (Handles.execBlock os own out err b) id (Exec.execBlock os out err b) := by
  intro tr
  have h := Erases.owning (Erases.commands (os := os) (out := out) (err := err) (cs := b.head :: b.tail)) own tr
  unfold Handles.execBlock Exec.execBlock
  rw [h]
  rcases Handles.owning own (Handles.execCommands os out err (b.head :: b.tail)) tr with ⟨e | r, tr1⟩
  · cases e <;> rfl
  · change (Except.ok r, erase tr1) = (_, erase (tr1 ++ own.map .close))
    rw [erase_append, erase_close, List.append_nil]
    rfl

theorem Erases.received {os : Os} {c : Chan} {pos : Pos} : Erases (Handles.received os c pos) id (Exec.receive os c pos) := by
  intro tr
  have := Erases.lift (x := Exec.receive os c pos) .receive (tr ++ [.receive c])
  rw [erase_append, show erase [HEv.receive c] = [] from rfl, List.append_nil] at this
  exact this

/-- The calls of a block and its value are those of `Model/Exec`. -/
theorem Erases.runBlock {os : Os} {pos : Pos} {b : ExBlock} {kind : Ast.BlockKind} : Erases (Handles.runBlock os pos b kind) id (Exec.runBlock os pos b kind) := by
  cases kind with
  | capture =>
    refine .bind (.lift .call) fun o => .bind (.owning (.lift .call) _) fun e => .thread (.thread ?_ _) _
    exact .bind .block fun ess => .bind .received fun out => .bind .received fun err => .pure _ _
  | synchronous => exact .bind .block fun _ => .pure _ _
  | asynchronous => exact .bind .block fun _ => .pure _ _

end Handles
end Hush

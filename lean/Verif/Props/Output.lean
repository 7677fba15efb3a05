import Verif.Lemmas.Output
import Verif.Props.Shell
import Verif.Props.Main

/-!
Property C75: what a script prints and what its commands write appears in the order of the script.
-/

namespace Hush.Props
open Hush Hush.Spec Hush.Output

theorem pieces_text {w : World} {h : Heap} {v : Value} {ps : List Bytes} (hp : Pieces w h v ps) : PrintedAs w h v ps.flatten := by
  cases hp with
  | string s => simpa using PrintedAs.string s
  | byte b => simpa using PrintedAs.byte b
  | other _ n t _ h1 h2 h3 h4 =>
    refine .other _ _ n (fun hv => ?_) (fun hv => ?_) (h4 ▸ h3)
    · cases v with
      | string s => exact h1 s rfl
      | _ => cases hv
    · cases v with
      | byte b => exact h2 b rfl
      | _ => cases hv

theorem piecesAll_text {w : World} {h : Heap} {vs : List Value} {ps : List Bytes} (hp : PiecesAll w h vs ps) :
    ∃ ts, List.Forall₂ (PrintedAs w h) vs ts ∧ ps.flatten = Tabbed ts := by
  induction hp with
  | none => exact ⟨[], .nil, rfl⟩
  | one h1 => exact ⟨[_], .cons (pieces_text h1) .nil, rfl⟩
  | more h1 _ ih =>
    obtain ⟨ts, g1, g2⟩ := ih
    refine ⟨_ :: ts, .cons (pieces_text h1) g1, ?_⟩
    cases g1 with
    | cons _ _ => simp [Tabbed, g2]

/-- C75: `std.print` prints its arguments with tabs between them, strings and bytes as they are and other values as by `std.to_string`; `std.println` adds a line end. -/
theorem printed_text (w : World) (before : List Event) (args : List Value) (acts : List Act) :
    (Does w before (.native (bs "std.print") args) acts → ∃ h ts, List.Forall₂ (PrintedAs w h) args ts ∧ Printed acts = Tabbed ts) ∧
    (Does w before (.native (bs "std.println") args) acts → ∃ h ts, List.Forall₂ (PrintedAs w h) args ts ∧ Printed acts = Tabbed ts ++ [10]) := by
  refine ⟨fun hd => ?_, fun hd => ?_⟩
  · generalize he : Event.native (bs "std.print") args = e at hd
    cases hd with
    | @print h _ _ hp =>
      injection he with _ he
      subst he
      obtain ⟨ts, h1, h2⟩ := piecesAll_text hp
      exact ⟨h, ts, h1, by simpa [Printed] using h2⟩
    | println => injection he with he _; exact absurd he (by decide +kernel)
    | prompt => injection he with he _; exact absurd he (by decide +kernel)
    | native h1 _ _ => injection he with he _; exact absurd he.symm h1
    | _ => cases he
  · generalize he : Event.native (bs "std.println") args = e at hd
    cases hd with
    | print => injection he with he _; exact absurd he (by decide +kernel)
    | @println h _ _ hp =>
      injection he with _ he
      subst he
      obtain ⟨ts, h1, h2⟩ := piecesAll_text hp
      exact ⟨h, ts, h1, by simp [Printed, h2]⟩
    | prompt => injection he with he _; exact absurd he (by decide +kernel)
    | native _ h1 _ => injection he with he _; exact absurd he.symm h1
    | _ => cases he

/-- C75: of what a script prints, and of what its commands write, nothing is lost, repeated or put in another order, unless the shell is replaced by a program (`exec`,
see `printed_lost_violated`). -/
theorem printed_complete (acts : List Act) (h : ∀ a ∈ acts, ∀ out, a ≠ .replaced out) (b : Bool) :
    (output acts).filter (·.1 == b) = (Sequential acts).filter (·.1 == b) := by
  have : ∀ (acts : List Act) (o : Stdout), (∀ a ∈ acts, ∀ out, a ≠ .replaced out) →
      (acts.foldl Act.step o).total.filter (·.1 == b) = o.total.filter (·.1 == b) ++ (Sequential acts).filter (·.1 == b) := by
    intro acts
    induction acts with
    | nil => intro o _; simp [Sequential]
    | cons a acts ih =>
      intro o h
      rw [List.foldl_cons, ih _ (fun x hx => h x (List.mem_cons_of_mem _ hx)), step_part (h a List.mem_cons_self)]
      simp [Sequential, List.filter_append]
  have h2 := this acts ⟨[], []⟩ h
  rw [output, flush_seen, h2]
  simp [Stdout.total]

/-- C75, partially: if the script is at the beginning of a line whenever commands write something, all appears in the order of the script, and nothing is lost even if the
shell is replaced. -/
theorem output_in_order_partial (acts : List Act)
    (h : ∀ before a after, acts = before ++ a :: after → ByCommands a = true → AtLineStart before) : output acts = Sequential acts := by
  have : ∀ (rest before : List Act), acts = before ++ rest → (before.foldl Act.step ⟨[], []⟩).total = Sequential before →
      (acts.foldl Act.step ⟨[], []⟩).total = Sequential acts := by
    intro rest
    induction rest with
    | nil => intro before e hb; rw [e, List.append_nil]; exact hb
    | cons a rest ih =>
      intro before e hb
      refine ih (before ++ [a]) (by simp [e]) ?_
      rw [List.foldl_append]
      refine (step_total fun hc => line_start (h before a rest e hc)).trans ?_
      rw [hb]
      simp [Sequential]
  rw [output, flush_seen]
  exact this acts [] rfl rfl

-- A line, a command, a question, and another command.
example : ∀ before a after, [Act.write [bs "a", [10]], .command (bs "b\n"), .write [bs "sure? "], .flush, .replaced (bs "c\n")] = before ++ a :: after →
    ByCommands a = true → AtLineStart before := by
  intro before a after e hc
  match before, e with
  | [], e => injection e with e; subst e; cases hc
  | [_], e => injection e with e1 e; subst e1; exact ⟨[], [.write [bs "a", [10]]], rfl, .inl rfl, .inr (by decide)⟩
  | [_, _], e => injection e with _ e; injection e with _ e; injection e with e; subst e; cases hc
  | [_, _, _], e => injection e with _ e; injection e with _ e; injection e with _ e; injection e with e; subst e; cases hc
  | [_, _, _, _], e =>
    injection e with e1 e; injection e with e2 e; injection e with e3 e; injection e with e4 e
    subst e1; subst e2; subst e3; subst e4
    exact ⟨[.write [bs "a", [10]], .command (bs "b\n"), .write [bs "sure? "], .flush], [], rfl, .inr rfl, .inl rfl⟩
  | _ :: _ :: _ :: _ :: _ :: _, e => simp at e

/-- C75: in every execution (of which `es` are the events) without `std.print`, all appears in the order of the script: `std.println` ends lines, and `std.read` flushes the
buffer. -/
theorem lines_in_order (w : World) (es : List Event) (acts : List Act) (hd : DoesAll w [] es acts)
    (h : ∀ args, Event.native (bs "std.print") args ∉ es) : output acts = Sequential acts := by
  have one : ∀ {before e as}, Does w before e as → (∀ args, e ≠ .native (bs "std.print") args) → ∀ o : Stdout, o.pending = [] →
      (as.foldl Act.step o).pending = [] ∧ (as.foldl Act.step o).total = o.total ++ Sequential as := by
    intro before e as hd hp o ho
    have two : ∀ a, ByCommands a = true → (Act.step o a).pending = [] := by
      intro a ha
      cases a with
      | write | flush => cases ha
      | command out => exact ho
      | replaced out => rfl
    have three : ∀ a : Act, (a.step o).total = o.total ++ Sequential [a] := fun a => (step_total fun _ => ho).trans (by simp [Sequential])
    cases hd with
    | print => exact absurd rfl (hp _)
    | @println _ _ ps _ =>
      refine ⟨?_, three (.write (ps ++ [[10]]))⟩
      rcases (writes_spec (ps ++ [[10]]) o [] (.inl ho)).2 with h | ⟨h1, h2⟩
      · exact h
      · exact absurd (h1.trans (by simp)) h2
    | prompt =>
      refine ⟨rfl, ?_⟩
      show (Act.flush.step (Act.step o (.write _))).total = _
      rw [step_total (by simp [ByCommands]), step_total (by simp [ByCommands])]
      simp [Sequential, Adds]
    | @command _ out _ => exact ⟨two (.command out) rfl, three (.command out)⟩
    | @replaced _ _ _ out _ => exact ⟨two (.replaced out) rfl, three (.replaced out)⟩
    | native | silent | join | load | imported => exact ⟨ho, by simp [Sequential]⟩
  have all : ∀ {before es acts}, DoesAll w before es acts → (∀ args, Event.native (bs "std.print") args ∉ es) → ∀ o : Stdout, o.pending = [] →
      (acts.foldl Act.step o).total = o.total ++ Sequential acts := by
    intro before es acts hd
    induction hd with
    | nil => intro _ o _; simp [Sequential]
    | cons h1 _ ih =>
      intro hp o ho
      obtain ⟨g1, g2⟩ := one h1 (fun args e => hp args (e ▸ List.mem_cons_self)) o ho
      rw [List.foldl_append, ih (fun args hm => hp args (List.mem_cons_of_mem _ hm)) _ g1, g2]
      simp [Sequential]
  rw [output, flush_seen, all hd h ⟨[], []⟩ rfl]
  rfl

/-- A world in which library functions return nil, and commands succeed. -/
def quietWorld : World := { shellWorld scriptOs nilWorld with native := fun _ _ _ _ _ => .value .nil }

/-- The block `{ echo b }`. -/
def echoBlock : ExBlock := ⟨.external ⟨.literal (bs "echo"), [], [.literal (bs "b")], [], true, q 17⟩ [], []⟩

/-- The block `{ exec ls }`. -/
def execBlock : ExBlock := ⟨.builtin .exec [.literal (bs "ls")] true (q 17), []⟩

/-- The source `std.print("a") { echo b }`. -/
def printEcho : Bytes := bs "std.print(\"a\") { echo b }"

/-- The source `std.print("a") { exec ls }`. -/
def printExec : Bytes := bs "std.print(\"a\") { exec ls }"

/-- C75 is violated: the script `std.print("a") { echo b }` ends normally, and its output is `b`, a line end, `a`: the text `a` is in the buffer while `echo` writes. -/
theorem output_in_order_violated : ∃ w n s acts, Main.runSource w n false [] (bs "f") printEcho = (.exited 0, some s) ∧ DoesAll w [] s.trace acts ∧
    (Sequential acts).map (·.2) = bs "ab\n" ∧ (output acts).map (·.2) = bs "b\na" := by
  have h1 : (match Main.runSource quietWorld 100 false [] (bs "f") printEcho with
      | (.exited 0, some s) => some s.trace | _ => none) = some [.native (bs "std.print") [.string (bs "a")], .command .synchronous echoBlock] := by decide +kernel
  split at h1
  · rename_i s hs
    injection h1 with h1
    refine ⟨quietWorld, 100, s, [.write [bs "a"]] ++ ([.command (bs "b\n")] ++ []), hs, ?_, by decide +kernel, by decide +kernel⟩
    rw [h1]
    refine .cons (.print (h := s.heap) (.one (.string _))) (.cons (.command fun c hc => ?_) .nil)
    have h2 : (match quietWorld.command [.native (bs "std.print") [.string (bs "a")]] .synchronous echoBlock with
      | .exit _ => true | _ => false) = false := by decide +kernel
    rw [show [] ++ [Event.native (bs "std.print") [Value.string (bs "a")]] = [Event.native (bs "std.print") [Value.string (bs "a")]] from rfl] at hc
    rw [hc] at h2
    cases h2
  · cases h1

/-- C75 is violated: of the script `std.print("a") { exec ls }`, only the output of `ls` appears; the text `a` is lost with the buffer when the shell is replaced. -/
theorem printed_lost_violated : ∃ w n c s acts, Main.runSource w n false [] (bs "f") printExec = (.exited c, some s) ∧ DoesAll w [] s.trace acts ∧
    (Sequential acts).map (·.2) = bs "alisting\n" ∧ (output acts).map (·.2) = bs "listing\n" := by
  have h1 : (match Main.runSource quietWorld 100 false [] (bs "f") printExec with
      | (.exited c, some s) => some (c, s.trace) | _ => none) = some (0, [.native (bs "std.print") [.string (bs "a")], .command .synchronous execBlock]) := by
    decide +kernel
  split at h1
  · rename_i c s hs
    injection h1 with h1
    injection h1 with hc h1
    refine ⟨quietWorld, 100, c, s, [.write [bs "a"]] ++ ([.replaced (bs "listing\n")] ++ []), hs, ?_, by decide +kernel, by decide +kernel⟩
    rw [h1]
    have h2 : (match quietWorld.command [.native (bs "std.print") [.string (bs "a")]] .synchronous execBlock with
      | .exit c => some c | _ => none) = some 0 := by decide +kernel
    split at h2
    · rename_i c' hc'
      exact .cons (.print (h := s.heap) (.one (.string _))) (.cons (.replaced (c := c') hc') .nil)
    · cases h2
  · cases h1

-- With `std.println` the order is kept.
example (h : Heap) (b : ExBlock) (hb : ∀ c, quietWorld.command [.native (bs "std.println") [.string (bs "a"), .byte 66]] .synchronous b ≠ .exit c) :
    DoesAll quietWorld [] [.native (bs "std.println") [.string (bs "a"), .byte 66], .command .synchronous b]
      ([.write ([bs "a"] ++ [9] :: [[66]] ++ [[10]])] ++ ([.command (bs "b\n")] ++ [])) :=
  .cons (.println (h := h) (.more (.string _) (.one (.byte _)))) (.cons (.command hb) .nil)

end Hush.Props

import Verif.Model.Environ
import Verif.Spec.Environ
import Verif.Lemmas.Trace
import Verif.Lemmas.Library
import Verif.Props.Launch
import Verif.Props.Shell

/-!
Property C80: exported variables.
-/

namespace Hush.Props
open Hush Hush.Spec
open Hush.Exec (Os runBlock childVars Launch Act)
open Hush.Spec.Exec (did StartsProgram AsWritten plain)

theorem environ_append (start : Bytes → Option Bytes) (a b : List Event) : environ start (a ++ b) = environ (environ start a) b :=
  List.foldl_append

theorem environ_exported (start : Bytes → Option Bytes) (k v x : Bytes) : environ start [exported k v] x = if x = k then some v else start x := by
  simp [environ, exported, setVariable]

theorem setVariable_other {vars : Bytes → Option Bytes} {e : Event} {k : Bytes} (h : ∀ v, e ≠ exported k v) : setVariable vars e k = vars k := by
  unfold setVariable
  split
  · rename_i name k' v
    rw [if_neg]
    rintro ⟨rfl, rfl⟩
    exact h v rfl
  · rfl

theorem environ_none {start : Bytes → Option Bytes} {evs : List Event} {k : Bytes} (h : NoExport evs k) : environ start evs k = start k := by
  induction evs generalizing start with
  | nil => rfl
  | cons e evs ih =>
    show environ (setVariable start e) evs k = _
    rw [ih fun v hv => h v (List.mem_cons_of_mem _ hv), setVariable_other]
    rintro v rfl
    exact h v List.mem_cons_self

theorem environ_last {start : Bytes → Option Bytes} {evs : List Event} {k v : Bytes} (h : LastExport evs k v) : environ start evs k = some v := by
  obtain ⟨a, b, rfl, hb⟩ := h
  rw [environ_append, show exported k v :: b = [exported k v] ++ b from rfl, environ_append, environ_none hb, environ_exported, if_pos rfl]

theorem lib_export {w : World} {c : LibCall} {h : Heap} : Lib.call w (bs "std.export") c h = Lib.export_ w c h := lib_call rfl

/-- Only accepted calls of `std.export` are recorded. -/
theorem allowed_legal (w : World) : Allowed w fun e => ∀ k v, e = exported k v → LegalName k ∧ LegalText v := by
  constructor
  · nofun
  · nofun
  · nofun
  · nofun
  · intro name c h hn k v he
    simp only [exported, Event.native.injEq] at he
    obtain ⟨rfl, he⟩ := he
    rw [lib_export] at hn
    unfold Lib.export_ at hn
    rw [he] at hn
    simp only [LibCall.crash] at hn
    split at hn
    · cases hn
    · split at hn
      · cases hn
      · split at hn
        · cases hn
        · simp_all [LegalName, LegalText, cEq]

/-- C80: whatever a script does, a variable of the environment has the text of the last `std.export` with its name; without such a call it is
not changed. No name or text is set that the operating system would not allow. -/
theorem variables_changed_by_export (start : Bytes → Option Bytes) {w : World} {t : Task} {s s' : RState} {r : Except Stop Out} (h : Ends w t s r s') :
    ∃ evs, s'.trace = s.trace ++ evs ∧ (∀ k v, LastExport evs k v → environ start s'.trace k = some v) ∧
      (∀ k, NoExport evs k → environ start s'.trace k = environ start s.trace k) ∧
      ∀ k v, exported k v ∈ evs → LegalName k ∧ LegalText v := by
  obtain ⟨_, n, hn⟩ := h
  obtain ⟨evs, he, hl⟩ := mtells_run (allowed_legal w) n t s
  rw [hn] at he
  refine ⟨evs, he, fun k v hk => ?_, fun k hk => ?_, fun k v hk => hl _ hk k v rfl⟩
  · rw [he, environ_append, environ_last hk]
  · rw [he, environ_append, environ_none hk]

/-- A library function that the world answers. -/
theorem ends_native {w : World} {name : Bytes} {m obj addr start pos} {s : RState} {t : Tree} (hname : ¬ Hush.Special name) (hs : start ≤ s.args.length)
    (hc : ∀ n, Lib.call w name ⟨n, addr, s.args.drop start, pos, s.argv⟩ s.heap = none)
    (hr : w.native s.trace name (s.heap.native addr) (s.args.drop start) s.heap = .value t) :
    Ends w (.call m obj (.native name addr) start pos) s (done (t.build (s.args.drop start) s.heap).1 pos)
      { s with args := s.args.take start, trace := s.trace ++ [.native name (s.args.drop start)],
               heap := (t.build (s.args.drop start) s.heap).2 } := by
  refine ⟨nofun, 1, ?_⟩
  simp only [Hush.Special, not_or] at hname
  show stepCall w 0 (run w 0) m obj (.native name addr) start pos s = _
  unfold stepCall
  rw [if_neg (take_length_le hs)]
  simp only [Bind.bind, M.andThen, finally_, nativeCall, M.get]
  rw [if_neg hname.1, if_neg hname.2.1, if_neg hname.2.2.1, if_neg hname.2.2.2]
  simp only [callLib, hc 0, Bind.bind, M.andThen, record, M.modify, hr, answer, M.alloc]
  rfl

/-- C80: `std.export` of a legal name and text gives nil; the variable has the text then, and all others are as before. -/
theorem export_sets {vars : Bytes → Option Bytes} {w : World} (hw : KeepsVariables vars w) {m : Nat} {obj : Value} {addr start : Nat} {pos : Pos}
    {s : RState} {k v : Bytes} (hs : start ≤ s.args.length) (ha : s.args.drop start = [.string k, .string v]) (hk : LegalName k) (hv : LegalText v) :
    ∃ s', Ends w (.call m obj (.native (bs "std.export") addr) start pos) s (done .nil pos) s' ∧ s'.heap = s.heap ∧ s'.stack = s.stack ∧
      ∀ x, environ vars s'.trace x = if x = k then some v else environ vars s.trace x := by
  obtain ⟨h1, h2, h3⟩ := hk
  have hc : ∀ n, Lib.call w (bs "std.export") ⟨n, addr, s.args.drop start, pos, s.argv⟩ s.heap = none := fun n => by
    rw [lib_export]
    unfold Lib.export_
    simp only [LegalText] at hv
    rw [ha]
    simp [cEq, h1, h2, h3, hv]
  have he := ends_native (m := m) (obj := obj) (t := .nil) (by decide) hs hc (by rw [ha]; exact hw.set _ _ _ _ _)
  refine ⟨_, he, rfl, rfl, fun x => ?_⟩
  show environ vars (s.trace ++ [_]) x = _
  rw [ha, environ_append]
  exact environ_exported _ _ _ _

/-- C80: `std.env` gives the text of the variable, or nil, and changes none. -/
theorem env_reads {vars : Bytes → Option Bytes} {w : World} (hw : KeepsVariables vars w) {m : Nat} {obj : Value} {addr start : Nat} {pos : Pos}
    {s : RState} {k : Bytes} (hs : start ≤ s.args.length) (ha : s.args.drop start = [.string k]) (hk : LegalName k) :
    ∃ s', Ends w (.call m obj (.native (bs "std.env") addr) start pos) s
        (done (match environ vars s.trace k with
          | some v => .string v
          | none => .nil) pos) s' ∧ s'.heap = s.heap ∧ s'.stack = s.stack ∧ environ vars s'.trace = environ vars s.trace := by
  have hc : ∀ n, Lib.call w (bs "std.env") ⟨n, addr, s.args.drop start, pos, s.argv⟩ s.heap = none := fun n => by
    rw [lib_call (f := Lib.text1) rfl]
    unfold Lib.text1
    rw [ha]
  have he := ends_native (m := m) (obj := obj) (by decide) hs hc (by rw [ha]; exact hw.get _ _ _ _ hk.2.1)
  rw [ha] at he
  have hh : environ vars (s.trace ++ [.native (bs "std.env") [.string k]]) = environ vars s.trace := by
    rw [environ_append]
    rfl
  revert he
  cases environ vars s.trace k with
  | none => exact fun he => ⟨_, he, rfl, rfl, hh⟩
  | some v => exact fun he => ⟨_, he, rfl, rfl, hh⟩

/-- C80: a name with `=` or a null byte, and a text with a null byte, is refused with an error value. Missing: the empty name, which is not
allowed either (see `export_empty_violated`). -/
theorem export_refuses_partial (w : World) (h : Heap) (k v : Bytes) :
    ((61 ∈ k ∨ 0 ∈ k) → Calls w (bs "std.export") [.string k, .string v] h
      (.ok (.error (bs "invalid export key") h.contexts.length)) { h with contexts := h.contexts ++ [.string k] }) ∧
    (61 ∉ k ∧ 0 ∉ k ∧ 0 ∈ v → Calls w (bs "std.export") [.string k, .string v] h
      (.ok (.error (bs "invalid export value") h.contexts.length)) { h with contexts := h.contexts ++ [.string v] }) := by
  refine ⟨fun hk => ?_, fun ⟨h1, h2, h3⟩ => ?_⟩
  · refine calls_ok 0 (by decide) fun addr pos argv => ?_
    rw [lib_export]
    simp [Lib.export_, cEq, hk, Heap.newError]
  · refine calls_ok 0 (by decide) fun addr pos argv => ?_
    rw [lib_export]
    simp [Lib.export_, cEq, h1, h2, h3, Heap.newError]

/-- C80 is violated: the empty name is not refused; the interpreter aborts (`std::env::set_var` is a Rust panic for it). -/
theorem export_empty_violated (w : World) (v : Bytes) (hv : LegalText v) {m : Nat} {obj : Value} {addr start : Nat} {pos : Pos}
    {s : RState} (hs : start ≤ s.args.length) (ha : s.args.drop start = [.string [], .string v]) :
    ∃ s', Ends w (.call m obj (.native (bs "std.export") addr) start pos) s (.error (.crash .native)) s' := by
  refine ⟨_, nofun, 1, run_libpanic (by decide) hs ?_⟩
  rw [lib_export, ha]
  simp only [LegalText] at hv
  simp [Lib.export_, hv, LibCall.crash]

/-- C80: the programs started by a block of a script see the exported variables: one that is not assigned by a command of the block has the text
of the last `std.export` before the block, or what it was for the shell at the beginning. Missing: asynchronous blocks. -/
theorem exports_reach_programs_partial (vars : Bytes → Option Bytes) {os : List Event → Os} {w : World} {m : Nat} {tail : Option Nat} {b : Prog.CommandBlock}
    {pos : Pos} {s s' : RState} {r : Except Stop Out} (hk : b.kind ≠ .asynchronous) (h : Ends w (.expr m tail (.command b pos)) s r s')
    {n : Nat} {a : Act} {l : Launch} (hn : (history os s.trace).length ≤ n) (hl : (history os s'.trace)[n]? = some (did a))
    (ha : a = .spawn l ∨ a = .exec l) :
    ∃ ex, buildBlock (argEnv w s) b.head b.tail = .ok ex ∧
      ∀ k, (∀ first rest, .external first rest ∈ ex.head :: ex.tail → ∀ c ∈ first :: rest, ∀ x, (k, x) ∉ c.env) →
        (∀ v, LastExport s.trace k v → childVars (environ vars s.trace) l.env k = some v) ∧
        (NoExport s.trace k → childVars (environ vars s.trace) l.env k = vars k) := by
  have key : ∀ ex, buildBlock (argEnv w s) b.head b.tail = .ok ex → s'.trace = s.trace ++ [.command b.kind ex] →
      ∀ k, (∀ first rest, .external first rest ∈ ex.head :: ex.tail → ∀ c ∈ first :: rest, ∀ x, (k, x) ∉ c.env) →
        childVars (environ vars s.trace) l.env k = environ vars s.trace k := by
    intro ex _ ht k hfree
    have hs : history os s'.trace = (runBlock (os s.trace) noPos ex b.kind (history os s.trace)).2 := by
      rw [ht, history_snoc]
      cases hb : b.kind with
      | asynchronous => exact absurd hb hk
      | _ => rfl
    rw [hs] at hl
    have hst : StartsProgram a := by rcases ha with rfl | rfl <;> exact trivial
    obtain ⟨c, hc, hw⟩ := programs_as_written (Prod.ext rfl rfl) hn hl hst
    cases hw with
    | part hm hstart =>
      rcases ha with ha | ha <;> cases ha
      exact variables_inherited hstart _ fun x => hfree _ _ hc _ hm x
    | spawn0 _ => rcases ha with ha | ha <;> cases ha; rfl
    | exec _ => rcases ha with ha | ha <;> cases ha; rfl
    | exec0 _ => rcases ha with ha | ha <;> cases ha; rfl
  rcases ends_command hk h with ⟨e, _, _, rfl⟩ | ⟨ex, he, ho⟩
  · have := List.getElem?_eq_none hn
    rw [this] at hl
    cases hl
  · unfold BlockOutcome at ho
    split at ho <;> obtain ⟨_, rfl⟩ := ho <;>
      exact ⟨ex, he, fun k hfree => ⟨fun v hv => (key ex he rfl k hfree).trans (environ_last hv),
        fun hv => (key ex he rfl k hfree).trans (environ_none hv)⟩⟩

/-- C80: `~` in a command is the directory named by the last export of `HOME`. -/
theorem home_exported {vars : Bytes → Option Bytes} {w : World} (hw : KeepsVariables vars w) {s : RState} {v d : Bytes} (pos : Pos)
    (h : LastExport s.trace (bs "HOME") v) (hd : HomeDir (some v) d) : buildArgument (argEnv w s) ⟨[.home], pos⟩ = .ok [.literal d] := by
  have : (argEnv w s).home = some v := (hw.home s.trace).trans (environ_last h)
  exact texts_build (ws := [d]) ⟨[[d]], by simp, by simp, .cons (.home (by rw [this]; exact hd)) .nil, by simp [combos]⟩

/-! ### Examples -/

/-- A world that keeps variables. -/
def variableWorld (vars : Bytes → Option Bytes) (w : World) : World :=
  { w with
    native := fun evs name st args h =>
      if name = bs "std.export" then .value .nil
      else match name == bs "std.env", args with
        | true, [.string k] => .value (match environ vars evs k with
          | some v => .string v
          | none => .nil)
        | _, _ => w.native evs name st args h
    home := fun evs => environ vars evs (bs "HOME") }

-- Every world can keep variables.
example (vars : Bytes → Option Bytes) (w : World) : KeepsVariables vars (variableWorld vars w) where
  set _ _ _ _ _ := rfl
  get _ _ _ _ _ := rfl
  home _ := rfl

/-- The variables at the beginning. -/
def firstVars : Bytes → Option Bytes := fun k => if k = bs "HOME" then some (bs "/root") else none

/-- A script. -/
def exportScript : Bytes :=
  bs "std.export(\"A\", \"x\") std.export(\"A\", \"z\") std.export(\"HOME\", \"/h\") let v = [std.env(\"A\"), std.env(\"C\")] { B=q prog $v ~/f }"

/-- The state at the end of a script. -/
def scriptEnd (w : World) (n : Nat) (src : Bytes) : Option RState :=
  match syntaxAnalysis src with
  | some a =>
    match analyze a.ast with
    | .ok p => if a.isOk then some (runProgram w n p [] []).2 else none
    | _ => none
  | none => none

set_option maxRecDepth 100000 in
/-- The events, and the process with its arguments `z`, nothing, and `/h/f`. -/
example : (scriptEnd (variableWorld firstVars (shellWorld scriptOs nilWorld)) 30 exportScript).map
      (fun s => (s.trace.take 3, [bs "A", bs "C", bs "HOME"].map (environ firstVars s.trace), (history scriptOs s.trace)[3]?)) =
    some ([exported (bs "A") (bs "x"), exported (bs "A") (bs "z"), exported (bs "HOME") (bs "/h")], [some (bs "z"), none, some (bs "/h")],
      some (did (.spawn ⟨bs "prog", none, [bs "z", [], bs "/h/f"], [(bs "B", bs "q")], .stdin, .stdout, .stderr⟩))) := by
  decide +kernel

-- `export_sets` and `env_reads` for the name `A`.
example : LegalName (bs "A") ∧ LegalText (bs "x=y") ∧ ¬ LegalName (bs "A=") ∧ LastExport [exported (bs "A") (bs "x"), exported (bs "A") (bs "z"), exported (bs "B") []]
    (bs "A") (bs "z") ∧ NoExport [exported (bs "B") []] (bs "A") := by
  refine ⟨by unfold LegalName; decide, by unfold LegalText; decide, by unfold LegalName; decide, ⟨[exported (bs "A") (bs "x")], [exported (bs "B") []], rfl, fun v' => ?_⟩, fun v => ?_⟩ <;>
    simp [exported, show bs "A" ≠ bs "B" by decide]

end Hush.Props

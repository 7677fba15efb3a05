import Verif.Lemmas.PlacesParse
import Verif.Lemmas.PlacesRun
import Verif.Lemmas.PlacesExec
import Verif.Props.Shell

/-!
Property C72: errors point at places in the sources that are executed.
-/

namespace Hush.Props
open Hush Hush.Spec
open Hush.Exec (Os runBlock execBlock replyOf)

/-! ### Errors of the analyses -/

/-- C72: a lexical error is at a byte of the text, or at its end. -/
theorem lexical_errors_placed (src : Bytes) (e : LexError) (h : .error e ∈ (lex src).outputs) : InText src e.pos :=
  lex_in src _ h

example : (lex (bs "x = 5\n  y ^ 2")).outputs = [.ok ⟨.identifier (bs "x"), ⟨1, 0⟩⟩, .ok ⟨.operator .assign, ⟨1, 2⟩⟩,
    .ok ⟨.literal (.int 5), ⟨1, 4⟩⟩, .ok ⟨.identifier (bs "y"), ⟨2, 2⟩⟩, .error ⟨.unexpected (bs "^").head!, ⟨2, 4⟩⟩,
    .ok ⟨.literal (.int 2), ⟨2, 6⟩⟩] := by decide +kernel

/-- C72: tokens, and the variables inside tokens, are at bytes of the text. -/
theorem marks_in_text (src : Bytes) (p : Pos) (h : Mark src p) : InText src p := mark_in h

theorem mark_of {src : Bytes} {p : Pos}
    (h : (match lex src with | .done outs => outs.any (fun o => match o with | .ok t => (tokenMarks t).contains p | .error _ => false) | _ => false) = true) :
    Mark src p := by
  split at h
  · rename_i outs hl
    obtain ⟨o, ho, h1⟩ := List.any_eq_true.1 h
    cases o with
    | ok t => exact ⟨outs, t, hl, ho, List.contains_iff_mem.1 h1⟩
    | error e => cases h1
  · cases h

example : Mark (bs "{ echo a$x }") (q 8) := mark_of (by decide +kernel)

/-- C72: the lexical errors of the analysis of a text are in the text; a syntax error about an unexpected token is about a token of the text, which
is at its place; one about an empty command block is at a token of the text. (That the text ends too early has no position.) -/
theorem syntax_errors_placed (src : Bytes) (a : SyntaxAnalysis) (h : syntaxAnalysis src = some a) :
    (∀ e ∈ a.lexErrors, InText src e.pos) ∧
    (∀ t x, .unexpected t x ∈ a.parseErrors → .ok t ∈ (lex src).outputs ∧ InText src t.pos) ∧
    ∀ p, .emptyCommandBlock p ∈ a.parseErrors → Mark src p ∧ InText src p := by
  obtain ⟨-, h1, h2⟩ := syntax_places h
  have hm : ∀ outs t, lex src = .done outs → t ∈ outs.filterMap okToken → .ok t ∈ outs := by
    intro outs t _ ht
    obtain ⟨o, ho, h1⟩ := List.mem_filterMap.1 ht
    cases o with
    | ok u => injection h1 with h1; exact h1 ▸ ho
    | error e => cases h1
  refine ⟨h1, fun t x ht => ?_, fun p hp => ?_⟩
  · obtain ⟨outs, hl, h3⟩ := h2 _ ht
    have h4 := hm outs t hl h3
    exact ⟨by rw [hl]; exact h4, mark_in ⟨outs, t, hl, h4, List.mem_cons_self ..⟩⟩
  · obtain ⟨outs, hl, t, h3, rfl⟩ := h2 _ hp
    have : Mark src t.pos := ⟨outs, t, hl, hm outs t hl h3, List.mem_cons_self ..⟩
    exact ⟨this, mark_in this⟩

example : (syntaxAnalysis (bs "let 1\nlet x = { }")).map (·.parseErrors) =
    some [.unexpected ⟨.literal (.int 1), q 4⟩ (.msg "identifier"), .emptyCommandBlock ⟨2, 10⟩] := by decide +kernel

/-- C72, partially: a semantic error of a text without syntax errors is at a token of the text (or a variable inside a token). If there are syntax errors, the
semantic errors reported in addition may also be at 0:0; see `semantic_errors_placed_violated`. -/
theorem semantic_errors_placed_partial (src : Bytes) (a : SyntaxAnalysis) (h : syntaxAnalysis src = some a) (es : List SemError)
    (he : analyze a.ast = .errors es) : ∀ e ∈ es, (Mark src e.pos ∧ InText src e.pos) ∨ (a.isOk = false ∧ e.pos = ⟨0, 0⟩) := by
  intro e hm
  cases ho : a.isOk with
  | true =>
    have := (analyze_places (inAst_accepts h ho)).2 es he e hm
    exact .inl ⟨this, mark_in this⟩
  | false =>
    rcases (analyze_places (syntax_places h).1).2 es he e hm with h1 | h1
    · exact .inl ⟨h1, mark_in h1⟩
    · exact .inr ⟨rfl, h1⟩

set_option maxRecDepth 100000 in
example : (syntaxAnalysis (bs "let x = 1\nx = { echo $y }")).bind (fun a => match analyze a.ast with | .errors es => some (a.isOk, es) | _ => none) =
    some (true, [⟨.undeclaredVariable (bs "y"), ⟨2, 11⟩⟩]) := by decide +kernel

/-- C72 is violated: for `let 1 let 2`, besides the syntax errors, a duplicate variable is reported at 0:0, which is no place in the text (lines are counted
from 1). Both missing identifiers are declared as the same variable (src/semantic/mod.rs:113-121; `for` tests for this, 181-191). -/
theorem semantic_errors_placed_violated : ∃ src a es e, syntaxAnalysis src = some a ∧ analyze a.ast = .errors es ∧ e ∈ es ∧
    e.kind = .duplicateVariable [] ∧ ¬ InText src e.pos := by
  have h : ((syntaxAnalysis (bs "let 1 let 2")).bind fun a => match analyze a.ast with | .errors es => some es | _ => none) =
      some [⟨.duplicateVariable [], ⟨0, 0⟩⟩] := by decide +kernel
  cases ha : syntaxAnalysis (bs "let 1 let 2") with
  | none => rw [ha] at h; cases h
  | some a =>
    rw [ha] at h
    simp only [Option.bind_some] at h
    split at h
    · rename_i es he
      injection h with h
      refine ⟨_, a, es, ⟨.duplicateVariable [], ⟨0, 0⟩⟩, ha, he, by rw [h]; exact List.mem_singleton.2 rfl, rfl, ?_⟩
      rintro ⟨k, -, hk⟩
      have := congrArg Pos.line hk
      simp only [lineCol] at this
      omega
    · cases h

/-! ### Panics -/

/-- C72: the panic that ends the execution of a script is at a token of the script or of a module that was loaded (or a variable inside such a token), unless it comes
from a command or a library function that is not modelled, or the variables of a whole file do not fit on the stack (which is reported for the file). -/
theorem panics_placed (src : Bytes) (p : Program) (h : Accepts src p) (w : World) (n : Nat) (argv : List Bytes) (file : Sym) (panic : Panic)
    (hr : (runProgram w n p argv file).1 = .error (.panic panic)) :
    (∃ text, TextOf w src (runProgram w n p argv file).2.trace text ∧ Mark text panic.pos ∧ InText text panic.pos) ∨
      FromOutside w (runProgram w n p argv file).2.trace panic ∨ panic = ⟨.stackOverflow, ⟨0, 0⟩⟩ := by
  rcases (program_places h n argv file).2 panic hr with ⟨text, h1, h2⟩ | h1 | h1
  · exact .inl ⟨text, h1, h2, mark_in h2⟩
  · exact .inr (.inl h1)
  · exact .inr (.inr h1)

-- The module `m` is `nil()`: the panic is in it.
set_option maxRecDepth 100000 in
example : Accepts (bs "std.import(\"m\")") importProgram ∧
    (∃ k, (runProgram nilWorld 20 importProgram [] []).1 = .error (.panic ⟨k, q 0⟩)) ∧
    TextOf nilWorld (bs "std.import(\"m\")") (runProgram nilWorld 20 importProgram [] []).2.trace (bs "nil()") ∧ Mark (bs "nil()") (q 0) :=
  ⟨accepts_of (by decide +kernel), ⟨.invalidCall .nil, by decide +kernel⟩,
    .module (pre := []) (path := bs "m") (post := []) (by decide +kernel) rfl, mark_of (by decide +kernel)⟩

/-! ### Command blocks -/

/-- C72: the positions that go with the commands executed by a script (for their errors and panics) are at tokens of the script or of a module that was loaded. -/
theorem commands_placed (src : Bytes) (p : Program) (h : Accepts src p) (w : World) (n : Nat) (argv : List Bytes) (file : Sym) (kind : Ast.BlockKind)
    (b : ExBlock) (hb : .command kind b ∈ (runProgram w n p argv file).2.trace) : ∀ q ∈ blockMarks b,
    ∃ text, TextOf w src (runProgram w n p argv file).2.trace text ∧ Mark text q ∧ InText text q := by
  intro q hq
  obtain ⟨text, h1, h2⟩ := (program_places h n argv file).1.commands kind b hb q hq
  exact ⟨text, h1, h2, mark_in h2⟩

/-- C72: the errors reported by a command block are at its commands, and so are its panics. -/
theorem failures_placed (os : Os) (out err : Exec.Chan) (b : ExBlock) (t : List Exec.Ev) :
    (∀ ess t', execBlock os out err b t = (.ok ess, t') → ∀ es ∈ ess, ∀ e ∈ es, e.pos ∈ blockMarks b) ∧
      ∀ panic t', execBlock os out err b t = (.error (.panic panic), t') → panic.pos ∈ blockMarks b := by
  have := Exec.xat_block (P := (· ∈ blockMarks b)) (os := os) (out := out) (err := err) (b := b) (fun _ h => h) t
  exact ⟨fun ess t' h => by rw [h] at this; exact this, fun panic t' h => by rw [h] at this; exact this⟩

/-- `{ true | false }` and `{ true > *.txt }`, with no such file. -/
def placesBlock : ExBlock := ⟨.external ⟨.literal (bs "true"), [], [], [], true, q 2⟩ [⟨.literal (bs "false"), [], [], [], true, q 9⟩], []⟩
/-- See `placesBlock`. -/
def placesBlock' : ExBlock := ⟨.external ⟨.literal (bs "true"), [], [], [.output 1 (.overwrite (.pattern (bs "*.txt")))], true, q 2⟩ [], []⟩

example : (execBlock (scriptOs []) .stdout .stderr placesBlock []).1 = .ok [[⟨bs "command returned non-zero", 1, q 9⟩]] ∧
    (execBlock (scriptOs []) .stdout .stderr placesBlock' []).1 = .error (.panic ⟨.invalidCommandArgs (bs "redirection") 0, q 2⟩) := by
  decide +kernel

/-- C72: if the world executes blocks on an operating system, and a block of the script panics, then at a token of the script or of a module that was loaded. For a capture
block, unless its pipes fail. -/
theorem block_panics_placed (src : Bytes) (p : Program) (h : Accepts src p) (os : List Event → Os) (w : World) (hw : Shell os w) (n : Nat) (argv : List Bytes)
    (file : Sym) (kind : Ast.BlockKind) (hk : kind ≠ .asynchronous) (b : ExBlock) (pre post : List Event)
    (ht : (runProgram w n p argv file).2.trace = pre ++ .command kind b :: post) (hb : ¬ Blocks (os pre) b kind (history os pre)) (panic : Panic)
    (hp : w.command pre kind b = .panic panic) :
    (∃ text, TextOf w src (runProgram w n p argv file).2.trace text ∧ Mark text panic.pos ∧ InText text panic.pos) ∨
      (kind = .capture ∧ ∃ msg, panic.kind = .io msg) := by
  obtain ⟨pos, hr⟩ := hw pre kind b hk
  have hm : .command kind b ∈ (runProgram w n p argv file).2.trace := by rw [ht]; exact List.mem_append_right _ (List.mem_cons_self ..)
  have h1 : ∀ q, (runBlock (os pre) pos b kind (history os pre)).1 = .error (.panic q) → q.pos ∈ blockMarks b :=
    fun q => Exec.xpan_runBlock (P := (· ∈ blockMarks b)) (fun _ h => h) _ q
  have h2 : kind ≠ .capture → ∀ msg p, (runBlock (os pre) pos b kind (history os pre)).1 ≠ .error (.io msg p) :=
    fun hk msg p => Exec.runBlock_no_io hk
  have hb' : (runBlock (os pre) pos b kind (history os pre)).1 ≠ .error .hang := by
    intro hh
    have := (runBlock_pos (os pre) pos noPos b kind (history os pre)).2
    rw [hh] at this
    generalize hx : (runBlock (os pre) noPos b kind (history os pre)).1 = x at this
    cases this
    exact hb hx
  revert hr h1 h2 hb'
  generalize runBlock (os pre) pos b kind (history os pre) = r
  obtain ⟨r, t⟩ := r
  intro hr h1 h2 hb'
  cases r with
  | ok v => rw [hr (.value v) rfl] at hp; cases hp
  | error e =>
    cases e with
    | io msg q =>
      rw [hr (.panic ⟨.io msg, q⟩) rfl] at hp
      cases hp
      cases kind with
      | capture => exact .inr ⟨rfl, msg, rfl⟩
      | synchronous => exact absurd rfl (h2 nofun msg q)
      | asynchronous => exact absurd rfl hk
    | panic q =>
      rw [hr (.panic q) rfl] at hp
      cases hp
      exact .inl (commands_placed src p h w n argv file kind b hm _ (h1 _ rfl))
    | hang => exact absurd rfl hb'
    | replaced => rw [hr (.exit ((os pre).replaced t)) rfl] at hp; cases hp
    | todo => rw [hr .crash rfl] at hp; cases hp

/-- `{ true > *.txt }`. -/
def globProgram : Program :=
  ⟨[.expr (.command ⟨.synchronous, .external ⟨⟨[.unit (.literal (bs "true"))], q 2⟩, [], [],
    [.output 1 (.overwrite ⟨[.star, .unit (.literal (bs ".txt"))], q 9⟩)], true, q 2⟩ [], []⟩ (q 0))], 1⟩

theorem globBlock_run : ¬ Blocks (scriptOs []) placesBlock' .synchronous (history scriptOs []) ∧
    (shellWorld scriptOs nilWorld).command [] .synchronous placesBlock' = .panic ⟨.invalidCommandArgs (bs "redirection") 0, q 2⟩ := by
  have h : (match (runBlock (scriptOs []) noPos placesBlock' .synchronous (history scriptOs [])).1 with
    | .error e => some e | .ok _ => none) = some (.panic ⟨.invalidCommandArgs (bs "redirection") 0, q 2⟩) := by decide +kernel
  unfold Blocks
  simp only [shellWorld]
  revert h
  generalize runBlock (scriptOs []) noPos placesBlock' .synchronous (history scriptOs []) = r
  obtain ⟨r, t⟩ := r
  intro h
  cases r with
  | ok v => cases h
  | error e =>
    injection h with h
    subst h
    exact ⟨nofun, rfl⟩

-- The block panics, since no file is named so.
set_option maxRecDepth 100000 in
example : Accepts (bs "{ true > *.txt }") globProgram ∧
    (runProgram (shellWorld scriptOs nilWorld) 20 globProgram [] []).1 = .error (.panic ⟨.invalidCommandArgs (bs "redirection") 0, q 2⟩) ∧
    (runProgram (shellWorld scriptOs nilWorld) 20 globProgram [] []).2.trace = [] ++ .command .synchronous placesBlock' :: [] ∧
    (shellWorld scriptOs nilWorld).command [] .synchronous placesBlock' = .panic ⟨.invalidCommandArgs (bs "redirection") 0, q 2⟩ ∧
    ¬ Blocks (scriptOs []) placesBlock' .synchronous (history scriptOs []) :=
  ⟨accepts_of (by decide +kernel), by decide +kernel, by decide +kernel, globBlock_run.2, globBlock_run.1⟩

end Hush.Props

import Verif.Spec.Main
import Verif.Lemmas.Loops
import Verif.Props.Interp
import Verif.Props.Lexer
import Verif.Lemmas.Joins
import Verif.Props.Parser

/-!
Properties C43 and C51: what the process runs, and how it ends.
-/

namespace Hush.Props
open Hush Hush.Spec
open Hush.Main (Start Clap Ending)

/-- The script is what the command line says. -/
theorem parseArgs_script (os : Start) (check lex ast program : Bool) (arguments : List Bytes) :
    ∃ path argv, Main.parseArgs os (.matches_ check lex ast program arguments) =
        some (.run ⟨path, check, lex, ast, program, argv⟩) ∧
      Script os arguments (match path with | some p => os.readFile p | none => os.stdin) argv (path.getD (bs "<stdin>")) := by
  cases arguments with
  | nil => exact ⟨none, [], rfl, .none⟩
  | cons a rest =>
    by_cases h1 : a = bs "-"
    · subst h1
      exact ⟨none, rest, by simp [Main.parseArgs], .dash⟩
    · by_cases h2 : os.isFile a = true
      · exact ⟨some a, rest, by simp [Main.parseArgs, h1, h2], .file h1 h2⟩
      · exact ⟨none, a :: rest, by simp [Main.parseArgs, h1, h2], .other h1 (by simpa using h2)⟩

theorem script_unique {os : Start} {args : List Bytes} {s s' : Except Bytes Bytes} {v v' : List Bytes} {f f' : Bytes}
    (h : Script os args s v f) (h' : Script os args s' v' f') : s = s' ∧ v = v' ∧ f = f' := by
  cases h with
  | file h1 h2 =>
    cases h' with
    | file => exact ⟨rfl, rfl, rfl⟩
    | dash => exact absurd rfl h1
    | other h3 h4 => rw [h2] at h4; cases h4
  | dash =>
    cases h' with
    | file h1 h2 => exact absurd rfl h1
    | dash => exact ⟨rfl, rfl, rfl⟩
    | other h1 h2 => exact absurd rfl h1
  | none => cases h'; exact ⟨rfl, rfl, rfl⟩
  | other h1 h2 =>
    cases h' with
    | file h3 h4 => rw [h2] at h4; cases h4
    | dash => exact absurd rfl h1
    | other => exact ⟨rfl, rfl, rfl⟩

/-- The process, given the script. -/
theorem main_script {w : World} {n : Nat} {os : Start} {check lex ast program : Bool} {arguments : List Bytes}
    {source : Except Bytes Bytes} {argv : List Bytes} {file : Bytes} (h : Script os arguments source argv file) :
    Main.main w n os (.matches_ check lex ast program arguments) =
      match (generalizing := false) source with
      | .error _ => (.exited 127, none)
      | .ok src => Main.runSource w n check argv file src := by
  obtain ⟨path, argv', h1, h2⟩ := parseArgs_script os check lex ast program arguments
  obtain ⟨rfl, rfl, rfl⟩ := script_unique h h2
  simp only [Main.main, h1, Main.runMain]
  rfl

/-- The lexer does not abort on the source. -/
def Lexes (src : Bytes) : Prop := ∀ os, lex src ≠ .crash os

theorem analysis_of_lexes {src : Bytes} (h : Lexes src) : ∃ a, syntaxAnalysis src = some a := by
  unfold syntaxAnalysis
  cases hl : lex src with
  | done os =>
    obtain ⟨b, es, hp⟩ := parser_terminates (os.filterMap okToken)
    simp only [hp]
    exact ⟨_, rfl⟩
  | crash os => exact absurd hl (h os)
  | timeout => exact absurd hl (lexer_terminates src).1

/-- The way a run of the script ends. -/
def endingOf : Except Stop Out → Ending
  | .ok _ => .exited 0
  | .error (.panic _) => .exited 127
  | .error (.exit k) => .exited k
  | .error (.crash _) => .crashed
  | .error .timeout => .running

theorem runSource_accepted {w : World} {n : Nat} {check : Bool} {argv : List Bytes} {file src : Bytes} {p : Program} (h : Spec.Accepts src p) :
    Main.runSource w n check argv file src =
      if check then (.exited 0, none)
      else (endingOf (runProgram w n p argv file).1, some (runProgram w n p argv file).2) := by
  obtain ⟨a, h1, h2, h3⟩ := h
  simp only [Main.runSource, h1, h3, h2]
  cases check with
  | true => rfl
  | false =>
    simp only [Bool.not_true, Bool.false_eq_true, if_false]
    rcases runProgram w n p argv file with ⟨e | o, s⟩
    · cases e <;> rfl
    · rfl

theorem runSource_rejected {w : World} {n : Nat} {check : Bool} {argv : List Bytes} {file src : Bytes} (h : ∀ p, ¬ Spec.Accepts src p) :
    (Main.runSource w n check argv file src).2 = none ∧
      (Lexes src → Main.runSource w n check argv file src = (.exited 2, none)) ∧
      (¬ Lexes src → Main.runSource w n check argv file src = (.crashed, none)) := by
  unfold Main.runSource
  cases ha : syntaxAnalysis src with
  | none =>
    refine ⟨rfl, fun hl => ?_, fun _ => rfl⟩
    obtain ⟨a, ha'⟩ := analysis_of_lexes hl
    rw [ha] at ha'; cases ha'
  | some a =>
    have hl : Lexes src := by
      intro os hos
      simp [syntaxAnalysis, hos] at ha
    dsimp only
    cases hp : analyze a.ast with
    | crash => exact absurd hp (analysis_total _)
    | errors es => exact ⟨rfl, fun _ => rfl, fun hn => absurd hl hn⟩
    | ok p =>
      have hok : a.isOk = false := by
        cases hx : a.isOk with
        | false => rfl
        | true => exact absurd (⟨a, ha, hx, hp⟩ : Spec.Accepts src p) (h p)
      simp only [hok]
      exact ⟨rfl, fun _ => rfl, fun hn => absurd hl hn⟩

/-- C43 and C51: something is executed if and only if there are no options that ask for help, for the version or only for checks, and the
script could be read and passed the static checks without any error; what is executed is then the script, with the arguments that follow
it on the command line. -/
theorem executed_iff_checked (w : World) (n : Nat) (os : Start) (c : Clap) (s : RState) :
    (Main.main w n os c).2 = some s ↔
    ∃ lex ast program arguments src argv file p, c = .matches_ false lex ast program arguments ∧
      Script os arguments (.ok src) argv file ∧ Spec.Accepts src p ∧ s = (runProgram w n p argv file).2 := by
  constructor
  · intro h
    cases c with
    | help => simp [Main.main, Main.parseArgs] at h
    | version => simp [Main.main, Main.parseArgs] at h
    | error => simp [Main.main, Main.parseArgs] at h
    | matches_ check lex ast program arguments =>
      obtain ⟨path, argv, -, h2⟩ := parseArgs_script os check lex ast program arguments
      rw [main_script h2] at h
      generalize (match path with | some p => os.readFile p | none => os.stdin) = source at h h2
      cases source with
      | error e => simp at h
      | ok src =>
        dsimp only at h
        by_cases hp : ∃ p, Spec.Accepts src p
        · obtain ⟨p, hp⟩ := hp
          rw [runSource_accepted hp] at h
          cases check with
          | true => simp at h
          | false => exact ⟨lex, ast, program, arguments, src, argv, _, p, rfl, h2, hp, by simpa using h.symm⟩
        · rw [(runSource_rejected fun p hp' => hp ⟨p, hp'⟩).1] at h
          cases h
  · rintro ⟨lex, ast, program, arguments, src, argv, file, p, rfl, h2, hp, rfl⟩
    rw [main_script h2]
    show (Main.runSource w n false argv file src).2 = _
    rw [runSource_accepted hp]
    rfl

/-- C43, the exit code in all cases: 1 for bad arguments; 0 when help or the version is asked for; 127 when the script cannot be read; 2 when
it does not pass the static checks; 0 when it does and only that is asked for; otherwise 0 after a normal run, 127 after a panic, and
any other code only from a call of `std.exit`.
Missing from C43: the process has no such exit code when the lexer aborts, or when the interpreter does; see `exit_code_violated`. -/
theorem exit_code_partial (w : World) (n : Nat) (os : Start) (check lex ast program : Bool) (arguments : List Bytes)
    (source : Except Bytes Bytes) (argv : List Bytes) (file : Bytes) (hs : Script os arguments source argv file) :
    Main.main w n os .error = (.exited 1, none) ∧
    Main.main w n os .help = (.exited 0, none) ∧
    Main.main w n os .version = (.exited 0, none) ∧
    (∀ e, source = .error e → Main.main w n os (.matches_ check lex ast program arguments) = (.exited 127, none)) ∧
    ∀ src, source = .ok src →
      ((∀ p, ¬ Spec.Accepts src p) → Lexes src → Main.main w n os (.matches_ check lex ast program arguments) = (.exited 2, none)) ∧
      ∀ p, Spec.Accepts src p →
        Main.main w n os (.matches_ true lex ast program arguments) = (.exited 0, none) ∧
        Main.main w n os (.matches_ false lex ast program arguments) =
          (endingOf (runProgram w n p argv file).1, some (runProgram w n p argv file).2) := by
  refine ⟨rfl, rfl, rfl, ?_, ?_⟩
  · rintro e rfl
    rw [main_script hs]
  · rintro src rfl
    refine ⟨fun h1 h2 => ?_, fun p hp => ⟨?_, ?_⟩⟩
    · rw [main_script hs]; exact (runSource_rejected h1).2.1 h2
    · rw [main_script hs]; exact runSource_accepted hp
    · rw [main_script hs]; exact runSource_accepted hp

/-- A system with one file. -/
def oneFile (src : Bytes) : Start where
  isFile p := p == bs "f"
  readFile _ := .ok src
  stdin := .error []

/-- C43 is violated: for the script `{ ls [ab]* }` the process ends by a Rust panic, even if only checks are asked for. -/
theorem exit_code_violated : Script (oneFile (bs "{ ls [ab]* }")) [bs "f"] (.ok (bs "{ ls [ab]* }")) [] (bs "f") ∧
    ∀ w n, Main.main w n (oneFile (bs "{ ls [ab]* }")) (.matches_ true false false false [bs "f"]) = (.crashed, none) := by
  have hs : Script (oneFile (bs "{ ls [ab]* }")) [bs "f"] (.ok (bs "{ ls [ab]* }")) [] (bs "f") :=
    .file (by decide) (by decide)
  refine ⟨hs, fun w n => ?_⟩
  rw [main_script hs]
  have hl : ∃ os, lex (bs "{ ls [ab]* }") = .crash os := ⟨_, rfl⟩
  obtain ⟨os, hl⟩ := hl
  show Main.runSource w n true [] (bs "f") (bs "{ ls [ab]* }") = _
  simp [Main.runSource, syntaxAnalysis, hl]

set_option maxRecDepth 100000 in
-- A script that is accepted, and one that is rejected.
example : Script (oneFile (bs "let x = 5")) [bs "f", bs "-v"] (.ok (bs "let x = 5")) [bs "-v"] (bs "f") ∧
    Spec.Accepts (bs "let x = 5") ⟨[.assign (.ident 1 (q 4)) (.lit (.int 5) (q 8))], 2⟩ :=
  ⟨.file (by decide) (by decide), accepts_of (by decide +kernel)⟩
example : (∀ p, ¬ Spec.Accepts (bs "x") p) ∧ Lexes (bs "x") := by
  refine ⟨?_, fun os h => ?_⟩
  · rintro p ⟨a, h1, h2, h3⟩
    have h4 : syntaxAnalysis (bs "x") = some ⟨[.expr (.ident (bs "x") (q 0))], [], []⟩ := rfl
    rw [h4] at h1
    cases h1
    have h5 : ∃ es, analyze [.expr (.ident (bs "x") (q 0))] = .errors es := ⟨_, rfl⟩
    obtain ⟨es, h5⟩ := h5
    rw [h5] at h3
    cases h3
  · have h1 : ∃ os, lex (bs "x") = .done os := ⟨_, rfl⟩
    obtain ⟨os', h1⟩ := h1
    rw [h1] at h
    cases h

/-! ### C51 -/

/-- C51: at the start of the script, `std.args()` returns an array that contains exactly the arguments of the script. -/
theorem script_arguments (w : World) (n m : Nat) (argv : List Bytes) (file : Sym) (obj : Value) (pos : Pos) :
    ∃ a, run w (n + 1) (.call m obj (.native (bs "std.args") 0) 0 pos) (RState.init argv file) =
        (.ok ⟨.regular (.array a), pos, .nil⟩, RState.init argv file) ∧
      (RState.init argv file).heap.array a = argv.map .string :=
  ⟨0, rfl, rfl⟩

/-- C51: at any time during the execution, `std.args()` returns the same array, and changes nothing. -/
theorem same_arguments (w : World) (src : Bytes) (k n m start : Nat) (obj : Value) (pos : Pos) (s : RState)
    (hp : Performed w src k (.call m obj (.native (bs "std.args") 0) start pos) s) (hn : s.args.length = start) :
    run w (n + 1) (.call m obj (.native (bs "std.args") 0) start pos) s = (.ok ⟨.regular (.array 0), pos, .nil⟩, s) := by
  have h1 := performed_given hp
  have h2 : Lib.call w (bs "std.args") ⟨n, 0, s.args.drop start, pos, s.argv⟩ s.heap = some (.ok (.array 0, s.heap)) := by
    subst hn
    rw [List.drop_length, h1.1]
    rfl
  rw [run_libcall (by decide) (by omega) h2]
  subst hn
  rw [List.take_length]
  rfl

/-- The start of the script `std.args()`. -/
def argsStart : RState := { RState.init [] [] with stack := [.regular (.dict 3)] }

set_option maxRecDepth 100000 in
-- A script that reaches the call.
example : Performed nilWorld (bs "std.args()") 16 (.call 0 (.dict 3) (.native (bs "std.args") 0) 0 (q 8)) argsStart ∧
    argsStart.args.length = 0 := by
  refine ⟨⟨⟨[.expr (.call (.access (.ident 0 (q 0)) (.lit (.ident (bs "args")) (q 4)) (q 3)) [] (q 8))], 1⟩, [], [], 20,
    accepts_of (by decide +kernel), ?_⟩, rfl⟩
  refine .sub (starts_program (s1 := { RState.init [] [] with stack := [.regular .nil] }) (s2 := argsStart) rfl rfl) ?_
  refine .sub starts_last (.sub starts_stmtExpr ?_)
  have h : run nilWorld 16 (.expr 0 none (.access (.ident 0 (q 0)) (.lit (.ident (bs "args")) (q 4)) (q 3))) argsStart =
    (.ok ⟨.regular (.function (.native (bs "std.args") 0)), q 3, .dict 3⟩, argsStart) := by rfl
  exact .sub (starts_call (s1 := argsStart) (s2 := argsStart) (s3 := argsStart) (o2 := ⟨.regular .nil, noPos, .nil⟩) (v2 := .nil)
    h rfl rfl rfl rfl) (.self _ _ _)

end Hush.Props

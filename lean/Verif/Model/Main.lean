import Verif.Model.Interp

/-!
The command line and the exit code: src/args.rs and src/main.rs. What is printed is not modelled.
-/

namespace Hush.Main
open Hush

/-- What clap makes of the command line, src/args.rs:36-52 and 88-97 (clap itself is not modelled): the flags and the positional
arguments, a request for help or the version, or an error. -/
inductive Clap where
  | matches_ (check lex ast program : Bool) (arguments : List Bytes)
  | help
  | version
  | error
deriving DecidableEq

/-- `Args`, src/args.rs:14-28. -/
structure Args where
  scriptPath : Option Bytes
  check : Bool
  printLexemes : Bool
  printAst : Bool
  printProgram : Bool
  scriptArgs : List Bytes
deriving DecidableEq

/-- `Command`, src/args.rs:6-11. -/
inductive Command where
  | help
  | version
  | run (args : Args)
deriving DecidableEq

/-- What the process sees of the system when it starts: which paths are files (`Path::is_file`), and the contents of a file or of
standard input (`File::open`, `read_to_end`), or an error. (Read by src/main.rs:64-186.) -/
structure Start where
  isFile : Bytes → Bool
  readFile : Bytes → Except Bytes Bytes
  stdin : Except Bytes Bytes

/-- `parse`, src/args.rs:31-99; `none` is an error. -/
def parseArgs (os : Start) : Clap → Option Command
  | .matches_ check lex ast program arguments =>
    let r : Option Bytes × List Bytes :=
      match arguments with
      | [] => (none, [])
      | a :: rest =>
        if a = bs "-" then (none, rest)
        else if os.isFile a then (some a, rest)
        else (none, a :: rest)
    some (.run ⟨r.1, check, lex, ast, program, r.2⟩)
  | .help => some .help
  | .version => some .version
  | .error => none

/-- `ExitStatus`, src/main.rs:22-28. -/
inductive ExitStatus where
  | success
  | invalidArgs
  | staticError
  | panic
deriving DecidableEq

/-- `From<ExitStatus> for i32`, src/main.rs:31-40. -/
def ExitStatus.code : ExitStatus → Nat
  | .success => 0
  | .invalidArgs => 1
  | .staticError => 2
  | .panic => 127

/-- How the process ends: with a code, by a Rust panic, or not at all (within the budget). (src/main.rs:23-61.) -/
inductive Ending where
  | exited (code : Nat)
  | crashed
  | running
deriving DecidableEq

/-- The outcome of the process, and the final state of the interpreter if the script was executed. (src/main.rs:43-186.) -/
abbrev Outcome := Ending × Option RState

/-- `run`, src/main.rs:96-192, after the source has been read; its result ends the process (61). The reports and dumps (82-87,
100-108, 110-126, 128-139, 144-152, 156-166) are not modelled. `std.exit` ends the process from within the script. -/
def runSource (w : World) (n : Nat) (check : Bool) (argv : List Bytes) (path src : Bytes) : Outcome :=
  match syntaxAnalysis src with
  | none => (.crashed, none)
  | some a =>
    match analyze a.ast with
    | .crash => (.crashed, none)
    | .errors _ => (.exited ExitStatus.staticError.code, none)
    | .ok p =>
      if !a.isOk then (.exited ExitStatus.staticError.code, none)
      else if check then (.exited ExitStatus.success.code, none)
      else
        match runProgram w n p argv path with
        | (.ok _, s) => (.exited ExitStatus.success.code, some s)
        | (.error (.panic _), s) => (.exited ExitStatus.panic.code, some s)
        | (.error (.exit c), s) => (.exited c, some s)
        | (.error (.crash _), s) => (.crashed, some s)
        | (.error .timeout, s) => (.running, some s)

/-- `run`, src/main.rs:64-192. -/
def runMain (w : World) (n : Nat) (os : Start) (args : Args) : Outcome :=
  let path := args.scriptPath.getD (bs "<stdin>")
  let source := match args.scriptPath with
    | some p => os.readFile p
    | none => os.stdin
  match source with
  | .error _ => (.exited ExitStatus.panic.code, none)
  | .ok src => runSource w n args.check args.scriptArgs path src

/-- `main`, src/main.rs:43-62. -/
def main (w : World) (n : Nat) (os : Start) (c : Clap) : Outcome :=
  match parseArgs os c with
  | none => (.exited ExitStatus.invalidArgs.code, none)
  | some (.run args) => runMain w n os args
  | some .help => (.exited ExitStatus.success.code, none)
  | some .version => (.exited ExitStatus.success.code, none)

end Hush.Main

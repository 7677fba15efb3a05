import Verif.Model.Glob
import Verif.Model.World

/-!
Execution of command blocks: src/runtime/command/exec/mod.rs, exec/error.rs and the `exec` part of
`Runtime::eval_command_block`, src/runtime/command/mod.rs:25-146.

What the operating system does is a parameter (`Os`); all that is asked of it is recorded, in order, in a trace. Handles
(pipes, files, child processes) are named by the position in the trace of the call that made them. Not modelled: the
closing of handles (see `Model/Handles`), the contents of files, and the environment inherited by children.
-/

namespace Hush
namespace Exec

/-- An open channel that can be the standard input, output or error of a process.
(The files and pipes of `Stdio`, src/runtime/command/exec/mod.rs:254-258.) -/
inductive Chan where
  /-- Standard input, output and error of the shell. -/
  | stdin | stdout | stderr
  /-- The write ends of the two pipes of a capture block, src/runtime/command/mod.rs:51-55. -/
  | captureOut | captureErr
  /-- The ends of the pipe made by the given call. -/
  | reader (id : Nat)
  | writer (id : Nat)
  /-- The file opened by the given call. -/
  | file (id : Nat)
deriving DecidableEq, Repr

/-- How a process ended: `ExitStatus` with a code, with a signal or with neither, or an error of `wait`.
(Seen by src/runtime/command/exec/mod.rs:36-71.) -/
inductive Ended where
  | code (n : Nat)
  | signal (n : Nat)
  | neither
  | error (msg : Bytes)
deriving DecidableEq, Repr

/-- What is handed to the operating system to start a process (`process::Command`). `arg0` is the name of the program as
seen by the process if it differs, `env` the additional environment variables. (Made by src/runtime/command/exec/mod.rs:315-379.) -/
structure Launch where
  program : Bytes
  arg0 : Option Bytes
  args : List Bytes
  env : List (Bytes × Bytes)
  stdin : Chan
  stdout : Chan
  stderr : Chan
deriving DecidableEq, Repr

/-- A call to the operating system. (Made by src/runtime/command/exec/mod.rs and src/runtime/command/mod.rs.) -/
inductive Act where
  /-- `glob::glob`. -/
  | glob (pattern : Bytes)
  /-- `os_pipe::dup_stdin`, `dup_stdout`, `dup_stderr`. -/
  | dup (fd : Nat)
  /-- `PipeWriter::try_clone`. -/
  | clone (c : Chan)
  /-- `os_pipe::pipe`. -/
  | pipe
  /-- `File::open`. -/
  | openRead (path : Bytes)
  /-- `OpenOptions::open`, appending or truncating. -/
  | openWrite (path : Bytes) (append : Bool)
  /-- `write_all` to the pipe made by the given call. -/
  | write (id : Nat) (data : Bytes)
  /-- `process::Command::spawn`. -/
  | spawn (l : Launch)
  /-- `process::Child::wait`. -/
  | wait (id : Nat) (r : Ended)
  /-- `std::env::set_current_dir`. -/
  | chdir (path : Bytes)
  /-- `CommandExt::exec`. -/
  | exec (l : Launch)
deriving DecidableEq, Repr

/-- A call and whether it succeeded. (For src/runtime/command/exec/mod.rs.) -/
structure Ev where
  act : Act
  ok : Bool
deriving DecidableEq, Repr

/-- The operating system. Answers may depend on all that happened before. (Environment of src/runtime/command/exec/mod.rs.) -/
structure Os where
  /-- `none` if the call succeeds, otherwise the text of the error. For `exec`, `none` means that the process is replaced. -/
  fails : List Ev → Act → Option Bytes
  /-- How the process started by the given call ends. -/
  ended : List Ev → Nat → Ended
  /-- The paths matching a pattern, without those that could not be read. `none` is a `PatternError`. -/
  glob : List Ev → Bytes → Option (List Bytes)
  /-- How many bytes fit into a pipe. -/
  capacity : Nat
  /-- What the reader of a capture pipe receives until all writers are closed. -/
  received : List Ev → Chan → Except Bytes Bytes
  /-- The exit code of the program replacing the shell. -/
  replaced : List Ev → Nat
  /-- `Display for SourcePos`, src/runtime/source.rs:75-87 (positions in the model have no path). -/
  posText : Pos → Bytes

/-- Why the execution of a command stops: `Error::Io` and `Error::Panic` (src/runtime/command/exec/error.rs:129-136),
blocking forever, replacement of the process by another program, or a Rust panic (`todo!()`). -/
inductive XStop where
  | io (msg : Bytes) (pos : Pos)
  | panic (p : Panic)
  | hang
  | replaced
  | todo
deriving DecidableEq, Repr

/-- Computations making calls to the operating system. (Helper of src/runtime/command/exec/mod.rs:254-629.) -/
def X (α : Type) : Type := List Ev → Except XStop α × List Ev

/-- A value, without a call. (Helper of src/runtime/command/exec/mod.rs:254-629.) -/
def X.pure (a : α) : X α := fun t => (.ok a, t)

/-- The `?` operator. (Helper of src/runtime/command/exec/mod.rs:254-629.) -/
def X.bind (m : X α) (f : α → X β) : X β := fun t =>
  match m t with
  | (.ok a, t) => f a t
  | (.error e, t) => (.error e, t)

/-- Notation only: the operator `?` of Rust; not part of src/. -/
instance : Monad X where
  pure := X.pure
  bind := X.bind

/-- Stop. (Helper of src/runtime/command/exec/mod.rs:254-629.) -/
def X.stop (e : XStop) : X α := fun t => (.error e, t)

/-- Stop with `exec::Panic`. (src/runtime/command/exec/error.rs:15-33.) -/
def X.panic (k : PanicKind) (pos : Pos) : X α := X.stop (.panic ⟨k, pos⟩)

/-- Make a call that may fail with `Error::Io`; the result is the name of the handle it makes.
(`Error`, src/runtime/command/exec/error.rs:130-136.) -/
def call (os : Os) (a : Act) (pos : Pos) : X Nat := fun t =>
  match os.fails t a with
  | none => (.ok t.length, t ++ [⟨a, true⟩])
  | some msg => (.error (.io msg pos), t ++ [⟨a, false⟩])

/-- `ErrorStatus`, src/runtime/command/exec/mod.rs:26-31. -/
structure ErrorStatus where
  description : Bytes
  status : Nat
  pos : Pos
deriving DecidableEq, Repr

/-- `IO_ERROR_STATUS`, src/runtime/command/exec/mod.rs:19-20. -/
def ioErrorStatus : Nat := 0x7F

/-- `SIGNAL_STATUS_OFFSET`, src/runtime/command/exec/mod.rs:21-22. -/
def signalStatusOffset : Nat := 0xFF

/-- `ErrorStatus::wait_child` on the result of `wait`, src/runtime/command/exec/mod.rs:37-70. -/
def statusOf (pos : Pos) : Ended → Option ErrorStatus
  | .error msg => some ⟨msg, ioErrorStatus, pos⟩
  | e =>
    let code := match e with
      | .code n => n
      | .signal n => n + signalStatusOffset
      | _ => 255
    if code = 0 then none else some ⟨bs "command returned non-zero", code, pos⟩

/-- `Child`, src/runtime/command/exec/mod.rs:427-431. -/
structure Child where
  id : Nat
  pos : Pos
deriving DecidableEq, Repr

/-- `ErrorStatus::wait_child`, src/runtime/command/exec/mod.rs:36-71. -/
def waitChild (os : Os) (c : Child) : X (Option ErrorStatus) := fun t =>
  let r := os.ended t c.id
  (.ok (statusOf c.pos r), t ++ [⟨.wait c.id r, true⟩])

/-- `Argument::resolve`, src/runtime/command/exec/mod.rs:86-116. -/
def resolve (os : Os) (a : ExArg) (pos : Pos) : X (List Bytes) := fun t =>
  match a with
  | .literal s => (.ok [s], t)
  | .pattern p =>
    match Glob.chars p with
    | none => (.error (.panic ⟨.invalidPattern p, pos⟩), t)
    | some _ =>
      match os.glob t p with
      | none => (.error (.panic ⟨.invalidPattern p, pos⟩), t ++ [⟨.glob p, false⟩])
      | some paths =>
        let paths := if p.head? = some cSlash then paths else paths.map (fun f => bs "./" ++ f)
        (.ok paths, t ++ [⟨.glob p, true⟩])

/-- Resolve an argument that must expand to a single literal, src/runtime/command/exec/mod.rs:283-290, 293-303, 334-341,
383-398. -/
def resolveOne (os : Os) (object : Bytes) (a : ExArg) (pos : Pos) : X Bytes := do
  let l ← resolve os a pos
  match l with
  | [s] => pure s
  | l => X.panic (.invalidCommandArgs object l.length) pos

/-- Resolve arguments in order and concatenate the results: `Builtin::resolve_args`,
src/runtime/command/exec/mod.rs:222-236, and src/runtime/command/exec/mod.rs:304-310. -/
def resolveAll (os : Os) (pos : Pos) : List ExArg → X (List Bytes)
  | [] => pure []
  | a :: as => do
    let l ← resolve os a pos
    let ls ← resolveAll os pos as
    pure (l ++ ls)

/-- The environment variables, src/runtime/command/exec/mod.rs:292-302. -/
def resolveEnv (os : Os) (pos : Pos) : List (Bytes × ExArg) → X (List (Bytes × Bytes))
  | [] => pure []
  | (k, a) :: es => do
    let v ← resolveOne os (bs "env variable") a pos
    let vs ← resolveEnv os pos es
    pure ((k, v) :: vs)

/-- A process started without redirections inherits the channels of the shell. (src/runtime/command/exec/mod.rs:315-379.) -/
def launchPlain (program : Bytes) (arg0 : Option Bytes) (args : List Bytes) : Launch :=
  ⟨program, arg0, args, [], .stdin, .stdout, .stderr⟩

/-- `command.exec()`, src/runtime/command/exec/mod.rs:213-215: it only returns if it fails. -/
def replaceBy (os : Os) (l : Launch) (pos : Pos) : X α := do
  let _ ← call os (.exec l) pos
  X.stop .replaced

/-- `command.spawn()` and `wait_child`, src/runtime/command/exec/mod.rs:207-211. -/
def spawnWait (os : Os) (l : Launch) (pos : Pos) : X (Option ErrorStatus) := do
  let id ← call os (.spawn l) pos
  waitChild os ⟨id, pos⟩

/-- `Builtin::exec`, src/runtime/command/exec/mod.rs:162-220. -/
def execBuiltin (os : Os) (b : Prog.Builtin) (args : List ExArg) (pos : Pos) : X (Option ErrorStatus) := do
  let args ← resolveAll os pos args
  match b with
  | .alias => X.stop .todo
  | .cd =>
    match args with
    | [] => X.panic (.invalidCommandArgs (bs "argument") 0) pos
    | [dir] => do
      let _ ← call os (.chdir dir) pos
      pure none
    | args => X.panic (.invalidCommandArgs (bs "argument") args.length) pos
  | .exec =>
    match args with
    | [] => X.panic (.invalidCommandArgs (bs "argument") 0) pos
    | cmd :: args => replaceBy os (launchPlain cmd none args) pos
  | .exec0 =>
    match args with
    | [] => X.panic (.invalidCommandArgs (bs "argument") 0) pos
    | [_] => X.panic (.invalidCommandArgs (bs "arg0") 0) pos
    | cmd :: arg0 :: args => replaceBy os (launchPlain cmd (some arg0) args) pos
  | .spawn0 =>
    match args with
    | [] => X.panic (.invalidCommandArgs (bs "argument") 0) pos
    | [_] => X.panic (.invalidCommandArgs (bs "arg0") 0) pos
    | cmd :: arg0 :: args => spawnWait os (launchPlain cmd (some arg0) args) pos

/-- `Stdio`, src/runtime/command/exec/mod.rs:253-258. -/
structure Stdio where
  stdin : Chan
  stdout : Chan
  stderr : Chan
deriving DecidableEq, Repr

/-- The closure `open`, src/runtime/command/exec/mod.rs:383-405. -/
def openFile (os : Os) (a : ExArg) (append : Bool) (pos : Pos) : X Chan := do
  let path ← resolveOne os (bs "redirection") a pos
  let id ← call os (.openWrite path append) pos
  pure (.file id)

/-- `BasicCommand::resolve_target`, src/runtime/command/exec/mod.rs:382-423. A clone is the same channel. -/
def resolveTarget (os : Os) (t : ExTarget) (stdio : Stdio) (pos : Pos) : X Chan :=
  match t with
  | .overwrite a => openFile os a false pos
  | .append a => openFile os a true pos
  | .fd n =>
    if n = 1 then do
      let _ ← call os (.clone stdio.stdout) pos
      pure stdio.stdout
    else if n = 2 then do
      let _ ← call os (.clone stdio.stderr) pos
      pure stdio.stderr
    else X.panic (.unsupportedFd n) pos

/-- `write_all` to a pipe that nobody reads and that already holds some bytes: it blocks forever if they do not fit.
(For src/runtime/command/exec/mod.rs:382-424.) -/
def writePipe (os : Os) (id : Nat) (held : Nat) (data : Bytes) (pos : Pos) : X Unit :=
  if held + data.length ≤ os.capacity then do
    let _ ← call os (.write id data) pos
    pure ()
  else X.stop .hang

/-- The standard input of a redirection, src/runtime/command/exec/mod.rs:333-365. The text of a here-string is written to a
new pipe before the process is started. -/
def resolveInput (os : Os) (literal : Bool) (a : ExArg) (pos : Pos) : X Chan := do
  let source ← resolveOne os (bs "redirection") a pos
  if literal then do
    let id ← call os .pipe pos
    writePipe os id 0 source pos
    writePipe os id source.length [cNL] pos
    pure (.reader id)
  else do
    let id ← call os (.openRead source) pos
    pure (.file id)

/-- One redirection, src/runtime/command/exec/mod.rs:321-368. -/
def redirect (os : Os) (r : ExRedirection) (stdio : Stdio) (pos : Pos) : X Stdio :=
  match r with
  | .output source target => do
    let c ← resolveTarget os target stdio pos
    if source = 1 then pure { stdio with stdout := c }
    else if source = 2 then pure { stdio with stderr := c }
    else X.panic (.unsupportedFd source) pos
  | .input literal a => do
    let c ← resolveInput os literal a pos
    pure { stdio with stdin := c }

/-- The loop over the redirections, src/runtime/command/exec/mod.rs:321-368. -/
def redirectAll (os : Os) (pos : Pos) : List ExRedirection → Stdio → X Stdio
  | [], stdio => pure stdio
  | r :: rs, stdio => do
    let stdio ← redirect os r stdio pos
    redirectAll os pos rs stdio

/-- `BasicCommand::exec` and `BasicCommand::spawn`, src/runtime/command/exec/mod.rs:280-379. -/
def execBasic (os : Os) (c : ExBasic) (stdio : Stdio) : X Child := do
  let program ← resolveOne os (bs "program") c.program c.pos
  let env ← resolveEnv os c.pos c.env
  let args ← resolveAll os c.pos c.arguments
  let stdio ← redirectAll os c.pos c.redirections stdio
  let id ← call os (.spawn ⟨program, none, args, env, stdio.stdin, stdio.stdout, stdio.stderr⟩) c.pos
  pure ⟨id, c.pos⟩

/-- `CommandExec`, src/runtime/command/exec/mod.rs:434-438. -/
structure CommandExec where
  errors : List ErrorStatus
  abort : Bool
deriving DecidableEq, Repr

/-- The loop starting the commands after the first from the last to the second, src/runtime/command/exec/mod.rs:486-510.
The list holds the commands in source order, so the last is started by the innermost call; the result is the standard
output and error for the command before them, and the children with their flags in source order. -/
def startTail (os : Os) (out err : Chan) : List ExBasic → X ((Chan × Chan) × List (Child × Bool))
  | [] => pure ((out, err), [])
  | c :: cs => do
    let r ← startTail os out err cs
    let id ← call os .pipe c.pos
    let child ← execBasic os c ⟨.reader id, r.1.1, r.1.2⟩
    let _ ← call os (.dup 2) child.pos
    pure ((.writer id, .stderr), (child, c.abortOnError) :: r.2)

/-- Wait for children in order, src/runtime/command/exec/mod.rs:525-540: the errors and whether one of them aborts. -/
def waitAll (os : Os) : List (Child × Bool) → X CommandExec
  | [] => pure ⟨[], false⟩
  | (c, abortOnError) :: cs => do
    let e ← waitChild os c
    let r ← waitAll os cs
    match e with
    | none => pure r
    | some e => pure ⟨e :: r.errors, abortOnError || r.abort⟩

/-- `Command::exec`, src/runtime/command/exec/mod.rs:465-546. -/
def execCommand (os : Os) (out err : Chan) : ExCommand → X CommandExec
  | .builtin b args abortOnError pos => do
    let e ← execBuiltin os b args pos
    pure ⟨e.toList, abortOnError && e.isSome⟩
  | .external head tail => do
    let r ← startTail os out err tail
    let _ ← call os (.dup 0) head.pos
    let child ← execBasic os head ⟨.stdin, r.1.1, r.1.2⟩
    waitAll os ((child, head.abortOnError) :: r.2)

/-- `Command::pos`, src/runtime/command/exec/mod.rs:548-553. -/
def commandPos : ExCommand → Pos
  | .builtin _ _ _ pos => pos
  | .external head _ => head.pos

/-- The closures producing the standard output and error of each command: `dup_stdout` and `dup_stderr`
(src/runtime/command/mod.rs:36-37, 128-129), or clones of the write ends of the capture pipes
(src/runtime/command/mod.rs:72-73). -/
def obtain : Chan → Act
  | .stdout => .dup 1
  | .stderr => .dup 2
  | c => .clone c

/-- The commands of `Block::_exec`, src/runtime/command/exec/mod.rs:587-629: the code for the first command and the loop
over the others do the same. -/
def execCommands (os : Os) (out err : Chan) : List ExCommand → X (List (List ErrorStatus))
  | [] => pure []
  | c :: cs => do
    let _ ← call os (obtain out) (commandPos c)
    let _ ← call os (obtain err) (commandPos c)
    let r ← execCommand os out err c
    let now := if r.errors.isEmpty then [] else [r.errors]
    if r.abort then pure now
    else do
      let later ← execCommands os out err cs
      pure (now ++ later)

/-- `Block::exec`, src/runtime/command/exec/mod.rs:566-584. -/
def execBlock (os : Os) (out err : Chan) (b : ExBlock) : X (List (List ErrorStatus)) := fun t =>
  match execCommands os out err (b.head :: b.tail) t with
  | (.error (.io msg pos), t) => (.ok [[⟨msg, ioErrorStatus, pos⟩]], t)
  | r => r

/-- `IntoValue for ErrorStatus`, src/runtime/command/exec/error.rs:107-126. -/
def statusValue (os : Os) (e : ErrorStatus) : Tree :=
  .error e.description (.dict [(.string (bs "status"), .int e.status), (.string (bs "pos"), .string (os.posText e.pos))])

/-- No error, the only error, or an error with an array of them: the common part of the two functions below.
(src/runtime/command/exec/error.rs:164-212.) -/
def combine (description : Bytes) : List Tree → Tree
  | [] => .nil
  | [t] => t
  | ts => .error description (.array ts)

/-- `IntoValue for PipelineErrors`, src/runtime/command/exec/error.rs:164-187. -/
def pipelineValue (os : Os) (es : List ErrorStatus) : Tree :=
  combine (bs "Some commands failed in the pipeline") (es.map (statusValue os))

/-- `IntoValue for Box<[PipelineErrors]>`, src/runtime/command/exec/error.rs:189-212. -/
def blockValue (os : Os) (ess : List (List ErrorStatus)) : Tree :=
  combine (bs "Some commands failed in the block") (ess.map (pipelineValue os))

/-- The reply of the outside, if there is one: `none` is blocking forever. (For src/runtime/command/mod.rs:25-146.) -/
def replyOf (os : Os) : Except XStop Tree × List Ev → Option Reply
  | (.ok t, _) => some (.value t)
  | (.error (.io msg pos), _) => some (.panic ⟨.io msg, pos⟩)
  | (.error (.panic p), _) => some (.panic p)
  | (.error .hang, _) => none
  | (.error .replaced, t) => some (.exit (os.replaced t))
  | (.error .todo, _) => some .crash

/-- Read what was captured, src/runtime/command/mod.rs:79-92. -/
def receive (os : Os) (c : Chan) (pos : Pos) : X Bytes := fun t =>
  match os.received t c with
  | .ok data => (.ok data, t)
  | .error msg => (.error (.io msg pos), t)

/-- The value of a capture block, src/runtime/command/mod.rs:94-120. -/
def captureValue (out err : Bytes) : Tree → Tree
  | .error d ctx =>
    .error d (.dict [(.string (bs "stdout"), .string out), (.string (bs "stderr"), .string err), (.string (bs "error"), ctx)])
  | _ => .dict [(.string (bs "stdout"), .string out), (.string (bs "stderr"), .string err)]

/-- `Runtime::eval_command_block`, src/runtime/command/mod.rs:25-146, without building the arguments and making the value
of an asynchronous block: synchronous blocks (lines 33-41; the thread of an asynchronous block does the same, lines
126-131, and `Join::call`, src/runtime/command/exec/join.rs:37-54, makes the value) and capture blocks (lines 43-121). -/
def runBlock (os : Os) (pos : Pos) (b : ExBlock) : Ast.BlockKind → X Tree
  | .capture => do
    let _ ← call os .pipe pos
    let _ ← call os .pipe pos
    let ess ← execBlock os .captureOut .captureErr b
    let out ← receive os .captureOut pos
    let err ← receive os .captureErr pos
    pure (captureValue out err (blockValue os ess))
  | _ => do
    let ess ← execBlock os .stdout .stderr b
    pure (blockValue os ess)

end Exec
end Hush

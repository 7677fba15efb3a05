import Verif.Model.Exec

/-!
Execution of command blocks with the ownership of handles: the same functions of src/runtime/command/exec/mod.rs and src/runtime/command/mod.rs as in
`Model/Exec`, with an event for every handle (pipe end, file, duplicate) that the shell closes because the value that owns it is dropped. The calls to the
operating system are those of `Model/Exec`.

Handles are closed on exec (`os_pipe` and `std` set `O_CLOEXEC`), so a process has only its three standard handles. Handles used inside one library call
(`glob`, `Command::spawn`) are not modelled. The order of the closings at the end of a scope is not that of the code.
-/

namespace Hush
namespace Handles
open Hush.Exec

/-- A handle of the shell, named by the call that made it; the two ends of a pipe are told apart by `write`. Other calls make the handle with `write = false`.
(Bookkeeping for the handles of src/runtime/command/exec/mod.rs:254-629 and src/runtime/command/mod.rs:50-142.) -/
structure Fd where
  id : Nat
  write : Bool
deriving DecidableEq, Repr

/-- What happens: a call to the operating system, the end of a handle, a handle given to another thread, or the start of waiting for what a thread has read.
(Bookkeeping for the handles of src/runtime/command/exec/mod.rs:254-629 and src/runtime/command/mod.rs:50-142.) -/
inductive HEv where
  | os (e : Ev)
  | close (f : Fd)
  | toThread (f : Fd)
  | receive (c : Chan)
deriving DecidableEq, Repr

/-- The calls among what happened.
(Bookkeeping for the handles of src/runtime/command/exec/mod.rs:254-629 and src/runtime/command/mod.rs:50-142.) -/
def erase : List HEv → List Ev
  | [] => []
  | .os e :: hs => e :: erase hs
  | _ :: hs => erase hs

/-- Computations that make calls and close handles.
(Bookkeeping for the handles of src/runtime/command/exec/mod.rs:254-629 and src/runtime/command/mod.rs:50-142.) -/
def HX (α : Type) : Type := List HEv → Except XStop α × List HEv

/-- A value. (Bookkeeping for the handles of src/runtime/command/exec/mod.rs:254-629 and src/runtime/command/mod.rs:50-142.) -/
def HX.pure (a : α) : HX α := fun tr => (.ok a, tr)

/-- The `?` operator, for handles that are no longer owned or owned by the rest. (For src/runtime/command/exec/mod.rs:254-629.) -/
def HX.bind (m : HX α) (f : α → HX β) : HX β := fun tr =>
  match m tr with
  | (.ok a, tr) => f a tr
  | (.error e, tr) => (.error e, tr)

/-- Notation only: the operator `?` of Rust; not part of src/. -/
instance : Monad HX where
  pure := HX.pure
  bind := HX.bind

/-- A computation of `Model/Exec`, which owns no handles.
(Bookkeeping for the handles of src/runtime/command/exec/mod.rs:254-629 and src/runtime/command/mod.rs:50-142.) -/
def lift (m : X α) : HX α := fun tr =>
  ((m (erase tr)).1, tr ++ ((m (erase tr)).2.drop (erase tr).length).map .os)

/-- Drop the owners of handles.
(Bookkeeping for the handles of src/runtime/command/exec/mod.rs:254-629 and src/runtime/command/mod.rs:50-142.) -/
def closeAll (fs : List Fd) : HX Unit := fun tr => (.ok (), tr ++ fs.map .close)

/-- The shell goes no further: it blocks or was replaced.
(Bookkeeping for the handles of src/runtime/command/exec/mod.rs:254-629 and src/runtime/command/mod.rs:50-142.) -/
def Final : XStop → Bool
  | .hang => true
  | .replaced => true
  | _ => false

/-- Run a computation while handles are owned by local variables: they are dropped if it returns early (`?`) or panics.
(Bookkeeping for the handles of src/runtime/command/exec/mod.rs:254-629 and src/runtime/command/mod.rs:50-142.) -/
def owning (fs : List Fd) (m : HX α) : HX α := fun tr =>
  match m tr with
  | (.error e, tr) => (.error e, if Final e then tr else tr ++ fs.map .close)
  | r => r

/-- A handle with what it is a handle of.
(Bookkeeping for the handles of src/runtime/command/exec/mod.rs:254-629 and src/runtime/command/mod.rs:50-142.) -/
abbrev Owned := Fd × Chan

/-- `Stdio`, src/runtime/command/exec/mod.rs:253-258. -/
structure HStdio where
  stdin : Owned
  stdout : Owned
  stderr : Owned
deriving DecidableEq, Repr

/-- The handles of it. (Bookkeeping for the handles of src/runtime/command/exec/mod.rs:254-629 and src/runtime/command/mod.rs:50-142.) -/
def HStdio.fds (s : HStdio) : List Fd := [s.stdin.1, s.stdout.1, s.stderr.1]

/-- What they are handles of.
(Bookkeeping for the handles of src/runtime/command/exec/mod.rs:254-629 and src/runtime/command/mod.rs:50-142.) -/
def HStdio.chans (s : HStdio) : Stdio := ⟨s.stdin.2, s.stdout.2, s.stderr.2⟩

/-- A call that makes one handle. (As in src/runtime/command/exec/mod.rs:382-424 and 482-515.) -/
def newHandle (os : Os) (a : Act) (pos : Pos) (chan : Nat → Chan) : HX Owned := do
  let id ← lift (call os a pos)
  pure (⟨id, false⟩, chan id)

/-- The closure `open`, src/runtime/command/exec/mod.rs:383-405. -/
def openFile (os : Os) (a : ExArg) (append : Bool) (pos : Pos) : HX Owned := do
  let path ← lift (resolveOne os (bs "redirection") a pos)
  newHandle os (.openWrite path append) pos .file

/-- `BasicCommand::resolve_target`, src/runtime/command/exec/mod.rs:382-423: the descriptors are only borrowed. -/
def resolveTarget (os : Os) (t : ExTarget) (stdio : HStdio) (pos : Pos) : HX Owned :=
  match t with
  | .overwrite a => openFile os a false pos
  | .append a => openFile os a true pos
  | .fd n =>
    if n = 1 then newHandle os (.clone stdio.stdout.2) pos (fun _ => stdio.stdout.2)
    else if n = 2 then newHandle os (.clone stdio.stderr.2) pos (fun _ => stdio.stderr.2)
    else lift (X.panic (.unsupportedFd n) pos)

/-- The standard input of a redirection, src/runtime/command/exec/mod.rs:333-365: the write end of the pipe of a here-string is dropped at the end of its
block (line 352). -/
def resolveInput (os : Os) (literal : Bool) (a : ExArg) (pos : Pos) : HX Owned := do
  let source ← lift (resolveOne os (bs "redirection") a pos)
  if literal then do
    let id ← lift (call os .pipe pos)
    owning [⟨id, false⟩, ⟨id, true⟩] (do
      lift (writePipe os id 0 source pos)
      lift (writePipe os id source.length [cNL] pos))
    closeAll [⟨id, true⟩]
    pure (⟨id, false⟩, .reader id)
  else newHandle os (.openRead source) pos .file

/-- One redirection, src/runtime/command/exec/mod.rs:321-368: the assignment drops the old handle. -/
def redirect (os : Os) (r : ExRedirection) (stdio : HStdio) (pos : Pos) : HX HStdio :=
  match r with
  | .output source target => do
    let c ← owning stdio.fds (resolveTarget os target stdio pos)
    if source = 1 then do
      closeAll [stdio.stdout.1]
      pure { stdio with stdout := c }
    else if source = 2 then do
      closeAll [stdio.stderr.1]
      pure { stdio with stderr := c }
    else owning (c.1 :: stdio.fds) (lift (X.panic (.unsupportedFd source) pos))
  | .input literal a => do
    let c ← owning stdio.fds (resolveInput os literal a pos)
    closeAll [stdio.stdin.1]
    pure { stdio with stdin := c }

/-- The loop over the redirections, src/runtime/command/exec/mod.rs:321-368. -/
def redirectAll (os : Os) (pos : Pos) : List ExRedirection → HStdio → HX HStdio
  | [], stdio => pure stdio
  | r :: rs, stdio => do
    let stdio ← redirect os r stdio pos
    redirectAll os pos rs stdio

/-- `BasicCommand::exec` and `BasicCommand::spawn`, src/runtime/command/exec/mod.rs:280-379: the three handles are moved into the `process::Command` (lines
370-372), which is dropped when `exec` returns. -/
def execBasic (os : Os) (c : ExBasic) (stdio : HStdio) : HX Child := do
  let program ← owning stdio.fds (lift (resolveOne os (bs "program") c.program c.pos))
  let env ← owning stdio.fds (lift (resolveEnv os c.pos c.env))
  let args ← owning stdio.fds (lift (resolveAll os c.pos c.arguments))
  let stdio ← redirectAll os c.pos c.redirections stdio
  let id ← owning stdio.fds (lift (call os
    (.spawn ⟨program, none, args, env, stdio.stdin.2, stdio.stdout.2, stdio.stderr.2⟩) c.pos))
  closeAll stdio.fds
  pure ⟨id, c.pos⟩

/-- The loop starting the commands after the first, src/runtime/command/exec/mod.rs:482-510, as in `Exec.startTail`: the handles for the output move from
one command to the one before it. -/
def startTail (os : Os) (out err : Owned) : List ExBasic → HX ((Owned × Owned) × List (Child × Bool))
  | [] => pure ((out, err), [])
  | c :: cs => do
    let r ← startTail os out err cs
    let id ← owning [r.1.1.1, r.1.2.1] (lift (call os .pipe c.pos))
    let child ← owning [⟨id, true⟩] (execBasic os c ⟨(⟨id, false⟩, .reader id), r.1.1, r.1.2⟩)
    let e ← owning [⟨id, true⟩] (newHandle os (.dup 2) child.pos (fun _ => .stderr))
    pure (((⟨id, true⟩, .writer id), e), (child, c.abortOnError) :: r.2)

/-- `Command::exec`, src/runtime/command/exec/mod.rs:465-546. A builtin does not use the handles, they are dropped at the end. -/
def execCommand (os : Os) (out err : Owned) : ExCommand → HX CommandExec
  | .builtin b args abortOnError pos => do
    let e ← owning [out.1, err.1] (lift (execBuiltin os b args pos))
    closeAll [out.1, err.1]
    pure ⟨e.toList, abortOnError && e.isSome⟩
  | .external head tail => do
    let r ← startTail os out err tail
    let i ← owning [r.1.1.1, r.1.2.1] (newHandle os (.dup 0) head.pos (fun _ => .stdin))
    let child ← execBasic os head ⟨i, r.1.1, r.1.2⟩
    lift (waitAll os ((child, head.abortOnError) :: r.2))

/-- The commands of `Block::_exec`, src/runtime/command/exec/mod.rs:587-629. -/
def execCommands (os : Os) (out err : Chan) : List ExCommand → HX (List (List ErrorStatus))
  | [] => pure []
  | c :: cs => do
    let o ← newHandle os (obtain out) (commandPos c) (fun _ => out)
    let e ← owning [o.1] (newHandle os (obtain err) (commandPos c) (fun _ => err))
    let r ← execCommand os o e c
    let now := if r.errors.isEmpty then [] else [r.errors]
    if r.abort then pure now
    else do
      let later ← execCommands os out err cs
      pure (now ++ later)

/-- `Block::exec`, src/runtime/command/exec/mod.rs:566-584. The closures, with the handles they own (`own`), are dropped when `_exec` returns. -/
def execBlock (os : Os) (own : List Fd) (out err : Chan) (b : ExBlock) : HX (List (List ErrorStatus)) := fun tr =>
  match owning own (execCommands os out err (b.head :: b.tail)) tr with
  | (.error (.io msg pos), tr) => (.ok [[⟨msg, ioErrorStatus, pos⟩]], tr)
  | (.error e, tr) => (.error e, tr)
  | (.ok r, tr) => (.ok r, tr ++ own.map .close)

/-- Give a handle to a new thread (`thread::spawn(move || ...)`). (src/runtime/command/mod.rs:50-142.) -/
def toThread (f : Fd) : HX Unit := fun tr => (.ok (), tr ++ [.toThread f])

/-- Wait for what a thread has read (`join`, src/runtime/command/mod.rs:79-92). -/
def received (os : Os) (c : Chan) (pos : Pos) : HX Bytes := fun tr => lift (Exec.receive os c pos) (tr ++ [.receive c])

/-- `Runtime::eval_command_block`, src/runtime/command/mod.rs:25-146, as in `Exec.runBlock`. The read ends of the capture pipes belong to the threads that
read them (lines 57-67), the write ends to the closures (lines 72-73). -/
def runBlock (os : Os) (pos : Pos) (b : ExBlock) : Ast.BlockKind → HX Tree
  | .capture => do
    let o ← lift (call os .pipe pos)
    let e ← owning [⟨o, false⟩, ⟨o, true⟩] (lift (call os .pipe pos))
    toThread ⟨o, false⟩
    toThread ⟨e, false⟩
    let ess ← execBlock os [⟨o, true⟩, ⟨e, true⟩] .captureOut .captureErr b
    let out ← received os .captureOut pos
    let err ← received os .captureErr pos
    pure (captureValue out err (blockValue os ess))
  | _ => do
    let ess ← execBlock os [] .stdout .stderr b
    pure (blockValue os ess)

end Handles
end Hush

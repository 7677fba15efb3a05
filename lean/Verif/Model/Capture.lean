import Verif.Model.Bytes

/-!
A capture block as a system of concurrent processes: the processes of a pipeline, the thread of the shell which starts and waits for them
(src/runtime/command/exec/mod.rs:482-545, 586-629), and the two threads which read what the block writes (src/runtime/command/mod.rs:50-91).

Pipes hold a limited number of bytes; who writes to a full pipe or reads from an empty one waits. Pipes of the operating system are trusted to be as modelled. Simplified: the
processes of a pipeline are started at once; a process exits after finitely many steps and leaves no other process behind that holds its files; the standard input of the
shell is always ready; nothing fails to start. That the shell itself keeps no end of the pipes open while it waits is C71.
-/

namespace Hush.Capture
open Hush

/-- Where a process writes, after redirections: its standard output, its standard error, or elsewhere.
(For src/runtime/command/mod.rs:50-91 and src/runtime/command/exec/mod.rs:482-545, 586-629.) -/
inductive Stream where
  | out | err | other
deriving DecidableEq

/-- What a process does; it depends on what it reads (`none`: end of file).
(For src/runtime/command/mod.rs:50-91 and src/runtime/command/exec/mod.rs:482-545, 586-629.) -/
inductive Proc where
  | exit
  | write (s : Stream) (b : UInt8) (next : Proc)
  | read (next : Option UInt8 → Proc)

/-- A process of a pipeline, with what is in the pipe to its standard input (unused for the first process).
(For src/runtime/command/mod.rs:50-91 and src/runtime/command/exec/mod.rs:482-545, 586-629.) -/
structure Link where
  input : Bytes
  proc : Proc

/-- The state of the system. (For src/runtime/command/mod.rs:50-91 and src/runtime/command/exec/mod.rs:482-545, 586-629.) -/
structure Net where
  /-- The processes of the pipeline that is executed, first to last. -/
  chain : List Link
  /-- How many of them the shell has waited for, first to last. -/
  waited : Nat
  /-- The pipelines to be executed. -/
  rest : List (List Proc)
  /-- Whether the shell has closed its writing ends of the two pipes, src/runtime/command/mod.rs:68-75. -/
  closed : Bool
  /-- What is in the pipes from the block, and what their readers have received; whether the readers have ended. -/
  out : Bytes
  err : Bytes
  gotOut : Bytes
  gotErr : Bytes
  endedOut : Bool
  endedErr : Bool

/-- The beginning of a capture block. (For src/runtime/command/mod.rs:50-91 and src/runtime/command/exec/mod.rs:482-545, 586-629.) -/
def start (block : List (List Proc)) : Net := ⟨[], 0, block, false, [], [], [], [], false, false⟩

/-- The shell has got the output of both readers, src/runtime/command/mod.rs:77-91. -/
def Net.final (N : Net) : Prop := N.endedOut = true ∧ N.endedErr = true

/-- What is seen of a step; processes are numbered from the first of the pipeline on.
(For src/runtime/command/mod.rs:50-91 and src/runtime/command/exec/mod.rs:482-545, 586-629.) -/
inductive Label where
  | silent
  /-- A pipeline is started. -/
  | started
  /-- Something is written to one of the two pipes from the block. -/
  | wrote (s : Stream) (b : UInt8)
  /-- A process sends to the next one, or receives from the one before, or gets the end of the file from it. -/
  | sent (i : Nat) (b : UInt8)
  | received (i : Nat) (b : UInt8)
  | ended (i : Nat)
deriving DecidableEq

/-- Steps of the system, where pipes hold at most `cap` bytes.
(For src/runtime/command/mod.rs:50-91 and src/runtime/command/exec/mod.rs:482-545, 586-629.) -/
inductive Step (cap : Nat) : Net → Label → Net → Prop where
  /-- A process writes to the next one. -/
  | send {N pre l l' post b k} : N.chain = pre ++ l :: l' :: post → l.proc = .write .out b k → l'.proc ≠ .exit → l'.input.length < cap →
    Step cap N (.sent pre.length b) { N with chain := pre ++ { l with proc := k } :: { l' with input := l'.input ++ [b] } :: post }
  /-- The next process has exited: the writer is told, and killed unless it is prepared. -/
  | broken {N pre l l' post b k k'} : N.chain = pre ++ l :: l' :: post → l.proc = .write .out b k → l'.proc = .exit → (k' = k ∨ k' = .exit) →
    Step cap N .silent { N with chain := pre ++ { l with proc := k' } :: l' :: post }
  /-- The standard error of the processes but the last is that of the shell, src/runtime/command/exec/mod.rs:502-503. -/
  | inherited {N pre l l' post b k} : N.chain = pre ++ l :: l' :: post → l.proc = .write .err b k →
    Step cap N .silent { N with chain := pre ++ { l with proc := k } :: l' :: post }
  | elsewhere {N pre l post b k} : N.chain = pre ++ l :: post → l.proc = .write .other b k →
    Step cap N .silent { N with chain := pre ++ { l with proc := k } :: post }
  /-- The last process writes to the pipes from the block. -/
  | output {N pre l b k} : N.chain = pre ++ [l] → l.proc = .write .out b k → N.out.length < cap →
    Step cap N (.wrote .out b) { N with chain := pre ++ [{ l with proc := k }], out := N.out ++ [b] }
  | error {N pre l b k} : N.chain = pre ++ [l] → l.proc = .write .err b k → N.err.length < cap →
    Step cap N (.wrote .err b) { N with chain := pre ++ [{ l with proc := k }], err := N.err ++ [b] }
  /-- A process reads from the one before, if that wrote something, or has exited. -/
  | receive {N pre l post f b i} : N.chain = pre ++ l :: post → pre ≠ [] → l.proc = .read f → l.input = b :: i →
    Step cap N (.received pre.length b) { N with chain := pre ++ ⟨i, f (some b)⟩ :: post }
  | eof {N pre p l post f} : N.chain = pre ++ p :: l :: post → p.proc = .exit → l.proc = .read f → l.input = [] →
    Step cap N (.ended (pre.length + 1)) { N with chain := pre ++ p :: { l with proc := f none } :: post }
  /-- The first process reads from the standard input of the shell. -/
  | stdin {N l post f} (x : Option UInt8) : N.chain = l :: post → l.proc = .read f →
    Step cap N .silent { N with chain := { l with proc := f x } :: post }
  /-- The shell waits for the processes in order, src/runtime/command/exec/mod.rs:524-536. -/
  | wait {N l} : N.chain[N.waited]? = some l → l.proc = .exit → Step cap N .silent { N with waited := N.waited + 1 }
  /-- The next pipeline is started, src/runtime/command/exec/mod.rs:593-600 and 610-617. -/
  | next {N p ps} : N.chain.length ≤ N.waited → N.rest = p :: ps → Step cap N .started { N with chain := p.map (⟨[], ·⟩), waited := 0, rest := ps }
  /-- A failure ends the block (when it does is left open here, see C35), src/runtime/command/exec/mod.rs:606-608 and 623-625. -/
  | abort {N p ps} : N.chain.length ≤ N.waited → N.rest = p :: ps → Step cap N .silent { N with rest := [] }
  /-- The writing ends are dropped, src/runtime/command/mod.rs:68-75. -/
  | close {N} : N.chain.length ≤ N.waited → N.rest = [] → N.closed = false → Step cap N .silent { N with closed := true }
  /-- The reading threads, src/runtime/command/mod.rs:56-66: each reads some bytes that are there, until the end. -/
  | readOut {N s t} : N.out = s ++ t → s ≠ [] → Step cap N .silent { N with out := t, gotOut := N.gotOut ++ s }
  | readErr {N s t} : N.err = s ++ t → s ≠ [] → Step cap N .silent { N with err := t, gotErr := N.gotErr ++ s }
  | endOut {N} : N.closed = true → N.out = [] → N.endedOut = false → Step cap N .silent { N with endedOut := true }
  | endErr {N} : N.closed = true → N.err = [] → N.endedErr = false → Step cap N .silent { N with endedErr := true }

/-- A run of the system, with its labels. (For src/runtime/command/mod.rs:50-91 and src/runtime/command/exec/mod.rs:482-545, 586-629.) -/
inductive Run (cap : Nat) : Net → List Label → Net → Prop where
  | nil {N} : Run cap N [] N
  | cons {N a M as K} : Step cap N a M → Run cap M as K → Run cap N (a :: as) K

end Hush.Capture

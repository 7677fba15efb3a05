import Verif.Model.Show
import Verif.Model.Exec

/-!
What a script and its commands write to the standard output: src/runtime/lib/print.rs, src/runtime/lib/println.rs and src/runtime/lib/read.rs, which write through
`std::io::stdout`, a `LineWriter` of the standard library (trusted; modelled here from its documentation and source), and commands, which write to the same file
directly. Simplified: writing never fails.
-/

namespace Hush.Output
open Hush

/-- The standard output: what waits in the buffer of the shell, and what has been written to the file, with who wrote it (`true`: the shell).
(Standard library, trusted; used by src/runtime/lib/print.rs:22-57 and src/runtime/lib/println.rs:22-57.) -/
structure Stdout where
  pending : Bytes
  seen : List (Bool × UInt8)
deriving DecidableEq

/-- The capacity of the buffer of a `LineWriter`.
(Standard library, trusted; used by src/runtime/lib/print.rs:22-57 and src/runtime/lib/println.rs:22-57.) -/
def capacity : Nat := 1024

/-- `write_all` on the file itself.
(Standard library, trusted; used by src/runtime/lib/print.rs:22-57 and src/runtime/lib/println.rs:22-57.) -/
def Stdout.raw (mine : Bool) (s : Bytes) (o : Stdout) : Stdout := { o with seen := o.seen ++ s.map (mine, ·) }

/-- `BufWriter::flush_buf`. (Standard library, trusted; used by src/runtime/lib/print.rs:22-57 and src/runtime/lib/println.rs:22-57.) -/
def Stdout.flush (o : Stdout) : Stdout := { o.raw true o.pending with pending := [] }

/-- `BufWriter::write_all`. (Standard library, trusted; used by src/runtime/lib/print.rs:22-57 and src/runtime/lib/println.rs:22-57.) -/
def Stdout.buffer (s : Bytes) (o : Stdout) : Stdout :=
  if s.length < capacity - o.pending.length then { o with pending := o.pending ++ s }
  else
    let o := if capacity - o.pending.length < s.length then o.flush else o
    if capacity ≤ s.length then o.raw true s else { o with pending := o.pending ++ s }

/-- The text up to and including the last line end, and the rest (`memrchr`).
(Standard library, trusted; used by src/runtime/lib/print.rs:22-57 and src/runtime/lib/println.rs:22-57.) -/
def splitLast : Bytes → Option (Bytes × Bytes)
  | [] => none
  | b :: s =>
    match splitLast s with
    | some (lines, tail) => some (b :: lines, tail)
    | none => if b = 10 then some ([10], s) else none

/-- `LineWriterShim::write_all`.
(Standard library, trusted; used by src/runtime/lib/print.rs:22-57 and src/runtime/lib/println.rs:22-57.) -/
def Stdout.write (s : Bytes) (o : Stdout) : Stdout :=
  match splitLast s with
  | none => (if o.pending.getLast? = some 10 then o.flush else o).buffer s
  | some (lines, tail) => (if o.pending = [] then o.raw true lines else (o.buffer lines).flush).buffer tail

/-- `Print::print` and `Println::println`, src/runtime/lib/print.rs:22-30 and src/runtime/lib/println.rs:22-30: strings and bytes are written as they are, in one piece;
the text of other values is written in pieces, which are left open. -/
inductive Pieces (w : World) (h : Heap) : Value → List Bytes → Prop where
  | string (s : Bytes) : Pieces w h (.string s) [s]
  | byte (b : UInt8) : Pieces w h (.byte b) [[b]]
  | other (v : Value) (n : Nat) (t : Bytes) (ps : List Bytes) : (∀ s, v ≠ .string s) → (∀ b, v ≠ .byte b) → Show.value w h n v = some t → ps.flatten = t →
    Pieces w h v ps

/-- The loops of `Print::call` and `Println::call`, src/runtime/lib/print.rs:39-51 and src/runtime/lib/println.rs:38-51: the values, separated by tabs. -/
inductive PiecesAll (w : World) (h : Heap) : List Value → List Bytes → Prop where
  | none : PiecesAll w h [] []
  | one {v ps} : Pieces w h v ps → PiecesAll w h [v] ps
  | more {v ps v' vs qs} : Pieces w h v ps → PiecesAll w h (v' :: vs) qs → PiecesAll w h (v :: v' :: vs) (ps ++ [9] :: qs)

/-- What happens to the standard output.
(src/runtime/lib/print.rs:35-57, println.rs:35-57, read.rs:39-53 and src/runtime/command/exec/mod.rs.) -/
inductive Act where
  /-- The shell writes a text, in pieces. -/
  | write (pieces : List Bytes)
  /-- The shell flushes its buffer. -/
  | flush
  /-- Commands write to the file. -/
  | command (out : Bytes)
  /-- Commands write to the file; the last of them replaces the shell (`exec`, src/runtime/command/exec/mod.rs:215). -/
  | replaced (out : Bytes)
deriving DecidableEq

/-- What an event of an execution, before which `before` happened, does to the standard output. What the commands of a block write is left open. For the standard output
captured by the shell and for asynchronous blocks, nothing is said (simplified: the output of asynchronous blocks may appear at any time). The heap is that of the
moment, it is left open. (src/runtime/lib/print.rs:35-57, println.rs:35-57, read.rs:39-53 and src/runtime/command/exec/mod.rs.) -/
inductive Does (w : World) (before : List Event) : Event → List Act → Prop where
  /-- src/runtime/lib/print.rs:36-57. -/
  | print {h args ps} : PiecesAll w h args ps → Does w before (.native (bs "std.print") args) [.write ps]
  /-- src/runtime/lib/println.rs:36-57. -/
  | println {h args ps} : PiecesAll w h args ps → Does w before (.native (bs "std.println") args) [.write (ps ++ [[10]])]
  /-- src/runtime/lib/read.rs:39-53. -/
  | prompt {s} : Does w before (.native (bs "std.read") [.string s]) [.write [s], .flush]
  | native {name args} : name ≠ bs "std.print" → name ≠ bs "std.println" → (name = bs "std.read" → ∀ s, args ≠ [.string s]) →
    Does w before (.native name args) []
  | command {b out} : (∀ c, w.command before .synchronous b ≠ .exit c) → Does w before (.command .synchronous b) [.command out]
  | silent {kind b} : (∀ c, w.command before kind b ≠ .exit c) → kind ≠ .synchronous → Does w before (.command kind b) []
  | replaced {kind b c out} : w.command before kind b = .exit c → Does w before (.command kind b) [.replaced out]
  | join {t} : Does w before (.join t) []
  | load {p} : Does w before (.load p) []
  | imported {p v} : Does w before (.imported p v) []

/-- What the events of an execution do to the standard output, in order.
(src/runtime/lib/print.rs:35-57, println.rs:35-57, read.rs:39-53 and src/runtime/command/exec/mod.rs.) -/
inductive DoesAll (w : World) : List Event → List Event → List Act → Prop where
  | nil {before} : DoesAll w before [] []
  | cons {before e es as bs} : Does w before e as → DoesAll w (before ++ [e]) es bs → DoesAll w before (e :: es) (as ++ bs)

/-- The standard output after an action; `exec` does not flush (src/runtime/command/exec/mod.rs:215), and neither does the start of a process. -/
def Act.step (o : Stdout) : Act → Stdout
  | .write ps => ps.foldl (fun o s => o.write s) o
  | .flush => o.flush
  | .command out => o.raw false out
  | .replaced out => { o.raw false out with pending := [] }

/-- What is in the file in the end: `std::process::exit` (src/main.rs:61, src/runtime/lib/exit.rs:31) flushes the buffer. -/
def output (acts : List Act) : List (Bool × UInt8) := (acts.foldl Act.step ⟨[], []⟩).flush.seen

end Hush.Output

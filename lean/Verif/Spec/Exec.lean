import Verif.Model.Exec

/-!
What the execution of commands should do, in terms of the calls made to the operating system and of the processes started,
without reference to the functions executing them.
-/

namespace Hush
namespace Spec
namespace Exec
open Hush.Exec (Chan Ended Launch Act Ev Os ErrorStatus Stdio)

/-- A call that succeeded. -/
def did (a : Act) : Ev := ⟨a, true⟩

/-- The argument names the file or program `s`: a literal names itself, a pattern names the only path that matches it, with
`./` before it unless the pattern is absolute. -/
inductive Names (os : Os) : List Ev → ExArg → Bytes → List Ev → Prop where
  | literal : Names os t (.literal s) s t
  | absolute : p.head? = some cSlash → os.glob t p = some [f] → Names os t (.pattern p) f (t ++ [did (.glob p)])
  | relative : p.head? ≠ some cSlash → os.glob t p = some [f] →
      Names os t (.pattern p) (bs "./" ++ f) (t ++ [did (.glob p)])

/-- A table of descriptors: 0 is the standard input, 1 the output, 2 the error. -/
abbrev Table := Nat → Chan

/-- Make one descriptor denote a channel. -/
def Table.set (T : Table) (n : Nat) (c : Chan) : Table := fun k => if k = n then c else T k

/-- The descriptors of a started process. -/
def fds (l : Launch) : Table := fun n => if n = 0 then l.stdin else if n = 1 then l.stdout else l.stderr

/-- The descriptors given to a process. -/
def given (s : Stdio) : Table := fun n => if n = 0 then s.stdin else if n = 1 then s.stdout else s.stderr

/-- The two descriptors that can be redirected to something. -/
def OutFd (n : Nat) : Prop := n = 1 ∨ n = 2

/-- Redirections applied from left to right, each to the table left by those before it. `n>m` makes `n` denote what `m`
denotes; `n>file` and `n>>file` make it denote the opened file; `<file` does so for 0, and `<<text` makes 0 the read end of a
pipe into which the text and a newline were written. -/
inductive Redirects (os : Os) : Table → List Ev → List ExRedirection → Table → List Ev → Prop where
  | none : Redirects os T t [] T t
  | dup : OutFd n → OutFd m →
      Redirects os (T.set n (T m)) (t ++ [did (.clone (T m))]) rs T' t' →
      Redirects os T t (.output n (.fd m) :: rs) T' t'
  | overwrite : OutFd n → Names os t a path t1 →
      Redirects os (T.set n (.file t1.length)) (t1 ++ [did (.openWrite path false)]) rs T' t' →
      Redirects os T t (.output n (.overwrite a) :: rs) T' t'
  | append : OutFd n → Names os t a path t1 →
      Redirects os (T.set n (.file t1.length)) (t1 ++ [did (.openWrite path true)]) rs T' t' →
      Redirects os T t (.output n (.append a) :: rs) T' t'
  | input : Names os t a path t1 →
      Redirects os (T.set 0 (.file t1.length)) (t1 ++ [did (.openRead path)]) rs T' t' →
      Redirects os T t (.input false a :: rs) T' t'
  | here : Names os t a text t1 →
      Redirects os (T.set 0 (.reader t1.length))
        (t1 ++ [did .pipe] ++ [did (.write t1.length text)] ++ [did (.write t1.length [cNL])]) rs T' t' →
      Redirects os T t (.input true a :: rs) T' t'

/-- The words that an argument stands for at a moment: a literal is one word, a pattern stands for the paths that match it at
that moment, with `./` before them unless the pattern is absolute. -/
inductive Words (os : Os) : List Ev → ExArg → List Bytes → List Ev → Prop where
  | literal : Words os t (.literal s) [s] t
  | absolute : p.head? = some cSlash → os.glob t p = some fs → Words os t (.pattern p) fs (t ++ [did (.glob p)])
  | relative : p.head? ≠ some cSlash → os.glob t p = some fs →
      Words os t (.pattern p) (fs.map (fun f => bs "./" ++ f)) (t ++ [did (.glob p)])

/-- The words of some arguments, in order. -/
inductive AllWords (os : Os) : List Ev → List ExArg → List Bytes → List Ev → Prop where
  | nil : AllWords os t [] [] t
  | cons : Words os t a ws t1 → AllWords os t1 as us t2 → AllWords os t (a :: as) (ws ++ us) t2

/-- The values of assignments of environment variables, in order. -/
inductive Assigns (os : Os) : List Ev → List (Bytes × ExArg) → List (Bytes × Bytes) → List Ev → Prop where
  | nil : Assigns os t [] [] t
  | cons : Names os t a v t1 → Assigns os t1 es vs t2 → Assigns os t ((k, a) :: es) ((k, v) :: vs) t2

/-- Between the traces `t` and `t'` the command `c` was started as the process `id`, having been given the descriptors
`T`: the program, the environment variables and the arguments are those written in the command, in this order. -/
def Starts (os : Os) (c : ExBasic) (T : Table) (t : List Ev) (id : Nat) (l : Launch) (t' : List Ev) : Prop :=
  ∃ tp te t1 T' t2, Names os t c.program l.program tp ∧ l.arg0 = none ∧ Assigns os tp c.env l.env te ∧
    AllWords os te c.arguments l.args t1 ∧ Redirects os T t1 c.redirections T' t2 ∧
    t' = t2 ++ [did (.spawn l)] ∧ id = t2.length ∧ ∀ n < 3, fds l n = T' n

/-- The directories that were changed to, in order, each as seen from the one before. -/
def moves : List Ev → List Bytes
  | [] => []
  | ⟨.chdir d, true⟩ :: es => d :: moves es
  | _ :: es => moves es

/-- The processes waited for and how they ended, in order. -/
def waits : List Ev → List (Nat × Ended)
  | [] => []
  | ⟨.wait id r, _⟩ :: es => (id, r) :: waits es
  | _ :: es => waits es

/-- The processes started, where the first event is the one with the given number. -/
def starts (n : Nat) : List Ev → List Nat
  | [] => []
  | ⟨.spawn _, true⟩ :: es => n :: starts (n + 1) es
  | _ :: es => starts (n + 1) es

/-- What was written to a pipe. -/
def written (id : Nat) : List Ev → Bytes
  | [] => []
  | ⟨.write i data, true⟩ :: es => (if i = id then data else []) ++ written id es
  | _ :: es => written id es

/-- The processes of a command: whether a failure ends the block (there is no `?`), and the position. -/
def processes : ExCommand → List (Bool × Pos)
  | .builtin .spawn0 _ abort pos => [(abort, pos)]
  | .builtin _ _ _ _ => []
  | .external head tail => (head :: tail).map (fun c => (c.abortOnError, c.pos))

/-- Success. -/
def Succeeded (e : Ended) : Prop := e = .code 0

/-- The status number of a failed process. -/
def statusNumber : Ended → Nat
  | .code n => n
  | .signal n => 255 + n
  | .neither => 255
  | .error _ => 127

/-- An error status tells how the process of a command at a position failed. -/
def Tells (s : ErrorStatus) (pos : Pos) (e : Ended) : Prop := s.status = statusNumber e ∧ s.pos = pos

/-- The error statuses tell of all failures and of nothing else, in order. -/
inductive TellsAll : List (Bool × Pos) → List Ended → List ErrorStatus → Prop where
  | nil : TellsAll [] [] []
  | good : Succeeded e → TellsAll ps es ss → TellsAll (p :: ps) (e :: es) ss
  | bad : ¬ Succeeded e → Tells s p.2 e → TellsAll ps es ss → TellsAll (p :: ps) (e :: es) (s :: ss)

/-- Some process without `?` failed. -/
def Ends (ps : List (Bool × Pos)) (es : List Ended) : Prop :=
  ∃ (i : Nat) (p : Bool × Pos) (e : Ended), ps[i]? = some p ∧ es[i]? = some e ∧ p.1 = true ∧ ¬ Succeeded e

/-- What stage `i` of a pipeline is given. With `k` pipes there are `k + 1` stages; pipe `i` leads from stage `i` to stage
`i + 1`. -/
def wires (pipes : List Nat) (out err : Chan) (i : Nat) : Table := fun n =>
  if n = 0 then (if i = 0 then .stdin else .reader (pipes.getD (i - 1) 0))
  else if n = 1 then (if i = pipes.length then out else .writer (pipes.getD i 0))
  else if i = pipes.length then err else .stderr

/-- Between two traces the stages of a pipeline were started, each given its part of the pipes, which were made for this
pipeline; the processes are those waited for, in order. -/
def Piped (os : Os) (out err : Chan) (stages : List ExBasic) (t evs : List Ev) : Prop :=
  ∃ pipes : List Nat, pipes.length + 1 = stages.length ∧ pipes.Nodup ∧
    (∀ p ∈ pipes, t.length ≤ p ∧ (t ++ evs)[p]? = some (did .pipe)) ∧
    ∀ (i : Nat) (c : ExBasic), stages[i]? = some c → ∃ w l tb ta, (waits evs)[i]? = some w ∧
      Starts os c (wires pipes out err i) tb w.1 l ta ∧ ta <+: t ++ evs

/-- Between two traces a builtin command was executed, which did not replace the shell. `cd` has one word and changes to this
directory. `spawn0` has two words or more: the program, its name, and its arguments; the process inherits the channels of the
shell. -/
def Builtin (os : Os) (b : Prog.Builtin) (args : List ExArg) (t evs : List Ev) : Prop :=
  ∃ tb ws ta, t <+: tb ∧ moves tb = moves t ∧ AllWords os tb args ws ta ∧
    ((b = .cd ∧ ∃ dir, ws = [dir] ∧ t ++ evs = ta ++ [did (.chdir dir)] ∧ moves evs = [dir]) ∨
     (b = .spawn0 ∧ ∃ program name rest e, ws = program :: name :: rest ∧ moves evs = [] ∧
        t ++ evs = ta ++ [did (.spawn ⟨program, some name, rest, [], .stdin, .stdout, .stderr⟩), did (.wait ta.length e)]))

/-- Between two traces a command was executed, with the given channels for its output and error output: one process was
started for each of its parts, these and no others; each was waited for, and `es` is how they ended, in source order. Only `cd`
changes the directory. -/
def Executed (os : Os) (out err : Chan) (c : ExCommand) (t evs : List Ev) (es : List Ended) : Prop :=
  es.length = (processes c).length ∧ (waits evs).map Prod.snd = es ∧
    (waits evs).map Prod.fst = (starts t.length evs).reverse ∧
    (∀ head tail, c = .external head tail → Piped os out err (head :: tail) t evs ∧ moves evs = []) ∧
    ∀ b args abort pos, c = .builtin b args abort pos → Builtin os b args t evs

/-- The commands of a block executed one after the other, up to the end or to the first failure without `?`. The error
statuses are those of each command with a failure. -/
inductive InSequence (os : Os) (out err : Chan) : List ExCommand → List Ev → List Ev → List (List ErrorStatus) → Prop where
  | done : InSequence os out err [] t [] []
  | next : Executed os out err c t evs es → ¬ Ends (processes c) es → TellsAll (processes c) es ss →
      InSequence os out err cs (t ++ evs) evs' sss →
      InSequence os out err (c :: cs) t (evs ++ evs') (if ss = [] then sss else ss :: sss)
  | stop : Executed os out err c t evs es → Ends (processes c) es → TellsAll (processes c) es ss →
      InSequence os out err (c :: cs) t evs [ss]

mutual
/-- The statuses and positions in an error value, in order of appearance. -/
def reported : Tree → List (Int × Bytes)
  | .error _ (.dict [(.string _, .int n), (.string _, .string p)]) => [(n, p)]
  | .error _ (.array ts) => reportedList ts
  | _ => []
/-- Those in a list of values. -/
def reportedList : List Tree → List (Int × Bytes)
  | [] => []
  | t :: ts => reported t ++ reportedList ts
end

end Exec
end Spec
end Hush

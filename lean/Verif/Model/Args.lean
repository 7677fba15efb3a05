import Verif.Model.Value

/-!
Building command arguments: src/runtime/command/arg.rs and the `build_*` functions of
src/runtime/command/mod.rs.
-/

namespace Hush

/-- Why an evaluation stops without a value. `panic` is a language-level panic; `crash` is a Rust panic
(`panic!`, `todo!`, `unreachable!`, index out of bounds, double borrow, arithmetic overflow of a debug build),
with the place it comes from; `exit` is `std::process::exit`; `timeout` is the exhaustion of the step budget
of the model. (For `Result<_, Panic>`, src/runtime/panic.rs:14-96.) -/
inductive CrashKind where
  | slot | flow | borrow | arith | todo | native
deriving DecidableEq, Repr

/-- See `CrashKind`. (For `Result<_, Panic>`, src/runtime/panic.rs:14-96.) -/
inductive Stop where
  | panic (p : Panic)
  | crash (k : CrashKind)
  | exit (code : Nat)
  | timeout
deriving DecidableEq, Repr

/-- `Args`, src/runtime/command/arg.rs:13-16. -/
inductive Args where
  | patterns (l : List Bytes)
  | literals (l : List Bytes)
deriving DecidableEq, Repr

namespace Args

/-- `Args::is_pattern_meta`, src/runtime/command/arg.rs:159-161: one of `? * [ ]`. -/
def isMeta (c : UInt8) : Bool :=
  c == cQuestion || c == cStar || c == cOpenBracket || c == cCloseBracket

/-- `Args::pattern_escape`, src/runtime/command/arg.rs:133-156. -/
def escape (lit : Bytes) : Bytes :=
  if lit.any isMeta then
    lit.flatMap (fun c => if isMeta c then [cOpenBracket, c, cCloseBracket] else [c])
  else lit

/-- `if args.is_empty() { args.push(Arg::default()) }`, src/runtime/command/arg.rs:23-25, 36-38, 51-53, 61-63, 96-98. -/
def orEmpty (l : List Bytes) : List Bytes := if l.isEmpty then [[]] else l

/-- `Args::push_literal`, src/runtime/command/arg.rs:20-45. -/
def pushLiteral (lit : Bytes) : Args → Args
  | patterns l => patterns ((orEmpty l).map (fun p => p ++ escape lit))
  | literals l => literals ((orEmpty l).map (fun p => p ++ lit))

/-- `Args::push_pattern`, src/runtime/command/arg.rs:48-78. -/
def pushPattern (pat : Bytes) : Args → Args
  | patterns l => patterns ((orEmpty l).map (fun p => p ++ pat))
  | literals l => patterns ((orEmpty l).map (fun p => escape p ++ pat))

/-- The loop over the literals after the first, src/runtime/command/arg.rs:102-118: a copy of the original
arguments is appended for each literal. -/
def pushRest (esc : Bytes → Bytes) (n : Nat) : List Bytes → List Bytes → List Bytes
  | acc, [] => acc
  | acc, lit :: lits => pushRest esc n (acc ++ (acc.take n).map (fun p => p ++ esc lit)) lits

/-- The body of `Args::push_literals` on the underlying vector, src/runtime/command/arg.rs:82-130. -/
def pushAll (esc : Bytes → Bytes) (l : List Bytes) : List Bytes → List Bytes
  | [] => l
  | first :: rest =>
    let l := orEmpty l
    let all := pushRest esc l.length l rest
    (all.take l.length).map (fun p => p ++ esc first) ++ all.drop l.length

/-- `Args::push_literals`, src/runtime/command/arg.rs:82-130. -/
def pushLiterals (lits : List Bytes) : Args → Args
  | patterns l => patterns (pushAll escape l lits)
  | literals l => literals (pushAll id l lits)

end Args

/-- `exec::Argument`, src/runtime/command/exec/mod.rs:75-80. -/
inductive ExArg where
  | pattern (p : Bytes)
  | literal (s : Bytes)
deriving DecidableEq, Repr

/-- `From<Args> for Box<[exec::Argument]>`, src/runtime/command/arg.rs:172-198. -/
def Args.toList : Args → List ExArg
  | .patterns l => l.map .pattern
  | .literals l => l.map .literal

/-- What building an argument reads from the rest of the runtime: the variables of the current frame
(`Stack::fetch`; `none` is an index out of bounds), the contents of arrays, the environment variable `HOME`, and
the text of a float (Rust `f64::to_string`, not modelled). (For src/runtime/command/mod.rs:361-452.) -/
structure ArgEnv where
  fetch : Nat → Option Value
  array : Nat → List Value
  home : Option Bytes
  floatText : UInt64 → Bytes

/-- The text `nil, bool, int, float, byte or string`, src/runtime/command/mod.rs:473. -/
def basicTypes : Bytes := bs "nil, bool, int, float, byte or string"

/-- `Runtime::build_basic_value`, src/runtime/command/mod.rs:456-474. -/
def buildBasicValue (env : ArgEnv) (v : Value) (pos : Pos) : Except Stop Bytes :=
  match v with
  | .nil => .ok []
  | .bool b => .ok (boolText b)
  | .int i => .ok (intText i)
  | .float f => .ok (env.floatText f)
  | .byte b => .ok [b]
  | .string s => .ok s
  | v => .error (.panic ⟨.typeError v basicTypes, pos⟩)

/-- `Stack::fetch` for an argument; an index out of bounds is a Rust panic.
(src/runtime/mem.rs:142-145, called in src/runtime/command/mod.rs:361-452.) -/
def ArgEnv.get (env : ArgEnv) (slot : Nat) : Except Stop Value :=
  match env.fetch slot with
  | some v => .ok v
  | none => .error (.crash .slot)

/-- `collect::<Result<_, Panic>>()`: stop at the first error. (As in src/runtime/command/mod.rs:149-244.) -/
def collect (f : α → Except Stop β) : List α → Except Stop (List β)
  | [] => .ok []
  | x :: xs =>
    match f x with
    | .error e => .error e
    | .ok y =>
      match collect f xs with
      | .error e => .error e
      | .ok ys => .ok (y :: ys)

/-- The text of `HOME` with a trailing separator (`PathBuf::push("")`), src/runtime/command/mod.rs:400-413. -/
def homeText : Option Bytes → Bytes
  | none => []
  | some h => if h.isEmpty || h.getLast? == some cSlash then h else h ++ [cSlash]

/-- The integers of an inclusive range, src/runtime/command/mod.rs:415-422. -/
def rangeTexts (a b : Int) : List Bytes :=
  (List.range (b + 1 - a).toNat).map (fun i : Nat => intText (a + i))

/-- One item of a collection, src/runtime/command/mod.rs:426-437. -/
def buildUnit (env : ArgEnv) : Prog.ArgUnit → Except Stop Bytes
  | .literal lit => .ok lit
  | .dollar slot pos =>
    match env.get slot with
    | .error e => .error e
    | .ok v => buildBasicValue env v pos

/-- The body of the loop in `Runtime::build_argument`, src/runtime/command/mod.rs:367-450. -/
def addPart (env : ArgEnv) (args : Args) : Prog.ArgPart → Except Stop Args
  | .unit (.literal lit) => .ok (args.pushLiteral lit)
  | .unit (.dollar slot pos) =>
    match env.get slot with
    | .error e => .error e
    | .ok (.array a) =>
      match collect (fun v => buildBasicValue env v pos) (env.array a) with
      | .error e => .error e
      | .ok lits => .ok (args.pushLiterals lits)
    | .ok v =>
      match buildBasicValue env v pos with
      | .error e => .error e
      | .ok lit => .ok (args.pushLiteral lit)
  | .home => .ok (args.pushLiteral (homeText env.home))
  | .range a b => .ok (args.pushLiterals (rangeTexts a b))
  | .collection items =>
    match collect (buildUnit env) items with
    | .error e => .error e
    | .ok lits => .ok (args.pushLiterals lits)
  | .star => .ok (args.pushPattern [cStar])
  | .percent => .ok (args.pushPattern [cQuestion])
  | .charClass cls => .ok (((args.pushPattern [cOpenBracket]).pushPattern cls).pushPattern [cCloseBracket])

/-- The loop of `Runtime::build_argument`, src/runtime/command/mod.rs:361-453. -/
def addParts (env : ArgEnv) : Args → List Prog.ArgPart → Except Stop Args
  | args, [] => .ok args
  | args, p :: ps =>
    match addPart env args p with
    | .error e => .error e
    | .ok args => addParts env args ps

/-- `Runtime::build_argument`, src/runtime/command/mod.rs:361-453. -/
def buildArgument (env : ArgEnv) (arg : Prog.Argument) : Except Stop (List ExArg) :=
  match addParts env (.literals []) arg.parts with
  | .error e => .error e
  | .ok args => .ok args.toList

/-- `Runtime::build_single_argument`, src/runtime/command/mod.rs:334-358. The closure `panic` is its object name and
position. `Vec::pop` removes the last item before the others are counted. -/
def buildSingle (env : ArgEnv) (object : Bytes) (arg : Prog.Argument) : Except Stop ExArg :=
  match buildArgument env arg with
  | .error e => .error e
  | .ok args =>
    match args.getLast? with
    | none => .error (.panic ⟨.invalidCommandArgs object 0, arg.pos⟩)
    | some a =>
      if args.dropLast.isEmpty then .ok a
      else .error (.panic ⟨.invalidCommandArgs object args.dropLast.length, arg.pos⟩)

/-- `exec::RedirectionTarget`, src/runtime/command/exec/mod.rs:121-128. -/
inductive ExTarget where
  | fd (n : Nat)
  | overwrite (a : ExArg)
  | append (a : ExArg)
deriving DecidableEq, Repr

/-- `exec::Redirection`, src/runtime/command/exec/mod.rs:132-147. -/
inductive ExRedirection where
  | output (source : Nat) (target : ExTarget)
  | input (literal : Bool) (source : ExArg)
deriving DecidableEq, Repr

/-- `exec::BasicCommand`, src/runtime/command/exec/mod.rs:262-276. -/
structure ExBasic where
  program : ExArg
  env : List (Bytes × ExArg)
  arguments : List ExArg
  redirections : List ExRedirection
  abortOnError : Bool
  pos : Pos
deriving DecidableEq, Repr

/-- `exec::Command`, src/runtime/command/exec/mod.rs:443-461. -/
inductive ExCommand where
  | builtin (program : Prog.Builtin) (arguments : List ExArg) (abortOnError : Bool) (pos : Pos)
  | external (head : ExBasic) (tail : List ExBasic)
deriving DecidableEq, Repr

/-- `exec::Block`, src/runtime/command/exec/mod.rs:559-563. -/
structure ExBlock where
  head : ExCommand
  tail : List ExCommand
deriving DecidableEq, Repr

/-- The arguments of a command, concatenated: src/runtime/command/mod.rs:172-178, 219-225. -/
def buildArguments (env : ArgEnv) (args : List Prog.Argument) : Except Stop (List ExArg) :=
  match collect (buildArgument env) args with
  | .error e => .error e
  | .ok l => .ok l.flatten

/-- `Runtime::build_env_vars`, src/runtime/command/mod.rs:247-274, one item. -/
def buildEnvItem (env : ArgEnv) (item : Prog.ArgUnit × Prog.Argument) : Except Stop (Bytes × ExArg) :=
  match buildUnit env item.1 with
  | .error e => .error e
  | .ok key =>
    match buildSingle env (bs "env") item.2 with
    | .error e => .error e
    | .ok v => .ok (key, v)

/-- `Runtime::build_redirection_target`, src/runtime/command/mod.rs:302-331. -/
def buildTarget (env : ArgEnv) : Prog.RedirectionTarget → Except Stop ExTarget
  | .fd n => .ok (.fd n)
  | .overwrite a => (buildSingle env (bs "redirection") a).map .overwrite
  | .append a => (buildSingle env (bs "redirection") a).map .append

/-- `Runtime::build_redirection`, src/runtime/command/mod.rs:277-299. -/
def buildRedirection (env : ArgEnv) : Prog.Redirection → Except Stop ExRedirection
  | .output source target => (buildTarget env target).map (.output source)
  | .input literal source => (buildSingle env (bs "redirection") source).map (.input literal)

/-- `Runtime::build_basic_command`, src/runtime/command/mod.rs:205-243. -/
def buildBasicCommand (env : ArgEnv) (c : Prog.BasicCommand) : Except Stop ExBasic :=
  match buildSingle env (bs "program") c.program with
  | .error e => .error e
  | .ok program =>
    match collect (buildEnvItem env) c.env with
    | .error e => .error e
    | .ok vars =>
      match buildArguments env c.arguments with
      | .error e => .error e
      | .ok args =>
        match collect (buildRedirection env) c.redirections with
        | .error e => .error e
        | .ok redirs => .ok ⟨program, vars, args, redirs, c.abortOnError, c.pos⟩

/-- `Runtime::build_command`, src/runtime/command/mod.rs:166-202. -/
def buildCommand (env : ArgEnv) : Prog.Command → Except Stop ExCommand
  | .builtin program args abort pos => (buildArguments env args).map (fun a => .builtin program a abort pos)
  | .external head tail =>
    match buildBasicCommand env head with
    | .error e => .error e
    | .ok head => (collect (buildBasicCommand env) tail).map (.external head)

/-- `Runtime::build_command_block`, src/runtime/command/mod.rs:149-163. -/
def buildBlock (env : ArgEnv) (head : Prog.Command) (tail : List Prog.Command) : Except Stop ExBlock :=
  match buildCommand env head with
  | .error e => .error e
  | .ok head => (collect (buildCommand env) tail).map (ExBlock.mk head)

end Hush

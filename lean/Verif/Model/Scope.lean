import Verif.Model.Program

/-!
Variable resolution: src/semantic/scope.rs and src/semantic/error/mod.rs.
-/

namespace Hush

/-- `ErrorKind`, src/semantic/error/mod.rs:8-31. -/
inductive SemErrorKind where
  | undeclaredVariable (s : Sym)
  | duplicateVariable (s : Sym)
  | duplicateKey (s : Sym)
  | returnOutsideFunction
  | selfOutsideFunction
  | tryOutsideFunction
  | breakOutsideLoop
  | invalidAssignment
  | asyncBuiltin
deriving DecidableEq, Repr

/-- `Error`, src/semantic/error/mod.rs:35-39. -/
structure SemError where
  kind : SemErrorKind
  pos : Pos
deriving DecidableEq, Repr

/-- `Scope`, src/semantic/scope.rs:13-15: a map from names to slots, as an association list. -/
abbrev Scope := List (Sym × Nat)

/-- `Scope::resolve`, src/semantic/scope.rs:34-38. -/
def Scope.find (s : Scope) (x : Sym) : Option Nat :=
  List.lookup x s

/-- `Frame`, src/semantic/scope.rs:45-54. The scopes are listed innermost first. -/
structure Frame where
  slots : Nat
  captures : List Prog.Capture
  selfSlot : Option Nat
  scopes : List Scope
deriving DecidableEq, Repr

/-- `Frame::new`, src/semantic/scope.rs:59-66, followed by `enter_block` as in `Stack::enter_frame`
(174-180). -/
def Frame.new : Frame := ⟨0, [], none, [[]]⟩

/-- `Frame::resolve`, src/semantic/scope.rs:98-105: innermost scope first. -/
def Frame.resolve (f : Frame) (x : Sym) : Option Nat :=
  f.scopes.findSome? (fun s => Scope.find s x)

/-- `entry(symbol).insert` in the outermost scope (`scopes.first_mut`), src/semantic/scope.rs:111-118. -/
def insertRoot (x : Sym) (slot : Nat) : List Scope → List Scope
  | [] => []
  | [root] => [(x, slot) :: root]
  | s :: rest => s :: insertRoot x slot rest

/-- `Frame::capture`, src/semantic/scope.rs:110-129. Simplified: without a root scope (a Rust panic,
excluded by construction: a frame has its root scope from `enter_frame` to `exit_frame`) the name is not
recorded. -/
def Frame.capture (f : Frame) (x : Sym) (parent : Nat) : Nat × Frame :=
  match f.scopes.getLast? >>= (fun root => Scope.find root x) with
  | some slot => (slot, f)
  | none =>
    (f.slots,
      { f with slots := f.slots + 1, captures := f.captures ++ [⟨parent, f.slots⟩],
               scopes := insertRoot x f.slots f.scopes })

/-- The suffix `@closed`, src/semantic/scope.rs:253. -/
def closedSuffix : Bytes := [64, 99, 108, 111, 115, 101, 100]

/-- The name under which a captured variable is recorded, src/semantic/scope.rs:244-256. -/
def closedName (x : Sym) : Sym := x ++ closedSuffix

/-- `Stack::resolve`, src/semantic/scope.rs:220-268, on the frames listed innermost first. The result is the
slot in the innermost frame, with the capture installed in that frame and all frames between it and the origin;
`none` if no frame declares the name. The Rust loop over the frames above the origin is the
return path of this recursion. -/
def resolveFrames (x : Sym) : List Frame → Option (Nat × List Frame)
  | [] => none
  | f :: rest =>
    match f.resolve x with
    | some slot => some (slot, f :: rest)
    | none =>
      match resolveFrames x rest with
      | none => none
      | some (parent, rest') =>
        let r := f.capture (closedName x) parent
        some (r.1, r.2 :: rest')

end Hush

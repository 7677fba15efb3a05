import Verif.Model.World

/-!
Where an import looks for the module.
-/

namespace Hush

/-- `/`. (Used at src/runtime/lib/import.rs:53-77.) -/
def sep : UInt8 := 47

/-- `PathBuf::pop` of the standard library, called at src/runtime/lib/import.rs:66: the path without its last component; the root and the empty
path are left alone. (Simplified: components `.` before the last one are kept; they do not matter for `canonicalize`.) -/
def popPath (p : Bytes) : Bytes :=
  match p.reverse.dropWhile (· == sep) with
  | [] => p
  | q =>
    match q.dropWhile (· != sep) with
    | [] => []
    | d =>
      match d.dropWhile (· == sep) with
      | [] => [sep]
      | e => e.reverse

/-- `PathBuf::push` of the standard library, called at src/runtime/lib/import.rs:67: an absolute path replaces the other; otherwise it is
appended, after a separator if one is needed. -/
def pushPath (dir t : Bytes) : Bytes :=
  if t.head? = some sep then t
  else if dir = [] ∨ dir.getLast? = some sep then dir ++ t
  else dir ++ sep :: t

/-- The path that `Import::resolve_path` makes canonical, src/runtime/lib/import.rs:58-67. -/
def modulePath (cur t : Bytes) : Bytes := pushPath (popPath cur) t

/-- `canonicalize` (realpath) at some time, in the given working directory: the result is absolute, and absolute paths do not depend on the
working directory. (Used at src/runtime/lib/import.rs:53-77.) -/
structure Canonical (canon : Bytes → Bytes → Except Bytes Sym) : Prop where
  absolute : ∀ c p q, canon c p = .ok q → q.head? = some sep
  rooted : ∀ c c' p, p.head? = some sep → canon c p = canon c' p

/-- The world finds modules as `Import::resolve_path` does, src/runtime/lib/import.rs:53-77, the working directory after the events being `cwd`,
and the files of the machine being as `canon` says. -/
structure FindsModules (w : World) (canon : List Event → Bytes → Bytes → Except Bytes Sym) (cwd : List Event → Bytes) : Prop where
  canonical : ∀ evs, Canonical (canon evs)
  resolve : ∀ evs cur t, w.resolve evs cur t = canon evs (cwd evs) (modulePath cur t)

end Hush

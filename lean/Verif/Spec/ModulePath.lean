import Verif.Model.World

/-!
What the path of an import means: it is seen from the directory of the file with the import.
-/

namespace Hush.Spec
open Hush

/-- The path begins with `/`. -/
def Absolute (p : Bytes) : Prop := ∃ r, p = 47 :: r

/-- `SeenFrom file t p`: in the file `file`, `t` means the path `p`. A path is a directory, one or more `/`, and a name; the directory is the root
if nothing precedes these `/`, and the working directory if there are none. -/
inductive SeenFrom : Bytes → Bytes → Bytes → Prop
  | absolute (file t : Bytes) : Absolute t → SeenFrom file t t
  | inDirectory (dir name t : Bytes) (k : Nat) : dir ≠ [] → dir.getLast? ≠ some 47 → name ≠ [] → 47 ∉ name → ¬ Absolute t →
    SeenFrom (dir ++ List.replicate (k + 1) 47 ++ name) t (dir ++ 47 :: t)
  | inRoot (name t : Bytes) (k : Nat) : name ≠ [] → 47 ∉ name → ¬ Absolute t → SeenFrom (List.replicate (k + 1) 47 ++ name) t (47 :: t)
  | here (name t : Bytes) : 47 ∉ name → ¬ Absolute t → SeenFrom name t t

end Hush.Spec

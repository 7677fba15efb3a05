import Verif.Model.Symbols

/-!
Symbols as if they were their texts.
-/

namespace Hush.Spec
open Hush Hush.Symbols

/-- One use, if symbols are texts. -/
def useText (escape : Bytes → Bytes) (got : List Bytes) : Use → Seen × List Bytes
  | .obtain b => (.obtained, got ++ [b])
  | .same i j => (.same (got[i]? == got[j]?), got)
  | .resolve i => (.resolved got[i]?, got)
  | .text i => (.text (got[i]?.map fun b => if b = bs "<invalid symbol>" then bs "***ill-formed***" else escape b), got)

/-- What is seen by the code in `n` uses, if symbols are texts. -/
def observeText (escape : Bytes → Bytes) (code : Code) : Nat → List Seen → List Bytes → List Seen
  | 0, seen, _ => seen
  | n + 1, seen, got =>
    match code seen with
    | none => seen
    | some u => let (x, got') := useText escape got u
      observeText escape code n (seen ++ [x]) got'

end Hush.Spec

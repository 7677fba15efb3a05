import Verif.Model.Frontend
import Verif.Spec.SourcePos

/-!
Where syntax errors are, as offsets into the text.
-/

namespace Hush.Spec
open Hush

/-- A syntax error is at offset `k`: that of the token, or the end of the text. -/
def PlacedAt (src : Bytes) : ParseError → Nat → Prop
  | .unexpected t _, k => k < src.length ∧ t.pos = lineCol src k
  | .emptyCommandBlock p, k => k < src.length ∧ p = lineCol src k
  | .unexpectedEof, k => k = src.length

end Hush.Spec

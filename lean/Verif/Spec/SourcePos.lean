import Verif.Model.Token

/-! Specification: line and column of an offset in a source text. -/

namespace Hush.Spec

/-- Line (from 1) and column (from 0) of the byte at offset `k`: one plus the number of newlines before it,
and the number of bytes between the last newline before it and itself. -/
def lineCol (src : Bytes) (k : Nat) : Pos :=
  ⟨1 + (src.take k).count cNL, ((src.take k).reverse.takeWhile (· ≠ cNL)).length⟩

end Hush.Spec

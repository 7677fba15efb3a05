import Verif.Model.Bytes

/-!
What it means that a text is trimmed.
-/

namespace Hush.Spec
open Hush

/-- The numbers of the white space characters (Unicode property `White_Space`). -/
def spaceNumbers : List Nat :=
  [0x9, 0xA, 0xB, 0xC, 0xD, 0x20, 0x85, 0xA0, 0x1680, 0x2000, 0x2001, 0x2002, 0x2003, 0x2004, 0x2005, 0x2006, 0x2007, 0x2008, 0x2009, 0x200A,
   0x2028, 0x2029, 0x202F, 0x205F, 0x3000]

/-- The white space characters, in UTF-8. -/
def spaces : List Bytes := spaceNumbers.map fun n => String.utf8EncodeChar (Char.ofNat n)

/-- `r` is the text `s` without white space at the ends: there are only white space characters before and after it, and it neither begins nor
ends with one. -/
def Trimmed (s r : Bytes) : Prop :=
  (∃ a b : List Bytes, (∀ x ∈ a, x ∈ spaces) ∧ (∀ x ∈ b, x ∈ spaces) ∧ s = a.flatten ++ r ++ b.flatten) ∧
  (∀ x ∈ spaces, ¬ x <+: r) ∧ (∀ x ∈ spaces, ¬ x <:+ r)

end Hush.Spec

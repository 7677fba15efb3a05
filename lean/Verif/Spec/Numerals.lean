import Verif.Model.Bytes

/-!
Texts of integers.
-/

namespace Hush.Spec
open Hush

/-- The text consists of one or more decimal digits, which denote the number. -/
inductive Digits : Bytes → Nat → Prop
  | one {d : Nat} : d < 10 → Digits [UInt8.ofNat (48 + d)] d
  | more {s : Bytes} {n d : Nat} : Digits s n → d < 10 → Digits (s ++ [UInt8.ofNat (48 + d)]) (10 * n + d)

/-- The text denotes the integer: digits, possibly after a sign. -/
inductive IntText : Bytes → Int → Prop
  | plain {s n} : Digits s n → IntText s n
  | plus {s n} : Digits s n → IntText (43 :: s) n
  | minus {s n} : Digits s n → IntText (45 :: s) (-n)

end Hush.Spec

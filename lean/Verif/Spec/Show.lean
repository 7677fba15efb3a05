import Verif.Spec.Json
import Verif.Spec.TokenText

/-!
Which data have a text that is an expression of the language.
-/

namespace Hush.Spec
open Hush

/-- A character that can be printed, or a tab, a line feed or NUL; `first` if it is the first of its text. -/
def Quotable (w : World) (first : Bool) (c : Char) : Prop :=
  c.toNat = 0 ∨ c.toNat = 9 ∨ c.toNat = 10 ∨ (32 ≤ c.toNat ∧ c.toNat < 127) ∨
    (128 ≤ c.toNat ∧ w.plain first (String.utf8EncodeChar c) = true)

/-- A text of such characters. -/
def QuotableText (w : World) : List Char → Prop
  | [] => True
  | c :: s => Quotable w true c ∧ ∀ c' ∈ s, Quotable w false c'

/-- The text of the float is a number of the language, possibly with a minus sign, and it denotes the float. -/
def FloatReads (w : World) (f : UInt64) : Prop :=
  (FloatText (w.floatText f) ∧ w.parseFloat (w.floatText f) = f) ∨
    ∃ t, w.floatText f = cMinus :: t ∧ FloatText t ∧ w.fneg (w.parseFloat t) = f

mutual
/-- Data of nil, booleans, integers other than the least one, floats and texts with the restrictions above, and lists of such. -/
def Readable (w : World) : Data → Prop
  | .int i => -2 ^ 63 < i ∧ i < 2 ^ 63
  | .float f => FloatReads w f
  | .text s => QuotableText w s
  | .list js => ReadableItems w js
  | .record _ => False
  | _ => True
/-- All of them. -/
def ReadableItems (w : World) : List Data → Prop
  | [] => True
  | j :: js => Readable w j ∧ ReadableItems w js
end

end Hush.Spec

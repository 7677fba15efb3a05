import Verif.Spec.Evaluation

/-!
Exported variables.
-/

namespace Hush.Spec
open Hush

/-- `std.export` was called with the name and the text, and has accepted them. -/
def exported (k v : Bytes) : Event := .native (bs "std.export") [.string k, .string v]

/-- The last of the calls of `std.export` with the name had this text. -/
def LastExport (evs : List Event) (k v : Bytes) : Prop := ∃ a b, evs = a ++ exported k v :: b ∧ ∀ v', exported k v' ∉ b

/-- There is no such call. -/
def NoExport (evs : List Event) (k : Bytes) : Prop := ∀ v, exported k v ∉ evs

/-- A name of a variable: not empty, without `=` and without null bytes. -/
def LegalName (k : Bytes) : Prop := k ≠ [] ∧ 61 ∉ k ∧ 0 ∉ k

/-- A text of a variable: without null bytes. -/
def LegalText (v : Bytes) : Prop := 0 ∉ v

end Hush.Spec

import Mathlib.Data.List.Forall2
import Verif.Model.Glob

/-!
Specification of argument expansion: what each part of a command argument stands for, and which words an argument
expands to. Independent of the `build_*` functions and of `Args`.
-/

namespace Hush
namespace Spec

/-- The number written by a string of decimal digits. -/
def decimal (ds : Bytes) : Nat := ds.foldl (fun n d => 10 * n + (d.toNat - 48)) 0

/-- A canonical decimal numeral: digits, no leading zero unless the number is zero. -/
def Numeral (n : Nat) (ds : Bytes) : Prop :=
  ds ≠ [] ∧ (∀ d ∈ ds, isDigit d = true) ∧ decimal ds = n ∧ (ds.head? = some 48 → ds = [48])

/-- The text of an integer: an optional minus sign and a canonical numeral. -/
def IntNumeral (i : Int) (s : Bytes) : Prop :=
  (0 ≤ i ∧ Numeral i.toNat s) ∨ (i < 0 ∧ ∃ ds, s = 45 :: ds ∧ Numeral (-i).toNat ds)

/-- The text of a value that can be (part of) an argument. Arrays, dicts, functions and errors have none. -/
inductive Shown (env : ArgEnv) : Value → Bytes → Prop where
  | nil : Shown env .nil []
  | true_ : Shown env (.bool true) (bs "true")
  | false_ : Shown env (.bool false) (bs "false")
  | int : IntNumeral i s → Shown env (.int i) s
  | float : Shown env (.float f) (env.floatText f)
  | byte : Shown env (.byte b) [b]
  | string : Shown env (.string s) s

/-- What a part of an argument contributes to a word: text, or a wildcard. -/
inductive Atom where
  | text (s : Bytes)
  | anyText
  | anyChar
  | oneOf (cls : Bytes)
deriving DecidableEq, Repr

/-- The home directory with a trailing slash; nothing if there is none. -/
inductive HomeDir : Option Bytes → Bytes → Prop where
  | none : HomeDir none []
  | empty : HomeDir (some []) []
  | slash : HomeDir (some (h ++ [47])) (h ++ [47])
  | plain : b ≠ 47 → HomeDir (some (h ++ [b])) (h ++ [b, 47])

/-- The text of an item of a collection. -/
inductive UnitText (env : ArgEnv) : Prog.ArgUnit → Bytes → Prop where
  | literal : UnitText env (.literal s) s
  | dollar : env.fetch x = some v → Shown env v s → UnitText env (.dollar x pos) s

/-- The alternatives a part offers. An array offers one per element, everything else is one alternative, except for
ranges and collections. -/
inductive Alternatives (env : ArgEnv) : Prog.ArgPart → List Atom → Prop where
  | literal : Alternatives env (.unit (.literal s)) [.text s]
  | value : env.fetch x = some v → Shown env v s → Alternatives env (.unit (.dollar x pos)) [.text s]
  | array (ss : List Bytes) : env.fetch x = some (.array a) → List.Forall₂ (Shown env) (env.array a) ss →
      Alternatives env (.unit (.dollar x pos)) (ss.map .text)
  | home : HomeDir env.home h → Alternatives env .home [.text h]
  | range (ss : List Bytes) : ss.length = (b + 1 - a).toNat → (∀ (k : Nat) s, ss[k]? = some s → IntNumeral (a + k) s) →
      Alternatives env (.range a b) (ss.map .text)
  | collection (ss : List Bytes) : List.Forall₂ (UnitText env) items ss → Alternatives env (.collection items) (ss.map .text)
  | star : Alternatives env .star [.anyText]
  | percent : Alternatives env .percent [.anyChar]
  | charClass : Alternatives env (.charClass cls) [.oneOf cls]

/-- All ways to choose one item of each list. Of two choices, the one that differs first from the end decides
the order: choices of the first list vary fastest. -/
def combos : List (List α) → List (List α)
  | [] => [[]]
  | p :: ps => (combos ps).flatMap (fun t => p.map (fun x => x :: t))

/-- A character with a special meaning in patterns. -/
def Special (c : UInt8) : Prop := c = 63 ∨ c = 42 ∨ c = 91 ∨ c = 93

instance : DecidablePred Special := fun c => by unfold Special; infer_instance

/-- The pattern text of an atom: special characters of a text are put in brackets. -/
def Atom.pattern : Atom → Bytes
  | .text s => s.flatMap (fun c => if Special c then [91, c, 93] else [c])
  | .anyText => [42]
  | .anyChar => [63]
  | .oneOf cls => 91 :: cls ++ [93]

/-- What an expanded argument stands for: a literal is a word without wildcards, and is exactly its text; a pattern is
a word with wildcards. -/
inductive Means : ExArg → List Atom → Prop where
  | literal (ss : List Bytes) : Means (.literal ss.flatten) (ss.map .text)
  | pattern (w : List Atom) : (∃ a ∈ w, ∀ s, a ≠ .text s) → Means (.pattern (w.flatMap Atom.pattern)) w

/-- A file name fits a word: text matches only itself, byte for byte; `anyText` matches any
text and `anyChar` one character (in UTF-8). -/
inductive Fits : List Atom → Bytes → Prop where
  | nil : Fits [] []
  | text : Fits w n → Fits (.text s :: w) (s ++ n)
  | anyText (pre : Bytes) : (Glob.chars pre).isSome = true → Fits w n → Fits (.anyText :: w) (pre ++ n)
  | anyChar : Glob.chars c = some [c] → Fits w n → Fits (.anyChar :: w) (c ++ n)

/-- Two wildcards `*` with nothing in between. -/
def StarStar (w : List Atom) : Prop :=
  ∃ pre mid post, w = pre ++ .anyText :: mid ++ .anyText :: post ∧ ∀ a ∈ mid, a = .text []

end Spec
end Hush

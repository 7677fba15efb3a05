import Verif.Model.Args

/-!
Matching of file names against patterns, as used by `Argument::resolve`, src/runtime/command/exec/mod.rs:86-116.

The matching itself is done by the `glob` crate (version 0.3, `Pattern::new` and `Pattern::matches`), a dependency
whose source is not in the repository: this file is a model of its documented behaviour and belongs to the trusted
base. A character is represented by the bytes of its UTF-8 encoding, so that equality of characters is equality of
bytes and the order of characters is the lexicographic order of bytes.
-/

namespace Hush
namespace Glob

/-- A continuation byte of UTF-8, with a restricted lower and upper bound.
(Trusted, crate `glob`, called at src/runtime/command/exec/mod.rs:86-116 and src/runtime/lib/glob.rs:19-29.) -/
def between (lo hi b : UInt8) : Bool := decide (lo ≤ b ∧ b ≤ hi)

/-- `OsString::into_string` (src/runtime/command/exec/mod.rs:92-94): the characters of a byte string that is valid
UTF-8. Each character is given by its encoding. -/
def chars : Bytes → Option (List Bytes)
  | [] => some []
  | b0 :: t =>
    if b0 < 0x80 then (chars t).map ([b0] :: ·)
    else
      match t with
      | [] => none
      | b1 :: t1 =>
        if between 0xC2 0xDF b0 && between 0x80 0xBF b1 then (chars t1).map ([b0, b1] :: ·)
        else
          match t1 with
          | [] => none
          | b2 :: t2 =>
            if (b0 == 0xE0 && between 0xA0 0xBF b1
                || (between 0xE1 0xEC b0 || between 0xEE 0xEF b0) && between 0x80 0xBF b1
                || b0 == 0xED && between 0x80 0x9F b1) && between 0x80 0xBF b2 then
              (chars t2).map ([b0, b1, b2] :: ·)
            else
              match t2 with
              | [] => none
              | b3 :: t3 =>
                if (b0 == 0xF0 && between 0x90 0xBF b1
                    || between 0xF1 0xF3 b0 && between 0x80 0xBF b1
                    || b0 == 0xF4 && between 0x80 0x8F b1) && between 0x80 0xBF b2 && between 0x80 0xBF b3 then
                  (chars t3).map ([b0, b1, b2, b3] :: ·)
                else none

/-- `CharSpecifier` of the crate: a character or a range.
(Trusted, crate `glob`, called at src/runtime/command/exec/mod.rs:86-116 and src/runtime/lib/glob.rs:19-29.) -/
inductive CharSpec where
  | single (c : Bytes)
  | range (lo hi : Bytes)
deriving DecidableEq, Repr

/-- `PatternToken` of the crate.
(Trusted, crate `glob`, called at src/runtime/command/exec/mod.rs:86-116 and src/runtime/lib/glob.rs:19-29.) -/
inductive Tok where
  | char (c : Bytes)
  | anyChar
  | anySequence
  | anyRecursive
  | anyWithin (l : List CharSpec)
  | anyExcept (l : List CharSpec)
deriving DecidableEq, Repr

/-- `parse_char_specifiers` of the crate.
(Trusted, crate `glob`, called at src/runtime/command/exec/mod.rs:86-116 and src/runtime/lib/glob.rs:19-29.) -/
def specs : List Bytes → List CharSpec
  | a :: b :: c :: rest =>
    if b = [cMinus] then .range a c :: specs rest else .single a :: specs (b :: c :: rest)
  | a :: rest => .single a :: specs rest
  | [] => []

/-- The characters before the first `]` and those after it.
(Trusted, crate `glob`, called at src/runtime/command/exec/mod.rs:86-116 and src/runtime/lib/glob.rs:19-29.) -/
def uptoBracket : List Bytes → Option (List Bytes × List Bytes)
  | [] => none
  | c :: rest =>
    if c = [cCloseBracket] then some ([], rest)
    else (uptoBracket rest).map (fun p => (c :: p.1, p.2))

/-- What follows a `[`: a class, whose first character may be `]`.
(Trusted, crate `glob`, called at src/runtime/command/exec/mod.rs:86-116 and src/runtime/lib/glob.rs:19-29.) -/
def parseClass : List Bytes → Option (Tok × List Bytes)
  | [] => none
  | c :: rest =>
    if c = [cBang] then
      match rest with
      | [] => none
      | d :: rest => (uptoBracket rest).map (fun p => (.anyExcept (specs (d :: p.1)), p.2))
    else (uptoBracket rest).map (fun p => (.anyWithin (specs (c :: p.1)), p.2))

/-- `Pattern::new` of the crate; `none` is a `PatternError`. Two adjacent stars are the recursive wildcard if they are a whole component of a
path: `start` says that they are at the beginning or follow a `/`, and they have to be at the end or before a `/`, which belongs to
the wildcard. Otherwise they are an error, and so are more than two. (The crate drops a recursive wildcard right after another one.) The number
bounds the recursion; it is at least the number of characters.
(Trusted, crate `glob`, called at src/runtime/command/exec/mod.rs:86-116 and src/runtime/lib/glob.rs:19-29.) -/
def tokens : Nat → Bool → List Bytes → Option (List Tok)
  | 0, _, [] => some []
  | 0, _, _ :: _ => none
  | _ + 1, _, [] => some []
  | n + 1, start, c :: rest =>
    if c = [cQuestion] then (tokens n false rest).map (.anyChar :: ·)
    else if c = [cStar] then
      if rest.head? = some [cStar] then
        if start then
          match rest.tail with
          | [] => some [.anyRecursive]
          | d :: rest => if d = [cSlash] then (tokens n true rest).map (.anyRecursive :: ·) else none
        else none
      else (tokens n false rest).map (.anySequence :: ·)
    else if c = [cOpenBracket] then
      match parseClass rest with
      | none => none
      | some (t, rest) => (tokens n false rest).map (t :: ·)
    else (tokens n (decide (c = [cSlash])) rest).map (.char c :: ·)

/-- Whether a character belongs to a class.
(Trusted, crate `glob`, called at src/runtime/command/exec/mod.rs:86-116 and src/runtime/lib/glob.rs:19-29.) -/
def CharSpec.has (c : Bytes) : CharSpec → Prop
  | .single d => c = d
  | .range lo hi => lo ≤ c ∧ c ≤ hi

/-- `Pattern::matches` of the crate with the default options, on the characters of a name.
(Trusted, crate `glob`, called at src/runtime/command/exec/mod.rs:86-116 and src/runtime/lib/glob.rs:19-29.) -/
inductive Matches : List Tok → List Bytes → Prop where
  | nil : Matches [] []
  | char : Matches ts cs → Matches (.char c :: ts) (c :: cs)
  | anyChar : Matches ts cs → Matches (.anyChar :: ts) (c :: cs)
  | anyWithin : (∃ s ∈ l, s.has c) → Matches ts cs → Matches (.anyWithin l :: ts) (c :: cs)
  | anyExcept : (∀ s ∈ l, ¬ s.has c) → Matches ts cs → Matches (.anyExcept l :: ts) (c :: cs)
  | anySequence (pre : List Bytes) : Matches ts cs → Matches (.anySequence :: ts) (pre ++ cs)
  /-- Any number of whole components of a path. -/
  | anyRecursive (pre : List Bytes) : (pre = [] ∨ pre.getLast? = some [cSlash]) → Matches ts cs → Matches (.anyRecursive :: ts) (pre ++ cs)

/-- A pattern (as text) matches a file name; only names in valid UTF-8 are considered.
(Trusted, crate `glob`, called at src/runtime/command/exec/mod.rs:86-116 and src/runtime/lib/glob.rs:19-29.) -/
def MatchesName (pattern name : Bytes) : Prop :=
  ∃ pc ts nc, chars pattern = some pc ∧ tokens pc.length true pc = some ts ∧ chars name = some nc ∧ Matches ts nc

end Glob
end Hush

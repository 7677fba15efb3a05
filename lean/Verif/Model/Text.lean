import Verif.Model.Bytes

/-!
Texts: UTF-8 as checked and repaired by the standard library of Rust, and white space as trimmed by the crate `bstr` (0.2.16; both trusted).
-/

namespace Hush

/-! ### UTF-8 -/

/-- Whether a byte is a continuation byte.
(Standard library, trusted; called at src/runtime/value/fmt.rs:101 and src/symbol/fmt.rs:23-24.) -/
def isCont (b : UInt8) : Bool := decide (0x80 ≤ b ∧ b ≤ 0xBF)

/-- The length of the sequences that begin with a byte; 0 if there are none.
(Standard library, trusted; called at src/runtime/value/fmt.rs:101 and src/symbol/fmt.rs:23-24.) -/
def utf8Width (b : UInt8) : Nat :=
  if b ≤ 0x7F then 1
  else if 0xC2 ≤ b ∧ b ≤ 0xDF then 2
  else if 0xE0 ≤ b ∧ b ≤ 0xEF then 3
  else if 0xF0 ≤ b ∧ b ≤ 0xF4 then 4
  else 0

/-- Whether the second byte may follow the first one: neither overlong sequences nor surrogates nor numbers above 10FFFF.
(Standard library, trusted; called at src/runtime/value/fmt.rs:101 and src/symbol/fmt.rs:23-24.) -/
def utf8Second (b b' : UInt8) : Bool :=
  if b = 0xE0 then decide (0xA0 ≤ b' ∧ b' ≤ 0xBF)
  else if b = 0xED then decide (0x80 ≤ b' ∧ b' ≤ 0x9F)
  else if b = 0xF0 then decide (0x90 ≤ b' ∧ b' ≤ 0xBF)
  else if b = 0xF4 then decide (0x80 ≤ b' ∧ b' ≤ 0x8F)
  else isCont b'

/-- How many bytes can continue a sequence with the given first byte.
(Standard library, trusted; called at src/runtime/value/fmt.rs:101 and src/symbol/fmt.rs:23-24.) -/
def utf8Fits (b : UInt8) : Bytes → Nat
  | [] => 0
  | b' :: s => if utf8Second b b' then 1 + (s.takeWhile isCont).length else 0

/-- The first part of a text: a character, or bytes that do not belong to one (`Utf8Chunks` of the standard library), and its length.
(Standard library, trusted; called at src/runtime/value/fmt.rs:101 and src/symbol/fmt.rs:23-24.) -/
def utf8Chunk : Bytes → Bool × Nat
  | [] => (true, 0)
  | b :: s =>
    let g := min (utf8Width b - 1) (utf8Fits b s)
    if g + 1 = utf8Width b then (true, g + 1) else (false, g + 1)

/-- See `isUtf8`; the number bounds the count of characters.
(Standard library, trusted; called at src/runtime/value/fmt.rs:101 and src/symbol/fmt.rs:23-24.) -/
def isUtf8Of : Nat → Bytes → Bool
  | _, [] => true
  | 0, _ => false
  | n + 1, s => (utf8Chunk s).1 && isUtf8Of n (s.drop (utf8Chunk s).2)

/-- Whether `str::from_utf8` succeeds. (Standard library, trusted; called at src/runtime/value/fmt.rs:101 and src/symbol/fmt.rs:23-24.) -/
def isUtf8 (s : Bytes) : Bool := isUtf8Of s.length s

/-- See `utf8Lossy`; the number bounds the count of parts.
(Standard library, trusted; called at src/runtime/value/fmt.rs:101 and src/symbol/fmt.rs:23-24.) -/
def utf8LossyOf : Nat → Bytes → Bytes
  | 0, _ => []
  | _, [] => []
  | n + 1, s => (if (utf8Chunk s).1 then s.take (utf8Chunk s).2 else [0xEF, 0xBF, 0xBD]) ++ utf8LossyOf n (s.drop (utf8Chunk s).2)

/-- `String::from_utf8_lossy`: what is not a character is replaced by U+FFFD.
(Standard library, trusted; called at src/runtime/value/fmt.rs:101 and src/symbol/fmt.rs:23-24.) -/
def utf8Lossy (s : Bytes) : Bytes := utf8LossyOf s.length s

/-- The encoding of a character (`String::push`), by its number. (Standard library, trusted; for src/runtime/lib/json.rs:57-69.) -/
def utf8Encode (n : Nat) : Bytes :=
  if n < 0x80 then [UInt8.ofNat n]
  else if n < 0x800 then [UInt8.ofNat (0xC0 + n / 64), UInt8.ofNat (0x80 + n % 64)]
  else if n < 0x10000 then [UInt8.ofNat (0xE0 + n / 4096), UInt8.ofNat (0x80 + n / 64 % 64), UInt8.ofNat (0x80 + n % 64)]
  else
    [UInt8.ofNat (0xF0 + n / 262144), UInt8.ofNat (0x80 + n / 4096 % 64), UInt8.ofNat (0x80 + n / 64 % 64), UInt8.ofNat (0x80 + n % 64)]

/-! ### White space -/

/-- The length of a white space character at the beginning of a text; 0 if there is none. (Called at src/runtime/lib/trim.rs:27.) -/
def spaceAtStart : Bytes → Nat
  | [] => 0
  | a :: s =>
    if a = 32 ∨ (9 ≤ a ∧ a ≤ 13) then 1
    else
      match s with
      | b :: s =>
        if a = 0xC2 ∧ (b = 0x85 ∨ b = 0xA0) then 2
        else
          match s with
          | c :: _ =>
            if a = 0xE1 ∧ b = 0x9A ∧ c = 0x80 then 3
            else if a = 0xE2 ∧ b = 0x80 ∧ ((0x80 ≤ c ∧ c ≤ 0x8A) ∨ c = 0xA8 ∨ c = 0xA9 ∨ c = 0xAF) then 3
            else if a = 0xE2 ∧ b = 0x81 ∧ c = 0x9F then 3
            else if a = 0xE3 ∧ b = 0x80 ∧ c = 0x80 then 3
            else 0
          | [] => 0
      | [] => 0

/-- The same for the end of a text, which is given in reverse. (Called at src/runtime/lib/trim.rs:27.) -/
def spaceAtEnd (r : Bytes) : Nat :=
  if 0 < spaceAtStart (r.take 1) then 1
  else if spaceAtStart (r.take 2).reverse = 2 then 2
  else if spaceAtStart (r.take 3).reverse = 3 then 3
  else 0

/-- Drop as long as there is something to drop; the number bounds the count of characters. (Called at src/runtime/lib/trim.rs:27.) -/
def dropSpaces (f : Bytes → Nat) : Nat → Bytes → Bytes
  | 0, s => s
  | n + 1, s => if f s = 0 then s else dropSpaces f n (s.drop (f s))

/-- `ByteSlice::trim` (crate `bstr`, trusted): white space (Unicode property `White_Space`) is removed at both ends.
(Called at src/runtime/lib/trim.rs:27.) -/
def trimSpaces (s : Bytes) : Bytes :=
  let t := dropSpaces spaceAtStart s.length s
  (dropSpaces spaceAtEnd t.length t.reverse).reverse

end Hush

import Verif.Model.Text
import Verif.Model.World

/-!
JSON: `Serialize` and `Deserialize` of values, src/runtime/lib/json.rs:72-199, with the writer (`to_string_pretty`) and the reader
(`from_slice`) of the crate `serde_json` (1.0.79, trusted). The texts of floats are those of the world.
-/

namespace Hush.Json

/-! ### Writing -/

/-- Why there is no text: a value that has none, or the depth was not enough. (The errors of src/runtime/lib/json.rs:171-199.) -/
inductive EncStop where
  | refused
  | deep
deriving DecidableEq, Repr

/-- Hexadecimal digits as written by `serde_json`. (Trusted, crate `serde_json`, called at src/runtime/lib/json.rs:34-48 and 57-69.) -/
def hexLower (n : Nat) : UInt8 := if n < 10 then UInt8.ofNat (48 + n) else UInt8.ofNat (87 + n)

/-- A byte of a string (`serde_json::ser::ESCAPE`). (Trusted, crate `serde_json`, called at src/runtime/lib/json.rs:34-48 and 57-69.) -/
def escape (b : UInt8) : Bytes :=
  if b = 34 then [92, 34]
  else if b = 92 then [92, 92]
  else if b = 8 then [92, 98]
  else if b = 9 then [92, 116]
  else if b = 10 then [92, 110]
  else if b = 12 then [92, 102]
  else if b = 13 then [92, 114]
  else if b < 32 then [92, 117, 48, 48, hexLower (b.toNat / 16), hexLower (b.toNat % 16)]
  else [b]

/-- A string. (Trusted, crate `serde_json`, called at src/runtime/lib/json.rs:34-48 and 57-69.) -/
def quote (s : Bytes) : Bytes := 34 :: (s.flatMap escape ++ [34])

/-- A new line with the indentation of `PrettyFormatter`: two spaces per level.
(Trusted, crate `serde_json`, called at src/runtime/lib/json.rs:34-48 and 57-69.) -/
def newline (d : Nat) : Bytes := 10 :: List.replicate (2 * d) 32

/-- The elements on lines of their own, one level deeper.
(Trusted, crate `serde_json`, called at src/runtime/lib/json.rs:34-48 and 57-69.) -/
def layout (opening closing : UInt8) (d : Nat) : List Bytes → Bytes
  | [] => [opening, closing]
  | p :: ps =>
    opening :: (newline (d + 1) ++ p ++ ps.flatMap (fun p => 44 :: (newline (d + 1) ++ p)) ++ newline d ++ [closing])

/-- All texts, or the first failure. (Helper for src/runtime/lib/json.rs:171-199.) -/
def encodeAll (f : α → Except EncStop Bytes) : List α → Except EncStop (List Bytes)
  | [] => .ok []
  | x :: xs =>
    match f x with
    | .error e => .error e
    | .ok t =>
      match encodeAll f xs with
      | .error e => .error e
      | .ok ts => .ok (t :: ts)

/-- An entry of a dict, src/runtime/lib/json.rs:186-191. -/
def encodeEntry (f : Value → Except EncStop Bytes) (e : Value × Value) : Except EncStop Bytes :=
  match e.1 with
  | .string k =>
    match f e.2 with
    | .ok t => .ok (quote (utf8Lossy k) ++ [58, 32] ++ t)
    | .error e => .error e
  | _ => .error .refused

/-- Whether a float is a number. (Trusted, crate `serde_json`, called at src/runtime/lib/json.rs:34-48 and 57-69.) -/
def isFinite (f : UInt64) : Bool := decide (floatMagnitude f < 0x7FF0000000000000)

/-- `Serialize for Value`, src/runtime/lib/json.rs:171-199; `d` is the level of nesting. The code recurses without bound: cyclic values
overflow the native stack. Entries of dicts are written in the order of insertion (simplified: the order of a `HashMap` is arbitrary). -/
def encode (w : World) (h : Heap) : Nat → Nat → Value → Except EncStop Bytes
  | 0, _, _ => .error .deep
  | n + 1, d, v =>
    match v with
    | .nil => .ok [110, 117, 108, 108]
    | .bool b => .ok (boolText b)
    | .byte b => .ok (quote (utf8Lossy [b]))
    | .int i => .ok (intText i)
    | .float f => .ok (if isFinite f then w.jsonFloat f else [110, 117, 108, 108])
    | .string s => .ok (quote (utf8Lossy s))
    | .array a =>
      match encodeAll (encode w h n (d + 1)) (h.array a) with
      | .ok ts => .ok (layout 91 93 d ts)
      | .error e => .error e
    | .dict a =>
      match encodeAll (encodeEntry (encode w h n (d + 1))) (h.dict a) with
      | .ok ts => .ok (layout 123 125 d ts)
      | .error e => .error e
    | .function _ => .error .refused
    | .error _ _ => .error .refused

/-! ### Reading -/

/-- White space between tokens. (Trusted, crate `serde_json`, called at src/runtime/lib/json.rs:34-48 and 57-69.) -/
def isSpace (b : UInt8) : Bool := b == 32 || b == 10 || b == 9 || b == 13

/-- `parse_whitespace`. (Trusted, crate `serde_json`, called at src/runtime/lib/json.rs:34-48 and 57-69.) -/
def skip (s : Bytes) : Bytes := s.dropWhile isSpace

/-- The value of a hexadecimal digit, either case. (Trusted, crate `serde_json`, called at src/runtime/lib/json.rs:34-48 and 57-69.) -/
def hexNum (b : UInt8) : Option Nat :=
  if 48 ≤ b ∧ b ≤ 57 then some (b.toNat - 48)
  else if 97 ≤ b ∧ b ≤ 102 then some (b.toNat - 87)
  else if 65 ≤ b ∧ b ≤ 70 then some (b.toNat - 55)
  else none

/-- `decode_hex_escape`. (Trusted, crate `serde_json`, called at src/runtime/lib/json.rs:34-48 and 57-69.) -/
def hex4 : Bytes → Option (Nat × Bytes)
  | a :: b :: c :: d :: s =>
    match hexNum a, hexNum b, hexNum c, hexNum d with
    | some a, some b, some c, some d => some (4096 * a + 256 * b + 16 * c + d, s)
    | _, _, _, _ => none
  | _ => none

/-- What follows `\u`: a character, possibly of two surrogates.
(Trusted, crate `serde_json`, called at src/runtime/lib/json.rs:34-48 and 57-69.) -/
def unicodeEscape (s : Bytes) : Option (Bytes × Bytes) :=
  match hex4 s with
  | none => none
  | some (n, s) =>
    if 0xDC00 ≤ n ∧ n ≤ 0xDFFF then none
    else if 0xD800 ≤ n ∧ n ≤ 0xDBFF then
      match s with
      | 92 :: 117 :: s =>
        match hex4 s with
        | none => none
        | some (m, s) => if 0xDC00 ≤ m ∧ m ≤ 0xDFFF then some (utf8Encode ((n - 0xD800) * 1024 + (m - 0xDC00) + 0x10000), s) else none
      | _ => none
    else some (utf8Encode n, s)

/-- `parse_escape`: what follows a backslash. (Trusted, crate `serde_json`, called at src/runtime/lib/json.rs:34-48 and 57-69.) -/
def unescape : Bytes → Option (Bytes × Bytes)
  | [] => none
  | b :: s =>
    if b = 34 then some ([34], s)
    else if b = 92 then some ([92], s)
    else if b = 47 then some ([47], s)
    else if b = 98 then some ([8], s)
    else if b = 102 then some ([12], s)
    else if b = 110 then some ([10], s)
    else if b = 114 then some ([13], s)
    else if b = 116 then some ([9], s)
    else if b = 117 then unicodeEscape s
    else none

/-- `parse_str_bytes`: up to the closing quote. The number bounds the length.
(Trusted, crate `serde_json`, called at src/runtime/lib/json.rs:34-48 and 57-69.) -/
def stringBody : Nat → Bytes → Option (Bytes × Bytes)
  | 0, _ => none
  | _, [] => none
  | n + 1, b :: s =>
    if b = 34 then some ([], s)
    else if b = 92 then
      match unescape s with
      | none => none
      | some (t, s) => (stringBody n s).map (fun r => (t ++ r.1, r.2))
    else if b < 32 then none
    else (stringBody n s).map (fun r => (b :: r.1, r.2))

/-- `parse_str`, after the opening quote: the text must be UTF-8.
(Trusted, crate `serde_json`, called at src/runtime/lib/json.rs:34-48 and 57-69.) -/
def string (s : Bytes) : Option (Bytes × Bytes) :=
  match stringBody (s.length + 1) s with
  | none => none
  | some (t, s) => if isUtf8 t then some (t, s) else none

/-- The value of decimal digits. (Trusted, crate `serde_json`, called at src/runtime/lib/json.rs:34-48 and 57-69.) -/
def decimalValue (ds : Bytes) : Nat := ds.foldl (fun n d => n * 10 + (d.toNat - 48)) 0

/-- One or more digits. (Trusted, crate `serde_json`, called at src/runtime/lib/json.rs:34-48 and 57-69.) -/
def digits1 (s : Bytes) : Option (Bytes × Bytes) :=
  if (s.takeWhile isDigit).isEmpty then none else some (s.takeWhile isDigit, s.dropWhile isDigit)

/-- The fraction of a number: the text if there is one. (Trusted, crate `serde_json`, called at src/runtime/lib/json.rs:34-48 and 57-69.) -/
def fraction : Bytes → Option (Bytes × Bytes)
  | 46 :: s => (digits1 s).map (fun r => (46 :: r.1, r.2))
  | s => some ([], s)

/-- The exponent of a number: the text if there is one. (Trusted, crate `serde_json`, called at src/runtime/lib/json.rs:34-48 and 57-69.) -/
def exponent : Bytes → Option (Bytes × Bytes)
  | e :: s =>
    if e = 101 ∨ e = 69 then
      match s with
      | c :: s' =>
        if c = 43 ∨ c = 45 then (digits1 s').map (fun r => (e :: c :: r.1, r.2)) else (digits1 s).map (fun r => (e :: r.1, r.2))
      | [] => none
    else some ([], e :: s)
  | [] => some ([], [])

/-- `parse_integer` and what follows it: a number, after the sign. Integers that are no `u64` (or, with a sign, no `i64`, or zero) are floats;
an `u64` that is no `i64` is rejected by `visit_u64`, src/runtime/lib/json.rs:94-101. -/
def number (w : World) (neg : Bool) (s : Bytes) : Option (Tree × Bytes) :=
  match digits1 s with
  | none => none
  | some (ds, r) =>
    if ds.head? = some 48 ∧ ds ≠ [48] then none
    else
      match fraction r with
      | none => none
      | some (f, r) =>
        match exponent r with
        | none => none
        | some (e, r) =>
          let text := (if neg then [45] else []) ++ ds ++ f ++ e
          let float : Option (Tree × Bytes) := (w.jsonNumber text).map (fun x => (.float x, r))
          let n := decimalValue ds
          if f ++ e ≠ [] then float
          else if neg then
            if 0 < n ∧ n ≤ 9223372036854775808 then some (.int (-(n : Int)), r) else float
          else if n ≤ 9223372036854775807 then some (.int n, r)
          else if n ≤ 18446744073709551615 then none
          else float

/-- `HashMap::insert`, src/runtime/lib/json.rs:154-157: a later entry replaces an earlier one. -/
def insertEntry (k : Bytes) (t : Tree) : List (Bytes × Tree) → List (Bytes × Tree)
  | [] => [(k, t)]
  | e :: es => if e.1 = k then (k, t) :: es else e :: insertEntry k t es

mutual
/-- `deserialize_any`. The first number bounds the recursion, the second is `remaining_depth`.
(Trusted, crate `serde_json`, called at src/runtime/lib/json.rs:34-48 and 57-69.) -/
def value (w : World) : Nat → Nat → Bytes → Option (Tree × Bytes)
  | 0, _, _ => none
  | n + 1, d, s =>
    match skip s with
    | 110 :: 117 :: 108 :: 108 :: s => some (.nil, s)
    | 116 :: 114 :: 117 :: 101 :: s => some (.bool true, s)
    | 102 :: 97 :: 108 :: 115 :: 101 :: s => some (.bool false, s)
    | 34 :: s => (string s).map (fun r => (.string r.1, r.2))
    | 91 :: s =>
      if d ≤ 1 then none
      else
        match skip s with
        | 93 :: s => some (.array [], s)
        | s => (items w n (d - 1) s).map (fun r => (.array r.1, r.2))
    | 123 :: s =>
      if d ≤ 1 then none
      else
        match skip s with
        | 125 :: s => some (.dict [], s)
        | s => (entries w n (d - 1) [] s).map (fun r => (.dict (r.1.map (fun e => (.string e.1, e.2))), r.2))
    | 45 :: s => number w true s
    | b :: s => if isDigit b then number w false (b :: s) else none
    | [] => none
/-- The elements of an array, at least one. (Trusted, crate `serde_json`, called at src/runtime/lib/json.rs:34-48 and 57-69.) -/
def items (w : World) : Nat → Nat → Bytes → Option (List Tree × Bytes)
  | 0, _, _ => none
  | n + 1, d, s =>
    match value w n d s with
    | none => none
    | some (t, s) =>
      match skip s with
      | 44 :: s => (items w n d s).map (fun r => (t :: r.1, r.2))
      | 93 :: s => some ([t], s)
      | _ => none
/-- The entries of an object, at least one, after those read so far.
(Trusted, crate `serde_json`, called at src/runtime/lib/json.rs:34-48 and 57-69.) -/
def entries (w : World) : Nat → Nat → List (Bytes × Tree) → Bytes → Option (List (Bytes × Tree) × Bytes)
  | 0, _, _, _ => none
  | n + 1, d, acc, s =>
    match skip s with
    | 34 :: s =>
      match string s with
      | none => none
      | some (k, s) =>
        match skip s with
        | 58 :: s =>
          match value w n d s with
          | none => none
          | some (t, s) =>
            match skip s with
            | 44 :: s => entries w n d (insertEntry k t acc) s
            | 125 :: s => some (insertEntry k t acc, s)
            | _ => none
        | _ => none
    | _ => none
end

/-- `serde_json::from_slice`; `none` is an error. (Called at src/runtime/lib/json.rs:57-69.) -/
def decode (w : World) (s : Bytes) : Option Tree :=
  match value w (2 * s.length + 2) 128 s with
  | some (t, r) => if skip r = [] then some t else none
  | none => none

end Hush.Json

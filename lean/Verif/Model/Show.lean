import Verif.Model.Text
import Verif.Model.World

/-!
The text of values, src/runtime/value/fmt.rs, with `str::escape_debug` of the standard library (trusted).
-/

namespace Hush.Show

/-- `char::escape_unicode` without the braces: hexadecimal digits of a number below 2^24, without leading zeros.
(Standard library, trusted, called at src/runtime/value/fmt.rs:99-103.) -/
def hexText (n : Nat) : Bytes :=
  (([5, 4, 3, 2, 1, 0] : List Nat).map (fun i => n / 16 ^ i % 16)).dropWhile (· == 0) |>.map
    (fun d => if d < 10 then UInt8.ofNat (48 + d) else UInt8.ofNat (87 + d))

/-- The number of a character, from its encoding. (Standard library, trusted, called at src/runtime/value/fmt.rs:99-103.) -/
def charCode : Bytes → Nat
  | [a] => a.toNat
  | [a, b] => a.toNat % 32 * 64 + b.toNat % 64
  | [a, b, c] => a.toNat % 16 * 4096 + b.toNat % 64 * 64 + c.toNat % 64
  | [a, b, c, d] => a.toNat % 8 * 262144 + b.toNat % 64 * 4096 + c.toNat % 64 * 64 + d.toNat % 64
  | _ => 0

/-- An escape `\u{...}`. (Standard library, trusted, called at src/runtime/value/fmt.rs:99-103.) -/
def unicode (c : Bytes) : Bytes := [92, 117, 123] ++ hexText (charCode c) ++ [125]

/-- `char::escape_debug_ext`; which characters beyond ASCII are printed as they are is a table of Unicode, which is a parameter.
(Standard library, trusted, called at src/runtime/value/fmt.rs:99-103.) -/
def escapeChar (w : World) (first : Bool) (c : Bytes) : Bytes :=
  match c with
  | [b] =>
    if b = 0 then [92, 48]
    else if b = 9 then [92, 116]
    else if b = 10 then [92, 110]
    else if b = 13 then [92, 114]
    else if b = 34 ∨ b = 39 ∨ b = 92 then [92, b]
    else if 32 ≤ b ∧ b < 127 then [b]
    else unicode c
  | _ => if w.plain first c then c else unicode c

/-- See `escapeDebug`; the number bounds the count of characters. (Standard library, trusted, called at src/runtime/value/fmt.rs:99-103.) -/
def escapeOf (w : World) : Nat → Bool → Bytes → Bytes
  | 0, _, _ => []
  | _, _, [] => []
  | n + 1, first, s => escapeChar w first (s.take (utf8Chunk s).2) ++ escapeOf w n false (s.drop (utf8Chunk s).2)

/-- `str::escape_debug`; the first character is treated specially.
(Standard library, trusted, called at src/runtime/value/fmt.rs:99-103.) -/
def escapeDebug (w : World) (s : Bytes) : Bytes := escapeOf w s.length true s

/-- `Display for Str`, src/runtime/value/fmt.rs:99-103. -/
def string (w : World) (s : Bytes) : Bytes := 34 :: (escapeDebug w (utf8Lossy s) ++ [34])

/-- The elements of an array or dict, src/runtime/value/fmt.rs:48-63 and 70-95. -/
def list (opening : Bytes) : List Bytes → Bytes
  | [] => opening ++ [32, 93]
  | t :: ts => opening ++ 32 :: t ++ ts.flatMap (fun t => 44 :: 32 :: t) ++ [32, 93]

/-- The text of a function, src/runtime/value/fmt.rs:10-35, with that of its position, src/runtime/source.rs:75-87. The text of the path (which
may contain codes for colours, src/symbol/fmt.rs:11-30) is a parameter. -/
def function (w : World) (h : Heap) : Fn → Bytes
  | .hush a =>
    bs "function<" ++ w.pathText (h.closure a).module ++ bs " (line " ++ natDigits (h.closure a).pos.line ++ bs ", column " ++
      natDigits (h.closure a).pos.column ++ bs ")>"
  | .native name _ => name

/-- The results for all elements, if there are all. (Helper for src/runtime/value/fmt.rs:48-95.) -/
def all (f : α → Option Bytes) : List α → Option (List Bytes)
  | [] => some []
  | x :: xs =>
    match f x with
    | none => none
    | some t =>
      match all f xs with
      | none => none
      | some ts => some (t :: ts)

/-- `Display for Value`, src/runtime/value/fmt.rs:120-138. The code recurses without bound: cyclic values overflow the native stack (`none`). Entries of
dicts are written in the order of insertion (simplified: the order of a `HashMap` is arbitrary). -/
def value (w : World) (h : Heap) : Nat → Value → Option Bytes
  | 0, _ => none
  | n + 1, v =>
    match v with
    | .nil => some (bs "nil")
    | .bool b => some (boolText b)
    | .int i => some (intText i)
    | .float f => some (w.floatText f)
    | .byte b => some (utf8Encode b.toNat)
    | .string s => some (string w s)
    | .array a => (all (value w h n) (h.array a)).map (list [91])
    | .dict d =>
      (all (fun e => match value w h n e.1 with
        | none => none
        | some k => (value w h n e.2).map (fun t => k ++ [58, 32] ++ t)) (h.dict d)).map (list [64, 91])
    | .function f => some (function w h f)
    | .error d c => (value w h n (h.context c)).map (fun t => bs "error: " ++ string w d ++ bs " (" ++ t ++ bs ")")

end Hush.Show

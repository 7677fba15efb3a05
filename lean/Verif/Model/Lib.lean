import Verif.Model.Json
import Verif.Model.Show

/-!
Library functions that neither call back into the interpreter nor touch the environment: src/runtime/lib/*.rs.
`std.catch`, `std.bind<impl>`, `std.import` and `<command>.join` are in `Verif/Model/Interp.lean`; all others
(printing, files, environment, random numbers, regular expressions) are
answered by the `World`; of these only the checks of the arguments are modelled.
-/

namespace Hush

/-- What a library function gets: depth bound for comparisons, address of the function object, arguments, position
of the call, command line arguments of the script. (`CallContext`, src/runtime/value/function.rs:146-179.) -/
structure LibCall where
  fuel : Nat
  addr : Nat
  args : List Value
  pos : Pos
  argv : Value

/-- `none`: not modelled in this case, ask the world. (Helper of src/runtime/lib/*.rs.) -/
abbrev LibRes := Option (Except Stop (Value × Heap))

/-- A panic at the position of the call. (src/runtime/panic.rs:99-222.) -/
def LibCall.panic (c : LibCall) (k : PanicKind) : LibRes := some (.error (.panic ⟨k, c.pos⟩))

/-- `Panic::invalid_args(args.len(), n, context.pos)`. (src/runtime/panic.rs:143-145.) -/
def LibCall.arity (c : LibCall) (n : Nat) : LibRes := c.panic (.invalidArgs c.args.length n)

/-- `Panic::type_error(other.copy(), expected, context.pos)`. (src/runtime/panic.rs:155-164.) -/
def LibCall.type (c : LibCall) (v : Value) (expected : Bytes) : LibRes := c.panic (.typeError v expected)

/-- A result that does not change the heap. (Helper of src/runtime/lib/*.rs.) -/
def LibCall.ret (_ : LibCall) (h : Heap) (v : Value) : LibRes := some (.ok (v, h))

/-- The code does not come to an end (or overflows the native stack). (Helper of src/runtime/lib/*.rs.) -/
def LibCall.timeout (_ : LibCall) : LibRes := some (.error .timeout)

/-- A Rust panic. (Helper of src/runtime/lib/*.rs.) -/
def LibCall.crash (_ : LibCall) (k : CrashKind) : LibRes := some (.error (.crash k))

namespace Lib

/-- `std.assert`, src/runtime/lib/assert.rs:20-28. -/
def assert (_ : World) (c : LibCall) (h : Heap) : LibRes :=
  match c.args with
  | [.bool true] => c.ret h .nil
  | [.bool false] => c.panic .assertionFailed
  | [v] => c.type v (bs "bool")
  | _ => c.arity 1

/-- `std.args`, src/runtime/lib/args.rs:20-25. -/
def args (_ : World) (c : LibCall) (h : Heap) : LibRes :=
  match c.args with
  | [] => c.ret h c.argv
  | _ => c.arity 0

/-- `std.bind`, src/runtime/lib/bind.rs:21-33. -/
def bind (_ : World) (c : LibCall) (h : Heap) : LibRes :=
  match c.args with
  | [obj, .function f] => some (.ok (h.newNative (bs "std.bind<impl>") (.bound obj f)))
  | [_, v] => c.type v (bs "function")
  | _ => c.arity 2

/-- `std.bytes`, src/runtime/lib/bytes.rs:20-35. -/
def bytes (_ : World) (c : LibCall) (h : Heap) : LibRes :=
  match c.args with
  | [.string s] => some (.ok (h.newArray (s.map .byte)))
  | [v] => c.type v (bs "string")
  | _ => c.arity 1

/-- `std.contains`, src/runtime/lib/contains.rs:20-32. -/
def contains (_ : World) (c : LibCall) (h : Heap) : LibRes :=
  match c.args with
  | [.array a, v] =>
    match anyM (fun x => valueEq h c.fuel x v) (h.array a) with
    | some b => c.ret h (.bool b)
    | none => c.timeout
  | [.dict d, k] =>
    match dictGet h c.fuel d k with
    | some r => c.ret h (.bool r.isSome)
    | none => c.timeout
  | [.string s, .byte b] => c.ret h (.bool (s.contains b))
  | [.string _, v] => c.type v (bs "char")
  | [v, _] => c.type v (bs "string ,array or dict")
  | _ => c.arity 2

/-- `std.error`, src/runtime/lib/error.rs:21-32. -/
def error (_ : World) (c : LibCall) (h : Heap) : LibRes :=
  match c.args with
  | [.string s, v] => some (.ok (h.newError s v))
  | [v, _] => c.type v (bs "string")
  | _ => c.arity 2

/-- `std.exit`, src/runtime/lib/exit.rs:22-34. -/
def exit (_ : World) (c : LibCall) (_ : Heap) : LibRes :=
  match c.args with
  | [.int i] =>
    if 0 ≤ i ∧ i ≤ 255 then some (.error (.exit i.toNat)) else c.panic (.valueError (.int i) (bs "valid exit code"))
  | [v] => c.type v (bs "int")
  | _ => c.arity 1

/-- `HasError::has_error`, src/runtime/lib/has_error.rs:17-45. -/
def findError (h : Heap) : Nat → Value → Option Bool
  | 0, _ => none
  | n + 1, v =>
    match v with
    | .error _ _ => some true
    | .array a => anyM (findError h n) (h.array a)
    | .dict d => anyM (fun e => match findError h n e.1 with
        | some false => findError h n e.2
        | r => r) (h.dict d)
    | _ => some false

/-- `std.has_error`, src/runtime/lib/has_error.rs:51-56. -/
def hasError (_ : World) (c : LibCall) (h : Heap) : LibRes :=
  match c.args with
  | [v] =>
    match findError h c.fuel v with
    | some b => c.ret h (.bool b)
    | none => c.timeout
  | _ => c.arity 1

/-- Digits of a hexadecimal pair: the `hex` crate writes lower case. (Called at src/runtime/lib/hex.rs:25 and 42.) -/
def hexDigit (n : Nat) : UInt8 := if n < 10 then UInt8.ofNat (48 + n) else UInt8.ofNat (87 + n)

/-- `hex::encode` (crate `hex`, trusted). (Called at src/runtime/lib/hex.rs:25 and 42.) -/
def hexEncode (s : Bytes) : Bytes := s.flatMap (fun b => [hexDigit (b.toNat / 16), hexDigit (b.toNat % 16)])

/-- The value of a hexadecimal digit, either case. (Called at src/runtime/lib/hex.rs:25 and 42.) -/
def hexValue (b : UInt8) : Option Nat :=
  if 48 ≤ b ∧ b ≤ 57 then some (b.toNat - 48)
  else if 97 ≤ b ∧ b ≤ 102 then some (b.toNat - 87)
  else if 65 ≤ b ∧ b ≤ 70 then some (b.toNat - 55)
  else none

/-- `hex::decode` (crate `hex`, trusted); `none` is an error. (Called at src/runtime/lib/hex.rs:25 and 42.) -/
def hexDecode : Bytes → Option Bytes
  | [] => some []
  | [_] => none
  | a :: b :: rest =>
    match hexValue a, hexValue b, hexDecode rest with
    | some x, some y, some r => some (UInt8.ofNat (16 * x + y) :: r)
    | _, _, _ => none

/-- `std.hex.encode`, src/runtime/lib/hex.rs:23-30. -/
def hexEncodeFun (_ : World) (c : LibCall) (h : Heap) : LibRes :=
  match c.args with
  | [.string s] => c.ret h (.string (hexEncode s))
  | [v] => c.type v (bs "string")
  | _ => c.arity 1

/-- `std.hex.decode`, src/runtime/lib/hex.rs:39-52. -/
def hexDecodeFun (w : World) (c : LibCall) (h : Heap) : LibRes :=
  match c.args with
  | [.string s] =>
    match hexDecode s with
    | some r => c.ret h (.string r)
    | none => some (.ok (h.newError (w.errorText (bs "std.hex.decode") s) (.string s)))
  | [v] => c.type v (bs "string")
  | _ => c.arity 1

/-- A digit of base 64, standard alphabet. (Called at src/runtime/lib/base64.rs:25 and 42.) -/
def b64Digit (n : Nat) : UInt8 :=
  if n < 26 then UInt8.ofNat (65 + n)
  else if n < 52 then UInt8.ofNat (71 + n)
  else if n < 62 then UInt8.ofNat (n - 4)
  else if n = 62 then cPlus else cSlash

/-- `base64::encode` (crate `base64`, trusted): standard alphabet with padding. (Called at src/runtime/lib/base64.rs:25 and 42.) -/
def b64Encode : Bytes → Bytes
  | [] => []
  | [a] => [b64Digit (a.toNat / 4), b64Digit (a.toNat % 4 * 16), cEq, cEq]
  | [a, b] =>
    [b64Digit (a.toNat / 4), b64Digit (a.toNat % 4 * 16 + b.toNat / 16), b64Digit (b.toNat % 16 * 4), cEq]
  | a :: b :: c :: rest =>
    b64Digit (a.toNat / 4) :: b64Digit (a.toNat % 4 * 16 + b.toNat / 16)
      :: b64Digit (b.toNat % 16 * 4 + c.toNat / 64) :: b64Digit (c.toNat % 64) :: b64Encode rest

/-- The value of a digit of base 64. (Called at src/runtime/lib/base64.rs:25 and 42.) -/
def b64Value (b : UInt8) : Option Nat :=
  if 65 ≤ b ∧ b ≤ 90 then some (b.toNat - 65)
  else if 97 ≤ b ∧ b ≤ 122 then some (b.toNat - 71)
  else if 48 ≤ b ∧ b ≤ 57 then some (b.toNat + 4)
  else if b = cPlus then some 62
  else if b = cSlash then some 63
  else none

/-- `base64::decode` (crate `base64`, trusted) on padded input without stray bits; `none` in all other cases, which are
answered by the world. (Called at src/runtime/lib/base64.rs:25 and 42.) -/
def b64Decode : Bytes → Option Bytes
  | [] => some []
  | a :: b :: c :: d :: rest =>
    match b64Value a, b64Value b with
    | some x, some y =>
      if c = cEq then
        if d = cEq ∧ rest = [] ∧ y % 16 = 0 then some [UInt8.ofNat (4 * x + y / 16)] else none
      else
        match b64Value c with
        | none => none
        | some z =>
          if d = cEq then
            if rest = [] ∧ z % 4 = 0 then some [UInt8.ofNat (4 * x + y / 16), UInt8.ofNat (y % 16 * 16 + z / 4)]
            else none
          else
            match b64Value d, b64Decode rest with
            | some t, some r =>
              some (UInt8.ofNat (4 * x + y / 16) :: UInt8.ofNat (y % 16 * 16 + z / 4) :: UInt8.ofNat (z % 4 * 64 + t) :: r)
            | _, _ => none
    | _, _ => none
  | _ => none

/-- `std.base64.encode`, src/runtime/lib/base64.rs:23-30. -/
def b64EncodeFun (_ : World) (c : LibCall) (h : Heap) : LibRes :=
  match c.args with
  | [.string s] => c.ret h (.string (b64Encode s))
  | [v] => c.type v (bs "string")
  | _ => c.arity 1

/-- `std.base64.decode`, src/runtime/lib/base64.rs:39-52. -/
def b64DecodeFun (_ : World) (c : LibCall) (h : Heap) : LibRes :=
  match c.args with
  | [.string s] =>
    match b64Decode s with
    | some r => c.ret h (.string r)
    | none => none
  | [v] => c.type v (bs "string")
  | _ => c.arity 1

/-- `str::parse::<i64>`: an optional sign and digits; `none` if there are no digits, another character or
too large a number. (Called at src/runtime/lib/int.rs:42.) -/
def parseI64 (s : Bytes) : Option Int :=
  let digits (ds : Bytes) : Option Nat :=
    if ds.isEmpty || !ds.all isDigit then none else some (ds.foldl (fun n d => n * 10 + (d.toNat - 48)) 0)
  match s with
  | c :: ds =>
    if c = cMinus then (digits ds).bind (fun n => checked (-(n : Int)))
    else if c = cPlus then (digits ds).bind (fun n => checked n)
    else (digits s).bind (fun n => checked n)
  | [] => none

/-- The value of a float as an `i64` (`as i64`, src/runtime/value/float.rs:100-104): rounded towards zero, the nearest `i64` if it is out
of range, and 0 for a NaN. -/
def floatToInt (f : UInt64) : Int :=
  if floatIsNaN f then 0
  else
    let m := floatMagnitude f
    let e := m / 2 ^ 52
    let frac := m % 2 ^ 52
    let n : Nat := if e = 0 then 0 else (2 ^ 52 + frac) * 2 ^ e / 2 ^ 1075
    if f.toNat < 2 ^ 63 then min (n : Int) 9223372036854775807 else max (-(n : Int)) (-9223372036854775808)

/-- `std.int`, src/runtime/lib/int.rs:20-51. -/
def int (_ : World) (c : LibCall) (h : Heap) : LibRes :=
  match c.args with
  | [.int i] => c.ret h (.int i)
  | [.float f] => c.ret h (.int (floatToInt f))
  | [.string s] =>
    match parseI64 s with
    | some i => c.ret h (.int i)
    | none => c.panic (.valueError (.string s) (bs "valid integer"))
  | [v] => c.type v (bs "int, float or string")
  | _ => c.arity 1

/-- `std.is_empty`, src/runtime/lib/is_empty.rs:20-31. -/
def isEmpty (_ : World) (c : LibCall) (h : Heap) : LibRes :=
  match c.args with
  | [.array a] => c.ret h (.bool (h.array a).isEmpty)
  | [.dict d] => c.ret h (.bool (h.dict d).isEmpty)
  | [.string s] => c.ret h (.bool s.isEmpty)
  | [v] => c.type v (bs "string, array or dict")
  | _ => c.arity 1

/-- `std.iter`, src/runtime/lib/iter.rs:26-57. Simplified: the entries of a dict come in the order of insertion. -/
def iter (_ : World) (c : LibCall) (h : Heap) : LibRes :=
  match c.args with
  | [.array a] => some (.ok (h.newNative (bs "std.iter<impl>") (.arrayIter a 0)))
  | [.dict d] => some (.ok (h.newNative (bs "std.iter<impl>") (.dictIter (h.dict d))))
  | [.string s] => some (.ok (h.newNative (bs "std.iter<impl>") (.stringIter s 0)))
  | [v] => c.type v (bs "string, array or dict")
  | _ => c.arity 1

/-- The keys `finished`, `value` and `key`, src/runtime/value/dict.rs:14-25. -/
def kFinished : Value := .string (bs "finished")
/-- See `kFinished`. (src/runtime/value/dict.rs:14-25.) -/
def kValue : Value := .string (bs "value")
/-- See `kFinished`. (src/runtime/value/dict.rs:14-25.) -/
def kKey : Value := .string (bs "key")

/-- The dict returned by iterators, src/runtime/lib/iter.rs:127-138, src/runtime/lib/range.rs:92-104. -/
def iteration (h : Heap) : Option Value → Value × Heap
  | none => h.newDict [(kFinished, .bool true)]
  | some v => h.newDict [(kFinished, .bool false), (kValue, v)]

/-- A call of an iterator, src/runtime/lib/iter.rs:79-139. -/
def iterImpl (_ : World) (c : LibCall) (h : Heap) : LibRes :=
  if !c.args.isEmpty then c.arity 0
  else
    match h.native c.addr with
    | .arrayIter a ix =>
      match (h.array a)[ix]? with
      | some v => some (.ok (iteration (h.setNative c.addr (.arrayIter a (ix + 1))) (some v)))
      | none => some (.ok (iteration h none))
    | .stringIter s ix =>
      match s[ix]? with
      | some b => some (.ok (iteration (h.setNative c.addr (.stringIter s (ix + 1))) (some (.byte b))))
      | none => some (.ok (iteration h none))
    | .dictIter entries =>
      match entries.getLast? with
      | some (k, v) =>
        let h := h.setNative c.addr (.dictIter entries.dropLast)
        let r := h.newDict [(kKey, k), (kValue, v)]
        some (.ok (iteration r.2 (some r.1)))
      | none => some (.ok (iteration h none))
    | _ => none

/-- `std.len`, src/runtime/lib/length.rs:20-28. -/
def len (_ : World) (c : LibCall) (h : Heap) : LibRes :=
  match c.args with
  | [.array a] => c.ret h (.int (h.array a).length)
  | [.dict d] => c.ret h (.int (h.dict d).length)
  | [.string s] => c.ret h (.int s.length)
  | [v] => c.type v (bs "string, array or dict")
  | _ => c.arity 1

/-- `std.panic`, src/runtime/lib/panic.rs:20-25. -/
def panic (_ : World) (c : LibCall) (_ : Heap) : LibRes :=
  match c.args with
  | [v] => c.panic (.user v)
  | _ => c.arity 1

/-- `std.pop`, src/runtime/lib/pop.rs:20-33. -/
def pop (_ : World) (c : LibCall) (h : Heap) : LibRes :=
  match c.args with
  | [.array a] =>
    match (h.array a).getLast? with
    | some v => some (.ok (v, h.setArray a (h.array a).dropLast))
    | none => c.panic .emptyCollection
  | [v] => c.type v (bs "array")
  | _ => c.arity 1

/-- `std.push`, src/runtime/lib/push.rs:20-30. -/
def push (_ : World) (c : LibCall) (h : Heap) : LibRes :=
  match c.args with
  | [.array a, v] => some (.ok (.nil, h.setArray a (h.array a ++ [v])))
  | [v, _] => c.type v (bs "array")
  | _ => c.arity 2

/-- A number of `Numbers::promote`, as a float. (src/runtime/lib/util.rs:14-35.) -/
def asFloat (w : World) : Value → UInt64
  | .int i => w.ofInt i
  | .float f => f
  | _ => 0

/-- Whether a value is a number. (src/runtime/lib/util.rs:14-35.) -/
def isNumber : Value → Bool
  | .int _ => true
  | .float _ => true
  | _ => false

/-- `std.range`, src/runtime/lib/range.rs:25-51, with `Numbers::promote`, src/runtime/lib/util.rs:14-55. -/
def range (w : World) (c : LibCall) (h : Heap) : LibRes :=
  match c.args with
  | [.int a, .int b, .int s] => some (.ok (h.newNative (bs "std.range<impl>") (.intRange a b s)))
  | [a, b, s] =>
    match [a, b, s].find? (fun v => !isNumber v) with
    | some v => c.type v (bs "int or float")
    | none =>
      some (.ok (h.newNative (bs "std.range<impl>") (.floatRange (asFloat w a) (asFloat w b) (asFloat w s))))
  | _ => c.arity 3

/-- A call of a range, src/runtime/lib/range.rs:70-105. -/
def rangeImpl (w : World) (c : LibCall) (h : Heap) : LibRes :=
  if !c.args.isEmpty then c.arity 0
  else
    match h.native c.addr with
    | .intRange a b s =>
      if (if 0 < s then b ≤ a else a ≤ b) then some (.ok (iteration h none))
      else
        match w.arith (a + s) with
        | .error e => some (.error e)
        | .ok a' => some (.ok (iteration (h.setNative c.addr (.intRange a' b s)) (some (.int a))))
    | .floatRange a b s =>
      if (if floatCmp s 0 = .gt then floatCmp a b ≠ .lt else floatCmp a b ≠ .gt) then some (.ok (iteration h none))
      else some (.ok (iteration (h.setNative c.addr (.floatRange (w.fadd a s) b s)) (some (.float a))))
    | _ => none

/-- The array sorted by `Ord for Value`; `slice::sort` is a stable sort (trusted). (Called at src/runtime/value/array.rs:109-112.) -/
def sortValues (h : Heap) (n : Nat) (vs : List Value) : Option (List Value) :=
  if vs.all (fun a => vs.all (fun b => (valueCmp h n a b).isSome)) then
    some (vs.mergeSort (fun a b => valueCmp h n a b != some .gt))
  else none

/-- `std.sort`, src/runtime/lib/sort.rs:20-30, src/runtime/value/array.rs:109-112. The array is mutably borrowed during
the comparisons. -/
def sort (_ : World) (c : LibCall) (h : Heap) : LibRes :=
  match c.args with
  | [.array a] =>
    match anyM (touches h (.inr a) c.fuel) (h.array a) with
    | none => c.timeout
    | some cyclic =>
      if cyclic && decide (1 < (h.array a).length) then c.crash .borrow
      else
        match sortValues h c.fuel (h.array a) with
        | some vs => some (.ok (.nil, h.setArray a vs))
        | none => c.timeout
  | [v] => c.type v (bs "array")
  | _ => c.arity 1

/-- `ByteSlice::split_str` (crate `bstr`, trusted), for a pattern that is not empty: `skip` is the rest of an occurrence, `cur`
the current part. (Called at src/runtime/lib/split.rs:22-38.) -/
def splitOn (p : Bytes) : Nat → Bytes → Bytes → List Bytes
  | _, cur, [] => [cur]
  | skip + 1, cur, _ :: s => splitOn p skip cur s
  | 0, cur, b :: s =>
    if p.isPrefixOf (b :: s) then cur :: splitOn p (p.length - 1) [] s else splitOn p 0 (cur ++ [b]) s

/-- `ByteSlice::split_str` (crate `bstr`, trusted); an empty pattern occurs before every byte and at the end.
(Called at src/runtime/lib/split.rs:22-38.) -/
def splitStr (p s : Bytes) : List Bytes :=
  if p.isEmpty then [] :: (s.map (fun b => [b]) ++ [[]]) else splitOn p 0 [] s

/-- The parts with the separator in between. (For src/runtime/lib/replace.rs:23-39.) -/
def joinWith (p : Bytes) : List Bytes → Bytes
  | [] => []
  | [a] => a
  | a :: rest => a ++ p ++ joinWith p rest

/-- `std.split`, src/runtime/lib/split.rs:22-38. -/
def split (_ : World) (c : LibCall) (h : Heap) : LibRes :=
  match c.args with
  | [.string s, .string p] => some (.ok (h.newArray ((splitStr p s).map .string)))
  | [.string _, v] => c.type v (bs "string")
  | [v, _] => c.type v (bs "string")
  | _ => c.arity 2

/-- `std.replace`, src/runtime/lib/replace.rs:23-39, with `ByteSlice::replace` (crate `bstr`, trusted). -/
def replace (_ : World) (c : LibCall) (h : Heap) : LibRes :=
  match c.args with
  | [.string s, .string p, .string r] => c.ret h (.string (joinWith r (splitStr p s)))
  | [.string _, .string _, v] => c.type v (bs "string")
  | [.string _, v, _] => c.type v (bs "string")
  | [v, _, _] => c.type v (bs "string")
  | _ => c.arity 3

/-- `i64 as usize`. (Used at src/runtime/lib/substr.rs:20-21.) -/
def asUsize (i : Int) : Nat := (i % 18446744073709551616).toNat

/-- `Substr::substr`, src/runtime/lib/substr.rs:19-24; the sum overflows like any other. -/
def substrOf (w : World) (s : Bytes) (start len : Int) : Except Stop Value :=
  let start := asUsize start
  let sum := start + asUsize len
  if sum ≥ 18446744073709551616 && w.checks then .error (.crash .arith)
  else
    let stop := sum % 18446744073709551616
    .ok (if start ≤ stop ∧ stop ≤ s.length then .string ((s.drop start).take (stop - start)) else .nil)

/-- `std.substr`, src/runtime/lib/substr.rs:30-42. -/
def substr (w : World) (c : LibCall) (h : Heap) : LibRes :=
  match c.args with
  | [.string s, .int i, .int n] => some ((substrOf w s i n).map (fun v => (v, h)))
  | [v, .int _, .int _] => c.type v (bs "string")
  | [.string _, v, .int _] => c.type v (bs "int")
  | [.string _, .int _, v] => c.type v (bs "int")
  | _ => c.arity 3

/-- `std.to_string`, src/runtime/lib/to_string.rs:21-27. -/
def toStringFun (w : World) (c : LibCall) (h : Heap) : LibRes :=
  match c.args with
  | [.string s] => c.ret h (.string s)
  | [v] =>
    match Show.value w h c.fuel v with
    | some t => c.ret h (.string t)
    | none => c.timeout
  | _ => c.arity 1

/-- `std.type`, src/runtime/lib/type_.rs:21-64. -/
def type (_ : World) (c : LibCall) (h : Heap) : LibRes :=
  match c.args with
  | [v] => c.ret h (.string v.type.display)
  | _ => c.arity 1

/-- `std.typecheck`, src/runtime/lib/typecheck.rs:35-86. -/
def typecheck (_ : World) (c : LibCall) (h : Heap) : LibRes :=
  match c.args with
  | [v, .string s] =>
    match VType.parse s with
    | none => c.panic (.valueError (.string s) (bs "valid type"))
    | some t => if v.type = t then c.ret h v else c.type v t.display
  | [_, v] => c.type v (bs "string")
  | _ => c.arity 2

/-- `std.try_typecheck`, src/runtime/lib/typecheck.rs:96-117; the text of the error is that of the world. -/
def tryTypecheck (_ : World) (c : LibCall) (h : Heap) : LibRes :=
  match c.args with
  | [v, .string s] =>
    match VType.parse s with
    | none => c.panic (.valueError (.string s) (bs "valid type"))
    | some t => if v.type = t then c.ret h .nil else none
  | [_, v] => c.type v (bs "string")
  | _ => c.arity 2

/-- `std.trim`, src/runtime/lib/trim.rs:22-35. -/
def trim (_ : World) (c : LibCall) (h : Heap) : LibRes :=
  match c.args with
  | [.string s] => c.ret h (.string (trimSpaces s))
  | [v] => c.type v (bs "string")
  | _ => c.arity 1

/-- `std.json.encode`, src/runtime/lib/json.rs:34-48. -/
def jsonEncode (w : World) (c : LibCall) (h : Heap) : LibRes :=
  match c.args with
  | [v] =>
    match Json.encode w h c.fuel 0 v with
    | .ok s => c.ret h (.string s)
    | .error .refused => c.panic (.valueError v (bs "nil, bool, byte, int, float, string, array or dict"))
    | .error .deep => c.timeout
  | _ => c.arity 1

/-- `std.json.decode`, src/runtime/lib/json.rs:57-69. -/
def jsonDecode (w : World) (c : LibCall) (h : Heap) : LibRes :=
  match c.args with
  | [.string s] =>
    match Json.decode w s with
    | some t => some (.ok (t.build [] h))
    | none => some (.ok (h.newError (w.errorText (bs "std.json.decode") s) (.string s)))
  | [v] => c.type v (bs "string")
  | _ => c.arity 1

/-- `std.float`, src/runtime/lib/float.rs:20-51; texts are read by the world. -/
def float (w : World) (c : LibCall) (h : Heap) : LibRes :=
  match c.args with
  | [.float f] => c.ret h (.float f)
  | [.int i] => c.ret h (.float (w.ofInt i))
  | [.string _] => none
  | [v] => c.type v (bs "int, float or string")
  | _ => c.arity 1

/-- `std.env`, src/runtime/lib/env.rs:23-35; `std.glob`, `std.cd`, `std.regex` and the functions `match` and `split` of a regular expression check their
arguments in the same way (src/runtime/lib/glob.rs:35-44, cd.rs:22-33, regex.rs:62-69, 86-93, 109-123). -/
def text1 (_ : World) (c : LibCall) (_ : Heap) : LibRes :=
  match c.args with
  | [.string _] => none
  | [v] => c.type v (bs "string")
  | _ => c.arity 1

/-- The function `replace` of a regular expression, src/runtime/lib/regex.rs:139-154. -/
def regexReplace (_ : World) (c : LibCall) (_ : Heap) : LibRes :=
  match c.args with
  | [.string _, .string _] => none
  | [.string _, v] => c.type v (bs "string")
  | [v, _] => c.type v (bs "string")
  | _ => c.arity 2

/-- `std.export`, src/runtime/lib/env.rs:44-70. `std::env::set_var` is a Rust panic if the name is empty. -/
def export_ (_ : World) (c : LibCall) (h : Heap) : LibRes :=
  match c.args with
  | [.string k, .string v] =>
    if k.contains cEq || k.contains 0 then some (.ok (h.newError (bs "invalid export key") (.string k)))
    else if v.contains 0 then some (.ok (h.newError (bs "invalid export value") (.string v)))
    else if k.isEmpty then c.crash .native
    else none
  | [.string _, v] => c.type v (bs "string")
  | [v, _] => c.type v (bs "string")
  | _ => c.arity 2

/-- `std.rand`, src/runtime/lib/rand.rs:39-46, and `std.cwd`, src/runtime/lib/cwd.rs:22-34. -/
def noArgs (_ : World) (c : LibCall) (_ : Heap) : LibRes :=
  match c.args with
  | [] => none
  | _ => c.arity 0

/-- `std.randint`, src/runtime/lib/rand.rs:52-60. `Rng::gen_range` is a Rust panic if the range is empty. -/
def randint (_ : World) (c : LibCall) (_ : Heap) : LibRes :=
  match c.args with
  | [.int m, .int n] => if n < m then c.crash .native else none
  | [v, _] => c.type v (bs "int")
  | _ => c.arity 2

/-- `std.randseed`, src/runtime/lib/rand.rs:66-75. -/
def randseed (_ : World) (c : LibCall) (_ : Heap) : LibRes :=
  match c.args with
  | [.int _] => none
  | [v] => c.type v (bs "int")
  | _ => c.arity 1

/-- `std.sleep`, src/runtime/lib/sleep.rs:22-34. -/
def sleep (_ : World) (c : LibCall) (_ : Heap) : LibRes :=
  match c.args with
  | [.int i] => if i < 0 then c.panic (.valueError (.int i) (bs "positive integer")) else none
  | [v] => c.type v (bs "int")
  | _ => c.arity 1

/-- `std.read`, src/runtime/lib/read.rs:34-58. -/
def read (_ : World) (c : LibCall) (_ : Heap) : LibRes :=
  match c.args with
  | [] => none
  | [.string _] => none
  | [v] => c.type v (bs "string")
  | _ => c.arity 1

/-- The modelled functions by name. (src/runtime/lib.rs:24-53.) -/
def table : List (Bytes × (World → LibCall → Heap → LibRes)) :=
  [(bs "std.assert", assert), (bs "std.args", args), (bs "std.bind", bind), (bs "std.bytes", bytes),
   (bs "std.contains", contains), (bs "std.error", error), (bs "std.exit", exit), (bs "std.has_error", hasError),
   (bs "std.hex.encode", hexEncodeFun), (bs "std.hex.decode", hexDecodeFun),
   (bs "std.base64.encode", b64EncodeFun), (bs "std.base64.decode", b64DecodeFun),
   (bs "std.int", int), (bs "std.is_empty", isEmpty), (bs "std.iter", iter), (bs "std.iter<impl>", iterImpl),
   (bs "std.len", len), (bs "std.panic", panic), (bs "std.pop", pop), (bs "std.push", push),
   (bs "std.range", range), (bs "std.range<impl>", rangeImpl), (bs "std.replace", replace),
   (bs "std.sort", sort), (bs "std.split", split), (bs "std.substr", substr), (bs "std.to_string", toStringFun),
   (bs "std.type", type), (bs "std.typecheck", typecheck), (bs "std.try_typecheck", tryTypecheck),
   (bs "std.trim", trim), (bs "std.json.encode", jsonEncode), (bs "std.json.decode", jsonDecode), (bs "std.float", float),
   (bs "std.env", text1), (bs "std.glob", text1), (bs "std.cd", text1), (bs "std.regex", text1), (bs "std.regex<match>", text1),
   (bs "std.regex<split>", text1), (bs "std.regex<replace>", regexReplace), (bs "std.export", export_), (bs "std.rand", noArgs),
   (bs "std.cwd", noArgs), (bs "std.randint", randint), (bs "std.randseed", randseed), (bs "std.sleep", sleep), (bs "std.read", read)]

/-- Call a library function by name; `none`: ask the world. (src/runtime/value/function.rs:222-224.) -/
def call (w : World) (name : Bytes) (c : LibCall) (h : Heap) : LibRes :=
  match table.lookup name with
  | some f => f w c h
  | none => none

end Lib
end Hush

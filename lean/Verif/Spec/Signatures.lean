import Verif.Spec.Library

/-!
The parameters of the library functions, independent of the code.
-/

namespace Hush.Spec
open Hush

/-- The names of all types. -/
def anything : List Bytes :=
  [bs "nil", bs "bool", bs "char", bs "int", bs "float", bs "string", bs "array", bs "dict", bs "function", bs "error"]

/-- The parameters of a library function; each is a list of the types it may have. -/
def signatures : List (Bytes × List (List Bytes)) :=
  let str := [bs "string"]
  let int := [bs "int"]
  let arr := [bs "array"]
  let fn := [bs "function"]
  let num := [bs "int", bs "float"]
  let coll := [bs "string", bs "array", bs "dict"]
  let conv := [bs "int", bs "float", bs "string"]
  [(bs "std.args", []), (bs "std.assert", [[bs "bool"]]), (bs "std.base64.decode", [str]), (bs "std.base64.encode", [str]),
   (bs "std.bind", [anything, fn]), (bs "std.bytes", [str]), (bs "std.catch", [fn]), (bs "std.cd", [str]),
   (bs "std.contains", [coll, anything]), (bs "std.cwd", []), (bs "std.env", [str]), (bs "std.error", [str, anything]),
   (bs "std.exit", [int]), (bs "std.export", [str, str]), (bs "std.float", [conv]), (bs "std.glob", [str]),
   (bs "std.has_error", [anything]), (bs "std.hex.decode", [str]), (bs "std.hex.encode", [str]), (bs "std.import", [str]),
   (bs "std.int", [conv]), (bs "std.is_empty", [coll]), (bs "std.iter", [coll]), (bs "std.iter<impl>", []),
   (bs "std.json.decode", [str]), (bs "std.json.encode", [anything]), (bs "std.len", [coll]), (bs "std.panic", [anything]),
   (bs "std.pop", [arr]), (bs "std.push", [arr, anything]), (bs "std.rand", []), (bs "std.randint", [int, int]),
   (bs "std.randseed", [int]), (bs "std.range", [num, num, num]), (bs "std.range<impl>", []), (bs "std.regex", [str]),
   (bs "std.regex<match>", [str]), (bs "std.regex<replace>", [str, str]), (bs "std.regex<split>", [str]),
   (bs "std.replace", [str, str, str]), (bs "std.sleep", [int]), (bs "std.sort", [arr]), (bs "std.split", [str, str]),
   (bs "std.substr", [str, int, int]), (bs "std.to_string", [anything]), (bs "std.trim", [str]),
   (bs "std.try_typecheck", [anything, str]), (bs "std.type", [anything]), (bs "std.typecheck", [anything, str])]

/-- The types in words: `a`, `a or b`, `a, b or c`. -/
def inWords : List Bytes → Bytes
  | [] => []
  | [a] => a
  | [a, b] => a ++ bs " or " ++ b
  | a :: rest => a ++ bs ", " ++ inWords rest

/-- The first argument that has none of the types of its parameter is `v`; `expected` are these types. -/
inductive FirstWrong : List (List Bytes) → List Value → Value → List Bytes → Prop
  | here {p ps v vs} : typeName v ∉ p → FirstWrong (p :: ps) (v :: vs) v p
  | later {p ps v vs u expected} : typeName v ∈ p → FirstWrong ps vs u expected → FirstWrong (p :: ps) (v :: vs) u expected

/-- Every argument has one of the types of its parameter. -/
inductive FitsTypes : List (List Bytes) → List Value → Prop
  | nil : FitsTypes [] []
  | cons {p ps v vs} : typeName v ∈ p → FitsTypes ps vs → FitsTypes (p :: ps) (v :: vs)

/-- The panics that reject the arguments of a call. -/
def ArgPanic : PanicKind → Prop
  | .invalidArgs _ _ | .typeError _ _ => True
  | _ => False

end Hush.Spec

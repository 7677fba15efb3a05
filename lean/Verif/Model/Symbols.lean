import Verif.Model.Bytes

/-!
The symbols of identifiers and paths: src/symbol/mod.rs, with the table of the crate intaglio.
-/

namespace Hush.Symbols

/-- `SymbolTable` of the crate intaglio: a map from contents to symbols, and the contents of the symbols in order. A symbol is a number below
2^32. (Simplified: the map is a list of pairs with the last one first, instead of a hash map.) (The field of src/symbol/mod.rs:27-29.) -/
structure Interner where
  map : List (Bytes × Nat)
  vec : List Bytes
  deriving Repr, DecidableEq

/-- `SymbolTable::intern` of the crate intaglio; `none` is the failure when all symbols are used up, which `expect` makes a Rust panic:
`Interner::get_or_intern`, src/symbol/mod.rs:57-68. -/
def Interner.intern (t : Interner) (b : Bytes) : Option (Nat × Interner) :=
  match t.map.lookup b with
  | some i => some (i, t)
  | none =>
    let i := t.map.length
    if i < 2 ^ 32 then some (i, ⟨(b, i) :: t.map, t.vec ++ [b]⟩) else none

/-- The text of the symbol that stands for none, src/symbol/mod.rs:38. -/
def invalidSymbol : Bytes := bs "<invalid symbol>"

/-- `Interner::new`, src/symbol/mod.rs:35-41. -/
def Interner.new : Option Interner := (Interner.intern ⟨[], []⟩ invalidSymbol).map (·.2)

/-- `Symbol::default`, src/symbol/mod.rs:13-17. -/
def defaultSymbol : Nat := 0

/-- `Interner::resolve`, src/symbol/mod.rs:72-74. -/
def Interner.resolve (t : Interner) (i : Nat) : Option Bytes := t.vec[i]?

/-- `Display for Symbol`, src/symbol/fmt.rs:11-30, without colours; `escape` is what `escape_debug` of the lossy text gives, `number` the decimal
text of a number. -/
def Interner.text (escape : Bytes → Bytes) (number : Nat → Bytes) (t : Interner) (i : Nat) : Bytes :=
  if i = defaultSymbol then bs "***ill-formed***"
  else
    match t.resolve i with
    | some b => escape b
    | none => escape (bs "<unresolved id #" ++ number i ++ bs ">")

/-- What the rest of the code does with symbols: it obtains them (src/syntax/lexer/automata/word.rs:86, src/semantic/mod.rs:800,
src/semantic/scope.rs:255, src/runtime/lib/import.rs:70, src/main.rs:69, 75), compares them (also as keys of maps), resolves them, and shows
them. Symbols are referred to by the order in which they were obtained; number 0 is the default symbol. -/
inductive Use where
  | obtain (b : Bytes)
  | same (i j : Nat)
  | resolve (i : Nat)
  | text (i : Nat)

/-- What is seen of it. (Uses of src/symbol/mod.rs:32-83.) -/
inductive Seen where
  | obtained
  | same (b : Bool)
  | resolved (b : Option Bytes)
  | text (b : Option Bytes)
  deriving DecidableEq

/-- The table and the symbols obtained so far. (Uses of src/symbol/mod.rs:32-83.) -/
structure Session where
  table : Interner
  got : List Nat

/-- One use; `none` is a Rust panic. (Uses of src/symbol/mod.rs:32-83.) -/
def use (escape : Bytes → Bytes) (number : Nat → Bytes) (s : Session) : Use → Option (Seen × Session)
  | .obtain b => (s.table.intern b).map fun (i, t) => (.obtained, ⟨t, s.got ++ [i]⟩)
  | .same i j => some (.same (s.got[i]? == s.got[j]?), s)
  | .resolve i => some (.resolved (s.got[i]?.bind s.table.resolve), s)
  | .text i => some (.text (s.got[i]?.map (s.table.text escape number)), s)

/-- Any code that uses symbols: what it does next depends on what it has seen. (Uses of src/symbol/mod.rs:32-83.) -/
abbrev Code := List Seen → Option Use

/-- What is seen by the code in `n` uses; `none` is a Rust panic. (Uses of src/symbol/mod.rs:32-83.) -/
def observe (escape : Bytes → Bytes) (number : Nat → Bytes) (code : Code) : Nat → List Seen → Session → Option (List Seen)
  | 0, seen, _ => some seen
  | n + 1, seen, s =>
    match code seen with
    | none => some seen
    | some u =>
      match use escape number s u with
      | none => none
      | some (x, s') => observe escape number code n (seen ++ [x]) s'

end Hush.Symbols

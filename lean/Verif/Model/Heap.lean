import Verif.Model.Args

/-!
Memory: garbage collected objects, and equality, hashing and order of values
(src/runtime/value/{mod,array,dict,error,float,function}.rs, src/runtime/mem.rs).

Equality, hashing and order follow references into arrays, dicts, errors and captured variables. The code does so by
unbounded recursion; here a number bounds the depth and `none` means that it was not enough (for cyclic
values no number is: the code overflows the native stack).
-/

namespace Hush

/-- `HushFun`, src/runtime/value/function.rs:64-75. `module` is the number of the evaluation of the module that
contains the function: together with the position it identifies the address of the body, which the code compares. -/
structure Closure where
  params : Nat
  frame : Prog.FrameInfo
  body : Prog.Block
  context : List (Nat × Nat)
  module : Nat
  pos : Pos

/-- Technical: Lean wants some element of the type; not part of src/. -/
instance : Inhabited Closure := ⟨⟨0, ⟨0, [], none⟩, [], [], 0, ⟨0, 0⟩⟩⟩

/-- The private fields of native function objects: `IterImpl` (src/runtime/lib/iter.rs:61-74), `RangeImpl`
(src/runtime/lib/range.rs:55-60), `BindImpl` (src/runtime/lib/bind.rs:37-41), `Join`
(src/runtime/command/exec/join.rs:19-20; the thread is a number), and any other (compiled regular expressions). -/
inductive NState where
  | none
  | arrayIter (array : Nat) (ix : Nat)
  | stringIter (s : Bytes) (ix : Nat)
  | dictIter (entries : List (Value × Value))
  | intRange (from_ to step : Int)
  | floatRange (from_ to step : UInt64)
  | bound (obj : Value) (f : Fn)
  | join (thread : Option Nat)
  | other (data : Bytes)
deriving DecidableEq, Repr

/-- Technical: Lean wants some element of the type; not part of src/. -/
instance : Inhabited NState := ⟨.none⟩

/-- Garbage collected objects, by address. A dict is the list of its entries.
(The `Gc` objects of src/runtime/value/*.rs and src/runtime/mem.rs:40-47.) -/
structure Heap where
  arrays : List (List Value)
  dicts : List (List (Value × Value))
  cells : List Value
  closures : List Closure
  contexts : List Value
  natives : List NState

namespace Heap

/-- The heap without objects. (Nothing is allocated before src/runtime/mod.rs:56-75.) -/
def empty : Heap := ⟨[], [], [], [], [], []⟩

/-- Contents of an array. There are no dangling references in the code; here they would read as empty.
(`Array::borrow`, src/runtime/value/array.rs:32-34.) -/
def array (h : Heap) (a : Nat) : List Value := h.arrays.getD a []
/-- Contents of a dict. (`Dict::borrow`, src/runtime/value/dict.rs:48-50.) -/
def dict (h : Heap) (a : Nat) : List (Value × Value) := h.dicts.getD a []
/-- Contents of a captured variable. (src/runtime/mem.rs:40-57.) -/
def cell (h : Heap) (a : Nat) : Value := h.cells.getD a .nil
/-- A function object. (`HushFun`, src/runtime/value/function.rs:62-106.) -/
def closure (h : Heap) (a : Nat) : Closure := h.closures.getD a default
/-- The context of an error. (src/runtime/value/error.rs:13-27.) -/
def context (h : Heap) (a : Nat) : Value := h.contexts.getD a .nil
/-- The private state of a native function. (`RustFun`, src/runtime/value/function.rs:196-224.) -/
def native (h : Heap) (a : Nat) : NState := h.natives.getD a .none

/-- `Array::new`, src/runtime/value/array.rs:20-22. -/
def newArray (h : Heap) (vs : List Value) : Value × Heap :=
  (.array h.arrays.length, { h with arrays := h.arrays ++ [vs] })
/-- `Dict::new`, src/runtime/value/dict.rs:36-38. -/
def newDict (h : Heap) (es : List (Value × Value)) : Value × Heap :=
  (.dict h.dicts.length, { h with dicts := h.dicts ++ [es] })
/-- `Error::new`, src/runtime/value/error.rs:23-28. -/
def newError (h : Heap) (description : Bytes) (context : Value) : Value × Heap :=
  (.error description h.contexts.length, { h with contexts := h.contexts ++ [context] })
/-- `HushFun::new`, src/runtime/value/function.rs:79-93. -/
def newClosure (h : Heap) (c : Closure) : Value × Heap :=
  (.function (.hush h.closures.length), { h with closures := h.closures ++ [c] })
/-- `From<T: NativeFun> for RustFun`, src/runtime/value/function.rs:235-239. -/
def newNative (h : Heap) (name : Bytes) (s : NState) : Value × Heap :=
  (.function (.native name h.natives.length), { h with natives := h.natives ++ [s] })
/-- `Gc::new(GcCell::new(value))`, src/runtime/mem.rs:77. -/
def newCell (h : Heap) (v : Value) : Nat × Heap :=
  (h.cells.length, { h with cells := h.cells ++ [v] })

/-- Replace the contents of an array. (`Array::borrow_mut`, src/runtime/value/array.rs:38-40.) -/
def setArray (h : Heap) (a : Nat) (vs : List Value) : Heap := { h with arrays := h.arrays.set a vs }
/-- Replace the entries of a dict. (`Dict::borrow_mut`, src/runtime/value/dict.rs:54-56.) -/
def setDict (h : Heap) (a : Nat) (es : List (Value × Value)) : Heap := { h with dicts := h.dicts.set a es }
/-- Replace the contents of a captured variable. (src/runtime/mem.rs:61-66.) -/
def setCell (h : Heap) (a : Nat) (v : Value) : Heap := { h with cells := h.cells.set a v }
/-- Replace the private state of a native function. (src/runtime/value/function.rs:196-224.) -/
def setNative (h : Heap) (a : Nat) (s : NState) : Heap := { h with natives := h.natives.set a s }

end Heap

/-! ### Floats (bit patterns of IEEE 754 binary64) -/

/-- Sign bit removed. (For src/runtime/value/float.rs:33-76.) -/
def floatMagnitude (b : UInt64) : Nat := b.toNat % 2 ^ 63

/-- `f64::is_nan`: an exponent of ones and a fraction that is not zero. (Called at src/runtime/value/float.rs:27-29.) -/
def floatIsNaN (b : UInt64) : Bool := decide (0x7FF0000000000000 < floatMagnitude b)

/-- A number ordered like the float (when it is not a NaN): both zeros are 0. (For src/runtime/value/float.rs:33-62.) -/
def floatKey (b : UInt64) : Int := if b.toNat < 2 ^ 63 then floatMagnitude b else -(floatMagnitude b)

/-- `PartialEq for Float`, src/runtime/value/float.rs:33-39. -/
def floatEq (a b : UInt64) : Bool := !floatIsNaN a && !floatIsNaN b && floatKey a == floatKey b

/-- `Ord for Float`, src/runtime/value/float.rs:52-62. -/
def floatCmp (a b : UInt64) : Ordering :=
  match floatIsNaN a, floatIsNaN b with
  | true, _ => .lt
  | false, true => .gt
  | false, false => compare (floatKey a) (floatKey b)

/-- `Hash for Float`, src/runtime/value/float.rs:65-76: what is hashed. -/
def floatHashed (b : UInt64) : UInt64 := if floatIsNaN b then 0x7FF8000000000000 else b

/-! ### Recursive operations on values -/

/-- Conjunction, left to right, stopping at `false`. (Helper for src/runtime/value/*.rs.) -/
def optAnd (a : Option Bool) (b : Unit → Option Bool) : Option Bool :=
  match a with
  | some true => b ()
  | r => r

/-- `[T] == [T]`: equal lengths and equal elements. (Derived for src/runtime/value/array.rs:12-15 and string.rs.) -/
def listEq (f : α → β → Option Bool) : List α → List β → Option Bool
  | [], [] => some true
  | a :: as, b :: bs => optAnd (f a b) (fun _ => listEq f as bs)
  | _, _ => some false

/-- The same, checking the length first. (Derived for src/runtime/value/array.rs:12-15 and string.rs.) -/
def sliceEq (f : α → β → Option Bool) (as : List α) (bs : List β) : Option Bool :=
  if as.length = bs.length then listEq f as bs else some false

/-- Find the first item for which the test holds. (Helper for src/runtime/value/*.rs.) -/
def findM (f : α → Option Bool) : List α → Option (Option α)
  | [] => some none
  | x :: xs =>
    match f x with
    | none => none
    | some true => some (some x)
    | some false => findM f xs

/-- Whether a test holds for all items, in order. (Helper for src/runtime/value/*.rs.) -/
def allM (f : α → Option Bool) : List α → Option Bool
  | [] => some true
  | x :: xs => optAnd (f x) (fun _ => allM f xs)

/-- Whether a test holds for some item, in order. (Helper for src/runtime/value/*.rs.) -/
def anyM (f : α → Option Bool) : List α → Option Bool
  | [] => some false
  | x :: xs =>
    match f x with
    | none => none
    | some true => some true
    | some false => anyM f xs

/-- Lexicographic order of slices. (Derived for src/runtime/value/array.rs:12-15, called at dict.rs:106-118.) -/
def listCmp (f : α → β → Option Ordering) : List α → List β → Option Ordering
  | [], [] => some .eq
  | [], _ :: _ => some .lt
  | _ :: _, [] => some .gt
  | a :: as, b :: bs =>
    match f a b with
    | some .eq => listCmp f as bs
    | r => r

/-- Order of pairs. (For src/runtime/value/dict.rs:106-118.) -/
def pairCmp (f : Value → Value → Option Ordering) (a b : Value × Value) : Option Ordering :=
  match f a.1 b.1 with
  | some .eq => f a.2 b.2
  | r => r

/-- Order of byte strings. (For src/runtime/value/string.rs.) -/
def bytesCmp : Bytes → Bytes → Ordering
  | [], [] => .eq
  | [], _ :: _ => .lt
  | _ :: _, [] => .gt
  | a :: as, b :: bs => if a < b then .lt else if b < a then .gt else bytesCmp as bs

/-- Insertion into a `BTreeMap`, by the given order of keys; an equal key keeps its place and gets the new value.
(For src/runtime/value/dict.rs:106-118.) -/
def btreeInsert (f : Value → Value → Option Ordering) (e : Value × Value) :
    List (Value × Value) → Option (List (Value × Value))
  | [] => some [e]
  | x :: xs =>
    match f e.1 x.1 with
    | none => none
    | some .lt => some (e :: x :: xs)
    | some .eq => some ((x.1, e.2) :: xs)
    | some .gt => (btreeInsert f e xs).map (x :: ·)

/-- `iter().collect::<BTreeMap<_, _>>()`, src/runtime/value/dict.rs:109, 112, 126. -/
def btree (f : Value → Value → Option Ordering) : List (Value × Value) → Option (List (Value × Value))
  | es => es.foldl (fun acc e => acc.bind (btreeInsert f e)) (some [])

/-- The position of a value in the declaration of `Value` (derived `Ord` compares it first),
src/runtime/value/mod.rs:104-118. -/
def Value.rank : Value → Nat
  | .nil => 0
  | .bool _ => 1
  | .byte _ => 2
  | .int _ => 3
  | .float _ => 4
  | .string _ => 5
  | .array _ => 6
  | .dict _ => 7
  | .function _ => 8
  | .error _ _ => 9

/-- `Ord for SourcePos`, src/runtime/source.rs:49-54; simplified: the path is represented by the number of the module. -/
def posCmp (m1 : Nat) (p1 : Pos) (m2 : Nat) (p2 : Pos) : Ordering :=
  (compare m1 m2).then ((compare p1.line p2.line).then (compare p1.column p2.column))

/-- `Ord for Function` (derived, src/runtime/value/function.rs:21-26), `Ord for HushFun` (129-135), `Ord for RustFun`
(259-263). -/
def fnCmp (h : Heap) : Fn → Fn → Ordering
  | .hush a, .hush b => posCmp (h.closure a).module (h.closure a).pos (h.closure b).module (h.closure b).pos
  | .hush _, .native _ _ => .lt
  | .native _ _, .hush _ => .gt
  | .native a _, .native b _ => bytesCmp a b

/-- `Ord for Value` (derived, src/runtime/value/mod.rs:104), with `Ord` of arrays (derived, src/runtime/value/array.rs:13),
dicts (src/runtime/value/dict.rs:106-115) and errors (derived, src/runtime/value/error.rs:13). -/
def valueCmp (h : Heap) : Nat → Value → Value → Option Ordering
  | 0, _, _ => none
  | n + 1, a, b =>
    match a, b with
    | .bool a, .bool b => some (compare a.toNat b.toNat)
    | .byte a, .byte b => some (compare a.toNat b.toNat)
    | .int a, .int b => some (compare a b)
    | .float a, .float b => some (floatCmp a b)
    | .string a, .string b => some (bytesCmp a b)
    | .array a, .array b => listCmp (valueCmp h n) (h.array a) (h.array b)
    | .dict a, .dict b =>
      match btree (valueCmp h n) (h.dict a), btree (valueCmp h n) (h.dict b) with
      | some x, some y => listCmp (pairCmp (valueCmp h n)) x y
      | _, _ => none
    | .function f, .function g => some (fnCmp h f g)
    | .error d c, .error d' c' =>
      match bytesCmp d d' with
      | .eq => valueCmp h n (h.context c) (h.context c')
      | r => some r
    | a, b => some (compare a.rank b.rank)

/-- Whether two values feed the same data to the hasher (`Hash for Value`, derived, src/runtime/value/mod.rs:104;
arrays src/runtime/value/array.rs:118-122; dicts src/runtime/value/dict.rs:122-130; errors
src/runtime/value/error.rs:74-79; functions src/runtime/value/function.rs:21, 138-144, 266-270). Simplified: different
data have different hashes. -/
def sameHash (h : Heap) : Nat → Value → Value → Option Bool
  | 0, _, _ => none
  | n + 1, a, b =>
    match a, b with
    | .nil, .nil => some true
    | .bool a, .bool b => some (a == b)
    | .byte a, .byte b => some (a == b)
    | .int a, .int b => some (a == b)
    | .float a, .float b => some (floatHashed a == floatHashed b)
    | .string a, .string b => some (a == b)
    | .array a, .array b => sliceEq (sameHash h n) (h.array a) (h.array b)
    | .dict a, .dict b =>
      match btree (valueCmp h n) (h.dict a), btree (valueCmp h n) (h.dict b) with
      | some x, some y =>
        sliceEq (fun p q : Value × Value => optAnd (sameHash h n p.1 q.1) (fun _ => sameHash h n p.2 q.2)) x y
      | _, _ => none
    | .function (.hush a), .function (.hush b) =>
      some ((h.closure a).module == (h.closure b).module && (h.closure a).pos == (h.closure b).pos)
    | .function (.native a _), .function (.native b _) => some (a == b)
    | .error d c, .error d' c' => optAnd (some (d == d')) (fun _ => sameHash h n (h.context c) (h.context c'))
    | _, _ => some false

/-- `HashMap::get`: the entry whose key has the same hash and is equal. Simplified: the hash of a stored key is that of
its present contents (the code keeps the hash at the time of insertion, which differs if a key was mutated).
(Called at src/runtime/value/dict.rs:66-80.) -/
def lookupWith (eq hash : Value → Value → Option Bool) (es : List (Value × Value)) (k : Value) :
    Option (Option (Value × Value)) :=
  findM (fun e => optAnd (hash k e.1) (fun _ => eq k e.1)) es

/-- `PartialEq for Value` (derived, src/runtime/value/mod.rs:104), of arrays (derived, src/runtime/value/array.rs:13),
dicts (derived, src/runtime/value/dict.rs:29: `HashMap::eq`), errors (src/runtime/value/error.rs:66-71), functions
(src/runtime/value/function.rs:109-116, 242-246). -/
def valueEq (h : Heap) : Nat → Value → Value → Option Bool
  | 0, _, _ => none
  | n + 1, a, b =>
    match a, b with
    | .nil, .nil => some true
    | .bool a, .bool b => some (a == b)
    | .byte a, .byte b => some (a == b)
    | .int a, .int b => some (a == b)
    | .float a, .float b => some (floatEq a b)
    | .string a, .string b => some (a == b)
    | .array a, .array b => sliceEq (valueEq h n) (h.array a) (h.array b)
    | .dict a, .dict b =>
      if (h.dict a).length = (h.dict b).length then
        allM (fun e =>
          match lookupWith (valueEq h n) (sameHash h n) (h.dict b) e.1 with
          | none => none
          | some none => some false
          | some (some e') => valueEq h n e.2 e'.2) (h.dict a)
      else some false
    | .function (.hush a), .function (.hush b) =>
      if (h.closure a).module == (h.closure b).module && (h.closure a).pos == (h.closure b).pos then
        sliceEq (fun p q : Nat × Nat => optAnd (valueEq h n (h.cell p.1) (h.cell q.1)) (fun _ => some (p.2 == q.2)))
          (h.closure a).context (h.closure b).context
      else some false
    | .function (.native a _), .function (.native b _) => some (a == b)
    | .error d c, .error d' c' => optAnd (some (d == d')) (fun _ => valueEq h n (h.context c) (h.context c'))
    | _, _ => some false

/-- `Dict::get`, src/runtime/value/dict.rs:65-72. -/
def dictGet (h : Heap) (n : Nat) (d : Nat) (k : Value) : Option (Option Value) :=
  (lookupWith (valueEq h n) (sameHash h n) (h.dict d) k).map (fun r => r.map (·.2))

/-- `HashMap::insert`: an entry with an equal key keeps its key and gets the value; otherwise a new entry is added.
(Called at src/runtime/value/dict.rs:60-62.) -/
def insertWith (same : Value → Option Bool) (k v : Value) : List (Value × Value) → Option (List (Value × Value))
  | [] => some [(k, v)]
  | e :: es =>
    match same e.1 with
    | none => none
    | some true => some ((e.1, v) :: es)
    | some false => (insertWith same k v es).map (e :: ·)

/-- `Dict::insert`, src/runtime/value/dict.rs:59-62. -/
def dictInsert (h : Heap) (n : Nat) (es : List (Value × Value)) (k v : Value) : Option (List (Value × Value)) :=
  insertWith (fun k' => optAnd (sameHash h n k k') (fun _ => valueEq h n k k')) k v es

/-- Whether hashing or comparing the value borrows the given dict (`inl`) or array (`inr`), which is a Rust panic when it
is mutably borrowed at that time. (For src/runtime/value/dict.rs:60-62 and src/runtime/mod.rs:447-465.) -/
def touches (h : Heap) (target : Nat ⊕ Nat) : Nat → Value → Option Bool
  | 0, _ => none
  | n + 1, v =>
    match v with
    | .array a => if target = .inr a then some true else anyM (touches h target n) (h.array a)
    | .dict d =>
      if target = .inl d then some true
      else anyM (fun e => match touches h target n e.1 with
        | some false => touches h target n e.2
        | r => r) (h.dict d)
    | .error _ c => touches h target n (h.context c)
    | _ => some false

end Hush

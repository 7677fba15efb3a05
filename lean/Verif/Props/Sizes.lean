import Verif.Spec.Sizes
import Verif.Spec.Library
import Verif.Lemmas.Library
import Verif.Props.Eval

/-!
C89: lengths count elements.
-/

namespace Hush.Props
open Hush Spec

/-- C89: `std.len` is the number of bytes, elements or entries. -/
theorem length_counts (w : World) {h : Heap} {x : Value} {n : Nat} (hx : Size h x n) : Calls w (bs "std.len") [x] h (.ok (.int n)) h := by
  refine calls_ok 0 (by decide) fun addr pos argv => ?_
  cases hx with
  | string => rfl
  | @array a vs ha =>
    show some (Except.ok (Value.int (h.array a).length, h)) = _
    rw [show h.array a = vs by simp [Heap.array, ha]]
  | @dict d es hd =>
    show some (Except.ok (Value.int (h.dict d).length, h)) = _
    rw [show h.dict d = es by simp [Heap.dict, hd]]

/-- C89: `std.is_empty` tells whether the length is 0. -/
theorem empty_without_elements (w : World) {h : Heap} {x : Value} {n : Nat} (hx : Size h x n) :
    Calls w (bs "std.is_empty") [x] h (.ok (.bool (decide (n = 0)))) h := by
  refine calls_ok 0 (by decide) fun addr pos argv => ?_
  cases hx with
  | @string s =>
    show some (Except.ok (Value.bool s.isEmpty, h)) = _
    cases s <;> rfl
  | @array a vs ha =>
    show some (Except.ok (Value.bool (h.array a).isEmpty, h)) = _
    rw [show h.array a = vs by simp [Heap.array, ha]]
    cases vs <;> rfl
  | @dict d es hd =>
    show some (Except.ok (Value.bool (h.dict d).isEmpty, h)) = _
    rw [show h.dict d = es by simp [Heap.dict, hd]]
    cases es <;> rfl

/-- C89: `std.bytes` makes a new array of the bytes of the string, in order, as long as the string; nothing else changes. -/
theorem bytes_of_string (w : World) (h : Heap) (s : Bytes) :
    ∃ h', Calls w (bs "std.bytes") [.string s] h (.ok (.array h.arrays.length)) h' ∧ h' = { h with arrays := h.arrays ++ [s.map .byte] } ∧
      Size h' (.array h.arrays.length) s.length := by
  refine ⟨_, calls_ok 0 (by decide) fun addr pos argv => rfl, rfl, ?_⟩
  have := Size.array (h := { h with arrays := h.arrays ++ [s.map Value.byte] }) (a := h.arrays.length) (vs := s.map .byte) (by simp)
  rwa [List.length_map] at this

theorem hexEncode_length (s : Bytes) : (Lib.hexEncode s).length = 2 * s.length := by
  induction s with
  | nil => rfl
  | cons b s ih =>
    have : Lib.hexEncode (b :: s) = _ ++ Lib.hexEncode s := rfl
    rw [this, List.length_append, ih, List.length_cons]
    simp
    omega

/-- C89: the hexadecimal text is twice as long as the string. -/
theorem hex_length (w : World) (h : Heap) (s : Bytes) :
    ∃ t, Calls w (bs "std.hex.encode") [.string s] h (.ok (.string t)) h ∧ t.length = 2 * s.length :=
  ⟨Lib.hexEncode s, calls_ok 0 (by decide) fun _ _ _ => rfl, hexEncode_length s⟩

theorem b64Encode_length : ∀ s : Bytes, (Lib.b64Encode s).length = 4 * ((s.length + 2) / 3)
  | [] => rfl
  | [_] => by simp [Lib.b64Encode]
  | [_, _] => by simp [Lib.b64Encode]
  | a :: b :: c :: s => by
    have h1 : (Lib.b64Encode (a :: b :: c :: s)).length = 4 + (Lib.b64Encode s).length := by
      rw [Lib.b64Encode]
      simp
      omega
    rw [h1, b64Encode_length s]
    simp only [List.length_cons]
    omega

/-- C89: the text in base 64 has four bytes for every three of the string, rounded up. -/
theorem base64_length (w : World) (h : Heap) (s : Bytes) :
    ∃ t, Calls w (bs "std.base64.encode") [.string s] h (.ok (.string t)) h ∧ t.length = 4 * ((s.length + 2) / 3) :=
  ⟨Lib.b64Encode s, calls_ok 0 (by decide) fun _ _ _ => rfl, b64Encode_length s⟩

theorem put_length (es : List (Value × Value)) (k v : Value) :
    (put es k v).length = if look es k = none then es.length + 1 else es.length := by
  induction es with
  | nil => simp [put, look]
  | cons e es ih =>
    by_cases h : e.1 = k
    · simp [put, look, h]
    · have h1 : look (e :: es) k = look es k := by simp [look, h]
      rw [h1]
      simp only [put, if_neg h, List.length_cons, ih]
      split <;> rfl

/-- C89: assigning to an entry makes a dict longer by one if the key is new, and leaves its length otherwise; for keys that are nil, booleans,
bytes, integers, strings or floats that are numbers. -/
theorem dict_grows (w : World) (m : Nat) (a b e : Prog.Expr) (pos : Pos) (s s1 s2 s3 : RState) (v : Value) (x : Nat) (k : Value)
    (p p' p'' : Pos) (o o' o'' : Value) (hk : Simple k) (he : Yields w m e s v p o s1) (ha : Yields w m a s1 (.dict x) p' o' s2)
    (hb : Yields w m b s2 k p'' o'' s3) {n : Nat} (hx : Size s3.heap (.dict x) n) :
    ∃ h', Ends w (.stmt m none (.assign (.access a b pos) e)) s (done .nil noPos) { s3 with heap := h' } ∧
      ((∀ u, (k, u) ∉ s3.heap.dict x) → Size h' (.dict x) (n + 1)) ∧ (∀ u, (k, u) ∈ s3.heap.dict x → Size h' (.dict x) n) := by
  cases hx with
  | @dict _ es hd =>
  have hg : s3.heap.dict x = es := by simp [Heap.dict, hd]
  have hlt : x < s3.heap.dicts.length := by
    have := List.getElem?_eq_some_iff.1 hd
    exact this.1
  have hs : (s3.heap.setDict x (put es k v)).dicts[x]? = some (put es k v) := by simp [Heap.setDict, hlt]
  have hl := put_length es k v
  refine ⟨s3.heap.setDict x (put (s3.heap.dict x) k v), ?_, ?_, ?_⟩
  · exact ends_assign he ha hb (n := 1) (r := .ok _)
      (by simp only [assignValue, touches_simple _ 0 _ hk, dictInsert_simple _ 0 _ hk]) nofun
  · rw [hg]
    intro hn
    have : look es k = none := by
      simp only [look, Option.map_eq_none_iff, List.find?_eq_none, decide_eq_true_eq]
      rintro ⟨k', u⟩ hm rfl
      exact hn u hm
    rw [if_pos this] at hl
    rw [← hl]
    exact .dict hs
  · rw [hg]
    intro u hm
    have : look es k ≠ none := by
      simp only [look, ne_eq, Option.map_eq_none_iff, List.find?_eq_none, decide_eq_true_eq]
      exact fun hc => hc _ hm rfl
    rw [if_neg this] at hl
    rw [← hl]
    exact .dict hs

/-! ### Examples -/

/-- `d[true] = [true, 3]` for the empty dict `d`. -/
example : Yields (fileWorld fun _ => none) 0 (.ident 0 (q 0)) arrayState (.array 0) (q 0) .nil arrayState ∧
    Yields (fileWorld fun _ => none) 0 (.ident 1 (q 0)) arrayState (.dict 0) (q 0) .nil arrayState ∧
    Yields (fileWorld fun _ => none) 0 (.lit (.bool true) (q 0)) arrayState (.bool true) (q 0) .nil arrayState ∧ Simple (.bool true) ∧
    Size arrayState.heap (.dict 0) 0 :=
  ⟨⟨nofun, 1, rfl⟩, ⟨nofun, 1, rfl⟩, ⟨nofun, 2, rfl⟩, trivial, .dict (es := []) rfl⟩

/-- An array of two elements, and a string of no byte. -/
example : Size { Heap.empty with arrays := [[.nil, .int 1]] } (.array 0) 2 ∧ Size Heap.empty (.string []) 0 := ⟨.array (vs := [_, _]) rfl, .string⟩
example (w : World) : Calls w (bs "std.is_empty") [.string (bs "x")] Heap.empty (.ok (.bool false)) Heap.empty := empty_without_elements w .string
example : Lib.b64Encode (bs "abcd") = bs "YWJjZA==" ∧ Lib.hexEncode (bs "a~") = bs "617e" := by decide +kernel

end Hush.Props

import Verif.Lemmas.Library
import Verif.Props.Values
import Verif.Props.Interp
import Verif.Spec.Elements

/-!
Properties C44 to C47 and C52 to C56: the library functions on texts, numbers, types and arrays. All theorems are about calls, in any
state, of the library functions by the interpreter.
-/

namespace Hush.Props
open Hush Hush.Spec

/-! ### C44: texts -/

/-- C44: `std.substr(s, i, n)` is the text of length `n` at position `i`, if there is one, and nil otherwise. (Lengths are below 2^63, as
everywhere in Rust.)
Missing: with overflow checks (debug builds) only if neither number is negative, see `substr_violated`. -/
theorem substr_partial (w : World) (s : Bytes) (i n : Int) (h : Heap) (hi : isI64 i = true) (hn : isI64 n = true)
    (hs : s.length < 9223372036854775808) (hw : w.checks = false ∨ (0 ≤ i ∧ 0 ≤ n)) :
    (∀ a b c, s = a ++ b ++ c → (a.length : Int) = i → (b.length : Int) = n →
      Calls w (bs "std.substr") [.string s, .int i, .int n] h (.ok (.string b)) h) ∧
    ((¬ ∃ a b c, s = a ++ b ++ c ∧ (a.length : Int) = i ∧ (b.length : Int) = n) →
      Calls w (bs "std.substr") [.string s, .int i, .int n] h (.ok .nil) h) := by
  simp only [isI64, decide_eq_true_eq] at hi hn
  have e : ∀ {j : Int}, 0 ≤ j → j ≤ 9223372036854775807 → Lib.asUsize j = j.toNat := by
    intro j h1 h2; unfold Lib.asUsize; omega
  constructor
  · rintro a b c rfl rfl rfl
    refine calls_ok 0 (by decide) fun addr pos argv => ?_
    show some ((Lib.substrOf w (a ++ b ++ c) a.length b.length).map _) = _
    simp only [Lib.substrOf, e (Int.natCast_nonneg _) hi.2, e (Int.natCast_nonneg _) hn.2, Int.toNat_natCast]
    have h1 : a.length + b.length < 18446744073709551616 := by omega
    rw [if_neg (by simp; omega), Nat.mod_eq_of_lt h1, if_pos ⟨by omega, by simp⟩]
    have h2 : ((a ++ b ++ c).drop a.length).take (a.length + b.length - a.length) = b := by simp
    rw [h2]
    rfl
  · intro hno
    refine calls_ok 0 (by decide) fun addr pos argv => ?_
    show some ((Lib.substrOf w s i n).map _) = _
    have h1 : ¬ (Lib.asUsize i ≤ (Lib.asUsize i + Lib.asUsize n) % 18446744073709551616 ∧
        (Lib.asUsize i + Lib.asUsize n) % 18446744073709551616 ≤ s.length) := by
      rintro ⟨h1, h2⟩
      by_cases hneg : 0 ≤ i ∧ 0 ≤ n
      · rw [e hneg.1 hi.2, e hneg.2 hn.2] at h2
        have h3 : i.toNat + n.toNat < 18446744073709551616 := by omega
        rw [Nat.mod_eq_of_lt h3] at h2
        refine hno ⟨s.take i.toNat, (s.drop i.toNat).take n.toNat, (s.drop i.toNat).drop n.toNat, ?_, ?_, ?_⟩
        · rw [List.append_assoc, List.take_append_drop, List.take_append_drop]
        · rw [List.length_take]; omega
        · rw [List.length_take, List.length_drop]; omega
      · unfold Lib.asUsize at h1 h2
        omega
    simp only [Lib.substrOf]
    rw [if_neg, if_neg h1]
    · rfl
    · rcases hw with hw | ⟨h1, h2⟩
      · simp [hw]
      · rw [e h1 hi.2, e h2 hn.2]; simp; omega

/-- C44 is violated in builds with overflow checks: `std.substr("abc", 1, -1)` is a Rust panic. -/
theorem substr_violated (w : World) (h : w.checks = true) (n m addr : Nat) (obj : Value) (pos : Pos) (s : RState)
    (hs : s.args = [.string (bs "abc"), .int 1, .int (-1)]) :
    (run w (n + 1) (.call m obj (.native (bs "std.substr") addr) 0 pos) s).1 = .error (.crash .arith) := by
  have hc : Lib.call w (bs "std.substr") ⟨n, addr, s.args.drop 0, pos, s.argv⟩ s.heap = some (.error (.crash .arith)) := by
    rw [hs]
    show some ((Lib.substrOf w (bs "abc") 1 (-1)).map _) = _
    simp only [Lib.substrOf]
    rw [if_pos (by rw [h]; decide)]
    rfl
  rw [run_libpanic (by decide) (by simp) hc]

/-- C44: `std.split(s, p)` is a new array of texts. Joined by `p` they are `s`. Unless `p` is empty they are the parts of `s` between the
occurrences of `p` from left to right; in no other way can `s` be split at these. -/
theorem split_parts (w : World) (s p : Bytes) (h : Heap) :
    ∃ parts : List Bytes, joined p parts = s ∧ (p ≠ [] → Splits p s parts ∧ ∀ parts', Splits p s parts' → parts' = parts) ∧
      ∃ a h', Calls w (bs "std.split") [.string s, .string p] h (.ok (.array a)) h' ∧ a = h.arrays.length ∧
        h'.array a = parts.map .string ∧ ∀ b, b < a → h'.array b = h.array b := by
  refine ⟨Lib.splitStr p s, joined_splitStr p s, fun hp => ⟨splitStr_splits hp s, fun parts' h' => splits_unique hp h' (splitStr_splits hp s)⟩,
    h.arrays.length, (h.newArray ((Lib.splitStr p s).map .string)).2, calls_ok 0 (by decide) fun _ _ _ => rfl, rfl, ?_, fun b hb => ?_⟩
  · simp [Heap.array, Heap.newArray, List.getD_eq_getElem?_getD]
  · simp [Heap.array, Heap.newArray, List.getD_eq_getElem?_getD, List.getElem?_append_left hb]

/-- C52: `std.replace(s, p, r)` is `s` with `r` in place of all occurrences of `p`, from left to right. -/
theorem replace_all (w : World) (s p r : Bytes) (h : Heap) (hp : p ≠ []) :
    ∃ parts : List Bytes, Splits p s parts ∧ joined p parts = s ∧
      Calls w (bs "std.replace") [.string s, .string p, .string r] h (.ok (.string (joined r parts))) h :=
  ⟨Lib.splitStr p s, splitStr_splits hp s, joined_splitStr p s, calls_ok 0 (by decide) fun _ _ _ => by rw [← joinWith_joined]; rfl⟩

-- `"a--b-"` at `"-"`.
example : Splits (bs "-") (bs "a--b-") [bs "a", [], bs "b", []] := by
  have h1 : Splits (bs "-") ([] : Bytes) [[]] := .last (by decide)
  have h2 : Splits (bs "-") (bs "b" ++ bs "-" ++ []) [bs "b", []] := .part (by decide) h1
  have h3 : Splits (bs "-") ([] ++ bs "-" ++ (bs "b" ++ bs "-" ++ [])) [[], bs "b", []] := .part (by decide) h2
  exact .part (a := bs "a") (by decide) h3
example : (∃ a b c, bs "hello" = a ++ b ++ c ∧ (a.length : Int) = 1 ∧ (b.length : Int) = 3) ∧
    ¬ ∃ a b c, bs "hello" = a ++ b ++ c ∧ (a.length : Int) = -1 ∧ (b.length : Int) = 3 :=
  ⟨⟨bs "h", bs "ell", bs "o", by decide⟩, fun ⟨a, _, _, _, h, _⟩ => by omega⟩

/-! ### C45 and C46: numbers and encodings -/

/-- C45: the text of an integer is read back as this integer. -/
theorem int_roundtrip (w : World) (i : Int) (h : Heap) (hi : isI64 i = true) :
    ∃ text, Calls w (bs "std.to_string") [.int i] h (.ok (.string text)) h ∧
      Calls w (bs "std.int") [.string text] h (.ok (.int i)) h :=
  ⟨intText i, calls_ok 1 (by decide) fun _ _ _ => rfl, calls_ok 0 (by decide) fun _ _ _ => by
    show (match Lib.parseI64 (intText i) with | some i => _ | none => _) = _
    rw [parse_intText hi]
    rfl⟩

/-- C46: what is encoded is decoded. -/
theorem encodings_roundtrip (w : World) (s : Bytes) (h : Heap) :
    (∃ text, Calls w (bs "std.hex.encode") [.string s] h (.ok (.string text)) h ∧
      Calls w (bs "std.hex.decode") [.string text] h (.ok (.string s)) h) ∧
    ∃ text, Calls w (bs "std.base64.encode") [.string s] h (.ok (.string text)) h ∧
      Calls w (bs "std.base64.decode") [.string text] h (.ok (.string s)) h := by
  refine ⟨⟨Lib.hexEncode s, calls_ok 0 (by decide) fun _ _ _ => rfl, calls_ok 0 (by decide) fun _ _ _ => ?_⟩,
    ⟨Lib.b64Encode s, calls_ok 0 (by decide) fun _ _ _ => rfl, calls_ok 0 (by decide) fun _ _ _ => ?_⟩⟩
  · show (match Lib.hexDecode (Lib.hexEncode s) with | some i => _ | none => _) = _
    rw [hex_roundtrip]
    rfl
  · show (match Lib.b64Decode (Lib.b64Encode s) with | some i => _ | none => _) = _
    rw [b64_roundtrip]
    rfl

/-! ### C47 and C56: types -/

/-- C47: `std.type` tells the name of the type; values have the same name if and only if they are of the same type. -/
theorem type_names (w : World) (h : Heap) :
    (∀ v, Calls w (bs "std.type") [v] h (.ok (.string (typeName v))) h) ∧
    ∀ v v', typeName v = typeName v' ↔ SameType v v' := by
  refine ⟨fun v => calls_ok 0 (by decide) fun _ _ _ => ?_, fun v v' => ?_⟩
  · cases v <;> rfl
  · cases v <;> cases v' <;> simp only [SameType, typeName, iff_false] <;> decide

theorem parse_typeName (v : Value) : VType.parse (typeName v) = some v.type := by cases v <;> rfl

theorem parse_display {s : Bytes} {t : VType} (h : VType.parse s = some t) : t.display = s := by
  unfold VType.parse at h
  repeat' split at h
  all_goals first | (simp only [Option.some.injEq] at h; subst h; simp [VType.display, *]) | cases h

theorem display_type (v : Value) : v.type.display = typeName v := by cases v <;> rfl

/-- C56: `std.typecheck(v, s)` returns `v` if `s` is the name of its type; if it is the name of another type, this is a type error; otherwise
it is an error in the argument. -/
theorem typecheck_decides (w : World) (h : Heap) (v : Value) (s : Bytes) :
    (s = typeName v → Calls w (bs "std.typecheck") [v, .string s] h (.ok v) h) ∧
    (s ≠ typeName v → (∃ v', s = typeName v') →
      Calls w (bs "std.typecheck") [v, .string s] h (.error (.typeError v s)) h) ∧
    ((∀ v', s ≠ typeName v') → Calls w (bs "std.typecheck") [v, .string s] h (.error (.valueError (.string s) (bs "valid type"))) h) := by
  refine ⟨?_, ?_, ?_⟩
  · rintro rfl
    refine calls_ok 0 (by decide) fun addr pos argv => ?_
    rw [lib_call (f := Lib.typecheck) rfl]
    simp only [Lib.typecheck, parse_typeName, if_true]
    rfl
  · rintro hne ⟨v', rfl⟩
    refine calls_panic (by decide) fun addr pos argv => ?_
    rw [lib_call (f := Lib.typecheck) rfl]
    simp only [Lib.typecheck, parse_typeName]
    rw [if_neg, display_type]
    · rfl
    · intro ht
      rw [← display_type v', ← display_type v, ht] at hne
      exact hne rfl
  · intro hno
    refine calls_panic (by decide) fun addr pos argv => ?_
    rw [lib_call (f := Lib.typecheck) rfl]
    simp only [Lib.typecheck]
    cases hp : VType.parse s with
    | none => rfl
    | some t =>
      exfalso
      have := parse_display hp
      have hv : ∃ v : Value, v.type = t := by
        cases t
        · exact ⟨.nil, rfl⟩
        · exact ⟨.bool true, rfl⟩
        · exact ⟨.byte 0, rfl⟩
        · exact ⟨.int 0, rfl⟩
        · exact ⟨.float 0, rfl⟩
        · exact ⟨.string [], rfl⟩
        · exact ⟨.array 0, rfl⟩
        · exact ⟨.dict 0, rfl⟩
        · exact ⟨.function (.native [] 0), rfl⟩
        · exact ⟨.error [] 0, rfl⟩
      obtain ⟨v', rfl⟩ := hv
      exact hno v' (by rw [← this, display_type])

-- A name of no type.
example : ∀ v', bs "byte" ≠ typeName v' := by intro v'; cases v' <;> (simp only [typeName]; decide)

/-! ### C53 to C55: arrays -/

theorem array_of_set {h : Heap} {a : Nat} {vs : List Value} (ha : a < h.arrays.length) : (h.setArray a vs).array a = vs := by
  simp [Heap.array, Heap.setArray, List.getD_eq_getElem?_getD, ha]

/-- C53: `std.push(a, v)` appends `v`, `std.pop(a)` removes the last element and returns it, `std.len(a)` is the number of elements; nothing
else is changed. In particular `pop` undoes `push`. -/
theorem push_pop (w : World) (h : Heap) (a : Nat) (v : Value) (ha : a < h.arrays.length) :
    (∃ h', Calls w (bs "std.push") [.array a, v] h (.ok .nil) h' ∧ h'.array a = h.array a ++ [v] ∧ SameButArray a h h' ∧
      Calls w (bs "std.pop") [.array a] h' (.ok v) h) ∧
    (h.array a = [] → Calls w (bs "std.pop") [.array a] h (.error .emptyCollection) h) ∧
    (∀ vs x, h.array a = vs ++ [x] → ∃ h', Calls w (bs "std.pop") [.array a] h (.ok x) h' ∧ h'.array a = vs ∧ SameButArray a h h') ∧
    Calls w (bs "std.len") [.array a] h (.ok (.int (h.array a).length)) h := by
  refine ⟨⟨h.setArray a (h.array a ++ [v]), calls_ok 0 (by decide) fun _ _ _ => rfl, array_of_set ha, setArray_same _ _ _, ?_⟩, ?_, ?_, ?_⟩
  · refine calls_ok 0 (by decide) fun addr pos argv => ?_
    rw [lib_call (f := Lib.pop) rfl]
    simp only [Lib.pop, array_of_set ha, List.getLast?_concat, List.dropLast_concat]
    congr 3
    have h1 : h.array a = h.arrays[a] := by simp [Heap.array, List.getD_eq_getElem?_getD, ha]
    simp only [Heap.setArray, List.set_set, h1, List.set_getElem_self]
  · intro he
    refine calls_panic (by decide) fun addr pos argv => ?_
    rw [lib_call (f := Lib.pop) rfl]
    simp only [Lib.pop, he, List.getLast?_nil]
    rfl
  · intro vs x he
    refine ⟨h.setArray a vs, ?_, array_of_set ha, setArray_same _ _ _⟩
    refine calls_ok 0 (by decide) fun addr pos argv => ?_
    rw [lib_call (f := Lib.pop) rfl]
    simp only [Lib.pop, he, List.getLast?_concat, List.dropLast_concat]
  · exact calls_ok 0 (by decide) fun _ _ _ => rfl

/-- C54: `std.contains(a, v)` tells whether an element of the array equals `v`, for finite values; for dicts, whether
there is an entry for the key, for keys that are compared by what they are; for texts, whether the byte occurs. -/
theorem contains_decides (w : World) (h : Heap) (hk : DistinctKeys h) :
    (∀ a v, Finite h true v → (∀ x ∈ h.array a, Finite h true x) →
      ∃ b : Bool, (b = true ↔ ∃ x ∈ h.array a, Equal h x v) ∧ Calls w (bs "std.contains") [.array a, v] h (.ok (.bool b)) h) ∧
    (∀ d k, Simple k → ∃ b : Bool, (b = true ↔ ∃ v, (k, v) ∈ h.dict d) ∧ Calls w (bs "std.contains") [.dict d, k] h (.ok (.bool b)) h) ∧
    ∀ (s : Bytes) (c : UInt8), ∃ b : Bool, (b = true ↔ c ∈ s) ∧
      Calls w (bs "std.contains") [.string s, .byte c] h (.ok (.bool b)) h := by
  refine ⟨?_, ?_, ?_⟩
  · intro a v hv ha
    obtain ⟨n, hn⟩ := depth_of_finite hv
    obtain ⟨m, hm⟩ := bound_all (P := fun n v => Depth h true n v) (fun _ _ => depth_succ) _ fun x hx => depth_of_finite (ha x hx)
    have hn' := depth_mono (Nat.le_max_left n m) hn
    have he := equivOn_values h hk (max n m)
    obtain ⟨b, hb⟩ := anyM_total (f := fun x => valueEq h (max n m) x v) (l := h.array a) fun x hx =>
      he.total (depth_mono (Nat.le_max_right n m) (hm x hx)) hn'
    obtain ⟨h1, h2⟩ := anyM_some hb
    refine ⟨b, ⟨fun hb' => ?_, fun ⟨x, hx, hx'⟩ => ?_⟩, calls_ok (max n m) (by decide) fun addr pos argv => ?_⟩
    · obtain ⟨x, hx, h3⟩ := h1 hb'
      exact ⟨x, hx, _, h3⟩
    · cases b with
      | true => rfl
      | false => exact absurd ((equal_agree (h2 rfl x hx)).1.1 hx') (by simp)
    · rw [lib_call (f := Lib.contains) rfl]
      simp only [Lib.contains, hb]
      rfl
  · intro d k hk
    refine ⟨(look (h.dict d) k).isSome, ?_, calls_ok 1 (by decide) fun addr pos argv => ?_⟩
    · simp only [look, Option.isSome_map, List.find?_isSome, decide_eq_true_eq]
      exact ⟨fun ⟨e, h1, h2⟩ => ⟨e.2, h2 ▸ h1⟩, fun ⟨v, h1⟩ => ⟨_, h1, rfl⟩⟩
    · rw [lib_call (f := Lib.contains) rfl]
      simp only [Lib.contains, dictGet_simple h 0 d hk]
      rfl
  · intro s c
    exact ⟨s.contains c, by simp, calls_ok 0 (by decide) fun _ _ _ => rfl⟩

/-- C55: `std.has_error(v)` tells whether there is an error in the value. -/
theorem has_error_decides (w : World) (h : Heap) (v : Value) (hv : Grounded h v) :
    ∃ b : Bool, (b = true ↔ HasError h v) ∧ Calls w (bs "std.has_error") [v] h (.ok (.bool b)) h := by
  obtain ⟨n, b, hb⟩ := findError_total hv
  refine ⟨b, findError_spec hb, calls_ok n (by decide) fun addr pos argv => ?_⟩
  rw [lib_call (f := Lib.hasError) rfl]
  simp only [Lib.hasError, hb]
  rfl

/-- Two arrays, the second one in the first: `[1, [error]]`. -/
def nested : Heap := { (RState.init [] []).heap with arrays := [[.int 1, .array 1], [.error (bs "e") 0]] }

example : Grounded nested (.array 0) ∧ HasError nested (.array 0) ∧ ¬ HasError nested (.int 1) := by
  refine ⟨.array fun v hv => ?_, .element (v := .array 1) (by simp [nested, Heap.array]) (.element (v := .error (bs "e") 0) (by simp [nested, Heap.array]) (.error _ _)), by rintro ⟨⟩⟩
  simp only [nested, Heap.array, List.getD_cons_zero, List.mem_cons, List.not_mem_nil, or_false] at hv
  rcases hv with rfl | rfl
  · exact .other nofun nofun
  · refine .array fun v hv => ?_
    simp only [nested, Heap.array, List.getD_cons_succ, List.getD_cons_zero, List.mem_cons, List.not_mem_nil, or_false] at hv
    subst hv
    exact .other nofun nofun
example : 1 < nested.arrays.length ∧ nested.array 1 = [] ++ [.error (bs "e") 0] := by decide

end Hush.Props

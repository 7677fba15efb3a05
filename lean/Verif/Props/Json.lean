import Verif.Lemmas.JsonWrite

/-!
Property C63: JSON.
-/

namespace Hush.Props
open Hush Hush.Spec

/-- C63: data of nil, booleans, integers, floats, texts, lists and records that are nested at most 127 deep are written by
`std.json.encode` and read back by `std.json.decode`: the result has the same contents (and the value that was written is unchanged). Of the floats
it is required that the trusted conversions of floats from and to text keep them. -/
theorem json_roundtrip_partial (w : World) (h : Heap) (v : Value) (j : Data) (hv : Holds h j v) (hp : Proper w j) (hd : j.depth ≤ 127) :
    ∃ text v' h', Calls w (bs "std.json.encode") [v] h (.ok (.string text)) h ∧ Calls w (bs "std.json.decode") [.string text] h (.ok v') h' ∧
      Holds h' j v' ∧ Holds h' j v := by
  obtain ⟨h1, g⟩ := build_holds [] j h
  refine ⟨dataText w 0 j, _, _, calls_ok (j.depth + 1) (by decide) fun addr pos argv => ?_,
    calls_ok 0 (by decide) fun addr pos argv => ?_, h1, holds_grown g j v hv⟩
  · rw [lib_call (f := Lib.jsonEncode) rfl]
    simp only [Lib.jsonEncode, encode_text j v _ 0 hv hp (Nat.lt_succ_self _)]
    rfl
  · rw [lib_call (f := Lib.jsonDecode) rfl]
    simp only [Lib.jsonDecode, decode_text hp hd]

/-- `std.json.decode` never panics for a string: what is no JSON is an error value, of which the context is the string. -/
theorem decode_never_panics (w : World) (h : Heap) (s : Bytes) :
    ∃ v h', Calls w (bs "std.json.decode") [.string s] h (.ok v) h' ∧ (Json.decode w s = none → ∃ d c, v = .error d c ∧ h'.context c = .string s) := by
  cases hd : Json.decode w s with
  | none =>
    refine ⟨_, (h.newError (w.errorText (bs "std.json.decode") s) (.string s)).2, calls_ok 0 (by decide) fun addr pos argv => ?_, fun _ => ⟨w.errorText (bs "std.json.decode") s, h.contexts.length, rfl, ?_⟩⟩
    · rw [lib_call (f := Lib.jsonDecode) rfl]
      simp only [Lib.jsonDecode, hd]
      rfl
    · simp [Heap.newError, Heap.context]
  | some t =>
    refine ⟨(t.build [] h).1, (t.build [] h).2, calls_ok 0 (by decide) fun addr pos argv => ?_, nofun⟩
    rw [lib_call (f := Lib.jsonDecode) rfl]
    simp only [Lib.jsonDecode, hd]

/-- C63, the full statement fails: a list nested 128 deep is written, but what was written is not read back. -/
theorem json_depth_violated (w : World) (h : Heap) (v : Value) (hv : Holds h (nest 127) v) :
    ∃ text d c h', Calls w (bs "std.json.encode") [v] h (.ok (.string text)) h ∧ Calls w (bs "std.json.decode") [.string text] h (.ok (.error d c)) h' := by
  have hn := fun n => nest_unread (w := w) 127 n 128 0 [] (by omega)
  have he := encode_text _ v _ 0 hv (nest_proper w 127) (Nat.lt_succ_self _)
  generalize nest 127 = j at hv hn he
  generalize dataText w 0 j = text at hn he
  simp only [List.append_nil] at hn
  obtain ⟨v', h', h1, h2⟩ := decode_never_panics w h text
  obtain ⟨d, c, rfl, -⟩ := h2 (by rw [Json.decode, hn])
  refine ⟨text, d, c, h', calls_ok (j.depth + 1) (by decide) fun addr pos argv => ?_, h1⟩
  rw [lib_call (f := Lib.jsonEncode) rfl]
  simp only [Lib.jsonEncode, he]
  rfl

-- There is such a list.
example (n : Nat) : ∃ h v, Holds h (nest n) v ∧ (nest n).depth = n + 1 := ⟨_, _, (build_holds [] (nest n) (RState.init [] []).heap).1, nest_depth n⟩

/-- C63, the full statement fails: a byte comes back as a string, a float that is no number as nil, and a string that is not UTF-8 as another
string. -/
theorem json_kinds_violated (w : World) (h : Heap) :
    (∃ text, Calls w (bs "std.json.encode") [.byte 97] h (.ok (.string text)) h ∧
      Calls w (bs "std.json.decode") [.string text] h (.ok (.string (bs "a"))) h) ∧
    (∃ text, Calls w (bs "std.json.encode") [.float 0x7FF8000000000000] h (.ok (.string text)) h ∧
      Calls w (bs "std.json.decode") [.string text] h (.ok .nil) h) ∧
    ∃ text, Calls w (bs "std.json.encode") [.string [0xFF]] h (.ok (.string text)) h ∧
      Calls w (bs "std.json.decode") [.string text] h (.ok (.string [0xEF, 0xBF, 0xBD])) h :=
  ⟨⟨bs "\"a\"", calls_ok 1 (by decide) fun _ _ _ => rfl, calls_ok 0 (by decide) fun _ _ _ => rfl⟩,
    ⟨bs "null", calls_ok 1 (by decide) fun _ _ _ => rfl, calls_ok 0 (by decide) fun _ _ _ => rfl⟩,
    ⟨[34, 0xEF, 0xBF, 0xBD, 34], calls_ok 1 (by decide) fun _ _ _ => rfl, calls_ok 0 (by decide) fun _ _ _ => rfl⟩⟩

/-- C63: `std.json.encode` refuses exactly the values that contain functions, errors or dicts with keys other than strings, and has a text for all
others. -/
theorem encode_refuses (w : World) (h : Heap) (v : Value) (hv : Grounded h v) :
    (Unwritable h v → Calls w (bs "std.json.encode") [v] h (.error (.valueError v (bs "nil, bool, byte, int, float, string, array or dict"))) h) ∧
    (¬ Unwritable h v → ∃ text, Calls w (bs "std.json.encode") [v] h (.ok (.string text)) h) := by
  obtain ⟨N, hN⟩ := encode_total (w := w) hv
  have hN := hN N (Nat.le_refl _) 0
  constructor
  · intro hu
    refine calls_panic_at N (by decide) fun addr pos argv => ?_
    rw [lib_call (f := Lib.jsonEncode) rfl]
    simp only [Lib.jsonEncode, hN.1 hu]
    rfl
  · intro hu
    obtain ⟨t, ht⟩ := hN.2 hu
    refine ⟨t, calls_ok N (by decide) fun addr pos argv => ?_⟩
    rw [lib_call (f := Lib.jsonEncode) rfl]
    simp only [Lib.jsonEncode, ht]
    rfl

/-- `["é", @[ k: -7, l: [] ]]`. -/
def jsonHeap : Heap := { (RState.init [] []).heap with
  arrays := [[.string [0xC3, 0xA9], .dict 0], []], dicts := [[(.string (bs "k"), .int (-7)), (.string (bs "l"), .array 1)]] }

/-- The same as data. -/
def jsonData : Data := .list [.text ['é'], .record [(['k'], .int (-7)), (['l'], .list [])]]

example (w : World) : Holds jsonHeap jsonData (.array 0) ∧ Proper w jsonData ∧ jsonData.depth = 3 := by
  refine ⟨?_, ?_, by simp [jsonData, Data.depth, depthItems, depthEntries]⟩
  · simp only [jsonData, Holds, HoldItems, HoldEntries]
    exact ⟨0, _, rfl, rfl, _, _, rfl, by decide +kernel, _, _, rfl, ⟨0, _, rfl, rfl, .int (-7), [(.string (bs "l"), .array 1)], by decide +kernel, rfl, .array 1, [], by decide +kernel, ⟨1, _, rfl, rfl, rfl⟩, rfl⟩, rfl⟩
  · simp only [jsonData, Proper, ProperItems, ProperEntries]
    decide +kernel

-- A dict with an integer as key, in an array, is refused.
example : Unwritable { (RState.init [] []).heap with arrays := [[.dict 0]], dicts := [[(.int 1, .nil)]] } (.array 0) :=
  .item (v := .dict 0) (by simp [Heap.array]) (.key (k := .int 1) (v := .nil) (by simp [Heap.dict]) nofun)

end Hush.Props

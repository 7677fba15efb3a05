import Verif.Lemmas.Trim
import Verif.Lemmas.Numerals

/-!
Properties C61 and C62: trimming, and conversions to integers.
-/

namespace Hush.Props
open Hush Hush.Spec

/-- A call has one outcome. -/
theorem calls_unique {w : World} {name : Bytes} {args : List Value} {h h1 h2 : Heap} {r1 r2 : Value}
    (c1 : Calls w name args h (.ok r1) h1) (c2 : Calls w name args h (.ok r2) h2) : r1 = r2 ∧ h1 = h2 := by
  have a := c1 0 .nil 0 0 noPos { RState.init [] [] with args := args, heap := h } (Nat.zero_le _) rfl rfl
  have b := c2 0 .nil 0 0 noPos { RState.init [] [] with args := args, heap := h } (Nat.zero_le _) rfl rfl
  obtain ⟨e1, e2⟩ := Ends.unique a b
  simp only [Except.ok.injEq, Out.mk.injEq, Flow.regular.injEq] at e1
  exact ⟨e1.1, (RState.mk.inj e2).2.2.1⟩

/-! ### C61 -/

/-- C61: `std.trim` returns the text without the white space at its ends, and nothing else. -/
theorem trim_trims (w : World) (s r : Bytes) (h : Heap) : Calls w (bs "std.trim") [.string s] h (.ok (.string r)) h ↔ Trimmed s r := by
  have hc : Calls w (bs "std.trim") [.string s] h (.ok (.string (trimSpaces s))) h := calls_ok 0 (by decide) fun _ _ _ => rfl
  constructor
  · intro h'
    have := (calls_unique hc h').1
    cases this
    exact trim_sound s
  · intro h'
    rw [← trim_complete h']
    exact hc

/-- C61: what has been trimmed is trimmed. -/
theorem trim_idempotent (w : World) (s r : Bytes) (h : Heap) (hr : Calls w (bs "std.trim") [.string s] h (.ok (.string r)) h) :
    Calls w (bs "std.trim") [.string r] h (.ok (.string r)) h := by
  rw [trim_trims] at hr ⊢
  exact ⟨⟨[], [], nofun, nofun, by simp⟩, hr.2⟩

-- A no-break space, an ideographic space, a tab and a newline around a text with a space in it; a lone byte of a space remains.
example : Trimmed ([0xC2, 0xA0, 9] ++ bs "a b" ++ [0xE3, 0x80, 0x80, 10]) (bs "a b") :=
  ⟨⟨[[0xC2, 0xA0], [9]], [[0xE3, 0x80, 0x80], [10]], by decide +kernel, by decide +kernel, by decide⟩, by decide +kernel, by decide +kernel⟩

example : Trimmed [32, 0x80, 0x80, 32] [0x80, 0x80] :=
  ⟨⟨[[32]], [[32]], by decide +kernel, by decide +kernel, by decide⟩, by decide +kernel, by decide +kernel⟩

/-! ### C62 -/

/-- C62: `std.int` of a text is the integer that the text denotes in decimal, if there is one and it is a 64-bit integer; otherwise it is a
panic. -/
theorem int_of_text (w : World) (s : Bytes) (h : Heap) :
    (∀ i, IntText s i → -2 ^ 63 ≤ i → i < 2 ^ 63 → Calls w (bs "std.int") [.string s] h (.ok (.int i)) h) ∧
    ((∀ i, IntText s i → -2 ^ 63 ≤ i → ¬ i < 2 ^ 63) →
      Calls w (bs "std.int") [.string s] h (.error (.valueError (.string s) (bs "valid integer"))) h) := by
  constructor
  · intro i hi h1 h2
    refine calls_ok 0 (by decide) fun _ _ _ => ?_
    show (match Lib.parseI64 s with | some i => _ | none => _) = _
    rw [(parse_iff s i).2 ⟨hi, by omega, by omega⟩]
    rfl
  · intro hn
    refine calls_panic (by decide) fun _ _ _ => ?_
    show (match Lib.parseI64 s with | some i => _ | none => _) = _
    cases hp : Lib.parseI64 s with
    | none => rfl
    | some i =>
      obtain ⟨h1, h2, h3⟩ := (parse_iff s i).1 hp
      exact absurd (by omega) (hn i h1 (by omega))

/-- C62: `std.int` of a float that is a number is this number rounded towards zero, or the nearest 64-bit integer if it is out of range. -/
theorem int_of_float_partial (w : World) (f : UInt64) (h : Heap) (hf : ¬ NotNumber f) :
    Calls w (bs "std.int") [.float f] h (.ok (.int (max (-2 ^ 63) (min (2 ^ 63 - 1) ((floatUnits f).tdiv (2 ^ 1074)))))) h := by
  have hv := floatToInt_eq hf
  refine calls_ok 0 (by decide) fun addr pos argv => ?_
  exact (congrArg (fun i => LibCall.ret ⟨0, addr, [.float f], pos, argv⟩ h (.int i)) hv).trans rfl

/-- C62, what the code does besides: `std.int` of every float that is no number is 0, and not a panic. There are such floats. -/
theorem int_of_nan_violated :
    (∃ f, NotNumber f) ∧
    ∀ (w : World) (f : UInt64) (h : Heap), NotNumber f → Calls w (bs "std.int") [.float f] h (.ok (.int 0)) h := by
  refine ⟨⟨0x7FF8000000000000, by decide, by decide⟩, fun w f h hf => calls_ok 0 (by decide) fun addr pos argv => ?_⟩
  have hv : Lib.floatToInt f = 0 := by
    unfold Lib.floatToInt
    rw [if_pos ((notNumber_iff f).1 hf)]
  exact (congrArg (fun i => LibCall.ret ⟨0, addr, [.float f], pos, argv⟩ h (.int i)) hv).trans rfl

-- "-042" denotes -42, and "9223372036854775808" denotes a number that is not a 64-bit integer.
example : IntText (bs "-042") (-42) := .minus (.more (.more (.one (d := 0) (by decide)) (d := 4) (by decide)) (d := 2) (by decide))

example : IntText (bs "+7") 7 := .plus (.one (d := 7) (by decide))

-- -1.5 is rounded to -1.
set_option exponentiation.threshold 2000 in
example : ¬ NotNumber 0xBFF8000000000000 ∧ max (-2 ^ 63) (min (2 ^ 63 - 1) ((floatUnits 0xBFF8000000000000).tdiv (2 ^ 1074))) = -1 :=
  ⟨fun h => absurd h.1 (by decide), by decide +kernel⟩

-- There is no integer for a text without digits.
example : ∀ i, ¬ IntText (bs "-") i := by
  intro i h
  generalize hs : bs "-" = s at h
  cases h with
  | plain h => exact (digits_signless h hs.symm).2 rfl
  | plus h => exact absurd (List.cons.inj hs).1 (by decide)
  | minus h => exact ((digits_iff _ _).1 h).1 (List.cons.inj hs).2.symm

end Hush.Props

import Verif.Lemmas.ShowEval
import Verif.Props.Eval

/-!
Property C66: the text of values.
-/

namespace Hush.Props
open Hush Hush.Spec

theorem calls_text {w : World} {h : Heap} {v : Value} {d : Data} (hv : Holds h d v) (hr : Readable w d) (ht : ∀ s, d ≠ .text s) :
    Calls w (bs "std.to_string") [v] h (.ok (.string (litText w d))) h := by
  obtain ⟨n, hn⟩ := show_data d v hr hv
  refine calls_ok n (by decide) fun addr pos argv => ?_
  rw [lib_call (f := Lib.toStringFun) rfl]
  cases v with
  | string x =>
    cases d with
    | text y => exact absurd rfl (ht y)
    | _ => simp [Holds] at hv
  | _ => simp only [Lib.toStringFun, hn]; rfl

/-- C66, partially: the text that `std.to_string` gives for data of nil, booleans, integers, floats, strings and lists of such is a program, and
the value of that program has the same contents. (The text of a string is the string itself, so that strings are covered as items of lists.) Missing from C66:
the least integer, strings with characters that are not printed as they are, floats of which the text is no number of the language, bytes and records; see the
theorems below. -/
theorem text_reads_back_partial (w : World) (h : Heap) (v : Value) (d : Data) (hv : Holds h d v) (hr : Readable w d) (ht : ∀ s, d ≠ .text s)
    (hl : 1 ≤ w.limit) (argv : List Bytes) (file : Sym) :
    ∃ t p n v' s, Calls w (bs "std.to_string") [v] h (.ok (.string t)) h ∧ Accepts t p ∧
      runProgram w n p argv file = (done v' noPos, s) ∧ Holds s.heap d v' := by
  obtain ⟨e, h1, h2⟩ := data_accepted d hr
  obtain ⟨n', v', s, h3, h4⟩ := run_expr_program (argv := argv) (file := file) hl (P := fun h v => Holds h d v) (fun s => by
    obtain ⟨v, p, obj, h', g1, g2, -⟩ := eval_data 0 d e hr h2 s
    exact ⟨v, p, obj, h', g1, g2⟩)
  refine ⟨litText w d, _, n', v', s, calls_text hv hr ht, h1, h3, h4⟩

/-- The text of a string is the string. -/
theorem text_of_string (w : World) (h : Heap) (s : Bytes) : Calls w (bs "std.to_string") [.string s] h (.ok (.string s)) h :=
  calls_ok 0 (by decide) fun _ _ _ => rfl

/-- C66: values with different contents have different texts. -/
theorem text_distinguishes_partial (w : World) (h h' : Heap) (v v' : Value) (d d' : Data) (hv : Holds h d v) (hv' : Holds h' d' v')
    (hr : Readable w d) (hr' : Readable w d') (ht : ∀ s, d ≠ .text s) (ht' : ∀ s, d' ≠ .text s) (hd : d ≠ d') :
    ∃ t t', Calls w (bs "std.to_string") [v] h (.ok (.string t)) h ∧ Calls w (bs "std.to_string") [v'] h' (.ok (.string t')) h' ∧ t ≠ t' := by
  refine ⟨litText w d, litText w d', calls_text hv hr ht, calls_text hv' hr' ht', fun e => hd ?_⟩
  obtain ⟨x, h1, h2⟩ := data_accepted d hr
  obtain ⟨x', h1', h2'⟩ := data_accepted d' hr'
  rw [← e] at h1'
  obtain ⟨a, ha, -, hb⟩ := h1
  obtain ⟨a', ha', -, hb'⟩ := h1'
  rw [ha] at ha'
  cases ha'
  rw [hb] at hb'
  cases hb'
  let s := RState.init [] []
  obtain ⟨y, p, obj, g, g1, g2, -⟩ := eval_data 0 d x hr h2 s
  obtain ⟨y', p', obj', g', g1', g2', -⟩ := eval_data 0 d' x hr' h2' s
  obtain ⟨e1, e2⟩ := Ends.unique g1 g1'
  cases e1
  injection e2 with _ _ e2
  rw [← e2] at g2'
  exact holds_unique d d' y g2 g2'

/-! ### Where C66 fails -/

/-- No program has this text. -/
def refusedSource (t : Bytes) : Bool :=
  match syntaxAnalysis t with
  | some a => !a.isOk || (match analyze a.ast with | .ok _ => false | _ => true)
  | none => true

theorem refused {t : Bytes} (h : refusedSource t = true) (p : Program) : ¬ Accepts t p := by
  rintro ⟨a, h1, h2, h3⟩
  simp [refusedSource, h1, h2, h3] at h

/-- C66 fails for the least integer: its text is no program. -/
theorem text_least_violated (w : World) (h : Heap) :
    ∃ t, Calls w (bs "std.to_string") [.int (-9223372036854775808)] h (.ok (.string t)) h ∧ ∀ p, ¬ Accepts t p :=
  ⟨bs "-9223372036854775808", calls_ok 1 (by decide) fun _ _ _ => by
    rw [show bs "-9223372036854775808" = intText (-9223372036854775808) by decide +kernel]
    rfl, refused (by decide +kernel)⟩

/-- C66 fails for strings with a carriage return: it is written as `\\r`, which is no escape sequence of the language. -/
theorem text_return_violated (w : World) : ∃ h v, Holds h (.list [.text ['\r']]) v ∧
    ∃ t, Calls w (bs "std.to_string") [v] h (.ok (.string t)) h ∧ ∀ p, ¬ Accepts t p :=
  ⟨{ Heap.empty with arrays := [[.string [13]]] }, .array 0, ⟨0, [.string [13]], rfl, rfl, .string [13], [], rfl, rfl, rfl⟩,
    bs "[ \"\\r\" ]", calls_ok 2 (by decide) fun _ _ _ => rfl, refused (by decide +kernel)⟩

/-- C66 fails for dicts: the keys are written in quotation marks, which is no syntax of the language. -/
theorem text_record_violated (w : World) : ∃ h v, Holds h (.record [(['a'], .nil)]) v ∧
    ∃ t, Calls w (bs "std.to_string") [v] h (.ok (.string t)) h ∧ ∀ p, ¬ Accepts t p :=
  ⟨{ Heap.empty with dicts := [[(.string [97], .nil)]] }, .dict 0, ⟨0, [(.string [97], .nil)], rfl, rfl, .nil, [], rfl, rfl, rfl⟩,
    bs "@[ \"a\": nil ]", calls_ok 2 (by decide) fun _ _ _ => rfl, refused (by decide +kernel)⟩

/-- C66 fails for bytes: they are written without quotation marks. The text of the byte `a` is no program, that of the byte `1` is the text of the integer 1. -/
theorem text_byte_violated (w : World) (h : Heap) :
    (∃ t, Calls w (bs "std.to_string") [.byte 97] h (.ok (.string t)) h ∧ ∀ p, ¬ Accepts t p) ∧
    ∃ t, Calls w (bs "std.to_string") [.byte 49] h (.ok (.string t)) h ∧ Calls w (bs "std.to_string") [.int 1] h (.ok (.string t)) h :=
  ⟨⟨bs "a", calls_ok 1 (by decide) fun _ _ _ => rfl, refused (by decide +kernel)⟩,
    bs "1", calls_ok 1 (by decide) fun _ _ _ => rfl, calls_ok 1 (by decide) fun _ _ _ => by
      rw [show bs "1" = intText 1 by decide +kernel]
      rfl⟩

/-- C66 fails for floats that are not numbers and for small floats, if these are written as `NaN` and `1e-7` (as they are by Rust). -/
theorem text_float_violated (w : World) (h : Heap) (f : UInt64) (hf : w.floatText f = bs "NaN" ∨ w.floatText f = bs "1e-7") :
    ∃ t, Calls w (bs "std.to_string") [.float f] h (.ok (.string t)) h ∧ ∀ p, ¬ Accepts t p := by
  refine ⟨w.floatText f, calls_ok 1 (by decide) fun _ _ _ => rfl, ?_⟩
  rcases hf with hf | hf <;> rw [hf] <;> exact refused (by decide +kernel)

-- A list of an integer, strings with characters that are escaped or not ASCII, and a list.
example : ∃ h v, Holds h (.list [.int (-7), .text ['"', '\n', 'é'], .list [.nil, .bool true]]) v ∧
    Readable (fileWorld fun _ => none) (.list [.int (-7), .text ['"', '\n', 'é'], .list [.nil, .bool true]]) :=
  ⟨_, _, (build_holds [] _ (RState.init [] []).heap).1, by simp [Readable, ReadableItems, QuotableText, Quotable, fileWorld]⟩

end Hush.Props

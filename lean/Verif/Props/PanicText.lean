import Verif.Lemmas.PanicText
import Verif.Props.Output

/-!
Property C77: the reports of panics.
-/

namespace Hush.Props
open Hush Hush.Spec Hush.PanicText

/-- C77: if a script panics, and the value which the panic is about (if any) is not part of itself, the process ends with the exit status 127 after a report that tells
the place of the panic, the cause, and the value. -/
theorem panic_reported_partial (w : World) (debug : Bytes → Bytes) (n : Nat) (prog : Program) (argv : List Bytes) (path : Bytes) (p : Panic) (s : RState)
    (_ : runProgram w n prog argv path = (.error (.panic p), s)) (hv : ∀ v, aboutValue p.kind = some v → NotCyclic s.heap v) (out : Bytes) (ending : Main.Ending)
    (h : Closes w debug s.heap path p out ending) :
    ending = .exited 127 ∧ ∃ message, out = bs "Panic in " ++ AstFmt.symbol w path ++ bs " (line " ++ natDigits p.pos.line ++ bs ", column " ++ natDigits p.pos.column ++ bs "): " ++
        message ++ bs "\n" ∧
      (OfHush p.kind → ∃ before after, message = before ++ bs (heading p.kind) ++ after) ∧
      ∀ v, aboutValue p.kind = some v → ∃ m t after, Show.value w s.heap m v = some t ∧ message = bs (heading p.kind) ++ t ++ after := by
  cases h with
  | overflow h =>
    obtain ⟨n, c, hc⟩ := cause_exists (w := w) (debug := debug) hv
    have := h n
    simp [text, hc] at this
  | reported h =>
    rename_i n t
    refine ⟨rfl, ?_⟩
    obtain ⟨c, hc, rfl⟩ := text_some h
    refine ⟨c, ?_, fun hk => ?_, fun v hv => ?_⟩
    · rw [show bs "): " = bs ")" ++ bs ": " by decide +kernel]
      simp only [located, List.append_assoc]
      rfl
    · obtain ⟨o, rest, e, _⟩ := cause_heading hc hk
      exact ⟨o, rest, e⟩
    · obtain ⟨t, rest, h1, h2⟩ := cause_value hc hv
      exact ⟨n, t, rest, h1, h2⟩

/-- C77: every panic ends in exactly one of two ways, with a report or with an overflow of the native stack; the latter exactly if it is about a value that is part of
itself. -/
theorem panic_overflows_iff (w : World) (debug : Bytes → Bytes) (h : Heap) (path : Bytes) (p : Panic) :
    (∃ out, Closes w debug h path p out .crashed) ↔ ∃ v, aboutValue p.kind = some v ∧ ¬ NotCyclic h v := by
  constructor
  · rintro ⟨out, hc⟩
    cases hc with
    | overflow hn =>
      cases hv : aboutValue p.kind with
      | none =>
        obtain ⟨n, c, hc⟩ := cause_exists (w := w) (debug := debug) (h := h) (k := p.kind) (fun v e => by rw [hv] at e; cases e)
        have := hn n
        simp [text, hc] at this
      | some v =>
        refine ⟨v, rfl, fun hnc => ?_⟩
        obtain ⟨n, c, hc⟩ := cause_exists (w := w) (debug := debug) (h := h) (k := p.kind) (fun v' e => by rw [hv] at e; injection e with e; exact e ▸ hnc)
        have := hn n
        simp [text, hc] at this
  · rintro ⟨v, hv, hnc⟩
    refine ⟨[], .overflow fun n => ?_⟩
    cases ht : text w debug h n path p with
    | none => rfl
    | some t =>
      obtain ⟨c, hc, _⟩ := text_some ht
      obtain ⟨t, _, h1, _⟩ := cause_value hc hv
      exact absurd (notCyclic_of_shown h1) hnc

/-- C77: the place and the cause of a panic can be read from the report: panics at different places or of different causes have different reports. -/
theorem panic_readable (w : World) (debug : Bytes → Bytes) (h h' : Heap) (path : Bytes) (p p' : Panic) (hk : OfHush p.kind) (hk' : OfHush p'.kind) (n n' : Nat) (t : Bytes)
    (ht : text w debug h n path p = some t) (ht' : text w debug h' n' path p' = some t) : p.pos = p'.pos ∧ heading p.kind = heading p'.kind := by
  obtain ⟨c, hc, rfl⟩ := text_some ht
  obtain ⟨c', hc', e⟩ := text_some ht'
  simp only [List.append_assoc] at e
  obtain ⟨h1, h2⟩ := located_cut (List.append_cancel_left e)
  rw [List.append_cancel_left h2] at hc
  exact ⟨h1, same_heading hc hc' hk hk'⟩

/-- C77: the numbers of arguments that were supplied and expected can be read from the report of a call with a wrong number of them. -/
theorem panic_arguments_readable (w : World) (debug : Bytes → Bytes) (h h' : Heap) (path : Bytes) (pos pos' : Pos) (supplied expected supplied' expected' n n' : Nat)
    (he : text w debug h n path ⟨.invalidArgs supplied expected, pos⟩ = text w debug h' n' path ⟨.invalidArgs supplied' expected', pos'⟩) :
    supplied = supplied' ∧ expected = expected' := by
  simp only [text, cause, Option.map_some, Option.some.injEq, List.append_assoc] at he
  obtain ⟨_, h2⟩ := located_cut (List.append_cancel_left he)
  have h3 := List.append_cancel_left (List.append_cancel_left h2)
  obtain ⟨h4, h5⟩ := digits_cut (c := 44) (s := [32, 101, 120, 112, 101, 99, 116, 101, 100, 32] ++ natDigits expected)
    (t := [32, 101, 120, 112, 101, 99, 116, 101, 100, 32] ++ natDigits expected') rfl h3
  have h6 := List.append_cancel_left h5
  exact ⟨h4, by rw [← natDigits_decimal expected, ← natDigits_decimal expected', h6]⟩

/-- C77, partially: the report of a panic is free of control characters, so it is on one line, if the value it is about contains no byte, and the message no such characters. -/
theorem panic_printable_partial (w : World) (hf : ∀ x, Printable (w.floatText x)) (hm : ∀ m, Printable (w.pathText m)) (debug : Bytes → Bytes) (hd : ∀ s, Printable (debug s))
    (h : Heap) (path : Bytes) (p : Panic) (hk : MildMessage p.kind) (hv : ∀ v, aboutValue p.kind = some v → AllThrough Mild h v) (n : Nat) (t : Bytes)
    (ht : text w debug h n path p = some t) : Printable t := by
  obtain ⟨c, hc, rfl⟩ := text_some ht
  exact printable_append (printable_append (printable_append (by decide) (printable_located w path p.pos)) (by decide)) (printable_cause hf hm hd hk hv hc)

/-! ### Examples and violations -/

/-- The panic of a script, and the arrays at that time. -/
def panicOf (src : Bytes) : Option (Panic × List (List Value)) :=
  match syntaxAnalysis src with
  | none => none
  | some a =>
    match a.isOk, analyze a.ast with
    | true, .ok p =>
      match runProgram (fileWorld fun _ => none) 30 p [] (bs "f") with
      | (.error (.panic k), s) => some (k, s.heap.arrays)
      | _ => none
    | _, _ => none

theorem panicOf_spec {src : Bytes} {k : Panic} {arrays : List (List Value)} (h : panicOf src = some (k, arrays)) :
    ∃ p s, Spec.Accepts src p ∧ runProgram (fileWorld fun _ => none) 30 p [] (bs "f") = (.error (.panic k), s) ∧ s.heap.arrays = arrays := by
  unfold panicOf at h
  split at h
  · cases h
  · rename_i a ha
    split at h
    · rename_i p h1 h2
      split at h
      · rename_i k' s hr
        injection h with h
        injection h with h3 h4
        subst h3
        exact ⟨p, s, ⟨a, ha, h1, h2⟩, hr, h4⟩
      · cases h
    · cases h

/-- An array that is an element of itself. -/
theorem cyclic_array {h : Heap} {a : Nat} (ha : Value.array a ∈ h.array a) : ¬ NotCyclic h (.array a) := by
  intro hn
  generalize hv : Value.array a = v at hn
  induction hn with
  | plain _ h1 => exact h1 a hv.symm
  | array _ _ ih =>
    injection hv with hv
    subst hv
    exact ih _ ha rfl
  | dict => cases hv
  | error => cases hv

set_option maxRecDepth 100000 in
/-- C77 is violated: a script that calls an array which is an element of itself panics, and the process overflows the native stack when it reports this, instead of ending
with the exit status 127. -/
theorem panic_reported_violated : ∃ src prog w n k s, Spec.Accepts src prog ∧ runProgram w n prog [] (bs "f") = (.error (.panic k), s) ∧
    ∀ debug out ending, Closes w debug s.heap (bs "f") k out ending → ending = .crashed := by
  obtain ⟨p, s, h1, h2, h3⟩ := panicOf_spec (src := bs "let a = [] std.push(a, a) a()") (k := ⟨.invalidCall (.array 1), q 26⟩) (arrays := [[], [.array 1]]) (by decide +kernel)
  refine ⟨_, p, _, 30, _, s, h1, h2, fun debug out ending hc => ?_⟩
  cases hc with
  | overflow => rfl
  | reported ht =>
    obtain ⟨c, hc, _⟩ := text_some ht
    obtain ⟨t, _, h4, _⟩ := cause_value hc rfl
    refine absurd (notCyclic_of_shown h4) (cyclic_array ?_)
    simp [Heap.array, h3]

set_option maxRecDepth 100000 in
/-- C77 is violated: bytes are written as they are (src/runtime/value/fmt.rs:129), so a script that panics with the byte of the escape character writes it to the terminal. -/
theorem panic_printable_violated : ∃ src prog w n k s, Spec.Accepts src prog ∧ runProgram w n prog [] (bs "f") = (.error (.panic k), s) ∧
    ∀ debug, ∃ m t, text w debug s.heap m (bs "f") k = some t ∧ (27 : UInt8) ∈ t := by
  obtain ⟨p, s, h1, h2, h3⟩ := panicOf_spec (src := bs "std.panic('\u001b')") (k := ⟨.user (.byte 27), q 9⟩) (arrays := [[]]) (by decide +kernel)
  refine ⟨_, p, _, 30, _, s, h1, h2, fun debug => ⟨1, _, rfl, ?_⟩⟩
  show (27 : UInt8) ∈ bs "Panic in " ++ located (fileWorld fun _ => none) (bs "f") (q 9) ++ bs ": " ++ (bs "std.panic(" ++ utf8Encode (27 : UInt8).toNat ++ bs ")")
  decide +kernel

/-- C77 is violated: the cause of a panic about a pattern that is valid UTF-8, but refused by the crate that expands patterns, is wrong: the pattern of `{ ls *** }` is
reported to have invalid UTF-8 (src/runtime/command/exec/mod.rs:97-99). That the crate refuses three stars is a hypothesis. -/
theorem panic_cause_violated (os : Exec.Os) (ho : ∀ t, os.glob t (bs "***") = none) (w : World) (debug : Bytes → Bytes) (h : Heap) (path : Bytes) (pos : Pos) (t : List Exec.Ev) :
    ['*', '*', '*'].flatMap String.utf8EncodeChar = bs "***" ∧ ∃ p t', Exec.resolve os (.pattern (bs "***")) pos t = (.error (.panic p), t') ∧
      ∃ before, text w debug h 0 path p = some (before ++ bs "has invalid UTF-8") := by
  have hc : Glob.chars (bs "***") = some [[42], [42], [42]] := by decide +kernel
  refine ⟨by decide +kernel, ⟨.invalidPattern (bs "***"), pos⟩, t ++ [⟨.glob (bs "***"), false⟩], by simp only [Exec.resolve, hc, ho],
    bs "Panic in " ++ located w path pos ++ bs ": " ++ bs "pattern (" ++ debug (bs "***") ++ bs ") ", ?_⟩
  simp only [text, cause, Option.map_some]
  rw [show bs ") has invalid UTF-8" = bs ") " ++ bs "has invalid UTF-8" by decide +kernel]
  simp only [List.append_assoc]

example : ∃ os : Exec.Os, ∀ t, os.glob t (bs "***") = none := ⟨⟨fun _ _ => none, fun _ _ => .code 0, fun _ _ => none, 0, fun _ _ => .ok [], fun _ => 0, fun _ => []⟩, fun _ => rfl⟩

set_option maxRecDepth 100000 in
/-- The report of `let a = [] a[1]`. -/
example : ∃ p s, Spec.Accepts (bs "let a = [] a[1]") p ∧ runProgram (fileWorld fun _ => none) 30 p [] (bs "f") = (.error (.panic ⟨.indexOutOfBounds (.int 1), q 13⟩), s) ∧
    NotCyclic s.heap (.int 1) ∧
    text (fileWorld fun _ => none) id s.heap 1 (bs "f") ⟨.indexOutOfBounds (.int 1), q 13⟩ = some (bs "Panic in f (line 1, column 13): index (1) out of bounds") := by
  obtain ⟨p, s, h1, h2, h3⟩ := panicOf_spec (src := bs "let a = [] a[1]") (k := ⟨.indexOutOfBounds (.int 1), q 13⟩) (arrays := [[], []]) (by decide +kernel)
  refine ⟨p, s, h1, h2, .plain trivial (by simp) (by simp) (by simp), ?_⟩
  show some (bs "Panic in " ++ located (fileWorld fun _ => none) (bs "f") (q 13) ++ bs ": " ++ (bs "index (" ++ intText 1 ++ bs ") out of bounds")) = _
  decide +kernel

/-- A call with too many arguments. -/
example : text (fileWorld fun _ => none) id Heap.empty 0 (bs "f") ⟨.invalidArgs 12 3, q 5⟩ =
    some (bs "Panic in f (line 1, column 5): incorrect amount of function parameters -- supplied 12, expected 3") := by decide +kernel

/-- A list of a string with an escape character in it, and of nil. -/
example : ∃ h, AllThrough Mild h (.array 0) ∧ text (fileWorld fun _ => none) id h 2 (bs "f") ⟨.user (.array 0), q 5⟩ =
    some (bs "Panic in f (line 1, column 5): std.panic([ \"\\u{1b}\", nil ])") :=
  ⟨{ Heap.empty with arrays := [[.string [27], .nil]] }, .array trivial (fun v hv => by
    rcases List.mem_cons.1 hv with rfl | hv
    · exact .plain trivial (by simp) (by simp) (by simp)
    · rw [List.mem_singleton.1 hv]
      exact .plain trivial (by simp) (by simp) (by simp)), by decide +kernel⟩

end Hush.Props

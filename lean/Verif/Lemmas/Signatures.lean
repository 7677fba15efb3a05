import Verif.Lemmas.Library
import Verif.Spec.Signatures

/-!
Lemmas about the checks of the arguments of the library functions.
-/

namespace Hush
open Hush.Spec

set_option linter.unusedTactic false
set_option linter.unreachableTactic false

/-- A panic of `std.catch` or `std.import`, which are part of the interpreter. -/
theorem calls_native_panic {w : World} {name args h k}
    (hc : ∀ n rec m addr start pos (s : RState), s.args.drop start = args →
      nativeCall w n rec m name addr start pos s = (.error (.panic ⟨k, pos⟩), s)) : Calls w name args h (.error k) h := by
  rintro m obj addr start pos s hs h1 rfl
  refine ⟨nofun, 1, ?_⟩
  show stepCall w 0 (run w 0) m obj (.native name addr) start pos s = _
  unfold stepCall
  rw [if_neg (take_length_le hs)]
  simp only [Bind.bind, M.andThen, finally_, hc 0 (run w 0) m addr start pos s h1]

theorem calls_catch_arity {w : World} {args h} (hl : args.length ≠ 1) : Calls w (bs "std.catch") args h (.error (.invalidArgs args.length 1)) h :=
  calls_native_panic fun n rec m addr start pos s hs => by
    unfold nativeCall
    simp only [Bind.bind, M.andThen, M.get, hs, if_true]
    split
    · simp at hl
    · simp at hl
    · rfl

theorem calls_import_arity {w : World} {args h} (hl : args.length ≠ 1) : Calls w (bs "std.import") args h (.error (.invalidArgs args.length 1)) h :=
  calls_native_panic fun n rec m addr start pos s hs => by
    unfold nativeCall
    simp only [Bind.bind, M.andThen, M.get, hs]
    rw [if_neg (by decide), if_neg (by decide), if_pos trivial]
    unfold importModule
    split
    · simp at hl
    · simp at hl
    · rfl

/-- The function takes `n` arguments. -/
def Arity (f : World → LibCall → Heap → LibRes) (n : Nat) : Prop :=
  ∀ (w : World) (c : LibCall) (h : Heap), c.args.length ≠ n → f w c h = c.arity n

theorem Arity.calls {f n} (hf : Arity f n) {w : World} {name : Bytes} (hn : ¬ Special name) (hl : Lib.table.lookup name = some f)
    {args : List Value} {h : Heap} (hargs : args.length ≠ n) : Calls w name args h (.error (.invalidArgs args.length n)) h :=
  calls_panic hn fun addr pos argv => by rw [lib_call hl, hf _ _ _ hargs]; rfl

local macro "arity_ok" f:ident : tactic => `(tactic|
  (intro w c h hl
   unfold $f
   split <;> first | rfl | (simp_all; done)))

theorem arity_args : Arity Lib.args 0 := by arity_ok Lib.args
theorem arity_assert : Arity Lib.assert 1 := by arity_ok Lib.assert
theorem arity_b64DecodeFun : Arity Lib.b64DecodeFun 1 := by arity_ok Lib.b64DecodeFun
theorem arity_b64EncodeFun : Arity Lib.b64EncodeFun 1 := by arity_ok Lib.b64EncodeFun
theorem arity_bind : Arity Lib.bind 2 := by arity_ok Lib.bind
theorem arity_bytes : Arity Lib.bytes 1 := by arity_ok Lib.bytes
theorem arity_text1 : Arity Lib.text1 1 := by arity_ok Lib.text1
theorem arity_contains : Arity Lib.contains 2 := by arity_ok Lib.contains
theorem arity_noArgs : Arity Lib.noArgs 0 := by arity_ok Lib.noArgs
theorem arity_error : Arity Lib.error 2 := by arity_ok Lib.error
theorem arity_exit : Arity Lib.exit 1 := by arity_ok Lib.exit
theorem arity_export : Arity Lib.export_ 2 := by arity_ok Lib.export_
theorem arity_float : Arity Lib.float 1 := by arity_ok Lib.float
theorem arity_hasError : Arity Lib.hasError 1 := by arity_ok Lib.hasError
theorem arity_hexDecodeFun : Arity Lib.hexDecodeFun 1 := by arity_ok Lib.hexDecodeFun
theorem arity_hexEncodeFun : Arity Lib.hexEncodeFun 1 := by arity_ok Lib.hexEncodeFun
theorem arity_int : Arity Lib.int 1 := by arity_ok Lib.int
theorem arity_isEmpty : Arity Lib.isEmpty 1 := by arity_ok Lib.isEmpty
theorem arity_iter : Arity Lib.iter 1 := by arity_ok Lib.iter
theorem arity_iterImpl : Arity Lib.iterImpl 0 := by arity_ok Lib.iterImpl
theorem arity_jsonDecode : Arity Lib.jsonDecode 1 := by arity_ok Lib.jsonDecode
theorem arity_jsonEncode : Arity Lib.jsonEncode 1 := by arity_ok Lib.jsonEncode
theorem arity_len : Arity Lib.len 1 := by arity_ok Lib.len
theorem arity_panic : Arity Lib.panic 1 := by arity_ok Lib.panic
theorem arity_pop : Arity Lib.pop 1 := by arity_ok Lib.pop
theorem arity_push : Arity Lib.push 2 := by arity_ok Lib.push
theorem arity_randint : Arity Lib.randint 2 := by arity_ok Lib.randint
theorem arity_randseed : Arity Lib.randseed 1 := by arity_ok Lib.randseed
theorem arity_range : Arity Lib.range 3 := by arity_ok Lib.range
theorem arity_rangeImpl : Arity Lib.rangeImpl 0 := by arity_ok Lib.rangeImpl
theorem arity_regexReplace : Arity Lib.regexReplace 2 := by arity_ok Lib.regexReplace
theorem arity_replace : Arity Lib.replace 3 := by arity_ok Lib.replace
theorem arity_sleep : Arity Lib.sleep 1 := by arity_ok Lib.sleep
theorem arity_sort : Arity Lib.sort 1 := by arity_ok Lib.sort
theorem arity_split : Arity Lib.split 2 := by arity_ok Lib.split
theorem arity_substr : Arity Lib.substr 3 := by arity_ok Lib.substr
theorem arity_toStringFun : Arity Lib.toStringFun 1 := by arity_ok Lib.toStringFun
theorem arity_trim : Arity Lib.trim 1 := by arity_ok Lib.trim
theorem arity_tryTypecheck : Arity Lib.tryTypecheck 2 := by arity_ok Lib.tryTypecheck
theorem arity_type : Arity Lib.type 1 := by arity_ok Lib.type
theorem arity_typecheck : Arity Lib.typecheck 2 := by arity_ok Lib.typecheck


/-- The function reports the first argument of a wrong type. -/
def Types (f : World → LibCall → Heap → LibRes) (ps : List (List Bytes)) : Prop :=
  ∀ (w : World) (c : LibCall) (h : Heap) v p, c.args.length = ps.length → FirstWrong ps c.args v p → f w c h = c.type v (inWords p)

theorem Types.calls {f ps} (hf : Types f ps) {w : World} {name : Bytes} (hn : ¬ Special name) (hl : Lib.table.lookup name = some f)
    {args : List Value} {h : Heap} {v p} (hargs : args.length = ps.length) (hw : FirstWrong ps args v p) :
    Calls w name args h (.error (.typeError v (inWords p))) h :=
  calls_panic hn fun addr pos argv => by rw [lib_call hl, hf _ _ _ _ _ hargs hw]; rfl

theorem firstWrong_cons {p ps x xs v e} :
    FirstWrong (p :: ps) (x :: xs) v e ↔ (typeName x ∉ p ∧ v = x ∧ e = p) ∨ (typeName x ∈ p ∧ FirstWrong ps xs v e) := by
  constructor
  · intro h; cases h with
    | here h => exact .inl ⟨h, rfl, rfl⟩
    | later h h' => exact .inr ⟨h, h'⟩
  · rintro (⟨h, rfl, rfl⟩ | ⟨h, h'⟩)
    · exact .here h
    · exact .later h h'

theorem firstWrong_nil {xs v e} : ¬ FirstWrong [] xs v e := nofun

theorem types0 {f} : Types f [] := fun _ _ _ _ _ _ h => absurd h firstWrong_nil

theorem types1 {f p} (hf : ∀ w (c : LibCall) h x, c.args = [x] → typeName x ∉ p → f w c h = c.type x (inWords p)) : Types f [p] := by
  intro w c h v e hl hw
  match hx : c.args, hl with
  | [x], _ =>
    rw [hx, firstWrong_cons] at hw
    rcases hw with ⟨h1, rfl, rfl⟩ | ⟨_, h2⟩
    · exact hf w c h v hx h1
    · exact absurd h2 firstWrong_nil

theorem types2 {f p q} (h1 : ∀ w (c : LibCall) h x y, c.args = [x, y] → typeName x ∉ p → f w c h = c.type x (inWords p))
    (h2 : ∀ w (c : LibCall) h x y, c.args = [x, y] → typeName x ∈ p → typeName y ∉ q → f w c h = c.type y (inWords q)) : Types f [p, q] := by
  intro w c h v e hl hw
  match hx : c.args, hl with
  | [x, y], _ =>
    rw [hx, firstWrong_cons, firstWrong_cons] at hw
    rcases hw with ⟨ha, rfl, rfl⟩ | ⟨ha, ⟨hb, rfl, rfl⟩ | ⟨_, hb⟩⟩
    · exact h1 w c h v y hx ha
    · exact h2 w c h x v hx ha hb
    · exact absurd hb firstWrong_nil

theorem types3 {f p q r} (h1 : ∀ w (c : LibCall) h x y z, c.args = [x, y, z] → typeName x ∉ p → f w c h = c.type x (inWords p))
    (h2 : ∀ w (c : LibCall) h x y z, c.args = [x, y, z] → typeName x ∈ p → typeName y ∉ q → f w c h = c.type y (inWords q))
    (h3 : ∀ w (c : LibCall) h x y z, c.args = [x, y, z] → typeName x ∈ p → typeName y ∈ q → typeName z ∉ r →
      f w c h = c.type z (inWords r)) : Types f [p, q, r] := by
  intro w c h v e hl hw
  match hx : c.args, hl with
  | [x, y, z], _ =>
    rw [hx, firstWrong_cons, firstWrong_cons, firstWrong_cons] at hw
    rcases hw with ⟨ha, rfl, rfl⟩ | ⟨ha, ⟨hb, rfl, rfl⟩ | ⟨hb, ⟨hc, rfl, rfl⟩ | ⟨_, hc⟩⟩⟩
    · exact h1 w c h v y z hx ha
    · exact h2 w c h x v z hx ha hb
    · exact h3 w c h x y v hx ha hb hc
    · exact absurd hc firstWrong_nil

/-- Go through the types of a value that are or are not among the given ones. -/
local macro "by_type" x:ident h:ident "(" t:tacticSeq ")" : tactic => `(tactic|
  (cases $x:ident <;> first
    | exact absurd (by simp only [typeName]; decide) $h
    | exact absurd $h (by simp only [typeName]; decide)
    | ($t)))

theorem any_type (v : Value) : typeName v ∈ anything := by cases v <;> (simp only [typeName]; decide)

theorem types_any {f} : Types f [anything] := types1 fun _ _ _ x _ h => absurd (any_type x) h

theorem types_assert : Types Lib.assert [[bs "bool"]] := by
  refine types1 ?_
  · rintro w ⟨_, _, _, _, _⟩ h x rfl h1
    by_type x h1 (rfl)

theorem types_b64DecodeFun : Types Lib.b64DecodeFun [[bs "string"]] := by
  refine types1 ?_
  · rintro w ⟨_, _, _, _, _⟩ h x rfl h1
    by_type x h1 (rfl)

theorem types_b64EncodeFun : Types Lib.b64EncodeFun [[bs "string"]] := by
  refine types1 ?_
  · rintro w ⟨_, _, _, _, _⟩ h x rfl h1
    by_type x h1 (rfl)

theorem types_bind : Types Lib.bind [anything, [bs "function"]] := by
  refine types2 ?_ ?_
  · rintro w ⟨_, _, _, _, _⟩ h x y rfl h1
    exact absurd (any_type _) h1
  · rintro w ⟨_, _, _, _, _⟩ h x y rfl h1 h2
    by_type y h2 (rfl)

theorem types_bytes : Types Lib.bytes [[bs "string"]] := by
  refine types1 ?_
  · rintro w ⟨_, _, _, _, _⟩ h x rfl h1
    by_type x h1 (rfl)

theorem types_text1 : Types Lib.text1 [[bs "string"]] := by
  refine types1 ?_
  · rintro w ⟨_, _, _, _, _⟩ h x rfl h1
    by_type x h1 (rfl)

theorem types_error : Types Lib.error [[bs "string"], anything] := by
  refine types2 ?_ ?_
  · rintro w ⟨_, _, _, _, _⟩ h x y rfl h1
    by_type x h1 (rfl)
  · rintro w ⟨_, _, _, _, _⟩ h x y rfl h1 h2
    exact absurd (any_type _) h2

theorem types_exit : Types Lib.exit [[bs "int"]] := by
  refine types1 ?_
  · rintro w ⟨_, _, _, _, _⟩ h x rfl h1
    by_type x h1 (rfl)

theorem types_export : Types Lib.export_ [[bs "string"], [bs "string"]] := by
  refine types2 ?_ ?_
  · rintro w ⟨_, _, _, _, _⟩ h x y rfl h1
    by_type x h1 (rfl)
  · rintro w ⟨_, _, _, _, _⟩ h x y rfl h1 h2
    by_type x h1 (by_type y h2 (rfl))

theorem types_float : Types Lib.float [[bs "int", bs "float", bs "string"]] := by
  refine types1 ?_
  · rintro w ⟨_, _, _, _, _⟩ h x rfl h1
    by_type x h1 (rfl)

theorem types_hexDecodeFun : Types Lib.hexDecodeFun [[bs "string"]] := by
  refine types1 ?_
  · rintro w ⟨_, _, _, _, _⟩ h x rfl h1
    by_type x h1 (rfl)

theorem types_hexEncodeFun : Types Lib.hexEncodeFun [[bs "string"]] := by
  refine types1 ?_
  · rintro w ⟨_, _, _, _, _⟩ h x rfl h1
    by_type x h1 (rfl)

theorem types_int : Types Lib.int [[bs "int", bs "float", bs "string"]] := by
  refine types1 ?_
  · rintro w ⟨_, _, _, _, _⟩ h x rfl h1
    by_type x h1 (rfl)

theorem types_isEmpty : Types Lib.isEmpty [[bs "string", bs "array", bs "dict"]] := by
  refine types1 ?_
  · rintro w ⟨_, _, _, _, _⟩ h x rfl h1
    by_type x h1 (rfl)

theorem types_iter : Types Lib.iter [[bs "string", bs "array", bs "dict"]] := by
  refine types1 ?_
  · rintro w ⟨_, _, _, _, _⟩ h x rfl h1
    by_type x h1 (rfl)

theorem types_jsonDecode : Types Lib.jsonDecode [[bs "string"]] := by
  refine types1 ?_
  · rintro w ⟨_, _, _, _, _⟩ h x rfl h1
    by_type x h1 (rfl)

theorem types_len : Types Lib.len [[bs "string", bs "array", bs "dict"]] := by
  refine types1 ?_
  · rintro w ⟨_, _, _, _, _⟩ h x rfl h1
    by_type x h1 (rfl)

theorem types_pop : Types Lib.pop [[bs "array"]] := by
  refine types1 ?_
  · rintro w ⟨_, _, _, _, _⟩ h x rfl h1
    by_type x h1 (rfl)

theorem types_push : Types Lib.push [[bs "array"], anything] := by
  refine types2 ?_ ?_
  · rintro w ⟨_, _, _, _, _⟩ h x y rfl h1
    by_type x h1 (rfl)
  · rintro w ⟨_, _, _, _, _⟩ h x y rfl h1 h2
    exact absurd (any_type _) h2

theorem types_randseed : Types Lib.randseed [[bs "int"]] := by
  refine types1 ?_
  · rintro w ⟨_, _, _, _, _⟩ h x rfl h1
    by_type x h1 (rfl)

theorem types_range : Types Lib.range [[bs "int", bs "float"], [bs "int", bs "float"], [bs "int", bs "float"]] := by
  refine types3 ?_ ?_ ?_
  · rintro w ⟨_, _, _, _, _⟩ h x y z rfl h1
    by_type x h1 (rfl)
  · rintro w ⟨_, _, _, _, _⟩ h x y z rfl h1 h2
    by_type x h1 (by_type y h2 (rfl))
  · rintro w ⟨_, _, _, _, _⟩ h x y z rfl h1 h2 h3
    by_type x h1 (by_type y h2 (by_type z h3 (rfl)))

theorem types_regexReplace : Types Lib.regexReplace [[bs "string"], [bs "string"]] := by
  refine types2 ?_ ?_
  · rintro w ⟨_, _, _, _, _⟩ h x y rfl h1
    by_type x h1 (rfl)
  · rintro w ⟨_, _, _, _, _⟩ h x y rfl h1 h2
    by_type x h1 (by_type y h2 (rfl))

theorem types_replace : Types Lib.replace [[bs "string"], [bs "string"], [bs "string"]] := by
  refine types3 ?_ ?_ ?_
  · rintro w ⟨_, _, _, _, _⟩ h x y z rfl h1
    by_type x h1 (rfl)
  · rintro w ⟨_, _, _, _, _⟩ h x y z rfl h1 h2
    by_type x h1 (by_type y h2 (rfl))
  · rintro w ⟨_, _, _, _, _⟩ h x y z rfl h1 h2 h3
    by_type x h1 (by_type y h2 (by_type z h3 (rfl)))

theorem types_sleep : Types Lib.sleep [[bs "int"]] := by
  refine types1 ?_
  · rintro w ⟨_, _, _, _, _⟩ h x rfl h1
    by_type x h1 (rfl)

theorem types_sort : Types Lib.sort [[bs "array"]] := by
  refine types1 ?_
  · rintro w ⟨_, _, _, _, _⟩ h x rfl h1
    by_type x h1 (rfl)

theorem types_split : Types Lib.split [[bs "string"], [bs "string"]] := by
  refine types2 ?_ ?_
  · rintro w ⟨_, _, _, _, _⟩ h x y rfl h1
    by_type x h1 (rfl)
  · rintro w ⟨_, _, _, _, _⟩ h x y rfl h1 h2
    by_type x h1 (by_type y h2 (rfl))

theorem types_trim : Types Lib.trim [[bs "string"]] := by
  refine types1 ?_
  · rintro w ⟨_, _, _, _, _⟩ h x rfl h1
    by_type x h1 (rfl)

theorem types_tryTypecheck : Types Lib.tryTypecheck [anything, [bs "string"]] := by
  refine types2 ?_ ?_
  · rintro w ⟨_, _, _, _, _⟩ h x y rfl h1
    exact absurd (any_type _) h1
  · rintro w ⟨_, _, _, _, _⟩ h x y rfl h1 h2
    by_type y h2 (rfl)

theorem types_typecheck : Types Lib.typecheck [anything, [bs "string"]] := by
  refine types2 ?_ ?_
  · rintro w ⟨_, _, _, _, _⟩ h x y rfl h1
    exact absurd (any_type _) h1
  · rintro w ⟨_, _, _, _, _⟩ h x y rfl h1 h2
    by_type y h2 (rfl)

/-- The function accepts arguments of these types. -/
def Takes (f : World → LibCall → Heap → LibRes) (ps : List (List Bytes)) : Prop :=
  ∀ (w : World) (c : LibCall) (h : Heap) p, FitsTypes ps c.args → f w c h = some (.error (.panic p)) → ¬ ArgPanic p.kind

theorem fits0 {args} (h : FitsTypes [] args) : args = [] := by cases h; rfl

theorem fits1 {p args} (h : FitsTypes [p] args) : ∃ x, args = [x] ∧ typeName x ∈ p := by
  cases h with
  | cons h1 h => cases h; exact ⟨_, rfl, h1⟩

theorem fits2 {p q args} (h : FitsTypes [p, q] args) : ∃ x y, args = [x, y] ∧ typeName x ∈ p ∧ typeName y ∈ q := by
  cases h with
  | cons h1 h => obtain ⟨y, rfl, h2⟩ := fits1 h; exact ⟨_, _, rfl, h1, h2⟩

theorem fits3 {p q r args} (h : FitsTypes [p, q, r] args) : ∃ x y z, args = [x, y, z] ∧ typeName x ∈ p ∧ typeName y ∈ q ∧ typeName z ∈ r := by
  cases h with
  | cons h1 h => obtain ⟨y, z, rfl, h2, h3⟩ := fits2 h; exact ⟨_, _, _, rfl, h1, h2, h3⟩

local macro "accepted" f:ident hp:ident : tactic => `(tactic|
  (unfold $f at $hp:ident
   simp only [LibCall.panic, LibCall.ret, LibCall.timeout, LibCall.crash, List.isEmpty_nil] at $hp:ident
   repeat' (first
     | (cases $hp:ident; done)
     | (cases $hp:ident; exact id)
     | (simp at *; done)
     | (split at $hp:ident))))

theorem accepts_assert : Takes Lib.assert [[bs "bool"]] := by
  rintro w ⟨fuel, addr, args, pos, argv⟩ h p hf hp
  obtain ⟨x, rfl, h1⟩ := fits1 hf
  by_type x h1 (rename_i b; cases b <;> accepted Lib.assert hp)

theorem accepts_b64DecodeFun : Takes Lib.b64DecodeFun [[bs "string"]] := by
  rintro w ⟨fuel, addr, args, pos, argv⟩ h p hf hp
  obtain ⟨x, rfl, h1⟩ := fits1 hf
  by_type x h1 (accepted Lib.b64DecodeFun hp)

theorem accepts_b64EncodeFun : Takes Lib.b64EncodeFun [[bs "string"]] := by
  rintro w ⟨fuel, addr, args, pos, argv⟩ h p hf hp
  obtain ⟨x, rfl, h1⟩ := fits1 hf
  by_type x h1 (accepted Lib.b64EncodeFun hp)

theorem accepts_bind : Takes Lib.bind [anything, [bs "function"]] := by
  rintro w ⟨fuel, addr, args, pos, argv⟩ h p hf hp
  obtain ⟨x, y, rfl, h1, h2⟩ := fits2 hf
  by_type y h2 (accepted Lib.bind hp)

theorem accepts_bytes : Takes Lib.bytes [[bs "string"]] := by
  rintro w ⟨fuel, addr, args, pos, argv⟩ h p hf hp
  obtain ⟨x, rfl, h1⟩ := fits1 hf
  by_type x h1 (accepted Lib.bytes hp)

theorem accepts_text1 : Takes Lib.text1 [[bs "string"]] := by
  rintro w ⟨fuel, addr, args, pos, argv⟩ h p hf hp
  obtain ⟨x, rfl, h1⟩ := fits1 hf
  by_type x h1 (accepted Lib.text1 hp)

theorem accepts_error : Takes Lib.error [[bs "string"], anything] := by
  rintro w ⟨fuel, addr, args, pos, argv⟩ h p hf hp
  obtain ⟨x, y, rfl, h1, h2⟩ := fits2 hf
  by_type x h1 (accepted Lib.error hp)

theorem accepts_exit : Takes Lib.exit [[bs "int"]] := by
  rintro w ⟨fuel, addr, args, pos, argv⟩ h p hf hp
  obtain ⟨x, rfl, h1⟩ := fits1 hf
  by_type x h1 (accepted Lib.exit hp)

theorem accepts_export : Takes Lib.export_ [[bs "string"], [bs "string"]] := by
  rintro w ⟨fuel, addr, args, pos, argv⟩ h p hf hp
  obtain ⟨x, y, rfl, h1, h2⟩ := fits2 hf
  by_type x h1 (by_type y h2 (accepted Lib.export_ hp))

theorem accepts_float : Takes Lib.float [[bs "int", bs "float", bs "string"]] := by
  rintro w ⟨fuel, addr, args, pos, argv⟩ h p hf hp
  obtain ⟨x, rfl, h1⟩ := fits1 hf
  by_type x h1 (accepted Lib.float hp)

theorem accepts_hexDecodeFun : Takes Lib.hexDecodeFun [[bs "string"]] := by
  rintro w ⟨fuel, addr, args, pos, argv⟩ h p hf hp
  obtain ⟨x, rfl, h1⟩ := fits1 hf
  by_type x h1 (accepted Lib.hexDecodeFun hp)

theorem accepts_hexEncodeFun : Takes Lib.hexEncodeFun [[bs "string"]] := by
  rintro w ⟨fuel, addr, args, pos, argv⟩ h p hf hp
  obtain ⟨x, rfl, h1⟩ := fits1 hf
  by_type x h1 (accepted Lib.hexEncodeFun hp)

theorem accepts_int : Takes Lib.int [[bs "int", bs "float", bs "string"]] := by
  rintro w ⟨fuel, addr, args, pos, argv⟩ h p hf hp
  obtain ⟨x, rfl, h1⟩ := fits1 hf
  by_type x h1 (accepted Lib.int hp)

theorem accepts_isEmpty : Takes Lib.isEmpty [[bs "string", bs "array", bs "dict"]] := by
  rintro w ⟨fuel, addr, args, pos, argv⟩ h p hf hp
  obtain ⟨x, rfl, h1⟩ := fits1 hf
  by_type x h1 (accepted Lib.isEmpty hp)

theorem accepts_iter : Takes Lib.iter [[bs "string", bs "array", bs "dict"]] := by
  rintro w ⟨fuel, addr, args, pos, argv⟩ h p hf hp
  obtain ⟨x, rfl, h1⟩ := fits1 hf
  by_type x h1 (accepted Lib.iter hp)

theorem accepts_jsonDecode : Takes Lib.jsonDecode [[bs "string"]] := by
  rintro w ⟨fuel, addr, args, pos, argv⟩ h p hf hp
  obtain ⟨x, rfl, h1⟩ := fits1 hf
  by_type x h1 (accepted Lib.jsonDecode hp)

theorem accepts_len : Takes Lib.len [[bs "string", bs "array", bs "dict"]] := by
  rintro w ⟨fuel, addr, args, pos, argv⟩ h p hf hp
  obtain ⟨x, rfl, h1⟩ := fits1 hf
  by_type x h1 (accepted Lib.len hp)

theorem accepts_pop : Takes Lib.pop [[bs "array"]] := by
  rintro w ⟨fuel, addr, args, pos, argv⟩ h p hf hp
  obtain ⟨x, rfl, h1⟩ := fits1 hf
  by_type x h1 (accepted Lib.pop hp)

theorem accepts_push : Takes Lib.push [[bs "array"], anything] := by
  rintro w ⟨fuel, addr, args, pos, argv⟩ h p hf hp
  obtain ⟨x, y, rfl, h1, h2⟩ := fits2 hf
  by_type x h1 (accepted Lib.push hp)

theorem accepts_randseed : Takes Lib.randseed [[bs "int"]] := by
  rintro w ⟨fuel, addr, args, pos, argv⟩ h p hf hp
  obtain ⟨x, rfl, h1⟩ := fits1 hf
  by_type x h1 (accepted Lib.randseed hp)

theorem accepts_range : Takes Lib.range [[bs "int", bs "float"], [bs "int", bs "float"], [bs "int", bs "float"]] := by
  rintro w ⟨fuel, addr, args, pos, argv⟩ h p hf hp
  obtain ⟨x, y, z, rfl, h1, h2, h3⟩ := fits3 hf
  by_type x h1 (by_type y h2 (by_type z h3 (accepted Lib.range hp)))

theorem accepts_regexReplace : Takes Lib.regexReplace [[bs "string"], [bs "string"]] := by
  rintro w ⟨fuel, addr, args, pos, argv⟩ h p hf hp
  obtain ⟨x, y, rfl, h1, h2⟩ := fits2 hf
  by_type x h1 (by_type y h2 (accepted Lib.regexReplace hp))

theorem accepts_replace : Takes Lib.replace [[bs "string"], [bs "string"], [bs "string"]] := by
  rintro w ⟨fuel, addr, args, pos, argv⟩ h p hf hp
  obtain ⟨x, y, z, rfl, h1, h2, h3⟩ := fits3 hf
  by_type x h1 (by_type y h2 (by_type z h3 (accepted Lib.replace hp)))

theorem accepts_sleep : Takes Lib.sleep [[bs "int"]] := by
  rintro w ⟨fuel, addr, args, pos, argv⟩ h p hf hp
  obtain ⟨x, rfl, h1⟩ := fits1 hf
  by_type x h1 (accepted Lib.sleep hp)

theorem accepts_sort : Takes Lib.sort [[bs "array"]] := by
  rintro w ⟨fuel, addr, args, pos, argv⟩ h p hf hp
  obtain ⟨x, rfl, h1⟩ := fits1 hf
  by_type x h1 (accepted Lib.sort hp)

theorem accepts_split : Takes Lib.split [[bs "string"], [bs "string"]] := by
  rintro w ⟨fuel, addr, args, pos, argv⟩ h p hf hp
  obtain ⟨x, y, rfl, h1, h2⟩ := fits2 hf
  by_type x h1 (by_type y h2 (accepted Lib.split hp))

theorem accepts_trim : Takes Lib.trim [[bs "string"]] := by
  rintro w ⟨fuel, addr, args, pos, argv⟩ h p hf hp
  obtain ⟨x, rfl, h1⟩ := fits1 hf
  by_type x h1 (accepted Lib.trim hp)

theorem accepts_tryTypecheck : Takes Lib.tryTypecheck [anything, [bs "string"]] := by
  rintro w ⟨fuel, addr, args, pos, argv⟩ h p hf hp
  obtain ⟨x, y, rfl, h1, h2⟩ := fits2 hf
  by_type y h2 (accepted Lib.tryTypecheck hp)

theorem accepts_args : Takes Lib.args [] := by
  rintro w ⟨fuel, addr, args, pos, argv⟩ h p hf hp
  obtain rfl := fits0 hf
  accepted Lib.args hp

theorem accepts_noArgs : Takes Lib.noArgs [] := by
  rintro w ⟨fuel, addr, args, pos, argv⟩ h p hf hp
  obtain rfl := fits0 hf
  accepted Lib.noArgs hp

theorem accepts_iterImpl : Takes Lib.iterImpl [] := by
  rintro w ⟨fuel, addr, args, pos, argv⟩ h p hf hp
  obtain rfl := fits0 hf
  accepted Lib.iterImpl hp

theorem accepts_rangeImpl : Takes Lib.rangeImpl [] := by
  rintro w ⟨fuel, addr, args, pos, argv⟩ h p hf hp
  obtain rfl := fits0 hf
  accepted Lib.rangeImpl hp
  all_goals
    rename_i he
    simp only [Option.some.injEq, Except.error.injEq] at hp
    subst hp
    unfold World.arith at he
    split at he
    · cases he
    · split at he <;> cases he

theorem accepts_hasError : Takes Lib.hasError [anything] := by
  rintro w ⟨fuel, addr, args, pos, argv⟩ h p hf hp
  obtain ⟨x, rfl, h1⟩ := fits1 hf
  accepted Lib.hasError hp

theorem accepts_jsonEncode : Takes Lib.jsonEncode [anything] := by
  rintro w ⟨fuel, addr, args, pos, argv⟩ h p hf hp
  obtain ⟨x, rfl, h1⟩ := fits1 hf
  accepted Lib.jsonEncode hp

theorem accepts_panic : Takes Lib.panic [anything] := by
  rintro w ⟨fuel, addr, args, pos, argv⟩ h p hf hp
  obtain ⟨x, rfl, h1⟩ := fits1 hf
  accepted Lib.panic hp

theorem accepts_toStringFun : Takes Lib.toStringFun [anything] := by
  rintro w ⟨fuel, addr, args, pos, argv⟩ h p hf hp
  obtain ⟨x, rfl, h1⟩ := fits1 hf
  accepted Lib.toStringFun hp

theorem accepts_type : Takes Lib.type [anything] := by
  rintro w ⟨fuel, addr, args, pos, argv⟩ h p hf hp
  obtain ⟨x, rfl, h1⟩ := fits1 hf
  accepted Lib.type hp

theorem accepts_substr : Takes Lib.substr [[bs "string"], [bs "int"], [bs "int"]] := by
  rintro w ⟨fuel, addr, args, pos, argv⟩ h p hf hp
  obtain ⟨x, y, z, rfl, h1, h2, h3⟩ := fits3 hf
  by_type x h1 (by_type y h2 (by_type z h3 (accepted Lib.substr hp)))
  rename_i s i n
  unfold Lib.substrOf at hp
  dsimp only at hp
  split at hp <;> cases hp

theorem accepts_randint : Takes Lib.randint [[bs "int"], [bs "int"]] := by
  rintro w ⟨fuel, addr, args, pos, argv⟩ h p hf hp
  obtain ⟨x, y, rfl, h1, h2⟩ := fits2 hf
  by_type x h1 (by_type y h2 (accepted Lib.randint hp))

theorem calls_catch_type {w : World} {args h v p} (hl : args.length = [[bs "function"]].length) (hw : FirstWrong [[bs "function"]] args v p) :
    Calls w (bs "std.catch") args h (.error (.typeError v (inWords p))) h := by
  match args, hl with
  | [x], _ =>
    rw [firstWrong_cons] at hw
    rcases hw with ⟨h1, rfl, rfl⟩ | ⟨_, h2⟩
    · refine calls_native_panic fun n rec m addr start pos s hs => ?_
      unfold nativeCall
      simp only [Bind.bind, M.andThen, M.get, hs, if_true]
      by_type v h1 (rfl)
    · exact absurd h2 firstWrong_nil

theorem calls_import_type {w : World} {args h v p} (hl : args.length = [[bs "string"]].length) (hw : FirstWrong [[bs "string"]] args v p) :
    Calls w (bs "std.import") args h (.error (.typeError v (inWords p))) h := by
  match args, hl with
  | [x], _ =>
    rw [firstWrong_cons] at hw
    rcases hw with ⟨h1, rfl, rfl⟩ | ⟨_, h2⟩
    · refine calls_native_panic fun n rec m addr start pos s hs => ?_
      unfold nativeCall
      simp only [Bind.bind, M.andThen, M.get, hs]
      rw [if_neg (by decide), if_neg (by decide), if_pos trivial]
      unfold importModule
      by_type v h1 (rfl)
    · exact absurd h2 firstWrong_nil

end Hush

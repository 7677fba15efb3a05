import Verif.Lemmas.UniqueRun
import Verif.Model.Exec
import Verif.Props.Interp

/-!
Property C68: a dict has at most one entry for a key.
-/

namespace Hush.Props
open Hush Hush.Spec

/-- C68: in every execution of an accepted program, whenever a task is started and whenever it has ended, no dict in memory has two entries with the same
key, for keys that are nil, a bool, a byte, an integer, a string or a float that is a number. (What native functions that are not modelled, commands
and threads return is assumed to have no dict with two equal keys, either.) -/
theorem unique_keys (w : World) (hw : DistinctReplies w) (src : Bytes) (k : Nat) (t : Task) (s : RState) (h : Performed w src k t s) :
    UniqueKeys s.heap ∧ ∀ r s', Ends w t s r s' → UniqueKeys s'.heap := by
  obtain ⟨h1, h2⟩ := performed_uniq hw h
  refine ⟨h2, fun r s' ⟨_, n, hn⟩ => ?_⟩
  have := uniq_run hw n t s h1 h2
  rwa [hn] at this

/-- C68: when all keys of the dicts in memory are such values, no two keys of a dict are the same for the lookup: what C23, C24, C25 and C58 assume. -/
theorem unique_distinct (w : World) (hw : DistinctReplies w) (src : Bytes) (k : Nat) (t : Task) (s : RState) (h : Performed w src k t s)
    (hs : ∀ d, ∀ e ∈ s.heap.dict d, Simple e.1) : DistinctKeys s.heap := by
  intro d
  refine ((unique_keys w hw src k t s h).1 d).imp_of_mem fun {e e'} he he' hne => ?_
  rintro ⟨n, h1, h2⟩
  have hsim := hs d e he
  cases n with
  | zero => simp [sameHash] at h1
  | succ n =>
    have := simple_same s.heap n hsim e'.1
    rw [h1, h2] at this
    simp only [optAnd, Option.some.injEq] at this
    exact hne hsim (of_decide_eq_true this.symm).symm

/-- C68: the value of a command block, as executed with the operating system, is such a value. -/
theorem block_value_distinct (os : Exec.Os) (pos : Pos) (b : ExBlock) (kind : Ast.BlockKind) (evs evs' : List Exec.Ev) (t : Tree)
    (h : Exec.runBlock os pos b kind evs = (.ok t, evs')) : DistinctTree t := by
  have hstatus : ∀ e, DistinctTree (Exec.statusValue os e) := fun e =>
    .error _ _ (.dict [(bs "status", .int e.status), (bs "pos", .string (os.posText e.pos))] (by simp only [List.map_cons, List.map_nil]; decide)
      (by simp only [List.forall_mem_cons, List.not_mem_nil, false_imp_iff, implies_true, and_true]; exact ⟨.int _, .string _⟩))
  have hcombine : ∀ d (ts : List Tree), (∀ t ∈ ts, DistinctTree t) → DistinctTree (Exec.combine d ts) := by
    intro d ts hts
    match ts with
    | [] => exact .nil
    | [t] => exact hts t List.mem_cons_self
    | _ :: _ :: _ => exact .error _ _ (.array _ hts)
  have hblock : ∀ ess, DistinctTree (Exec.blockValue os ess) := by
    intro ess
    refine hcombine _ _ fun t ht => ?_
    obtain ⟨es, _, rfl⟩ := List.mem_map.1 ht
    refine hcombine _ _ fun t ht => ?_
    obtain ⟨e, _, rfl⟩ := List.mem_map.1 ht
    exact hstatus e
  have hcapture : ∀ out err t, DistinctTree t → DistinctTree (Exec.captureValue out err t) := by
    intro out err t ht
    have hplain : DistinctTree (.dict [(.string (bs "stdout"), .string out), (.string (bs "stderr"), .string err)]) :=
      .dict [(bs "stdout", .string out), (bs "stderr", .string err)] (by simp only [List.map_cons, List.map_nil]; decide)
        (by simp only [List.forall_mem_cons, List.not_mem_nil, false_imp_iff, implies_true, and_true]; exact ⟨.string _, .string _⟩)
    cases ht with
    | error d c hc =>
      exact .error _ _ (.dict [(bs "stdout", .string out), (bs "stderr", .string err), (bs "error", c)] (by simp only [List.map_cons, List.map_nil]; decide)
        (by simp only [List.forall_mem_cons, List.not_mem_nil, false_imp_iff, implies_true, and_true]; exact ⟨.string _, .string _, hc⟩))
    | _ => exact hplain
  have hbind : ∀ {α β : Type} {m : Exec.X α} {f : α → Exec.X β} {e e' : List Exec.Ev} {b : β}, (m >>= f) e = (.ok b, e') →
      ∃ a e1, f a e1 = (.ok b, e') := by
    intro α β m f e e' b hb
    change Exec.X.bind m f e = _ at hb
    unfold Exec.X.bind at hb
    split at hb
    · exact ⟨_, _, hb⟩
    · cases hb
  unfold Exec.runBlock at h
  cases kind with
  | capture =>
    obtain ⟨_, _, h⟩ := hbind h
    obtain ⟨_, _, h⟩ := hbind h
    obtain ⟨_, _, h⟩ := hbind h
    obtain ⟨_, _, h⟩ := hbind h
    obtain ⟨_, _, h⟩ := hbind h
    cases h
    exact hcapture _ _ _ (hblock _)
  | _ =>
    obtain ⟨_, _, h⟩ := hbind h
    cases h
    exact hblock _

/-- The program `let d = @[ a: 1, b: 2 ] d["a"] = 3 d["c"] = 4 d`. -/
def uniqueProgram : Program :=
  ⟨[.assign (.ident 1 (q 4)) (.lit (.dict [((bs "a"), .lit (.int 1) (q 14)), ((bs "b"), .lit (.int 2) (q 20))]) (q 8)),
    .assign (.access (.ident 1 (q 24)) (.lit (.string (bs "a")) (q 26)) (q 25)) (.lit (.int 3) (q 33)),
    .assign (.access (.ident 1 (q 35)) (.lit (.string (bs "c")) (q 37)) (q 36)) (.lit (.int 4) (q 44)),
    .expr (.ident 1 (q 46))], 2⟩

theorem fileWorld_distinct (files : Bytes → Option Bytes) : DistinctReplies (fileWorld files) := ⟨nofun, nofun, nofun⟩

-- A program that assigns to an entry and adds one, in a world that meets the hypothesis: it is performed, and at the end the dict has three entries.
set_option maxRecDepth 100000 in
example : DistinctReplies (fileWorld fun _ => none) ∧ (∃ s, Performed (fileWorld fun _ => none) (bs "let d = @[ a: 1, b: 2 ] d[\"a\"] = 3 d[\"c\"] = 4 d") 20
      (.program 0 uniqueProgram) s) ∧
    ((runProgram (fileWorld fun _ => none) 20 uniqueProgram [] []).2.heap.dicts.getLast?) =
      some [(.string (bs "a"), .int 3), (.string (bs "b"), .int 2), (.string (bs "c"), .int 4)] :=
  ⟨fileWorld_distinct _, ⟨_, uniqueProgram, [], [], 20, accepts_of (by decide +kernel), .self _ _ _⟩, by decide +kernel⟩

/-- The program `let a = [1] let b = [2] let d = @[] d[a] = 1 d[b] = 2 b[0] = 1`. -/
def mutatedKeyProgram : Program :=
  ⟨[.assign (.ident 1 (q 4)) (.lit (.array [.lit (.int 1) (q 9)]) (q 8)),
    .assign (.ident 2 (q 16)) (.lit (.array [.lit (.int 2) (q 21)]) (q 20)),
    .assign (.ident 3 (q 28)) (.lit (.dict []) (q 32)),
    .assign (.access (.ident 3 (q 36)) (.ident 1 (q 38)) (q 37)) (.lit (.int 1) (q 43)),
    .assign (.access (.ident 3 (q 45)) (.ident 2 (q 47)) (q 46)) (.lit (.int 2) (q 52)),
    .assign (.access (.ident 2 (q 54)) (.lit (.int 0) (q 56)) (q 55)) (.lit (.int 1) (q 61))], 4⟩

set_option maxRecDepth 100000 in
/-- For keys that are arrays C68 would be violated: when an array that is a key is changed, the dict can have two entries with the same key. -/
theorem unique_keys_violated : ∃ src p w n, Accepts src p ∧ DistinctReplies w ∧ (∃ o, (runProgram w n p [] []).1 = .ok o) ∧
    ¬ DistinctKeys (runProgram w n p [] []).2.heap := by
  refine ⟨bs "let a = [1] let b = [2] let d = @[] d[a] = 1 d[b] = 2 b[0] = 1", mutatedKeyProgram, fileWorld fun _ => none, 20,
    accepts_of (by decide +kernel), fileWorld_distinct _, ⟨⟨.regular .nil, noPos, .nil⟩, by decide +kernel⟩, fun hd => ?_⟩
  have h0 : (runProgram (fileWorld fun _ => none) 20 mutatedKeyProgram [] []).2.heap.dict (stdGroups.length + 1) = [(.array 1, .int 1), (.array 2, .int 2)] := by
    decide +kernel
  have h1 := hd (stdGroups.length + 1)
  rw [h0] at h1
  refine (List.pairwise_cons.1 h1).1 _ (List.mem_singleton.2 rfl) ⟨3, ?_, ?_⟩ <;> decide +kernel

end Hush.Props

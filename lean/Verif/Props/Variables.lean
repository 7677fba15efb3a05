import Verif.Lemmas.VarSim
import Verif.Spec.Tail
import Verif.Props.Interp

/-!
Property C15: variables are lexically scoped and captured by reference.
-/

namespace Hush.Props
open Hush Hush.Spec

/-- The objects that a program can get at, other than variables and functions, and what it has done. -/
structure SameOutcome (s t : RState) : Prop where
  arrays : s.heap.arrays = t.heap.arrays
  dicts : s.heap.dicts = t.heap.dicts
  errors : s.heap.contexts = t.heap.contexts
  natives : s.heap.natives = t.heap.natives
  trace : s.trace = t.trace
  modules : s.modules = t.modules

/-- C15, partially. A program that is run is a translation of its source in which every occurrence of a variable has the slot of the
innermost enclosing declaration of its name, or that of a capture of it if it is declared in an enclosing function (`TranslatesProgram`).
And it does, whatever the world, exactly what it would do if every call made new variables (objects in memory) for the slots of the
function, except for the captured ones, which are those of the function that created it at that time (`Vars.runProgram`, see
`captured_shared`): same result or panic, same effects, same objects. That semantics leaves open only what happens when a panic that
stopped a module is caught; so it says everything about an execution in which all modules that are loaded are completed.
Missing from C15: executions that go on after a module failed; see `failed_import_violated`. -/
theorem variables_partial (src : Bytes) (p : Program) (h : Accepts src p) :
    (∃ a, syntaxAnalysis src = some a ∧ TranslatesProgram a.ast p) ∧
    ∀ (w : World), Vars.Blind w → ∀ (n : Nat) (argv : List Bytes) (file : Sym),
      (∀ r σ, Vars.runProgram w n p argv file = some (r, σ) →
        (runProgram w n p argv file).1 = r ∧ SameOutcome (runProgram w n p argv file).2 σ.base) ∧
      (AllCompleted (RState.init argv file) (runProgram w n p argv file).2 → (Vars.runProgram w n p argv file).isSome) := by
  refine ⟨?_, fun w hw n argv file => ?_⟩
  · obtain ⟨a, h1, h2, h3⟩ := h
    exact ⟨a, h1, (source_slots src a h1 h2 p h3).2⟩
  have hl : Live [] (RState.init argv file) ⟨RState.init argv file, 0, false⟩ :=
    { base := { heap := ⟨rfl, rfl, rfl, rfl, rfl, (fun c hc => by cases hc), rfl, List.nodup_nil, (fun i l hi => by cases hi)⟩
                args := rfl, modules := rfl, files := rfl, trace := rfl, std := rfl, argv := rfl }
      failed := rfl, leaked := rfl, height := rfl }
  have hs := run_sim hw n ⟨0, false, false⟩ (.program 0 p) _ _ [] [] (program_pre h) hl trivial
  simp only [Sim] at hs
  have same : ∀ {κ s b}, BRel κ s b → SameOutcome s b := fun h =>
    ⟨h.heap.arrays.symm, h.heap.dicts.symm, h.heap.contexts.symm, h.heap.natives.symm, h.trace.symm, h.modules.symm⟩
  constructor
  · intro r σ hr
    simp only [Vars.runProgram] at hr
    rw [hr] at hs
    cases r with
    | ok o =>
      obtain ⟨h1, κ, -, h3⟩ := hs
      exact ⟨h1, same h3.base⟩
    | error e =>
      obtain ⟨h1, κ, -, h3, -⟩ := hs
      exact ⟨h1, same h3⟩
  · intro hn
    simp only [Vars.runProgram]
    rcases hr : Vars.run w n [] (.program 0 p) ⟨RState.init argv file, 0, false⟩ with _ | x
    · cases n with
      | zero => cases hr
      | succ n =>
        have h1 := program_none (w := w) (m := 0) (run_sim hw n) (run_ok w n) hl (init_inv _ _) (accepts_ok h) hr
        have h2 : loadCount (stepProgram w (run w n) 0 p (RState.init argv file)).2.trace ≤
            (stepProgram w (run w n) 0 p (RState.init argv file)).2.modules.length := by
          have : AllCompleted _ _ := hn
          simpa [AllCompleted, RState.init, runProgram, run, step] using this
        have h3 : (RState.init argv file).modules.length = 0 := rfl
        omega
    · rfl

/-! ### The reference semantics shares captured variables -/

theorem withCaptured_length : ∀ (own : List Nat) (l : List (Nat × Nat)), (Vars.withCaptured own l).length = own.length
  | _, [] => rfl
  | own, (x, k) :: l => by simp only [Vars.withCaptured, withCaptured_length (own.set k x) l, List.length_set]

theorem withCaptured_get : ∀ (l : List (Nat × Nat)) (own : List Nat) (i : Nat), i ∉ l.map (·.2) → (Vars.withCaptured own l)[i]? = own[i]?
  | [], _, _, _ => rfl
  | (x, k) :: l, own, i, h => by
    simp only [List.map_cons, List.mem_cons, not_or] at h
    simp only [Vars.withCaptured, withCaptured_get l _ i h.2, List.getElem?_set_ne (Ne.symm h.1)]

theorem captures_to : ∀ (cs : List Prog.Capture) (env : List Nat) (σ σ' : Vars.State) (l : List (Nat × Nat)),
    Vars.captures env cs σ = some (.ok l, σ') → σ' = σ ∧ List.Forall₂ (fun (c : Prog.Capture) (q : Nat × Nat) => env[c.from_]? = some q.1 ∧ q.2 = c.to) cs l
  | [], env, σ, σ', l, h => by
    simp only [Vars.captures, pure, Vars.VM.ret, Option.some.injEq, Prod.mk.injEq, Except.ok.injEq] at h
    obtain ⟨rfl, rfl⟩ := h
    exact ⟨rfl, .nil⟩
  | c :: cs, env, σ, σ', l, h => by
    simp only [Vars.captures] at h
    cases hx : env[c.from_]? with
    | none => simp [hx, Vars.VM.crash, Vars.VM.stop] at h
    | some x =>
      simp only [hx, bind, Vars.VM.andThen] at h
      rcases hc : Vars.captures env cs σ with _ | ⟨e | r, σ1⟩
      · simp [hc] at h
      · simp [hc] at h
      · simp only [hc, pure, Vars.VM.ret, Option.some.injEq, Prod.mk.injEq, Except.ok.injEq] at h
        obtain ⟨rfl, rfl⟩ := h
        obtain ⟨h1, h2⟩ := captures_to cs env σ σ1 r hc
        exact ⟨h1, .cons ⟨hx, rfl⟩ h2⟩

/-- C15: what it means in the reference semantics that variables are captured by reference. When a function literal is evaluated where
the variables are `env`, then every call of the resulting function, with new variables `own`, has for each captured slot the variable that
the enclosing function has, and for the other slots the new ones. -/
theorem captured_shared (env own : List Nat) (cs : List Prog.Capture) (σ σ' : Vars.State) (l : List (Nat × Nat))
    (h : Vars.captures env cs σ = some (.ok l, σ')) (hd : (cs.map (·.to)).Nodup) (hs : ∀ c ∈ cs, c.to < own.length) :
    (∀ c ∈ cs, (Vars.withCaptured own l)[c.to]? = env[c.from_]?) ∧
    ∀ i, i ∉ cs.map (·.to) → (Vars.withCaptured own l)[i]? = own[i]? := by
  obtain ⟨-, hf⟩ := captures_to cs env σ σ' l h
  have hm : l.map (·.2) = cs.map (·.to) := by
    clear h hd hs
    induction hf with
    | nil => rfl
    | cons h _ ih => simp [h.2, ih]
  refine ⟨?_, fun i hi => withCaptured_get l own i (by rw [hm]; exact hi)⟩
  clear h
  induction hf generalizing own with
  | nil => intro c hc; cases hc
  | @cons c q cs l hq hf ih =>
    obtain ⟨x, k⟩ := q
    obtain ⟨h1, h2⟩ := hq
    simp only at h1 h2
    subst h2
    simp only [List.map_cons, List.nodup_cons] at hd
    simp only [List.map_cons, List.cons.injEq, true_and] at hm
    intro c' hc'
    rcases List.mem_cons.1 hc' with rfl | hc'
    · simp only [Vars.withCaptured]
      rw [withCaptured_get l _ _ (by rw [hm]; exact hd.1), h1]
      simp [hs c' (by simp)]
    · exact ih (own.set c.to x) hd.2 (fun d hdm => by rw [List.length_set]; exact hs d (List.mem_cons_of_mem _ hdm)) hm c' hc'

/-! ### Examples -/

/-- `let make = function () let n = 0 return function () n = n + 1 return n end end let a = make() let b = make() a() a() b() a()`. -/
def makeCounter : Program :=
  ⟨[.assign (.ident 1 (q 4)) (.lit (.function 0 ⟨1, [], none⟩ [.assign (.ident 0 (q 27)) (.lit (.int 0) (q 31)),
     .return_ (.lit (.function 0 ⟨1, [⟨0, 0⟩], none⟩
       [.assign (.ident 0 (q 52)) (.binary (.ident 0 (q 56)) .plus (.lit (.int 1) (q 60)) (q 58)),
        .return_ (.ident 0 (q 69))]) (q 40))]) (q 11)),
   .assign (.ident 2 (q 83)) (.call (.ident 1 (q 87)) [] (q 91)),
   .assign (.ident 3 (q 98)) (.call (.ident 1 (q 102)) [] (q 106)),
   .expr (.call (.ident 2 (q 109)) [] (q 110)),
   .expr (.call (.ident 2 (q 113)) [] (q 114)),
   .expr (.call (.ident 3 (q 117)) [] (q 118)),
   .expr (.call (.ident 2 (q 121)) [] (q 122))], 4⟩

set_option maxRecDepth 100000 in
theorem makeCounter_accepted : Accepts (bs ("let make = function () let n = 0 return function () n = n + 1 return n end end " ++
    "let a = make() let b = make() a() a() b() a()")) makeCounter := accepts_of (by decide +kernel)

/-- A world without files looks at nothing. -/
theorem fileWorld_blind (files : Bytes → Option Bytes) : Vars.Blind (fileWorld files) :=
  fun _ _ _ _ => ⟨fun _ => rfl, fun _ _ _ _ => rfl⟩

-- The calls of the functions `a` and `b` count separately.
set_option maxRecDepth 100000 in
example : (runProgram (fileWorld fun _ => none) 20 makeCounter [] []).1 = .ok ⟨.regular (.int 3), noPos, .nil⟩ := by decide +kernel

-- The reference semantics agrees; there are two variables `n`, with the values 3 and 1.
set_option maxRecDepth 100000 in
example : (Vars.runProgram (fileWorld fun _ => none) 20 makeCounter [] []).map (fun x => (x.1, x.2.base.heap.cells.drop 4)) =
    some (.ok ⟨.regular (.int 3), noPos, .nil⟩, [.int 3, .int 1, .nil, .nil, .nil, .nil]) := by decide +kernel

/-- `let x = 1 let f = function () x = x + 1 end f() x = x * 10 f() x`. -/
def sharedProgram : Program :=
  ⟨[.assign (.ident 1 (q 4)) (.lit (.int 1) (q 8)),
   .assign (.ident 2 (q 14)) (.lit (.function 0 ⟨1, [⟨1, 0⟩], none⟩
     [.assign (.ident 0 (q 30)) (.binary (.ident 0 (q 34)) .plus (.lit (.int 1) (q 38)) (q 36))]) (q 18)),
   .expr (.call (.ident 2 (q 44)) [] (q 45)),
   .assign (.ident 1 (q 48)) (.binary (.ident 1 (q 52)) .times (.lit (.int 10) (q 56)) (q 54)),
   .expr (.call (.ident 2 (q 59)) [] (q 60)),
   .expr (.ident 1 (q 63))], 3⟩

set_option maxRecDepth 100000 in
theorem sharedProgram_accepted : Accepts (bs "let x = 1 let f = function () x = x + 1 end f() x = x * 10 f() x") sharedProgram :=
  accepts_of (by decide +kernel)

-- The writes of the function are seen outside and vice versa: (1 + 1) * 10 + 1.
set_option maxRecDepth 100000 in
example : (runProgram (fileWorld fun _ => none) 20 sharedProgram [] []).1 = .ok ⟨.regular (.int 21), noPos, .nil⟩ := by decide +kernel

-- No module is loaded, so the theorem applies: the reference semantics gives the same.
set_option maxRecDepth 100000 in
example : ∃ σ, Vars.runProgram (fileWorld fun _ => none) 20 sharedProgram [] [] = some (.ok ⟨.regular (.int 21), noPos, .nil⟩, σ) := by
  have h := (variables_partial _ _ sharedProgram_accepted).2 _ (fileWorld_blind fun _ => none) 20 [] []
  have hn : (runProgram (fileWorld fun _ => none) 20 sharedProgram [] []).2.trace = [] := by decide +kernel
  have hr : (runProgram (fileWorld fun _ => none) 20 sharedProgram [] []).1 = .ok ⟨.regular (.int 21), noPos, .nil⟩ := by decide +kernel
  obtain ⟨⟨r, σ⟩, hx⟩ := Option.isSome_iff_exists.1 (h.2 (by simp only [AllCompleted, hn]; exact Nat.zero_le _))
  obtain ⟨h1, -⟩ := h.1 r σ hx
  rw [hr] at h1
  exact ⟨σ, h1 ▸ hx⟩

-- A function that captures the variables of slots 2 and 5 of the enclosing one as 1 and 0.
example : ∃ l, Vars.captures [10, 11, 12, 13, 14, 15] [⟨2, 1⟩, ⟨5, 0⟩] ⟨RState.init [] [], 0, false⟩ =
    some (.ok l, ⟨RState.init [] [], 0, false⟩) ∧ Vars.withCaptured [20, 21, 22] l = [15, 12, 22] := ⟨[(12, 1), (15, 0)], rfl, rfl⟩

end Hush.Props

import Verif.Lemmas.SourceRun
import Verif.Lemmas.SourceCatch
import Verif.Props.Variables

/-!
Property C69: a script does what its text says, by names.
-/

namespace Hush.Props
open Hush Hush.Spec

/-- C69, for executions in which every module that is loaded is completed. What the interpreter does with a source (lexer, parser,
analyser, slots, captures, stack of frames, heap of captured variables) is something that the syntax tree of the source does by names
(`Src.Runs`): a name is the innermost declaration of it that is visible at that place of the text; a function sees the variables
that were visible where it was created; each call has its own variables for parameters and declarations. The result or panic, the effects
on the world, the values of modules and all arrays, dicts and errors are the same.
Missing: executions that go on after a module failed, see `source_semantics_violated`. -/
theorem source_semantics_partial (src : Bytes) (a : SyntaxAnalysis) (hs : syntaxAnalysis src = some a) (hok : a.isOk = true)
    (p : Program) (hp : analyze a.ast = .ok p) (w : World) (hw : Vars.Blind w) (n : Nat) (argv : List Bytes) (file : Sym)
    (hc : AllCompleted (RState.init argv file) (runProgram w n p argv file).2) :
    ∃ τ, Src.Runs w n a.ast argv file ((runProgram w n p argv file).1, τ) ∧ SameOutcome (runProgram w n p argv file).2 τ.base := by
  have h := (variables_partial src p ⟨a, hs, hok, hp⟩).2 w hw n argv file
  obtain ⟨⟨r, σ⟩, hx⟩ := Option.isSome_iff_exists.1 (h.2 hc)
  obtain ⟨h1, h2⟩ := h.1 r σ hx
  have ht := (source_slots src a hs hok p hp).2
  obtain ⟨τ, h3, h4⟩ := run_ref w n (.program (env := []) (E := Src.Env.empty) 0 ht) ⟨RState.init argv file, 0, false⟩
    ⟨RState.init argv file, []⟩ ⟨rfl, .nil⟩ r σ hx
  refine ⟨τ, ?_, ?_⟩
  · rw [h1]; exact h3
  · rw [h4.base]; exact h2

-- `let x = 1 let f = function () x = x + 1 end f() x = x * 10 f() x` (see `sharedProgram`) is 21 by names.
set_option maxRecDepth 100000 in
example : ∃ a τ, syntaxAnalysis (bs "let x = 1 let f = function () x = x + 1 end f() x = x * 10 f() x") = some a ∧
    Src.Runs (fileWorld fun _ => none) 20 a.ast [] [] (.ok ⟨.regular (.int 21), noPos, .nil⟩, τ) := by
  obtain ⟨a, h1, h2, h3⟩ := sharedProgram_accepted
  have hn : (runProgram (fileWorld fun _ => none) 20 sharedProgram [] []).2.trace = [] := by decide +kernel
  have hr : (runProgram (fileWorld fun _ => none) 20 sharedProgram [] []).1 = .ok ⟨.regular (.int 21), noPos, .nil⟩ := by decide +kernel
  obtain ⟨τ, h4, -⟩ := source_semantics_partial _ a h1 h2 _ h3 _ (fileWorld_blind fun _ => none) 20 [] []
    (by simp only [AllCompleted, hn]; exact Nat.zero_le _)
  rw [hr] at h4
  exact ⟨a, τ, h1, h4⟩

/-! The semantics by names leaves open addresses, but not what names mean. -/

/-- `let x = 1 let y = function () x end x = 2 y()`. -/
def lexicalText (pos : Nat → Pos) : Ast.Block :=
  [.let_ nx (.lit (.int 1) (pos 0)) (pos 1),
   .let_ ny (.lit (.function [] [.expr (.ident nx (pos 2))]) (pos 3)) (pos 4),
   .assign (.ident nx (pos 7)) (.lit (.int 2) (pos 8)) (pos 9),
   .expr (.call (.ident ny (pos 10)) [] (pos 11))]

/-- The only outcome of `lexicalText` is 2, unless the stack is full: at the call, the function sees the variable `x` of the place where it was
created, with the value assigned later. -/
theorem lexical_only (w : World) (n : Nat) (pos : Nat → Pos) (argv : List Bytes) (file : Sym) (r) (h : Src.Runs w (n + 12) (lexicalText pos) argv file r) :
    (∃ p x, r.1 = .ok ⟨.regular (.int 2), p, x⟩) ∨ ∃ p, r.1 = .error (.panic ⟨.stackOverflow, p⟩) := by
  have hn : (ny == nx) = false := by decide
  have hn' : (nx == ny) = false := by decide
  revert h r
  show Always (Src.mayOverflow noPos >>= fun _ => _) ⟨RState.init argv file, []⟩ (fun r => _)
  rw [always_bind, always_overflow]
  refine ⟨?_, .inr ⟨_, rfl⟩⟩
  dsimp only
  rw [always_bind, always_newVars]
  intro size params own me h1 h2 h3 h4
  obtain ⟨y0, rfl⟩ := List.length_eq_one_iff.1 h1
  have h2' : own.length = 2 := h2
  obtain ⟨y1, y2, rfl⟩ : ∃ y1 y2, own = [y1, y2] := List.length_eq_two.1 h2'
  have hd : y1 ≠ y2 := by
    rintro rfl
    simp at h3
  have hb1 : y1 < size := by have := (h4 y1 (by simp)).2; simpa [RState.init, Heap.empty] using this
  have hb2 : y2 < size := by have := (h4 y2 (by simp)).2; simpa [RState.init, Heap.empty] using this
  dsimp only
  rw [always_bind, always_other]
  dsimp only [M.get]
  simp only [Src.assignAll]
  rw [always_bind, always_bind, always_assign]
  dsimp only
  rw [always_pure]
  dsimp only
  rw [always_bind]
  -- the block
  refine always_block (always_init ?_)
  rw [always_int]
  refine ⟨_, _, _, _, rfl, _, _, _, _, rfl, ?_⟩
  refine always_block (always_init (always_function fun c => ?_))
  refine ⟨_, _, _, _, rfl, _, _, _, _, rfl, ?_⟩
  refine always_block (always_set (y := y1) ?_ ?_)
  · show List.lookup nx [(ny, y2), (nx, y1), (bs "std", y0)] = some y1
    simp [List.lookup_cons, hn']
  rw [always_int]
  refine ⟨_, _, _, _, rfl, _, _, _, _, rfl, ?_⟩
  refine always_call (y := y2) (a := 0) (b := [.expr (.ident nx (pos 2))]) (names := [(ny, y2), (nx, y1), (bs "std", y0)]) ?_ ?_ ?_ rfl rfl ?_ ?_
  · show List.lookup ny [(ny, y2), (nx, y1), (bs "std", y0)] = some y2
    simp
  · dsimp only
    rw [setCell_other hd.symm, setCell_same]
    · rfl
    · simp [Heap.setCell, Heap.newClosure, RState.init, Heap.empty, hb2]
  · rfl
  · exact fun p s => .inr ⟨p, rfl⟩
  · intro s' me' hs'
    show Always (Src.run w _ _ (.stmt 0 (.expr (.ident nx (pos 2))))) s' _
    show Always (Src.run w _ _ (.expr 0 (.ident nx (pos 2)))) s' _
    rw [always_ident (y := y1) (by simp [List.lookup_cons, hn'])]
    refine ⟨_, _, _, _, rfl, fun p o => always_pure.2 (.inl ⟨noPos, .nil, ?_⟩)⟩
    rw [hs' y1 (by simp [Heap.setCell, Heap.newClosure, RState.init, Heap.empty, hb1])]
    dsimp only
    rw [setCell_same (by simp [Heap.setCell, Heap.newClosure, RState.init, Heap.empty, hb1])]
    rfl

/-! ### Where C69 fails -/

/-- `let x = 5 std.catch(function() std.import("m") end) x`. -/
def caughtText (pos : Nat → Pos) : Ast.Block :=
  [.let_ nx (.lit (.int 5) (pos 0)) (pos 1),
   .expr (.call (.access (.ident (bs "std") (pos 2)) (.lit (.ident (bs "catch")) (pos 3)) (pos 4))
    [.lit (.function [] [.expr (.call (.access (.ident (bs "std") (pos 5)) (.lit (.ident (bs "import")) (pos 6)) (pos 7))
      [.lit (.string (bs "m")) (pos 8)] (pos 9))]) (pos 10)] (pos 11)),
   .expr (.ident nx (pos 12))]

theorem catch_found {h : Heap} {n : Nat} (hd : h.dicts = (RState.init [] []).heap.dicts) (p q : Pos) :
    accessValue h (n + 1) (.dict 3) p (.string (bs "catch")) q = .ok (.function (.native (bs "std.catch") 0)) := by
  cases h; dsimp only at hd; subst hd; rfl

theorem import_found {h : Heap} {n : Nat} (hd : h.dicts = (RState.init [] []).heap.dicts) (p q : Pos) :
    accessValue h (n + 1) (.dict 3) p (.string (bs "import")) q = .ok (.function (.native (bs "std.import") 0)) := by
  cases h; dsimp only at hd; subst hd; rfl

theorem nil_source : ∃ a p q pr, syntaxAnalysis (bs "nil()") = some a ∧ a.isOk = true ∧ a.ast = [.expr (.call (.lit .nil p) [] q)] ∧
    analyze a.ast = .ok pr := ⟨_, _, _, _, rfl, rfl, rfl, rfl⟩

/-- By names, `caughtText` has no other value than 5, if the module `m` is `nil()`. -/
theorem caught_only (n : Nat) (pos : Nat → Pos) (r) (h : Src.Runs nilWorld (n + 20) (caughtText pos) [] [] r) :
    (∃ p x, r.1 = .ok ⟨.regular (.int 5), p, x⟩) ∨ ∃ e, r.1 = .error e := by
  have hn : (bs "std" == nx) = false := by decide
  revert h r
  show Always (Src.mayOverflow noPos >>= fun _ => _) ⟨RState.init [] [], []⟩ (fun r => _)
  rw [always_bind, always_overflow]
  refine ⟨?_, .inr ⟨_, rfl⟩⟩
  dsimp only
  rw [always_bind, always_newVars]
  intro size params own me h1 h2 h3 h4
  obtain ⟨y0, rfl⟩ := List.length_eq_one_iff.1 h1
  have h2' : own.length = 1 := h2
  obtain ⟨y1, rfl⟩ := List.length_eq_one_iff.1 h2'
  have hd : y0 ≠ y1 := by
    rintro rfl
    simp at h3
  have hb0 : y0 < size := by have := (h4 y0 (by simp)).2; simpa [RState.init, Heap.empty] using this
  have hb1 : y1 < size := by have := (h4 y1 (by simp)).2; simpa [RState.init, Heap.empty] using this
  dsimp only
  rw [always_bind, always_other]
  dsimp only [M.get]
  simp only [Src.assignAll]
  rw [always_bind, always_bind, always_assign]
  dsimp only
  rw [always_pure]
  dsimp only
  rw [always_bind]
  refine always_block (always_init ?_)
  rw [always_int]
  refine ⟨_, _, _, _, rfl, _, _, _, _, rfl, ?_⟩
  -- the state before the call
  generalize hs : (Src.State.mk _ _ : Src.State) = s
  have k0 : s.base.heap.cell y0 = .dict 3 := by
    subst hs
    dsimp only
    rw [setCell_other hd, setCell_same (by simp [RState.init, Heap.empty, hb0])]
    rfl
  have k1 : s.base.heap.cell y1 = .int 5 := by
    subst hs
    dsimp only
    rw [setCell_same (by simp [Heap.setCell, RState.init, Heap.empty, hb1])]
  have l0 : y0 < s.base.heap.cells.length := by subst hs; simp [Heap.setCell, RState.init, Heap.empty, hb0]
  have l1 : y1 < s.base.heap.cells.length := by subst hs; simp [Heap.setCell, RState.init, Heap.empty, hb1]
  have kd : s.base.heap.dicts = (RState.init [] []).heap.dicts := by subst hs; rfl
  have km : s.base.modules = [] := by subst hs; rfl
  have ka : s.base.args = [] := by subst hs; rfl
  have kf : s.funs = [] := by subst hs; rfl
  have kc : s.base.heap.closures = [] := by subst hs; rfl
  clear hs
  refine always_block_or ?_
  have hstd : List.lookup (bs "std") [(nx, y1), (bs "std", y0)] = some y0 := by simp [List.lookup_cons, hn]
  show Always (Src.run nilWorld _ _ (.expr 0 (.call _ [_] _))) s _
  refine always_native (fun Q hQ => always_member hstd k0 (catch_found kd) hQ) (always_function fun c => ?_)
  refine ⟨_, _, _, _, rfl, Nat.le_refl _, ?_⟩
  -- `std.catch`
  show Always (Src.NM.other M.get >>= fun t => _) _ _
  rw [always_bind, always_other]
  dsimp only [M.get]
  rw [if_pos (show bs "std.catch" = bs "std.catch" from rfl)]
  simp only [ka, List.length_nil, List.nil_append, List.drop_zero, Out.value, Heap.newClosure, kc]
  refine always_catching ?_
  -- what remains to be known of the function
  refine always_mono (P := fun r => (∃ e, r.1 = .error e) ∧ r.2.base.heap.cell y1 = .int 5) ?_ ?_
  · show Always (Src.call nilWorld (n + 13) (Src.run nilWorld (n + 13)) 0 .nil (.hush 0) 1 (pos 11)) _ _
    rw [always_call_hush (by simp), always_bind, always_other]
    simp only [M.modify, kf, List.nil_append, List.take_succ_cons, List.take_zero, List.drop_succ_cons, List.drop_zero]
    refine always_body rfl ⟨⟨_, rfl⟩, k1⟩ ?_
    intro t me ht
    have k0' : t.base.heap.cell y0 = .dict 3 := (ht.cells y0 l0).trans k0
    have k1' : t.base.heap.cell y1 = .int 5 := (ht.cells y1 l1).trans k1
    have l1' : y1 < t.base.heap.cells.length := Nat.lt_of_lt_of_le l1 ht.size
    have kd' := ht.dicts.trans kd
    have km' := ht.modules.trans km
    have ka' := ht.args
    dsimp only at ka'
    show Always (Src.run nilWorld (n + 11) _ (.expr 0 (.call _ [_] _))) t _
    refine always_native (fun Q hQ => always_member hstd k0' (import_found kd') hQ) (always_pure.2 ?_)
    refine ⟨_, _, _, _, rfl, Nat.le_refl _, ?_⟩
    -- `std.import`
    show Always (Src.NM.other M.get >>= fun t => _) _ _
    rw [always_bind, always_other]
    dsimp only [M.get]
    rw [if_neg (by decide), if_neg (by decide), if_pos (show bs "std.import" = bs "std.import" from rfl)]
    simp only [ka', List.length_singleton, List.cons_append, List.nil_append, List.drop_succ_cons, List.drop_zero]
    show Always (Src.NM.other M.get >>= fun t => _) _ _
    rw [always_bind, always_other]
    dsimp only [M.get]
    simp only [km', show ∀ t f b, nilWorld.resolve t f b = .ok b from fun _ _ _ => rfl, List.lookup_nil]
    rw [always_bind]
    show Always (Src.NM.other M.get >>= fun t => _) _ _
    rw [always_bind, always_other]
    dsimp only [M.get]
    rw [always_bind, always_other]
    dsimp only [record, M.modify]
    obtain ⟨a, p, q, pr, a1, a2, a3, a4⟩ := nil_source
    simp only [show ∀ t f, nilWorld.readFile t f = .ok (bs "nil()") from fun _ _ => rfl, a1, a2, if_true, a4]
    rw [always_bind, always_other]
    dsimp only [M.modify]
    rw [always_bind, a3]
    refine always_mono (always_nil_module (n := n + 3) (fun u => u.base.heap.cell y1 = .int 5) ?_) ?_
    · intro u hu
      exact (hu.cells y1 l1').trans k1'
    · rintro ⟨e | v, u⟩ ⟨e', he, hc⟩
      · exact ⟨_, rfl, ⟨_, rfl⟩, hc⟩
      · cases he
  · rintro ⟨e | v, t⟩ ⟨⟨e, he⟩, hc⟩
    · refine ⟨_, rfl, .inr ⟨_, rfl⟩, fun d => ⟨⟨_, rfl⟩, ?_⟩⟩
      show Always (Src.run nilWorld (n + 15) _ (.expr 0 (.ident nx (pos 12)))) _ _
      rw [always_ident (y := y1) rfl]
      refine always_pure.2 (.inl ⟨noPos, .nil, ?_⟩)
      show Except.ok (Out.value (t.base.heap.cell y1) noPos) = _
      rw [show t.base.heap.cell y1 = .int 5 from hc]
      rfl
    · cases he

/-- `std.k(a)`: the argument and the positions. -/
def stdCall (k : Bytes) : Ast.Expr → Option (Ast.Expr × Pos × Pos × Pos × Pos)
  | .call (.access (.ident x p) (.lit (.ident y) q) r) [a] t => if x = bs "std" ∧ y = k then some (a, p, q, r, t) else none
  | _ => none

theorem stdCall_eq {k : Bytes} {e a : Ast.Expr} {p q r t : Pos} (h : stdCall k e = some (a, p, q, r, t)) :
    e = .call (.access (.ident (bs "std") p) (.lit (.ident k) q) r) [a] t := by
  unfold stdCall at h
  split at h
  · split at h
    · rename_i hc
      obtain ⟨rfl, rfl⟩ := hc
      cases h
      rfl
    · cases h
  · cases h

/-- A string, with its position. -/
def stringAt (b : Bytes) : Ast.Expr → Option Pos
  | .lit (.string x) p => if x = b then some p else none
  | _ => none

theorem stringAt_eq {b : Bytes} {e : Ast.Expr} {p : Pos} (h : stringAt b e = some p) : e = .lit (.string b) p := by
  unfold stringAt at h
  split at h
  · split at h
    · rename_i hc
      subst hc
      cases h
      rfl
    · cases h
  · cases h

/-- A function without parameters that consists of one expression. -/
def oneExpr : Ast.Expr → Option (Ast.Expr × Pos)
  | .lit (.function [] [.expr e]) p => some (e, p)
  | _ => none

theorem oneExpr_eq {f e : Ast.Expr} {p : Pos} (h : oneExpr f = some (e, p)) : f = .lit (.function [] [.expr e]) p := by
  unfold oneExpr at h
  split at h
  · cases h; rfl
  · cases h

/-- `let x = 5`, an expression, `x`. -/
def letFive : Ast.Block → Option (Ast.Expr × Pos × Pos × Pos)
  | [.let_ x (.lit (.int i) p) q, .expr e, .expr (.ident y r)] => if x = nx ∧ i = 5 ∧ y = nx then some (e, p, q, r) else none
  | _ => none

theorem letFive_eq {b : Ast.Block} {e : Ast.Expr} {p q r : Pos} (h : letFive b = some (e, p, q, r)) :
    b = [.let_ nx (.lit (.int 5) p) q, .expr e, .expr (.ident nx r)] := by
  unfold letFive at h
  split at h
  · split at h
    · rename_i hc
      obtain ⟨rfl, rfl, rfl⟩ := hc
      cases h
      rfl
    · cases h
  · cases h

/-- The positions, if the tree is that of `caughtText`. -/
def caughtPos (b : Ast.Block) : Option (List Pos) := do
  let (e, p0, p1, p12) ← letFive b
  let (f, p2, p3, p4, p11) ← stdCall (bs "catch") e
  let (e, p10) ← oneExpr f
  let (m, p5, p6, p7, p9) ← stdCall (bs "import") e
  let p8 ← stringAt (bs "m") m
  some [p0, p1, p2, p3, p4, p5, p6, p7, p8, p9, p10, p11, p12]

theorem caughtPos_eq {b : Ast.Block} {l : List Pos} (h : caughtPos b = some l) : b = caughtText (fun n => l.getD n noPos) := by
  simp only [caughtPos, Option.bind_eq_bind, Option.bind_eq_some_iff, Prod.exists] at h
  obtain ⟨e, p0, p1, p12, h1, f, p2, p3, p4, p11, h2, e', p10, h3, m, p5, p6, p7, p9, h4, p8, h5, h6⟩ := h
  cases h6
  rw [letFive_eq h1, stdCall_eq h2, oneExpr_eq h3, stdCall_eq h4, stringAt_eq h5]
  rfl

set_option maxRecDepth 100000 in
theorem caught_source : ∃ a pos, syntaxAnalysis (bs "let x = 5 std.catch(function() std.import(\"m\") end) x") = some a ∧ a.isOk = true ∧ a.ast = caughtText pos := by
  have h : (match syntaxAnalysis (bs "let x = 5 std.catch(function() std.import(\"m\") end) x") with
    | some a => a.isOk && (caughtPos a.ast).isSome
    | none => false) = true := by decide +kernel
  split at h
  · rename_i a ha
    rw [Bool.and_eq_true, Option.isSome_iff_exists] at h
    obtain ⟨h1, l, h2⟩ := h
    exact ⟨a, _, ha, h1, caughtPos_eq h2⟩
  · cases h

/-- C69 fails without `AllCompleted`: in `let x = 5 std.catch(function() std.import("m") end) x`, if the module `m` panics, the interpreter gives a value
that the text cannot have by names. -/
theorem source_semantics_violated : ∃ src a p w n, syntaxAnalysis src = some a ∧ a.isOk = true ∧ analyze a.ast = .ok p ∧ Vars.Blind w ∧
    ∀ τ, ¬ Src.Runs w n a.ast [] [] ((runProgram w n p [] []).1, τ) := by
  obtain ⟨a, pos, h1, h2, h3⟩ := caught_source
  obtain ⟨⟨a', h1', -, h4⟩, h5⟩ := failed_import_violated
  rw [h1] at h1'
  cases h1'
  refine ⟨_, a, catchProgram, nilWorld, 20, h1, h2, h4, fileWorld_blind _, fun τ h => ?_⟩
  rw [h5, h3] at h
  rcases caught_only 0 pos _ h with ⟨p, x, e⟩ | ⟨e, he⟩
  · cases e
  · cases he

end Hush.Props

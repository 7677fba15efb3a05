import Verif.Lemmas.Places
import Verif.Lemmas.InterpLib

/-!
Where operators, command arguments and library functions panic.
-/

set_option linter.unusedTactic false
set_option linter.unreachableTactic false

namespace Hush
open Spec
variable {P P' : Pos → Prop}

/-! ### Larger sets of positions -/

theorem inUnit_mono (h : ∀ p, P p → P' p) : ∀ {u}, InProgUnit P u → InProgUnit P' u
  | .literal _, _ => trivial
  | .dollar _ _, hu => h _ hu
theorem inPart_mono (h : ∀ p, P p → P' p) {q} (hq : InProgPart P q) : InProgPart P' q := by
  cases q with
  | unit u => exact inUnit_mono h hq
  | collection us => exact fun u hu => inUnit_mono h (hq u hu)
  | _ => trivial
theorem inArg_mono (h : ∀ p, P p → P' p) {a} (ha : InProgArg P a) : InProgArg P' a := ⟨h _ ha.1, fun q hq => inPart_mono h (ha.2 q hq)⟩
theorem inRedir_mono (h : ∀ p, P p → P' p) : ∀ {r}, InProgRedir P r → InProgRedir P' r
  | .output _ (.fd _), _ => trivial
  | .output _ (.overwrite _), hr => inArg_mono h hr
  | .output _ (.append _), hr => inArg_mono h hr
  | .input _ _, hr => inArg_mono h hr
theorem inBasic_mono (h : ∀ p, P p → P' p) {c} (hc : InProgBasic P c) : InProgBasic P' c :=
  ⟨h _ hc.1, inArg_mono h hc.2.1, fun e he => ⟨inUnit_mono h (hc.2.2.1 e he).1, inArg_mono h (hc.2.2.1 e he).2⟩,
    fun a ha => inArg_mono h (hc.2.2.2.1 a ha), fun r hr => inRedir_mono h (hc.2.2.2.2 r hr)⟩
theorem inCommand_mono (h : ∀ p, P p → P' p) : ∀ {c}, InProgCommand P c → InProgCommand P' c
  | .builtin _ _ _ _, hc => ⟨h _ hc.1, fun a ha => inArg_mono h (hc.2 a ha)⟩
  | .external _ _, hc => ⟨inBasic_mono h hc.1, fun a ha => inBasic_mono h (hc.2 a ha)⟩
theorem inBlock_mono (h : ∀ p, P p → P' p) {b} (hb : InProgBlock P b) : InProgBlock P' b :=
  ⟨inCommand_mono h hb.1, fun a ha => inCommand_mono h (hb.2 a ha)⟩

mutual
theorem inExpr_mono (h : ∀ p, P p → P' p) : ∀ {e}, InExpr P e → InExpr P' e
  | .ident _ _, he => by simp only [InExpr] at he ⊢; exact h _ he
  | .lit _ _, he => by simp only [InExpr] at he ⊢; exact ⟨h _ he.1, inLit_mono h he.2⟩
  | .unary _ _ _, he => by simp only [InExpr] at he ⊢; exact ⟨h _ he.1, inExpr_mono h he.2⟩
  | .binary _ _ _ _, he => by simp only [InExpr] at he ⊢; exact ⟨h _ he.1, inExpr_mono h he.2.1, inExpr_mono h he.2.2⟩
  | .if_ _ _ _ _, he => by simp only [InExpr] at he ⊢; exact ⟨h _ he.1, inExpr_mono h he.2.1, inStmts_mono h he.2.2.1, inStmts_mono h he.2.2.2⟩
  | .access _ _ _, he => by simp only [InExpr] at he ⊢; exact ⟨h _ he.1, inExpr_mono h he.2.1, inExpr_mono h he.2.2⟩
  | .call _ _ _, he => by simp only [InExpr] at he ⊢; exact ⟨h _ he.1, inExpr_mono h he.2.1, inExprs_mono h he.2.2⟩
  | .command _ _, he => by simp only [InExpr] at he ⊢; exact ⟨h _ he.1, inBlock_mono h he.2⟩
theorem inExprs_mono (h : ∀ p, P p → P' p) : ∀ {es}, InExprs P es → InExprs P' es
  | [], _ => by simp only [InExprs]
  | _ :: _, he => by simp only [InExprs] at he ⊢; exact ⟨inExpr_mono h he.1, inExprs_mono h he.2⟩
theorem inFields_mono (h : ∀ p, P p → P' p) : ∀ {es}, InFields P es → InFields P' es
  | [], _ => by simp only [InFields]
  | (_, _) :: _, he => by simp only [InFields] at he ⊢; exact ⟨inExpr_mono h he.1, inFields_mono h he.2⟩
theorem inLit_mono (h : ∀ p, P p → P' p) : ∀ {l}, InLit P l → InLit P' l
  | .array _, hl => by simp only [InLit] at hl ⊢; exact inExprs_mono h hl
  | .dict _, hl => by simp only [InLit] at hl ⊢; exact inFields_mono h hl
  | .function _ _ _, hl => by simp only [InLit] at hl ⊢; exact inStmts_mono h hl
  | .nil, _ | .bool _, _ | .int _, _ | .float _, _ | .byte _, _ | .string _, _ | .ident _, _ => by simp only [InLit]
theorem inStmt_mono (h : ∀ p, P p → P' p) : ∀ {s}, InStmt P s → InStmt P' s
  | .assign (.ident _ _) _, hs => by simp only [InStmt, InLvalue] at hs ⊢; exact ⟨h _ hs.1, inExpr_mono h hs.2⟩
  | .assign (.access _ _ _) _, hs => by
    simp only [InStmt, InLvalue] at hs ⊢; exact ⟨⟨h _ hs.1.1, inExpr_mono h hs.1.2.1, inExpr_mono h hs.1.2.2⟩, inExpr_mono h hs.2⟩
  | .return_ _, hs => by simp only [InStmt] at hs ⊢; exact inExpr_mono h hs
  | .break_, _ => by simp only [InStmt]
  | .while_ _ _, hs => by simp only [InStmt] at hs ⊢; exact ⟨inExpr_mono h hs.1, inStmts_mono h hs.2⟩
  | .for_ _ _ _, hs => by simp only [InStmt] at hs ⊢; exact ⟨inExpr_mono h hs.1, inStmts_mono h hs.2⟩
  | .expr _, hs => by simp only [InStmt] at hs ⊢; exact inExpr_mono h hs
theorem inStmts_mono (h : ∀ p, P p → P' p) : ∀ {ss}, InStmts P ss → InStmts P' ss
  | [], _ => by simp only [InStmts]
  | _ :: _, he => by simp only [InStmts] at he ⊢; exact ⟨inStmt_mono h he.1, inStmts_mono h he.2⟩
end

/-! ### Pure computations -/

/-- The result is fine, and a panic is at a fine position. -/
def PinsTo (P : Pos → Prop) (R : α → Prop) (x : Except Stop α) : Prop := (∀ a, x = .ok a → R a) ∧ ∀ p, x = .error (.panic p) → P p.pos

theorem pinsTo_ok {R : α → Prop} {a} (h : R a) : PinsTo P R (.ok a) := ⟨fun _ h' => by cases h'; exact h, fun _ h' => by cases h'⟩
theorem pinsTo_panic {R : α → Prop} {k p} (h : P p) : PinsTo P R (.error (.panic ⟨k, p⟩)) := ⟨fun _ h' => (by cases h'), fun _ h' => by cases h'; exact h⟩
theorem pinsTo_crash {R : α → Prop} {k} : PinsTo P R (.error (.crash k)) := ⟨fun _ h' => (by cases h'), fun _ h' => by cases h'⟩
theorem pinsTo_timeout {R : α → Prop} : PinsTo P R (.error .timeout) := ⟨fun _ h' => (by cases h'), fun _ h' => by cases h'⟩
theorem pinsTo_map {R : α → Prop} {S : β → Prop} {f : α → β} {x : Except Stop α} (hx : PinsTo P R x) (hf : ∀ a, R a → S (f a)) : PinsTo P S (x.map f) := by
  cases x with
  | ok a => exact pinsTo_ok (hf a (hx.1 a rfl))
  | error e => exact ⟨fun _ h => (by cases h), fun p h => by cases h; exact hx.2 p rfl⟩
theorem pinsTo_error {R : α → Prop} {S : β → Prop} {x : Except Stop α} {e} (hx : PinsTo P R x) (h : x = .error e) : PinsTo P S (.error e) := by
  subst h
  exact ⟨fun _ h => (by cases h), fun p h => by cases h; exact hx.2 p rfl⟩
theorem pinsTo_collect {R : α → Prop} {S : β → Prop} {f : α → Except Stop β} (hf : ∀ a, R a → PinsTo P S (f a)) : ∀ {l : List α}, (∀ a ∈ l, R a) →
    PinsTo P (fun bs => ∀ b ∈ bs, S b) (collect f l)
  | [], _ => pinsTo_ok (by simp)
  | x :: xs, h => by
    rw [List.forall_mem_cons] at h
    have h1 := hf x h.1
    have h2 := pinsTo_collect hf h.2
    unfold collect
    split
    · rename_i e he; exact pinsTo_error h1 he
    · rename_i y hy
      split
      · rename_i e he; exact pinsTo_error h2 he
      · rename_i ys hys; exact pinsTo_ok (List.forall_mem_cons.2 ⟨h1.1 y hy, h2.1 ys hys⟩)

theorem pins_basicValue {env v p} (h : P p) : PinsTo P (fun _ => True) (buildBasicValue env v p) := by
  unfold buildBasicValue
  split <;> first | exact pinsTo_ok trivial | exact pinsTo_panic h

theorem pins_get {env : ArgEnv} {s} : PinsTo P (fun _ => True) (env.get s) := by
  unfold ArgEnv.get
  split
  · exact pinsTo_ok trivial
  · exact pinsTo_crash

theorem pins_unit {env u} (h : InProgUnit P u) : PinsTo P (fun _ => True) (buildUnit env u) := by
  cases u with
  | literal s => exact pinsTo_ok trivial
  | dollar s p =>
    simp only [buildUnit]
    split
    · rename_i e he; exact pinsTo_error (pins_get (P := P)) he
    · exact pins_basicValue h

theorem pins_part {env as q} (h : InProgPart P q) : PinsTo P (fun _ => True) (addPart env as q) := by
  unfold addPart
  split
  · exact pinsTo_ok trivial
  · split
    · rename_i e he; exact pinsTo_error (pins_get (P := P)) he
    · split
      · rename_i e he
        exact pinsTo_error (pinsTo_collect (R := fun _ => True) (S := fun _ => True) (fun a _ => pins_basicValue (P := P) h) (fun _ _ => trivial)) he
      · exact pinsTo_ok trivial
    · split
      · rename_i e he; exact pinsTo_error (pins_basicValue (P := P) h) he
      · exact pinsTo_ok trivial
  · exact pinsTo_ok trivial
  · exact pinsTo_ok trivial
  · split
    · rename_i e he; exact pinsTo_error (pinsTo_collect (fun a ha => pins_unit ha) h) he
    · exact pinsTo_ok trivial
  · exact pinsTo_ok trivial
  · exact pinsTo_ok trivial
  · exact pinsTo_ok trivial

theorem pins_parts {env} : ∀ {as qs}, (∀ q ∈ qs, InProgPart P q) → PinsTo P (fun _ => True) (addParts env as qs)
  | _, [], _ => pinsTo_ok trivial
  | _, q :: qs, h => by
    rw [List.forall_mem_cons] at h
    unfold addParts
    split
    · rename_i e he; exact pinsTo_error (pins_part h.1) he
    · exact pins_parts h.2

theorem pins_argument {env a} (h : InProgArg P a) : PinsTo P (fun _ => True) (buildArgument env a) := by
  unfold buildArgument
  split
  · rename_i e he; exact pinsTo_error (pins_parts h.2) he
  · exact pinsTo_ok trivial

theorem pins_single {env o a} (h : InProgArg P a) : PinsTo P (fun _ => True) (buildSingle env o a) := by
  unfold buildSingle
  split
  · rename_i e he; exact pinsTo_error (pins_argument h) he
  · split
    · exact pinsTo_panic h.1
    · split
      · exact pinsTo_ok trivial
      · exact pinsTo_panic h.1

theorem pins_arguments {env as} (h : ∀ a ∈ as, InProgArg P a) : PinsTo P (fun _ => True) (buildArguments env as) := by
  unfold buildArguments
  split
  · rename_i e he; exact pinsTo_error (pinsTo_collect (fun a ha => pins_argument ha) h) he
  · exact pinsTo_ok trivial

theorem pins_envItem {env e} (h : InProgUnit P e.1 ∧ InProgArg P e.2) : PinsTo P (fun _ => True) (buildEnvItem env e) := by
  unfold buildEnvItem
  split
  · rename_i e he; exact pinsTo_error (pins_unit h.1) he
  · split
    · rename_i e he; exact pinsTo_error (pins_single h.2) he
    · exact pinsTo_ok trivial

theorem pins_redirection {env r} (h : InProgRedir P r) : PinsTo P (fun _ => True) (buildRedirection env r) := by
  cases r with
  | output s t =>
    refine pinsTo_map (R := fun _ => True) ?_ fun _ _ => trivial
    cases t with
    | fd n => exact pinsTo_ok trivial
    | overwrite a => exact pinsTo_map (pins_single h) fun _ _ => trivial
    | append a => exact pinsTo_map (pins_single h) fun _ _ => trivial
  | input l a => exact pinsTo_map (pins_single h) fun _ _ => trivial

theorem pins_basic {env c} (h : InProgBasic P c) : PinsTo P (fun c => P c.pos) (buildBasicCommand env c) := by
  obtain ⟨h1, h2, h3, h4, h5⟩ := h
  unfold buildBasicCommand
  split
  · rename_i e he; exact pinsTo_error (pins_single h2) he
  · split
    · rename_i e he; exact pinsTo_error (pinsTo_collect (fun a ha => pins_envItem ha) h3) he
    · split
      · rename_i e he; exact pinsTo_error (pins_arguments h4) he
      · split
        · rename_i e he; exact pinsTo_error (pinsTo_collect (fun a ha => pins_redirection ha) h5) he
        · exact pinsTo_ok h1

theorem pins_command {env c} (h : InProgCommand P c) : PinsTo P (fun c => ∀ p ∈ commandMarks c, P p) (buildCommand env c) := by
  cases c with
  | builtin b as x p => exact pinsTo_map (pins_arguments h.2) fun _ _ => by simpa [commandMarks] using h.1
  | external hd tl =>
    simp only [buildCommand]
    split
    · rename_i e he; exact pinsTo_error (pins_basic h.1) he
    · rename_i c hc
      have h1 := (pins_basic h.1).1 c hc
      refine pinsTo_map (pinsTo_collect (fun a ha => pins_basic ha) h.2) fun cs hcs => ?_
      intro p hp
      simp only [commandMarks, List.mem_cons, List.mem_map] at hp
      rcases hp with rfl | ⟨c, hc, rfl⟩
      · exact h1
      · exact hcs c hc

theorem pins_block {env} {b : Prog.CommandBlock} (h : InProgBlock P b) : PinsTo P (fun b => ∀ p ∈ blockMarks b, P p) (buildBlock env b.head b.tail) := by
  unfold buildBlock
  split
  · rename_i e he; exact pinsTo_error (pins_command h.1) he
  · rename_i c hc
    have h1 := (pins_command h.1).1 c hc
    refine pinsTo_map (pinsTo_collect (fun a ha => pins_command ha) h.2) fun cs hcs => ?_
    intro p hp
    simp only [blockMarks, List.flatMap_cons, List.mem_append, List.mem_flatMap] at hp
    rcases hp with hp | ⟨c, hc, hp⟩
    · exact h1 p hp
    · exact hcs c hc p hp

/-! ### Operators -/

theorem pins_deep {o : Option α} : PinsTo P (fun _ => True) (M.deep o) := by
  cases o with
  | none => exact pinsTo_timeout
  | some a => exact pinsTo_ok trivial
theorem pins_arith {w : World} {i} : PinsTo P (fun _ => True) (w.arith i) := by
  unfold World.arith
  split
  · exact pinsTo_ok trivial
  · split
    · exact pinsTo_crash
    · exact pinsTo_ok trivial
theorem pins_unary {w op v p} (h : P p) : PinsTo P (fun _ => True) (unaryValue w op v p) := by
  unfold unaryValue
  split <;> first | exact pinsTo_ok trivial | exact pinsTo_panic h | exact pinsTo_map pins_arith fun _ _ => trivial
theorem pins_short {op v p} (h : P p) : PinsTo P (fun _ => True) (shortCircuit op v p) := by
  unfold shortCircuit
  split
  · split <;> exact pinsTo_ok trivial
  · exact pinsTo_panic h
theorem pins_strict {w h n op p l lp r rp} (h1 : P p) (h2 : P lp) (h3 : P rp) : PinsTo P (fun _ => True) (strictValue w h n op p l lp r rp) := by
  unfold strictValue
  split
  · unfold arithValue
    split
    · split
      · exact pinsTo_ok trivial
      · exact pinsTo_panic h1
    all_goals first | exact pinsTo_ok trivial | exact pinsTo_panic h2 | exact pinsTo_panic h3
  · split
    · unfold ordValue
      split <;> first | exact pinsTo_ok trivial | exact pinsTo_panic h2 | exact pinsTo_panic h3
    · split
      · exact pinsTo_map pins_deep fun _ _ => trivial
      · split
        · exact pinsTo_map pins_deep fun _ _ => trivial
        · unfold concatValue
          split <;> first | exact pinsTo_ok trivial | exact pinsTo_panic h2 | exact pinsTo_panic h3
theorem pins_bounds {r v p} (h : P p) : PinsTo P (fun _ => True) (orOutOfBounds r v p) := by
  unfold orOutOfBounds
  split
  · exact pinsTo_ok trivial
  · exact pinsTo_panic h
theorem pins_access {h n o op f fp} (h1 : P op) (h2 : P fp) : PinsTo P (fun _ => True) (accessValue h n o op f fp) := by
  unfold accessValue
  split
  · split
    · exact pinsTo_timeout
    · exact pins_bounds h2
  all_goals first | exact pins_bounds h2 | exact pinsTo_panic h2 | exact pinsTo_panic h1
theorem pins_assign {h n o op f fp v p} (h1 : P op) (h2 : P fp) (h3 : P p) :
    PinsTo P (fun h' => h'.closures = h.closures) (assignValue h n o op f fp v p) := by
  refine ⟨fun h' he => (assignValue_keeps he).closures, ?_⟩
  refine And.right (a := ∀ a, _ = Except.ok a → True) (?_ : PinsTo P (fun _ => True) (assignValue h n o op f fp v p))
  unfold assignValue
  repeat' split
  all_goals first
    | exact pinsTo_timeout | exact pinsTo_crash | exact pinsTo_ok trivial
    | exact pinsTo_panic h2 | exact pinsTo_panic h1 | exact pinsTo_panic h3
theorem pins_next {h n v p} (h1 : P p) : PinsTo P (fun _ => True) (nextValue h n v p) := by
  unfold nextValue
  repeat' split
  all_goals first
    | exact pinsTo_timeout | exact pinsTo_crash | exact pinsTo_ok trivial
    | exact pinsTo_panic h1

/-! ### The library -/

/-- A library function panics at the call. -/
def LibHere (pos : Pos) (r : LibRes) : Prop := ∀ p, r = some (.error (.panic p)) → p.pos = pos

theorem libHere_none {pos} : LibHere pos none := nofun
theorem libHere_ok {pos x} : LibHere pos (some (.ok x)) := nofun
theorem libHere_panic {c : LibCall} {k} : LibHere c.pos (c.panic k) := fun p h => by cases h; rfl
theorem libHere_type {c : LibCall} {v e} : LibHere c.pos (c.type v e) := libHere_panic
theorem libHere_arity {c : LibCall} {n} : LibHere c.pos (c.arity n) := libHere_panic
theorem libHere_ret {pos} {c : LibCall} {h v} : LibHere pos (c.ret h v) := libHere_ok
theorem libHere_timeout {pos} {c : LibCall} : LibHere pos c.timeout := nofun
theorem libHere_crash {pos} {c : LibCall} {k} : LibHere pos (c.crash k) := nofun
theorem libHere_exit {pos k} : LibHere pos (some (.error (.exit k))) := nofun
theorem libHere_arith {w : World} {pos i e} (h : w.arith i = .error e) : LibHere pos (some (.error e)) := by
  intro p hp
  cases hp
  unfold World.arith at h
  split at h
  · cases h
  · split at h <;> cases h

/-- Closes `LibHere` goals. -/
macro "lib_here" : tactic =>
  `(tactic| first
    | exact libHere_none
    | exact libHere_ok
    | exact libHere_panic
    | exact libHere_type
    | exact libHere_arity
    | exact libHere_ret
    | exact libHere_timeout
    | exact libHere_crash
    | exact libHere_exit
    | exact libHere_arith (by assumption)
    | (intro p hp; cases hp; rfl)
    | (intro p hp; cases hp; done))

theorem libHere_call (w : World) (name : Bytes) (c : LibCall) (h : Heap) : LibHere c.pos (Lib.call w name c h) := by
  simp only [Lib.call]
  split
  · rename_i f hf
    have hm : ∃ n, (n, f) ∈ Lib.table := by
      refine ⟨name, ?_⟩
      revert hf
      generalize Lib.table = l
      induction l with
      | nil => simp
      | cons q l ih =>
        intro hf
        rw [List.lookup_cons] at hf
        split at hf
        · rename_i hq
          simp only [beq_iff_eq] at hq
          simp only [Option.some.injEq] at hf
          subst hf; subst hq
          simp
        · exact List.mem_cons_of_mem _ (ih hf)
    obtain ⟨n, hm⟩ := hm
    clear hf
    have h0 : ∀ q ∈ Lib.table, LibHere c.pos (q.2 w c h) := by
      simp only [Lib.table, List.forall_mem_cons, List.not_mem_nil, false_imp_iff, implies_true, and_true]
      repeat' apply And.intro
      all_goals simp only [Lib.assert, Lib.args, Lib.bind, Lib.bytes, Lib.contains, Lib.error, Lib.exit, Lib.hasError, Lib.hexEncodeFun, Lib.hexDecodeFun,
        Lib.b64EncodeFun, Lib.b64DecodeFun, Lib.int, Lib.isEmpty, Lib.iter, Lib.iterImpl, Lib.len, Lib.panic, Lib.pop, Lib.push, Lib.range, Lib.rangeImpl,
        Lib.replace, Lib.sort, Lib.split, Lib.substr, Lib.substrOf, Lib.toStringFun, Lib.type, Lib.typecheck, Lib.tryTypecheck, Lib.trim, Lib.jsonEncode,
        Lib.jsonDecode, Lib.float, Lib.text1, Lib.regexReplace, Lib.export_, Lib.noArgs, Lib.randint, Lib.randseed, Lib.sleep, Lib.read]
      all_goals repeat' split
      all_goals lib_here
    exact h0 _ hm
  · exact libHere_none

end Hush

import Verif.Lemmas.InterpLimit

/-!
The interpreter obeys the rules of `Verif/Spec/Evaluation.lean`.
-/

namespace Hush
open Spec

theorem mono_typed_right (w : World) (m : Nat) (b : Prog.Expr) (pos : Pos) : Mono (fun n => (do
    let o ← run w n (.expr m none b)
    o.regular pos fun v vpos _ =>
      match v with
      | .bool b => pure (.value (.bool b) pos)
      | v => M.panic (.typeError v (bs "bool")) vpos : M Out)) :=
  (Mono.run w _).bind (fun _ => .const _)

theorem lim_right (w : World) (m : Nat) (b : Prog.Expr) (pos : Pos) (s r s') : Lim (fun n => (do
    let o ← run w n (.expr m none b)
    o.regular pos fun v vpos _ =>
      match v with
      | .bool b => pure (.value (.bool b) pos)
      | v => M.panic (.typeError v (bs "bool")) vpos : M Out)) s r s' ↔
    (∃ x q obj, Yields w m b s (.bool x) q obj s' ∧ r = done (.bool x) pos) ∨
    (∃ v q obj, Yields w m b s v q obj s' ∧ (∀ x, v ≠ .bool x) ∧ r = typeError v (bs "bool") q) ∨
    (∃ r', r = passed pos r' ∧ Leaving r' ∧ Eval w m b s r' s') := by
  rw [lim_value]
  case hk => exact fun _ _ _ => .const _
  constructor
  · rintro (⟨v, p, x, s1, h1, h2⟩ | ⟨r', rfl, h, h1⟩)
    · cases v with
      | bool y =>
        rw [lim_pure] at h2
        obtain ⟨rfl, rfl⟩ := h2
        exact .inl ⟨y, p, x, h1, rfl⟩
      | _ =>
        rw [lim_panic] at h2
        obtain ⟨rfl, rfl⟩ := h2
        exact .inr (.inl ⟨_, p, x, h1, (fun _ h => by cases h), rfl⟩)
    · exact .inr (.inr ⟨r', rfl, h, h1⟩)
  · rintro (⟨x, q, obj, h, rfl⟩ | ⟨v, q, obj, h, hv, rfl⟩ | ⟨r', rfl, h, h1⟩)
    · exact .inl ⟨_, _, _, _, h, lim_pure.2 ⟨rfl, rfl⟩⟩
    · refine .inl ⟨_, _, _, _, h, ?_⟩
      cases v with
      | bool y => exact absurd rfl (hv y)
      | _ => exact lim_panic.2 ⟨rfl, rfl⟩
    · exact .inr ⟨r', rfl, h, h1⟩

theorem ends_logical {w : World} {m : Nat} {tail : Option Nat} {op : BinOp} {a b : Prog.Expr} {pos : Pos} {s r s'}
    (hop : op = .and ∨ op = .or) :
    Ends w (.expr m tail (.binary a op b pos)) s r s' ↔ Logical w m (op == .or) a b pos s r s' := by
  rw [ends_iff]
  simp only [step, stepExpr, hop, if_true]
  rw [lim_value]
  case hk =>
    intro v p x
    refine Mono.bind (.const _) (fun o => ?_)
    cases o with
    | some v => exact .const _
    | none => exact mono_typed_right w m b pos
  constructor
  · rintro (⟨v, p, x, s1, h1, h2⟩ | ⟨r', rfl, h, h1⟩)
    · cases v with
      | bool y =>
        by_cases hd : y = (op == .or)
        · have : shortCircuit op (.bool y) p = .ok (some (.bool y)) := by
            rcases hop with rfl | rfl <;> rw [hd] <;> rfl
          rw [this] at h2
          have h2' : Lim (fun _ => (pure (.value (.bool y) pos) : M Out)) s1 r s' := h2
          rw [lim_pure] at h2'
          obtain ⟨rfl, rfl⟩ := h2'
          rw [hd] at h1 ⊢
          exact .decided h1
        · have hy : y = !(op == .or) := by revert hd; cases y <;> cases (op == .or) <;> simp
          have : shortCircuit op (.bool y) p = .ok none := by
            rcases hop with rfl | rfl <;> rw [hy] <;> rfl
          rw [this] at h2
          have h2' := (lim_right w m b pos s1 r s').1 h2
          rw [hy] at h1
          rcases h2' with ⟨z, q, obj, h, rfl⟩ | ⟨v, q, obj, h, hv, rfl⟩ | ⟨r', rfl, h, h'⟩
          · exact .right h1 h
          · exact .rightType h1 h hv
          · exact .rightLeaves h1 h' h
      | _ =>
        have h2' : Lim (fun _ => (M.panic _ p : M Out)) s1 r s' := h2
        rw [lim_panic] at h2'
        obtain ⟨rfl, rfl⟩ := h2'
        exact .leftType h1 (fun _ h => by cases h)
    · exact .leftLeaves h1 h
  · intro h
    cases h with
    | leftLeaves h hl => exact .inr ⟨_, rfl, hl, h⟩
    | leftType h hv =>
      rename_i v p obj
      refine .inl ⟨_, _, _, _, h, ?_⟩
      cases v with
      | bool y => exact absurd rfl (hv y)
      | _ => exact lim_panic.2 ⟨rfl, rfl⟩
    | decided h =>
      rename_i p obj
      refine .inl ⟨_, _, _, _, h, ?_⟩
      have : shortCircuit op (.bool (op == .or)) p = .ok (some (.bool (op == .or))) := by
        rcases hop with rfl | rfl <;> rfl
      rw [this]
      exact lim_pure.2 ⟨rfl, rfl⟩
    | rightLeaves h h' hl =>
      rename_i p _ _ _
      refine .inl ⟨_, _, _, _, h, ?_⟩
      have : shortCircuit op (.bool !(op == .or)) p = .ok none := by rcases hop with rfl | rfl <;> rfl
      rw [this]
      exact (lim_right w m b pos _ _ _).2 (.inr (.inr ⟨_, rfl, hl, h'⟩))
    | rightType h h' hv =>
      rename_i p _ _ _ _ _
      refine .inl ⟨_, _, _, _, h, ?_⟩
      have : shortCircuit op (.bool !(op == .or)) p = .ok none := by rcases hop with rfl | rfl <;> rfl
      rw [this]
      exact (lim_right w m b pos _ _ _).2 (.inr (.inl ⟨_, _, _, h', hv, rfl⟩))
    | right h h' =>
      rename_i p _ _ _ _ _
      refine .inl ⟨_, _, _, _, h, ?_⟩
      have : shortCircuit op (.bool !(op == .or)) p = .ok none := by rcases hop with rfl | rfl <;> rfl
      rw [this]
      exact (lim_right w m b pos _ _ _).2 (.inl ⟨_, _, _, h', rfl⟩)

theorem lim_reads {f : Nat → Heap → Except Stop α} (hf : ∀ n n', n ≤ n' → ∀ x, ELe (f n x) (f n' x)) {s r s'} :
    Lim (fun n => M.reads (f n)) s r s' ↔ s' = s ∧ r ≠ .error .timeout ∧ ∃ n, f n s.heap = r := by
  constructor
  · rintro ⟨hr, N, hN⟩
    have := hN N (Nat.le_refl _)
    cases this
    exact ⟨rfl, hr, N, rfl⟩
  · rintro ⟨rfl, hr, n, rfl⟩
    exact (Mono.reads hf).lim rfl hr

theorem lim_result {f : Nat → Heap → Except Stop Value} (hf : ∀ n n', n ≤ n' → ∀ x, ELe (f n x) (f n' x)) {k : Value → Out} {s r s'} :
    Lim (fun n => (do let v ← M.reads (f n); pure (k v) : M Out)) s r s' ↔
      s' = s ∧ ((∃ n v, f n s.heap = .ok v ∧ r = .ok (k v)) ∨ (∃ n e, f n s.heap = .error e ∧ e ≠ .timeout ∧ r = .error e)) := by
  rw [lim_bind (Mono.reads hf)]
  case hf => exact fun _ => .const _
  constructor
  · rintro (⟨v, s1, h1, h2⟩ | ⟨e, rfl, h⟩)
    · obtain ⟨rfl, _, n, hn⟩ := (lim_reads hf).1 h1
      obtain ⟨rfl, rfl⟩ := lim_pure.1 h2
      exact ⟨rfl, .inl ⟨n, v, hn, rfl⟩⟩
    · obtain ⟨rfl, hr, n, hn⟩ := (lim_reads hf).1 h
      exact ⟨rfl, .inr ⟨n, e, hn, (fun h => hr (by rw [h])), rfl⟩⟩
  · rintro ⟨rfl, ⟨n, v, hn, rfl⟩ | ⟨n, e, hn, he, rfl⟩⟩
    · exact .inl ⟨v, _, (lim_reads hf).2 ⟨rfl, nofun, n, hn⟩, lim_pure.2 ⟨rfl, rfl⟩⟩
    · exact .inr ⟨e, rfl, (lim_reads hf).2 ⟨rfl, (fun h => he (by cases h; rfl)), n, hn⟩⟩

theorem mono_result {f : Nat → Heap → Except Stop Value} (hf : ∀ n n', n ≤ n' → ∀ x, ELe (f n x) (f n' x)) {k : Value → Out} :
    Mono (fun n => (do let v ← M.reads (f n); pure (k v) : M Out)) := (Mono.reads hf).bind (fun _ => .const _)

theorem ends_strict {w : World} {m : Nat} {tail : Option Nat} {op : BinOp} {a b : Prog.Expr} {pos : Pos} {s r s'}
    (h1 : op ≠ .and) (h2 : op ≠ .or) :
    Ends w (.expr m tail (.binary a op b pos)) s r s' ↔ Strict w m (Applies w op pos) a b pos s r s' := by
  rw [ends_iff]
  have hop : ¬(op = .and ∨ op = .or) := fun h => h.elim h1 h2
  simp only [step, stepExpr, hop, if_false]
  have hs : ∀ (v p v' p') (n n' : Nat), n ≤ n' → ∀ h, ELe (strictValue w h n op pos v p v' p') (strictValue w h n' op pos v p v' p') :=
    fun v p v' p' n n' hn h => strictValue_mono w h hn op pos v p v' p'
  rw [lim_value (fun v p x => (Mono.run w _).bind (fun o => Mono.regular o pos (fun v' p' _ => mono_result (hs v p v' p'))))]
  constructor
  · rintro (⟨v, p, x, s1, h1, h2⟩ | ⟨r', rfl, h, h1⟩)
    · rw [lim_value (fun v' p' _ => mono_result (hs v p v' p'))] at h2
      rcases h2 with ⟨v', p', x', s2, h2, h3⟩ | ⟨r', rfl, h, h2⟩
      · rw [lim_result (hs v p v' p')] at h3
        obtain ⟨rfl, ⟨n, y, hn, rfl⟩ | ⟨n, e, hn, he, rfl⟩⟩ := h3
        · exact .value h1 h2 ⟨nofun, n, hn⟩
        · exact .stops h1 h2 ⟨(fun h => he (by cases h; rfl)), n, hn⟩
      · exact .rightLeaves h1 h2 h
    · exact .leftLeaves h1 h
  · intro h
    cases h with
    | leftLeaves h hl => exact .inr ⟨_, rfl, hl, h⟩
    | rightLeaves h h' hl =>
      rename_i v p _ _ _
      refine .inl ⟨_, _, _, _, h, (lim_value (fun v' p' _ => mono_result (hs v p v' p'))).2 (.inr ⟨_, rfl, hl, h'⟩)⟩
    | value h h' hf =>
      obtain ⟨_, n, hn⟩ := hf
      exact .inl ⟨_, _, _, _, h, (lim_value (fun v' p' _ => mono_result (hs _ _ v' p'))).2 (.inl ⟨_, _, _, _, h',
        (lim_result (hs _ _ _ _)).2 ⟨rfl, .inl ⟨n, _, hn, rfl⟩⟩⟩)⟩
    | stops h h' hf =>
      obtain ⟨he, n, hn⟩ := hf
      exact .inl ⟨_, _, _, _, h, (lim_value (fun v' p' _ => mono_result (hs _ _ v' p'))).2 (.inl ⟨_, _, _, _, h',
        (lim_result (hs _ _ _ _)).2 ⟨rfl, .inr ⟨n, _, hn, (fun h => he (by rw [h])), rfl⟩⟩⟩)⟩

/-! ### Lists of expressions -/

theorem ends_items {w : World} {m : Nat} {es : List Prog.Expr} {acc : List Value} {s r s'} :
    Ends w (.items m es acc) s r s' ↔
      (∃ vs s1, InOrder w m hold es s vs s1 ∧ r = done (s1.heap.newArray (acc ++ vs)).1 noPos ∧
        s' = { s1 with heap := (s1.heap.newArray (acc ++ vs)).2 }) ∨
      (∃ r', UpTo w m hold es s r' s' ∧ r = passed noPos r') := by
  induction es generalizing acc s with
  | nil =>
    rw [ends_iff]
    simp only [step]
    constructor
    · rintro ⟨_, N, hN⟩
      have := hN N (Nat.le_refl _)
      cases this
      exact .inl ⟨[], s, .nil s, by rw [List.append_nil]; rfl, by rw [List.append_nil]; rfl⟩
    · rintro (⟨vs, s1, h, rfl, rfl⟩ | ⟨r', h, _⟩)
      · cases h
        exact ⟨nofun, 0, fun _ _ => by rw [List.append_nil]; rfl⟩
      · cases h
  | cons e es ih =>
    rw [ends_iff]
    simp only [step]
    rw [lim_value (fun v _ _ => Mono.run w _)]
    simp only [← ends_iff_run, ih]
    constructor
    · rintro (⟨v, p, x, s1, h1, ⟨vs, s2, h2, rfl, rfl⟩ | ⟨r', h2, rfl⟩⟩ | ⟨r', rfl, h, h1⟩)
      · exact .inl ⟨v :: vs, s2, .cons h1 h2, by rw [List.append_assoc]; rfl, by rw [List.append_assoc]; rfl⟩
      · exact .inr ⟨r', .later h1 h2, rfl⟩
      · exact .inr ⟨r', .here h1 h, rfl⟩
    · rintro (⟨vs, s1, h, rfl, rfl⟩ | ⟨r', h, rfl⟩)
      · cases h with
        | cons h1 h2 =>
          rename_i v pos obj s2 vs
          exact .inl ⟨v, _, _, _, h1, .inl ⟨vs, s1, h2, by rw [List.append_assoc]; rfl, by rw [List.append_assoc]; rfl⟩⟩
      · cases h with
        | here h hl => exact .inr ⟨_, rfl, hl, h⟩
        | later h1 h2 => exact .inl ⟨_, _, _, _, h1, .inr ⟨_, h2, rfl⟩⟩

theorem passed_passed (p q : Pos) (r : Except Stop Out) : passed p (passed q r) = passed p r := by cases r <;> rfl

theorem passed_ne {p : Pos} {r : Except Stop Out} (h : r ≠ .error .timeout) : passed p r ≠ .error .timeout := by
  cases r with
  | ok o => exact nofun
  | error e => exact fun h' => h (by cases h'; rfl)

/-- The outcome of a part is passed on. -/
theorem lim_passed {w : World} {t : Task} {pos : Pos} {s r s'} :
    Lim (fun n => (do let o ← run w n t; pure ⟨o.flow, pos, .nil⟩ : M Out)) s r s' ↔ ∃ r', Ends w t s r' s' ∧ r = passed pos r' := by
  rw [lim_task]
  case hf => exact fun _ => .const _
  constructor
  · rintro (⟨o, s1, h1, h2⟩ | ⟨e, rfl, h⟩)
    · obtain ⟨rfl, rfl⟩ := lim_pure.1 h2
      exact ⟨_, h1, rfl⟩
    · exact ⟨_, h, rfl⟩
  · rintro ⟨r', h, rfl⟩
    cases r' with
    | ok o => exact .inl ⟨o, s', h, lim_pure.2 ⟨rfl, rfl⟩⟩
    | error e => exact .inr ⟨e, rfl, h⟩

theorem mono_passed (w : World) (t : Task) (pos : Pos) :
    Mono (fun n => (do let o ← run w n t; pure ⟨o.flow, pos, .nil⟩ : M Out)) := (Mono.run w t).bind (fun _ => .const _)

theorem ends_array {w : World} {m : Nat} {tail : Option Nat} {es : List Prog.Expr} {pos : Pos} {s r s'} :
    Ends w (.expr m tail (.lit (.array es) pos)) s r s' ↔
      (∃ vs s1, InOrder w m hold es s vs s1 ∧ r = done (s1.heap.newArray vs).1 pos ∧
        s' = { s1 with heap := (s1.heap.newArray vs).2 }) ∨
      (∃ r', UpTo w m hold es s r' s' ∧ r = passed pos r') := by
  rw [ends_iff]
  simp only [step, stepExpr, stepLit]
  rw [lim_passed]
  simp only [ends_items, List.nil_append]
  constructor
  · rintro ⟨r', ⟨vs, s1, h, rfl, rfl⟩ | ⟨r', h, rfl⟩, rfl⟩
    · exact .inl ⟨vs, s1, h, rfl, rfl⟩
    · exact .inr ⟨r', h, passed_passed _ _ _⟩
  · rintro (⟨vs, s1, h, rfl, rfl⟩ | ⟨r', h, rfl⟩)
    · exact ⟨_, .inl ⟨vs, s1, h, rfl, rfl⟩, rfl⟩
    · exact ⟨_, .inr ⟨r', h, rfl⟩, (passed_passed _ _ _).symm⟩

/-- The entries of a dict literal: a later entry replaces the value of an earlier one with the same key. -/
def entries : List Sym → List Value → List (Value × Value) → List (Value × Value)
  | k :: ks, v :: vs, acc => entries ks vs (fieldInsert k v acc)
  | _, _, acc => acc

theorem ends_fields {w : World} {m : Nat} {fs : List (Sym × Prog.Expr)} {acc : List (Value × Value)} {s r s'} :
    Ends w (.fields m fs acc) s r s' ↔
      (∃ vs s1, InOrder w m hold (fs.map Prod.snd) s vs s1 ∧ r = done (s1.heap.newDict (entries (fs.map Prod.fst) vs acc)).1 noPos ∧
        s' = { s1 with heap := (s1.heap.newDict (entries (fs.map Prod.fst) vs acc)).2 }) ∨
      (∃ r', UpTo w m hold (fs.map Prod.snd) s r' s' ∧ r = passed noPos r') := by
  induction fs generalizing acc s with
  | nil =>
    rw [ends_iff]
    simp only [step]
    constructor
    · rintro ⟨_, N, hN⟩
      have := hN N (Nat.le_refl _)
      cases this
      exact .inl ⟨[], s, .nil s, rfl, rfl⟩
    · rintro (⟨vs, s1, h, rfl, rfl⟩ | ⟨r', h, _⟩)
      · cases h
        exact ⟨nofun, 0, fun _ _ => rfl⟩
      · cases h
  | cons f fs ih =>
    obtain ⟨k, e⟩ := f
    rw [ends_iff]
    simp only [step]
    rw [lim_value (fun v _ _ => Mono.run w _)]
    simp only [← ends_iff_run, ih]
    constructor
    · rintro (⟨v, p, x, s1, h1, ⟨vs, s2, h2, rfl, rfl⟩ | ⟨r', h2, rfl⟩⟩ | ⟨r', rfl, h, h1⟩)
      · exact .inl ⟨v :: vs, s2, .cons h1 h2, rfl, rfl⟩
      · exact .inr ⟨r', .later h1 h2, rfl⟩
      · exact .inr ⟨r', .here h1 h, rfl⟩
    · rintro (⟨vs, s1, h, rfl, rfl⟩ | ⟨r', h, rfl⟩)
      · cases h with
        | cons h1 h2 =>
          rename_i v pos obj s2 vs
          exact .inl ⟨v, _, _, _, h1, .inl ⟨vs, s1, h2, rfl, rfl⟩⟩
      · cases h with
        | here h hl => exact .inr ⟨_, rfl, hl, h⟩
        | later h1 h2 => exact .inl ⟨_, _, _, _, h1, .inr ⟨_, h2, rfl⟩⟩

theorem ends_dict {w : World} {m : Nat} {tail : Option Nat} {fs : List (Sym × Prog.Expr)} {pos : Pos} {s r s'} :
    Ends w (.expr m tail (.lit (.dict fs) pos)) s r s' ↔
      (∃ vs s1, InOrder w m hold (fs.map Prod.snd) s vs s1 ∧ r = done (s1.heap.newDict (entries (fs.map Prod.fst) vs [])).1 pos ∧
        s' = { s1 with heap := (s1.heap.newDict (entries (fs.map Prod.fst) vs [])).2 }) ∨
      (∃ r', UpTo w m hold (fs.map Prod.snd) s r' s' ∧ r = passed pos r') := by
  rw [ends_iff]
  simp only [step, stepExpr, stepLit]
  rw [lim_passed]
  simp only [ends_fields]
  constructor
  · rintro ⟨r', ⟨vs, s1, h, rfl, rfl⟩ | ⟨r', h, rfl⟩, rfl⟩
    · exact .inl ⟨vs, s1, h, rfl, rfl⟩
    · exact .inr ⟨r', h, passed_passed _ _ _⟩
  · rintro (⟨vs, s1, h, rfl, rfl⟩ | ⟨r', h, rfl⟩)
    · exact ⟨_, .inl ⟨vs, s1, h, rfl, rfl⟩, rfl⟩
    · exact ⟨_, .inr ⟨r', h, rfl⟩, (passed_passed _ _ _).symm⟩

/-- The state after arguments that were left with this outcome. -/
def afterArgs (start : Nat) (r : Except Stop Out) (s : RState) : RState :=
  match r with
  | .ok _ => cut start s
  | .error _ => s

theorem upTo_leaving {w : World} {m : Nat} {keep es s r s'} (h : UpTo w m keep es s r s') : Leaving r := by
  induction h with
  | here _ hl => exact hl
  | later _ _ ih => exact ih

theorem ends_args {w : World} {m : Nat} {es : List Prog.Expr} {start : Nat} {s r s'} :
    Ends w (.args m es start) s r s' ↔
      (∃ vs, InOrder w m push es s vs s' ∧ r = done .nil noPos) ∨
      (∃ r' s1, UpTo w m push es s r' s1 ∧ r = passed noPos r' ∧ s' = afterArgs start r' s1) := by
  induction es generalizing s with
  | nil =>
    rw [ends_iff]
    simp only [step]
    rw [lim_pure]
    constructor
    · rintro ⟨rfl, rfl⟩
      exact .inl ⟨[], .nil _, rfl⟩
    · rintro (⟨vs, h, rfl⟩ | ⟨r', s1, h, _⟩)
      · cases h; exact ⟨rfl, rfl⟩
      · cases h
  | cons e es ih =>
    rw [ends_iff]
    simp only [step]
    rw [lim_task]
    · constructor
      · rintro (⟨⟨f, p, x⟩, s1, h1, h2⟩ | ⟨e, rfl, h⟩)
        · cases f with
          | regular v =>
            have h2' : Ends w (.args m es start) (push v s1) r s' := ends_iff_run.2 h2
            rw [ih] at h2'
            rcases h2' with ⟨vs, h3, rfl⟩ | ⟨r', s2, h3, rfl, rfl⟩
            · exact .inl ⟨v :: vs, .cons h1 h3, rfl⟩
            · exact .inr ⟨r', s2, .later h1 h3, rfl, rfl⟩
          | return_ v =>
            have h2 : Lim (fun _ => (pure _ : M Out)) (cut start s1) r s' := h2
            obtain ⟨rfl, rfl⟩ := lim_pure.1 h2
            exact .inr ⟨_, s1, .here h1 (fun _ _ _ h => by cases h), rfl, rfl⟩
          | break_ =>
            have h2 : Lim (fun _ => (pure _ : M Out)) (cut start s1) r s' := h2
            obtain ⟨rfl, rfl⟩ := lim_pure.1 h2
            exact .inr ⟨_, s1, .here h1 (fun _ _ _ h => by cases h), rfl, rfl⟩
        · exact .inr ⟨_, s', .here h (leaving_error e), rfl, rfl⟩
      · rintro (⟨vs, h, rfl⟩ | ⟨r', s1, h, rfl, rfl⟩)
        · cases h with
          | cons h1 h2 =>
            refine .inl ⟨_, _, h1, ?_⟩
            exact ends_iff_run.1 (ih.2 (.inl ⟨_, h2, rfl⟩))
        · cases h with
          | here h hl =>
            cases r' with
            | error e => exact .inr ⟨e, rfl, h⟩
            | ok o =>
              rcases o with ⟨f, p, x⟩
              refine .inl ⟨_, _, h, ?_⟩
              cases f with
              | regular v => exact absurd rfl (hl v p x)
              | return_ v => exact (lim_pure (s := cut start s1)).2 ⟨rfl, rfl⟩
              | break_ => exact (lim_pure (s := cut start s1)).2 ⟨rfl, rfl⟩
          | later h1 h2 =>
            refine .inl ⟨_, _, h1, ?_⟩
            exact ends_iff_run.1 (ih.2 (.inr ⟨_, _, h2, rfl, rfl⟩))
    · rintro ⟨f, p, x⟩
      cases f with
      | regular v => exact Mono.bind (.const _) (fun _ => Mono.run w _)
      | return_ v => exact .const _
      | break_ => exact .const _

theorem ends_calling {w : World} {m : Nat} {f : Prog.Expr} {args : List Prog.Expr} {pos : Pos} {s r s'} :
    Eval w m (.call f args pos) s r s' ↔ Calling w m f args pos s r s' := by
  rw [Eval, ends_iff]
  simp only [step, stepExpr]
  have hc : ∀ (obj : Value) (g : Fn) (k : Nat), Mono (fun n => (do
      tailShrink none
      let o ← run w n (.call m obj g k pos)
      pure ⟨o.flow, pos, .nil⟩ : M Out)) := fun obj g k => Mono.bind (.const _) (fun _ => mono_passed w _ _)
  have ha : ∀ (obj : Value) (g : Fn), Mono (fun n => (do
        let s ← M.get
        let o ← run w n (.args m args s.args.length)
        o.regular pos fun _ _ _ => do
          tailShrink none
          let o ← run w n (.call m obj g s.args.length pos)
          pure ⟨o.flow, pos, .nil⟩ : M Out)) := fun obj g =>
    Mono.bind (.const _) (fun s => (Mono.run w _).bind (fun o => Mono.regular o _ (fun _ _ _ => hc obj g _)))
  rw [lim_value]
  · constructor
    · rintro (⟨v, p, x, s1, h1, h2⟩ | ⟨r', rfl, h, h1⟩)
      · cases v with
        | function g =>
          have h2 := lim_get_bind.1 h2
          rw [lim_value (fun _ _ _ => hc x g _)] at h2
          rcases h2 with ⟨v, p', x', s2, h2, h3⟩ | ⟨r', rfl, hl, h2⟩
          · rw [ends_args] at h2
            rcases h2 with ⟨vs, h5, h4⟩ | ⟨r', s3, h5, h4, _⟩
            · have h3 : Lim (fun n => (do
                  let o ← run w n (.call m x g s1.args.length pos)
                  pure ⟨o.flow, pos, .nil⟩ : M Out)) s2 r s' := h3
              rw [lim_passed] at h3
              obtain ⟨r', h6, rfl⟩ := h3
              exact .call h1 h5 h6
            · have := upTo_leaving h5
              cases r' with
              | error e => cases h4
              | ok o =>
                rcases o with ⟨f, q, y⟩
                cases f with
                | regular u => exact absurd rfl (this u q y)
                | _ => cases h4
          · rw [ends_args] at h2
            rcases h2 with ⟨vs, h5, rfl⟩ | ⟨r'', s3, h5, rfl, rfl⟩
            · exact absurd rfl (hl _ _ _)
            · rw [passed_passed]
              cases r'' with
              | ok o => exact .argumentReturns h1 h5
              | error e => exact .argumentStops h1 h5
        | _ =>
          have h2' : Lim (fun _ => (M.panic _ p : M Out)) s1 r s' := h2
          obtain ⟨rfl, rfl⟩ := lim_panic.1 h2'
          exact .notFunction h1 (fun _ h => by cases h)
      · exact .functionLeaves h1 h
    · intro h
      cases h with
      | functionLeaves h hl => exact .inr ⟨_, rfl, hl, h⟩
      | notFunction h hv =>
        rename_i v p obj
        refine .inl ⟨_, _, _, _, h, ?_⟩
        cases v with
        | function g => exact absurd rfl (hv g)
        | _ => exact lim_panic.2 ⟨rfl, rfl⟩
      | argumentReturns h1 h2 =>
        rename_i g p obj s1 o s2
        refine .inl ⟨_, _, _, _, h1, lim_get_bind.2 ((lim_value (fun _ _ _ => hc obj g _)).2 (.inr ⟨passed noPos (.ok o), rfl, ?_, ?_⟩))⟩
        · have := upTo_leaving h2
          rcases o with ⟨f, q, y⟩
          cases f with
          | regular u => exact absurd rfl (this u q y)
          | _ => exact fun _ _ _ h => by cases h
        · exact ends_args.2 (.inr ⟨_, _, h2, rfl, rfl⟩)
      | argumentStops h1 h2 =>
        rename_i g p obj s1 e
        refine .inl ⟨_, _, _, _, h1, lim_get_bind.2 ((lim_value (fun _ _ _ => hc obj g _)).2 (.inr ⟨.error e, rfl, leaving_error e, ?_⟩))⟩
        exact ends_args.2 (.inr ⟨_, _, h2, rfl, rfl⟩)
      | call h1 h2 h3 =>
        rename_i g p obj s1 vs s2 r'
        refine .inl ⟨_, _, _, _, h1, lim_get_bind.2 ((lim_value (fun _ _ _ => hc obj g _)).2 (.inl ⟨_, _, _, _,
          ends_args.2 (.inl ⟨_, h2, rfl⟩), ?_⟩))⟩
        exact lim_passed.2 ⟨r', h3, rfl⟩
  · intro v p x
    cases v with
    | function g => exact ha x g
    | _ => exact .const _

end Hush

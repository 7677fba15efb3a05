import Verif.Lemmas.SourceAlways

/-!
All outcomes of calls of `std.catch` and `std.import` in the semantics of names.
-/

namespace Hush
open Spec

theorem always_mono {p : Src.NM α} {s P Q} (h : Always p s P) (hq : ∀ r, P r → Q r) : Always p s Q := fun r hr => hq r (h r hr)

theorem always_finally {p : Src.NM α} {f s Q} : Always (Src.finally_ p f) s Q ↔ Always p s (fun r => Q (r.1, { r.2 with base := f r.2.base })) :=
  ⟨fun h r hr => h _ ⟨_, _, hr, rfl⟩, by rintro h r ⟨x, s', h1, rfl⟩; exact h _ h1⟩

/-- If all outcomes are errors, `std.catch` gives a new error value, or stops as well. -/
theorem always_catching {w : World} {p : Src.NM Out} {s Q} (h : Always p s (fun r => ∃ e, r.1 = .error e ∧ Q (.error e, r.2) ∧
      ∀ d, Q (.ok (r.2.base.heap.newError d (.string (bs "panic"))).1,
        { r.2 with base := { r.2.base with heap := (r.2.base.heap.newError d (.string (bs "panic"))).2 } }))) :
    Always (Src.catching w p) s Q := by
  rintro r (⟨o, s', h1, -⟩ | ⟨x, s', h1, rfl⟩ | ⟨e, s', h1, -, rfl⟩)
  · obtain ⟨e, he, -⟩ := h _ h1
    cases he
  · obtain ⟨e, he, -, hq⟩ := h _ h1
    exact hq _
  · obtain ⟨e', he, hq, -⟩ := h _ h1
    cases he
    exact hq

/-- What new variables leave as it was. -/
structure Keeps (s s' : Src.State) : Prop where
  cells : ∀ z, z < s.base.heap.cells.length → s'.base.heap.cell z = s.base.heap.cell z
  size : s.base.heap.cells.length ≤ s'.base.heap.cells.length
  dicts : s'.base.heap.dicts = s.base.heap.dicts
  modules : s'.base.modules = s.base.modules
  std : s'.base.std = s.base.std
  args : s'.base.args = s.base.args
  funs : s'.funs = s.funs

theorem keeps_new {s : Src.State} {size : Nat} :
    Keeps s { s with base := { s.base with heap := { s.base.heap with cells := s.base.heap.cells ++ List.replicate size .nil } } } where
  cells z hz := by
    simp only [Heap.cell, List.getD_eq_getElem?_getD]
    rw [List.getElem?_append_left hz]
  size := by simp
  dicts := rfl
  modules := rfl
  std := rfl
  args := rfl
  funs := rfl

theorem keeps_set {s s' : Src.State} {x v} (h : Keeps s s') (hx : s.base.heap.cells.length ≤ x) :
    Keeps s { s' with base := { s'.base with heap := s'.base.heap.setCell x v } } where
  cells z hz := by
    dsimp only
    rw [setCell_other (by omega)]
    exact h.cells z hz
  size := by simpa [Heap.setCell] using h.size
  dicts := h.dicts
  modules := h.modules
  std := h.std
  args := h.args
  funs := h.funs

section
variable {w : World} {n : Nat} {E : Src.Env} {m : Nat} {s : Src.State} {Q : Except Stop Out × Src.State → Prop}

/-- The first statement of a block, which may fail. -/
theorem always_block_or {st st' rest} (h : Always (Src.first (Src.run w n) E m st) s (fun r => match r with
      | (.ok o, s') => (∃ v, o.flow = .regular v) ∧ Always (Src.run w n (Src.behind E st) (.block m (st' :: rest))) s' Q
      | (.error e, s') => Q (.error e, s'))) :
    Always (Src.run w (n + 1) E (.block m (st :: st' :: rest))) s Q := by
  show Always (Src.first (Src.run w n) E m st >>= fun o => Src.go o noPos fun _ _ _ => Src.run w n _ _) s Q
  rw [always_bind]
  intro r hr
  have := h r hr
  rcases r with ⟨e | o, s'⟩
  · exact this
  · obtain ⟨⟨v, hv⟩, h2⟩ := this
    dsimp only
    unfold Src.go
    rw [hv]
    exact h2

/-- A function of `std`. -/
theorem always_member {x k p q t y d v} (hx : E.names.lookup x = some y) (hy : s.base.heap.cell y = .dict d)
    (ha : ∀ p q, accessValue s.base.heap (n + 1) (.dict d) p (.string k) q = .ok v)
    (h : Q (.ok ⟨.regular v, t, .dict d⟩, s)) :
    Always (Src.run w (n + 2) E (.expr m (.access (.ident x p) (.lit (.ident k) q) t))) s Q := by
  show Always (Src.run w (n + 1) E (.expr m (.ident x p)) >>= fun o => Src.go o t _) s Q
  rw [always_bind, always_ident hx]
  simp only [Src.go, Out.value, hy]
  rw [always_bind]
  have : ∀ E Q, Always (Src.run w (n + 1) E (.expr m (.lit (.ident k) q))) s Q ↔ Q (.ok (.value (.string k) q), s) := fun E Q => always_pure
  rw [this]
  simp only [Out.value]
  rw [always_bind, always_other]
  simp only [M.reads, ha]
  exact always_pure.2 h

/-- A call of a native function with one argument. -/
theorem always_native {f a q name addr pf obj} (hf : ∀ Q : Except Stop Out × Src.State → Prop,
      Q (.ok ⟨.regular (.function (.native name addr)), pf, obj⟩, s) → Always (Src.run w (n + 2) E (.expr m f)) s Q)
    (ha : Always (Src.run w (n + 1) (E.skip (Src.declsExpr f)) (.expr m a)) s (fun r => ∃ v p o s', r = (.ok ⟨.regular v, p, o⟩, s') ∧
      s.base.args.length ≤ s'.base.args.length ∧
      Always (Src.native w (n + 1) (Src.run w (n + 1)) m name addr s.base.args.length q)
        { s' with base := { s'.base with args := s'.base.args ++ [v] } } (fun r => match r with
          | (.ok v, s'') => Q (.ok ⟨.regular v, q, .nil⟩, { s'' with base := { s''.base with args := s''.base.args.take s.base.args.length } })
          | (.error e, s'') => Q (.error e, { s'' with base := { s''.base with args := s''.base.args.take s.base.args.length } })))) :
    Always (Src.run w (n + 3) E (.expr m (.call f [a] q))) s Q := by
  show Always (Src.run w (n + 2) E (.expr m f) >>= fun o => Src.go o q _) s Q
  rw [always_bind]
  refine hf _ ?_
  simp only [Src.go]
  rw [always_bind, always_other]
  simp only [M.get]
  rw [always_bind]
  show Always (Src.run w (n + 1) _ (.expr m a) >>= fun o => _) s _
  rw [always_bind]
  intro r hr
  obtain ⟨v, p, o, s', rfl, hl, hn⟩ := ha r hr
  dsimp only
  rw [always_bind, always_other]
  simp only [M.modify]
  refine always_pure.2 ?_
  simp only [Out.value]
  rw [always_bind]
  show Always (Src.call w (n + 1) (Src.run w (n + 1)) m obj (.native name addr) s.base.args.length q) _ _
  have hlt : ¬ (s'.base.args ++ [v]).length < s.base.args.length := by simp; omega
  have hc : ∀ {t : Src.State} {Q}, ¬ t.base.args.length < s.base.args.length →
      (Always (Src.call w (n + 1) (Src.run w (n + 1)) m obj (.native name addr) s.base.args.length q) t Q ↔
      Always (do
        let v ← Src.finally_ (Src.native w (n + 1) (Src.run w (n + 1)) m name addr s.base.args.length q)
          (fun t => { t with args := t.args.take s.base.args.length })
        pure (.value v q) : Src.NM Out) t Q) := by
    intro t Q ht
    simp only [Always, Src.call, ht, if_false]
  rw [hc hlt, always_bind, always_finally]
  refine always_mono hn ?_
  rintro ⟨e | v, s''⟩ h
  · exact h
  · exact always_pure.2 (always_pure.2 h)

/-- The body of a function without parameters and declarations, all of whose outcomes are errors. -/
theorem always_body {rec : Src.Rec} {obj b names k pos} (hb : Src.declsBlock b = 0) (h0 : Q (.error (.panic ⟨.stackOverflow, pos⟩), s))
    (h : ∀ s' me, Keeps s s' → Always (rec ⟨names, me, []⟩ (.block k b)) s' (fun r => ∃ e, r.1 = .error e ∧ Q (.error e, r.2))) :
    Always (Src.body rec obj ⟨[], b, names, k⟩ [] pos) s Q := by
  simp only [Src.body, List.length_nil, ne_eq, not_true_eq_false, if_false, hb]
  rw [always_bind, always_overflow]
  refine ⟨?_, h0⟩
  dsimp only
  rw [always_bind, always_newVars]
  intro size params own me h1 h2 h3 h4
  obtain rfl := List.length_eq_zero_iff.1 h1
  obtain rfl := List.length_eq_zero_iff.1 h2
  dsimp only
  simp only [Src.assignAll]
  rw [always_bind, always_pure]
  dsimp only
  rw [always_bind]
  have key : ∀ s' : Src.State, Keeps s s' → Always (do
      let o ← rec ⟨names, me, []⟩ (.block k b)
      match o.flow with
      | .regular v => pure (.value v pos)
      | .return_ v => pure (.value v pos)
      | .break_ => Src.NM.crash .flow : Src.NM Out) s' Q := by
    intro s' hs
    rw [always_bind]
    refine always_mono (h s' me hs) ?_
    rintro ⟨e | o, s''⟩ ⟨e', he, hq⟩
    · cases he; exact hq
    · cases he
  cases me with
  | none =>
    simp only [Src.assignSelf]
    rw [always_pure]
    exact key _ keeps_new
  | some x =>
    simp only [Src.assignSelf]
    rw [always_assign]
    exact key _ (keeps_set keeps_new (h4 x (by simp)).1)

/-- The module `nil()`: all outcomes are errors. -/
theorem always_nil_module {p q} (P : Src.State → Prop) (h : ∀ s', Keeps s s' → P s') :
    Always (Src.run w (n + 6) Src.Env.empty (.program m [.expr (.call (.lit .nil p) [] q)])) s (fun r => ∃ e, r.1 = .error e ∧ P r.2) := by
  show Always (Src.mayOverflow noPos >>= fun _ => _) s _
  rw [always_bind, always_overflow]
  refine ⟨?_, ⟨_, rfl, h _ ⟨fun _ _ => rfl, Nat.le_refl _, rfl, rfl, rfl, rfl, rfl⟩⟩⟩
  dsimp only
  rw [always_bind, always_newVars]
  intro size params own me h1 h2 h3 h4
  obtain ⟨y0, rfl⟩ := List.length_eq_one_iff.1 h1
  dsimp only
  rw [always_bind, always_other]
  dsimp only [M.get]
  simp only [Src.assignAll]
  rw [always_bind, always_bind, always_assign]
  dsimp only
  rw [always_pure]
  dsimp only
  rw [always_bind]
  show Always (Src.run w (n + 2) _ (.expr m (.lit .nil p)) >>= fun o => Src.go o q _) _ _
  rw [always_bind]
  refine always_pure.2 ?_
  simp only [Src.go, Out.value]
  rw [always_panic]
  exact ⟨_, rfl, h _ (keeps_set keeps_new (h4 y0 (by simp)).1)⟩
end

end Hush

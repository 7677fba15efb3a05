import Verif.Spec.Source

/-!
All outcomes of the semantics of names (`Src`).
-/

namespace Hush
open Spec

/-- All outcomes are as `Q` says. -/
def Always (p : Src.NM α) (s : Src.State) (Q : Except Stop α × Src.State → Prop) : Prop := ∀ r, p s r → Q r

theorem always_bind {p : Src.NM α} {f : α → Src.NM β} {s Q} :
    Always (p >>= f) s Q ↔ Always p s (fun r => match r with | (.ok a, s') => Always (f a) s' Q | (.error e, s') => Q (.error e, s')) := by
  simp only [Always, bind, Src.NM.andThen]
  constructor
  · rintro h ⟨_ | a, s'⟩ hp
    · exact h _ (.inr ⟨_, _, hp, rfl⟩)
    · intro r hr; exact h _ (.inl ⟨_, _, hp, hr⟩)
  · rintro h r (⟨a, s', h1, h2⟩ | ⟨e, s', h1, rfl⟩)
    · exact h _ h1 _ h2
    · exact h _ h1

theorem always_pure {a : α} {s Q} : Always (pure a : Src.NM α) s Q ↔ Q (.ok a, s) :=
  ⟨fun h => h _ rfl, fun h _ hr => hr ▸ h⟩
theorem always_other {m : M α} {s Q} : Always (Src.NM.other m) s Q ↔ Q ((m s.base).1, { s with base := (m s.base).2 }) :=
  ⟨fun h => h _ rfl, fun h _ hr => hr ▸ h⟩
theorem always_panic {k pos s Q} : Always (Src.NM.panic k pos : Src.NM α) s Q ↔ Q (.error (.panic ⟨k, pos⟩), s) :=
  ⟨fun h => h _ rfl, fun h _ hr => hr ▸ h⟩
theorem always_value {x : Nat} {s Q} : Always (Src.value (some x)) s Q ↔ Q (.ok (s.base.heap.cell x), s) :=
  ⟨fun h => h _ rfl, fun h _ hr => hr ▸ h⟩
theorem always_assign {x : Nat} {v s Q} : Always (Src.assign (some x) v) s Q ↔ Q (.ok (), { s with base := { s.base with heap := s.base.heap.setCell x v } }) :=
  ⟨fun h => h _ rfl, fun h _ hr => hr ▸ h⟩
theorem always_overflow {pos s Q} : Always (Src.mayOverflow pos) s Q ↔ Q (.ok (), s) ∧ Q (.error (.panic ⟨.stackOverflow, pos⟩), s) :=
  ⟨fun h => ⟨h _ (.inl rfl), h _ (.inr rfl)⟩, fun h _ hr => hr.elim (fun e => e ▸ h.1) (fun e => e ▸ h.2)⟩
theorem always_newVars {n k s Q} : Always (Src.newVars n k) s Q ↔ ∀ size params own self, params.length = n → own.length = k → (params ++ own ++ self.toList).Nodup →
    (∀ x ∈ params ++ own ++ self.toList, s.base.heap.cells.length ≤ x ∧ x < s.base.heap.cells.length + size) →
    Q (.ok (params, own, self),
      { s with base := { s.base with heap := { s.base.heap with cells := s.base.heap.cells ++ List.replicate size .nil } } }) :=
  ⟨fun h _ _ _ _ h1 h2 h3 h4 => h _ ⟨_, _, _, _, h1, h2, h3, h4, rfl⟩, by
    rintro h r ⟨_, _, _, _, h1, h2, h3, h4, rfl⟩; exact h _ _ _ _ h1 h2 h3 h4⟩
theorem always_newFun {E m ps b pos s Q} : Always (Src.newFun E m ps b pos) s Q ↔ ∀ c : Closure, c.params = ps.length → c.module = m → c.pos = pos →
    (∀ q ∈ c.context, ∃ x, E.names.lookup x = some q.1) →
    Q (.ok (s.base.heap.newClosure c).1,
      { s with base := { s.base with heap := (s.base.heap.newClosure c).2 }, funs := s.funs ++ [⟨ps, b, E.names, m⟩] }) :=
  ⟨fun h _ h1 h2 h3 h4 => h _ ⟨_, h1, h2, h3, h4, rfl⟩, by
    rintro h r ⟨_, h1, h2, h3, h4, rfl⟩; exact h _ h1 h2 h3 h4⟩
theorem always_call_hush {w n rec m obj a start pos s Q} (h : ¬ s.base.args.length < start) : Always (Src.call w n rec m obj (.hush a) start pos) s Q ↔
   Always (do
        Src.NM.other (M.modify (fun s => { s with args := s.args.take start }))
        Src.body rec obj (s.funs.getD a default) (s.base.args.drop start) pos : Src.NM Out) s Q := by
  simp only [Always, Src.call, h, if_false]

theorem setCell_same {h : Heap} {x v} (hx : x < h.cells.length) : (h.setCell x v).cell x = v := by
  simp [Heap.setCell, Heap.cell, hx]
theorem setCell_other {h : Heap} {x y v} (hx : y ≠ x) : (h.setCell x v).cell y = h.cell y := by
  simp [Heap.setCell, Heap.cell, List.getElem?_set_ne (Ne.symm hx)]

section
variable {w : World} {n : Nat} {E : Src.Env} {m : Nat} {s : Src.State} {Q : Except Stop Out × Src.State → Prop}

theorem always_int {i p} : Always (Src.run w (n + 1) E (.expr m (.lit (.int i) p))) s Q ↔ Q (.ok (.value (.int i) p), s) := always_pure

theorem always_ident {x p y} (h : E.names.lookup x = some y) :
    Always (Src.run w (n + 1) E (.expr m (.ident x p))) s Q ↔ Q (.ok (.value (s.base.heap.cell y) p), s) := by
  show Always (Src.value _ >>= fun v => pure _) s Q ↔ _
  rw [h, always_bind, always_value]
  exact always_pure

theorem always_function {ps b p} (h : ∀ c : Closure, Q (.ok (.value (s.base.heap.newClosure c).1 p),
      { s with base := { s.base with heap := (s.base.heap.newClosure c).2 }, funs := s.funs ++ [⟨ps, b, E.names, m⟩] })) :
    Always (Src.run w (n + 1) E (.expr m (.lit (.function ps b) p))) s Q := by
  show Always (Src.newFun E m ps b p >>= fun v => pure _) s Q
  rw [always_bind, always_newFun]
  intro c _ _ _ _
  exact always_pure.2 (h c)

theorem always_init {x e} (h : Always (Src.run w n E (.expr m e)) s (fun r => ∃ v p o s', r = (.ok ⟨.regular v, p, o⟩, s') ∧
      Q (.ok (.value .nil noPos), { s' with base := { s'.base with heap := s'.base.heap.setCell x v } }))) :
    Always (Src.run w (n + 1) E (.init m x e)) s Q := by
  show Always (Src.run w n E (.expr m e) >>= fun o => Src.go o noPos fun v _ _ => Src.assign (some x) v >>= fun _ => pure _) s Q
  rw [always_bind]
  intro r hr
  obtain ⟨v, p, o, s', rfl, hq⟩ := h r hr
  show Always (Src.assign (some x) v >>= fun _ => pure _) s' Q
  rw [always_bind, always_assign]
  exact always_pure.2 hq

theorem always_set {x e p y q} (hx : E.names.lookup x = some y)
    (h : Always (Src.run w n (E.skip (Src.declsExpr (.ident x p))) (.expr m e)) s (fun r => ∃ v p o s', r = (.ok ⟨.regular v, p, o⟩, s') ∧
      Q (.ok (.value .nil noPos), { s' with base := { s'.base with heap := s'.base.heap.setCell y v } }))) :
    Always (Src.run w (n + 1) E (.stmt m (.assign (.ident x p) e q))) s Q := by
  show Always (Src.run w n _ (.expr m e) >>= fun o => Src.go o noPos fun v _ _ => Src.assign (E.names.lookup x) v >>= fun _ => pure _) s Q
  rw [always_bind]
  intro r hr
  obtain ⟨v, p, o, s', rfl, hq⟩ := h r hr
  show Always (Src.assign (E.names.lookup x) v >>= fun _ => pure _) s' Q
  rw [hx, always_bind, always_assign]
  exact always_pure.2 hq

theorem always_block {st st' rest} (h : Always (Src.first (Src.run w n) E m st) s (fun r => ∃ v p o s', r = (.ok ⟨.regular v, p, o⟩, s') ∧
      Always (Src.run w n (Src.behind E st) (.block m (st' :: rest))) s' Q)) :
    Always (Src.run w (n + 1) E (.block m (st :: st' :: rest))) s Q := by
  show Always (Src.first (Src.run w n) E m st >>= fun o => Src.go o noPos fun _ _ _ => Src.run w n _ _) s Q
  rw [always_bind]
  intro r hr
  obtain ⟨v, p, o, s', rfl, hq⟩ := h r hr
  exact hq

/-- A call without arguments of a function without parameters. -/
theorem always_call {x p q y a b names} (hx : E.names.lookup x = some y) (hv : s.base.heap.cell y = .function (.hush a))
    (hf : s.funs.getD a default = ⟨[], b, names, 0⟩) (hb : Src.declsBlock b = 0) (ha : s.base.args = [])
    (ho : ∀ p s, Q (.error (.panic ⟨.stackOverflow, p⟩), s))
    (h : ∀ (s' : Src.State) me, (∀ z, z < s.base.heap.cells.length → s'.base.heap.cell z = s.base.heap.cell z) →
      Always (Src.run w n ⟨names, me, []⟩ (.block 0 b)) s'
      (fun r => ∃ v p o s', r = (.ok ⟨.regular v, p, o⟩, s') ∧ ∀ p o, Q (.ok ⟨.regular v, p, o⟩, s'))) :
    Always (Src.run w (n + 2) E (.expr m (.call (.ident x p) [] q))) s Q := by
  show Always (Src.run w (n + 1) E (.expr m (.ident x p)) >>= fun o => Src.go o q _) s Q
  rw [always_bind, always_ident hx]
  simp only [Src.go, Out.value, hv]
  rw [always_bind, always_other]
  simp only [M.get]
  rw [always_bind]
  have : ∀ E Q, Always (Src.run w (n + 1) E (.args m [] s.base.args.length)) s Q ↔ Q (.ok (.value .nil noPos), s) := fun E Q => always_pure
  rw [this]
  simp only [Out.value]
  rw [always_bind]
  have hc : ∀ Q obj, Always (Src.run w (n + 1) Src.Env.empty (.call m obj (.hush a) s.base.args.length q)) s Q ↔
      Always (Src.call w n (Src.run w n) m obj (.hush a) s.base.args.length q) s Q := fun Q _ => Iff.rfl
  rw [hc, always_call_hush (by omega), always_bind, always_other]
  simp only [M.modify, ha, List.length_nil, List.take_nil, List.drop_nil, hf]
  simp only [Src.body, List.length_nil, ne_eq, not_true_eq_false, if_false, hb]
  rw [always_bind, always_overflow]
  refine ⟨?_, ho _ _⟩
  dsimp only
  rw [always_bind, always_newVars]
  intro size params own me h1 h2 h3 h4
  obtain rfl := List.length_eq_zero_iff.1 h1
  obtain rfl := List.length_eq_zero_iff.1 h2
  have hcell : ∀ z, z < s.base.heap.cells.length → (s.base.heap.cells ++ List.replicate size Value.nil)[z]? = s.base.heap.cells[z]? := by
    intro z hz
    rw [List.getElem?_append_left hz]
  cases me with
  | none =>
    dsimp only
    simp only [Src.assignAll]
    rw [always_bind, always_pure]
    dsimp only
    simp only [Src.assignSelf]
    rw [always_bind, always_pure]
    dsimp only
    simp only [List.map_nil, List.zip_nil_left, List.reverse_nil, List.nil_append]
    rw [always_bind]
    intro r hr
    have key := fun hz => h _ _ hz r hr
    obtain ⟨v, p, o, s2, rfl, hq⟩ := key (by
      intro z hz
      simp only [Heap.cell, List.getD_eq_getElem?_getD, hcell z hz])
    exact always_pure.2 (always_pure.2 (hq _ _))
  | some x =>
    dsimp only
    simp only [Src.assignAll]
    rw [always_bind, always_pure]
    dsimp only
    simp only [Src.assignSelf]
    rw [always_bind, always_assign]
    dsimp only
    simp only [List.map_nil, List.zip_nil_left, List.reverse_nil, List.nil_append]
    rw [always_bind]
    intro r hr
    have key := fun hz => h _ _ hz r hr
    obtain ⟨v, p, o, s2, rfl, hq⟩ := key (by
      intro z hz
      dsimp only
      have hlt := (h4 x (by simp)).1
      simp only at hlt
      rw [setCell_other (by omega)]
      simp only [Heap.cell, List.getD_eq_getElem?_getD, hcell z hz])
    exact always_pure.2 (always_pure.2 (hq _ _))
end

theorem cell_newClosure {h : Heap} {c y} : (h.newClosure c).2.cell y = h.cell y := rfl

end Hush

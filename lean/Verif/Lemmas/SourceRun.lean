import Verif.Lemmas.SourceSim
import Verif.Props.Semantic

/-!
The semantics of variables (`Vars`) refines the semantics of names (`Src`): every task.
-/

namespace Hush
open Spec

theorem Supply.expr {c a p env D₁ D₂ own} (ht : Translates c (.expr a p) D₁) (h : Supply env (D₁ ++ D₂) own) :
    Supply env D₂ (own.drop (Src.declsExpr a)) := by
  have := h.right; rw [decls_length ht] at this; exact this
theorem Supply.block {c a p env D₁ D₂ own} (ht : Translates c (.block a p) D₁) (h : Supply env (D₁ ++ D₂) own) :
    Supply env D₂ (own.drop (Src.declsBlock a)) := by
  have := h.right; rw [decls_length ht] at this; exact this
theorem Supply.lvalue {c a p env D₁ D₂ own} (ht : Translates c (.lvalue a p) D₁) (h : Supply env (D₁ ++ D₂) own) :
    Supply env D₂ (own.drop (Src.declsExpr a)) := by
  have := h.right; rw [decls_length ht] at this; exact this
theorem Supply.stmt {c a p env D₁ D₂ own} (ht : Translates c (.stmt a p) D₁) (h : Supply env (D₁ ++ D₂) own) :
    Supply env D₂ (own.drop (Src.declsStmt a)) := by
  have := h.right; rw [decls_length ht] at this; exact this

section
variable {w : World} {n : Nat} {rv : Vars.Rec} {rs : Src.Rec} {env : List Nat} {c : Env}

theorem ref_literal (hrec : RecRef rv rs) {E : Src.Env} {m pos l l' D} (ht : Translates c (.lit l l') D) (he : EnvRel c env E.names E.self)
    (hs : Supply env D E.own) : Ref (Vars.literal w rv env m l' pos) (Src.literal w rs E m l pos) := by
  cases ht with
  | array h => exact ref_bind (hrec (.items _ _ h he hs)) fun _ => ref_pure
  | dict h => exact ref_bind (hrec (.fields _ _ h he hs)) fun _ => ref_pure
  | function h1 h2 h3 h4 => exact ref_fun h1 h2 h3 h4 he
  | _ => exact ref_pure

theorem ref_call0 (hrec : RecRef rv rs) {m obj f start pos} : Ref (rv [] (.call m obj f start pos)) (rs Src.Env.empty (.call m obj f start pos)) :=
  hrec (.call _ _ _ _ _)

theorem ref_expr (hrec : RecRef rv rs) {E : Src.Env} {m tail a p D} (ht : Translates c (.expr a p) D) (he : EnvRel c env E.names E.self)
    (hs : Supply env D E.own) : Ref (Vars.expr w n rv env m tail p) (Src.expr w n rs E m a) := by
  cases ht with
  | self_ pos h1 h2 h3 =>
    obtain ⟨y, h4, h5⟩ := he.selfs h1 h2 h3
    simp only [Vars.expr, Src.expr, h5]
    exact ref_bind (ref_value h4) fun _ => ref_pure
  | ident pos h =>
    obtain ⟨y, h4, h5⟩ := he.names h
    simp only [Vars.expr, Src.expr, h5]
    exact ref_bind (ref_value h4) fun _ => ref_pure
  | lit pos h => exact ref_literal hrec h he hs
  | unary op pos _ h =>
    refine ref_bind (hrec (.expr _ _ h he hs)) fun o => ref_go fun v p x => ?_
    exact ref_bind (ref_other keepsFuns_lift) fun _ => ref_pure
  | binary op pos h1 h2 =>
    have hr : Ref (rv env (.expr m none _)) (rs (E.skip _) (.expr m _)) := hrec (.expr (E := E.skip _) _ _ h2 he (hs.expr h1))
    refine ref_bind (hrec (.expr _ _ h1 he hs.left)) fun o => ref_go fun v p x => ?_
    split
    · refine ref_bind (ref_other keepsFuns_lift) fun v => ?_
      cases v with
      | some v => exact ref_pure
      | none =>
        refine ref_bind hr fun o => ref_go fun v p x => ?_
        cases v <;> first | exact ref_pure | exact ref_panic
    · refine ref_bind hr fun o => ref_go fun v p x => ?_
      exact ref_bind (ref_other keepsFuns_reads) fun _ => ref_pure
  | if_ pos h1 h2 h3 =>
    refine ref_bind (hrec (.expr _ _ h1 he hs.left)) fun o => ref_go fun v p x => ?_
    have hs' := hs.expr h1
    have hs3 := hs'.block h2
    rw [List.drop_drop] at hs3
    cases v with
    | bool b =>
      cases b with
      | true => exact ref_bind (hrec (.block (E := E.skip _) _ _ h2 he.block hs'.left)) fun _ => ref_pure
      | false => exact ref_bind (hrec (.block (E := E.skip _) _ _ h3 he.block hs3)) fun _ => ref_pure
    | _ => exact ref_panic
  | access pos h1 h2 =>
    refine ref_bind (hrec (.expr _ _ h1 he hs.left)) fun o => ref_go fun v p x => ?_
    refine ref_bind (hrec (.expr (E := E.skip _) _ _ h2 he (hs.expr h1))) fun o => ref_go fun v p x => ?_
    exact ref_bind (ref_other keepsFuns_reads) fun _ => ref_pure
  | call pos h1 h2 =>
    refine ref_bind (hrec (.expr _ _ h1 he hs.left)) fun o => ref_go fun v p x => ?_
    cases v with
    | function f =>
      refine ref_bind (ref_other keepsFuns_get) fun s => ?_
      refine ref_bind (hrec (.args (E := E.skip _) _ _ h2 he (hs.expr h1))) fun o => ref_go fun v p x => ?_
      exact ref_release (ref_bind (ref_call0 hrec) fun _ => ref_pure)
    | _ => exact ref_panic
  | command pos h => exact ref_bind (ref_command h he E.own) fun _ => ref_pure

theorem keepsFuns_assign {f : Heap → Except Stop Heap} (hf : ∀ h h', f h = .ok h' → h'.closures = h.closures) :
    KeepsFuns (M.reads f >>= fun h => M.modify (fun s => { s with heap := h })) := by
  intro s
  simp only [bind, M.andThen, M.reads]
  cases hx : f s.heap with
  | error e => rfl
  | ok h => exact hf _ _ hx

theorem other_bind {α β} (a : M α) (f : α → M β) (g : β → Vars.VM γ) :
    (Vars.VM.other a >>= fun x => Vars.VM.other (f x) >>= g) = (Vars.VM.other (a >>= f) >>= g) := by
  funext σ
  simp only [bind, Vars.VM.andThen, Vars.VM.other, M.andThen]
  rcases a σ.base with ⟨_ | x, s⟩ <;> rfl

theorem nother_bind {α β} {a : M α} {f : α → M β} {g : β → Src.NM γ} {s r} (h : (Src.NM.other (a >>= f) >>= g) s r) :
    (Src.NM.other a >>= fun x => Src.NM.other (f x) >>= g) s r := by
  simp only [bind, Src.NM.andThen, Src.NM.other, M.andThen] at h ⊢
  rcases hx : a s.base with ⟨e | x, s'⟩
  · rw [hx] at h
    rcases h with ⟨b, s2, h1, h2⟩ | ⟨e', s2, h1, h2⟩
    · simp at h1
    · simp only [Prod.mk.injEq, Except.error.injEq] at h1
      obtain ⟨rfl, rfl⟩ := h1
      exact .inr ⟨_, _, rfl, h2⟩
  · rw [hx] at h
    exact .inl ⟨_, _, rfl, h⟩

theorem ref_lassign {h0 : Heap → Except Stop Heap} (hf : ∀ h h', h0 h = .ok h' → h'.closures = h.closures) {o : Out} :
    Ref (do
      let h ← Vars.VM.other (M.reads h0)
      Vars.VM.other (M.modify (fun s => { s with heap := h }))
      pure o) (do
      let h ← Src.NM.other (M.reads h0)
      Src.NM.other (M.modify (fun s => { s with heap := h }))
      pure o) := by
  rw [other_bind]
  intro σ τ hr r σ' hq
  obtain ⟨τ', h1, h2⟩ := ref_bind (ref_other (keepsFuns_assign hf)) (fun _ => ref_pure (a := o)) σ τ hr r σ' hq
  exact ⟨τ', nother_bind h1, h2⟩

theorem ref_stmt (hrec : RecRef rv rs) {E : Src.Env} {m tail a p D} (ht : Translates c (.stmt a p) D) (he : EnvRel c env E.names E.self)
    (hs : Supply env D E.own) : Ref (Vars.stmt n rv env m tail p) (Src.stmt n rs E m a) := by
  cases ht with
  | assign pos hl h =>
    refine ref_bind (hrec (.expr (E := E.skip _) _ _ h he (hs.lvalue hl))) fun o => ref_go fun v p x => ?_
    cases hl with
    | lvar _ hx =>
      obtain ⟨y, h4, h5⟩ := he.names hx
      simp only [h5]
      exact ref_bind (ref_assign h4) fun _ => ref_pure
    | laccess _ h1 h2 =>
      have hs' := hs.left
      refine ref_bind (hrec (.expr _ _ h1 he hs'.left)) fun o => ref_go fun v p x => ?_
      refine ref_bind (hrec (.expr (E := E.skip _) _ _ h2 he (hs'.expr h1))) fun o => ref_go fun v p x => ?_
      exact ref_lassign fun h h' hh => (assignValue_keeps hh).closures
  | return_ pos _ h =>
    refine ref_bind (hrec (.expr _ _ h he hs)) fun o => ?_
    cases o.flow <;> exact ref_pure
  | break_ pos _ => exact ref_pure
  | while_ pos h1 h2 => exact hrec (.loop _ h1 h2 he hs)
  | for_ x pos h1 h2 =>
    refine ref_bind (hrec (.expr _ _ h1 he hs.left)) fun o => ref_go fun v p x => ?_
    obtain ⟨y, own, h3, h4, h5⟩ := (hs.expr h1).cons
    simp only [h3]
    cases v with
    | function f => exact hrec (.iter (E := ⟨_, _, _⟩) _ _ _ h2 (he.loop.declare h4) h5 h4)
    | _ => exact ref_panic
  | expr h => exact hrec (.expr _ _ h he hs)

theorem ref_load (hrec : RecRef rv rs) {path pos} : Ref (Vars.load w rv path pos) (Src.load w rs path pos) := by
  refine ref_bind (ref_other keepsFuns_get) fun s => ref_bind (ref_other keepsFuns_record) fun _ => ?_
  cases w.readFile s.trace path with
  | error e => exact ref_panic
  | ok src =>
    dsimp only
    cases hx : syntaxAnalysis src with
    | none => exact ref_crash
    | some a =>
      dsimp only
      split
      · rename_i hok
        cases ha : analyze a.ast with
        | ok p =>
          refine ref_bind (ref_other (fun _ => rfl)) fun _ => ref_bind (hrec (.program _ ?_)) fun _ => ref_result
          exact analyze_translates _ (Props.source_is_written src a hx hok) _ ha
        | errors _ => exact ref_panic
        | crash => exact ref_crash
      · exact ref_panic

theorem ref_import (hrec : RecRef rv rs) {m args pos} : Ref (Vars.import_ w rv m args pos) (Src.import_ w rs m args pos) := by
  rcases args with _ | ⟨v, _ | ⟨v2, l⟩⟩
  · exact ref_panic
  · cases v with
    | string target =>
      refine ref_bind (ref_other keepsFuns_get) fun s => ?_
      cases w.resolve s.trace (s.file m) target with
      | error e => exact ref_panic
      | ok path =>
        dsimp only
        cases s.modules.lookup path with
        | some v => exact ref_bind (ref_other keepsFuns_record) fun _ => ref_pure
        | none =>
          refine ref_bind (ref_load hrec) fun _ => ref_bind (ref_other ?_) fun _ => ref_bind (ref_other keepsFuns_record) fun _ => ref_pure
          exact fun _ => rfl
    | _ => exact ref_panic
  · simp only [Vars.import_, Src.import_]
    exact ref_panic

theorem ref_native (hrec : RecRef rv rs) {m name addr start pos} :
    Ref (Vars.native w n rv m name addr start pos) (Src.native w n rs m name addr start pos) := by
  refine ref_bind (ref_other keepsFuns_get) fun s => ?_
  dsimp only
  split
  · rcases s.args.drop start with _ | ⟨v, _ | ⟨v2, l⟩⟩
    · exact ref_panic
    · cases v with
      | function f => exact ref_catching (ref_call0 hrec)
      | _ => exact ref_panic
    · cases v <;> exact ref_panic
  split
  · cases s.heap.native addr with
    | bound obj f => exact ref_bind (ref_call0 hrec) fun _ => ref_result
    | _ => exact ref_crash
  split
  · exact ref_import hrec
  split
  · exact ref_other keepsFuns_join
  · exact ref_other keepsFuns_callLib

theorem ref_call (hrec : RecRef rv rs) {m obj f start pos} :
    Ref (Vars.call w n rv m obj f start pos) (Src.call w n rs m obj f start pos) := by
  intro σ τ hr r σ' hq
  simp only [Vars.call] at hq
  simp only [Src.call, hr.base]
  split at hq
  · rename_i hc
    cases hq
    simp only [hc, if_true]
    exact ⟨τ, rfl, hr⟩
  · rename_i hc
    simp only [hc, if_false]
    cases f with
    | hush a =>
      exact ref_bind (ref_other (fun _ => rfl)) (fun _ => ref_restoring (ref_body hrec (hr.fun_ a))) σ τ hr r σ' hq
    | native name addr =>
      exact ref_bind (ref_finally (f := fun s => { s with args := s.args.take start }) (ref_native hrec) (fun _ => rfl)) (fun _ => ref_pure) σ τ hr r σ' hq

theorem ref_block (hrec : RecRef rv rs) {E : Src.Env} {m tail a p D} (ht : Translates c (.block a p) D) (he : EnvRel c env E.names E.self)
    (hs : Supply env D E.own) : Ref (Vars.step w n rv env (.block m tail p)) (Src.step w n rs E (.block m a)) := by
  cases ht with
  | noStmts => exact ref_pure
  | @let_ _ e e' ss ss' s D₁ D₂ x pos h1 h2 =>
    obtain ⟨y, own, h3, h4, h5⟩ := hs.cons
    have he' := he.declare (x := x) h4
    have hf : ∀ tail, Ref (rv env (.stmt m tail (.assign (.ident s pos) e'))) (Src.first rs E m (.let_ x e pos)) := by
      intro tail
      simp only [Src.first, h3]
      exact hrec (.init (E := ⟨_, _, _⟩) _ _ _ h1 he' h5.left h4)
    cases h2 with
    | noStmts => exact hf tail
    | let_ x' pos' g1 g2 =>
      refine ref_bind (hf none) fun o => ref_go fun _ _ _ => ?_
      simp only [Src.behind, h3]
      exact hrec (.block (E := ⟨_, _, _⟩) _ _ (.let_ x' pos' g1 g2) he' (h5.expr h1))
    | stmts g1 g2 =>
      refine ref_bind (hf none) fun o => ref_go fun _ _ _ => ?_
      simp only [Src.behind, h3]
      exact hrec (.block (E := ⟨_, _, _⟩) _ _ (.stmts g1 g2) he' (h5.expr h1))
  | @stmts _ s s' ss ss' D₁ D₂ h1 h2 =>
    have hl : ∀ x e pos, s ≠ .let_ x e pos := by
      rintro x e pos rfl
      cases h1
    have hf : ∀ tail, Ref (rv env (.stmt m tail s')) (Src.first rs E m s) := by
      intro tail
      have : Src.first rs E m s = rs E (.stmt m s) := by
        cases s <;> first | rfl | exact absurd rfl (hl _ _ _)
      rw [this]
      exact hrec (.stmt _ _ h1 he hs.left)
    have hb : Src.behind E s = E.skip (Src.declsStmt s) := by
      cases s <;> first | rfl | exact absurd rfl (hl _ _ _)
    have hr : Ref (rv env (.block m tail ss')) (rs (Src.behind E s) (.block m ss)) := by
      rw [hb]
      exact hrec (.block (E := E.skip _) _ _ h2 he (hs.stmt h1))
    cases h2 with
    | noStmts => exact hf tail
    | let_ x' pos' g1 g2 => exact ref_bind (hf none) fun o => ref_go fun _ _ _ => hr
    | stmts g1 g2 => exact ref_bind (hf none) fun o => ref_go fun _ _ _ => hr

theorem ref_step (hrec : RecRef rv rs) {env t E j} (ht : TaskRel env t E j) : Ref (Vars.step w n rv env t) (Src.step w n rs E j) := by
  cases ht with
  | expr m tail h he hs => exact ref_expr hrec h he hs
  | items m acc h he hs =>
    cases h with
    | noExprs => exact ref_bind (ref_other (keepsFuns_alloc fun h => keeps_newArray h _)) fun _ => ref_pure
    | exprs h1 h2 =>
      exact ref_bind (hrec (.expr _ _ h1 he hs.left)) fun o => ref_go fun v p x =>
        hrec (.items (E := E.skip _) _ _ h2 he (hs.expr h1))
  | fields m acc h he hs =>
    cases h with
    | noFields => exact ref_bind (ref_other (keepsFuns_alloc fun h => keeps_newDict h _)) fun _ => ref_pure
    | fields k pos h1 h2 =>
      exact ref_bind (hrec (.expr _ _ h1 he hs.left)) fun o => ref_go fun v p x =>
        hrec (.fields (E := E.skip _) _ _ h2 he (hs.expr h1))
  | args m start h he hs =>
    cases h with
    | noExprs => exact ref_pure
    | exprs h1 h2 =>
      refine ref_bind (hrec (.expr _ _ h1 he hs.left)) fun o => ?_
      cases o.flow with
      | regular v => exact ref_bind (ref_other fun _ => rfl) fun _ => hrec (.args (E := E.skip _) _ _ h2 he (hs.expr h1))
      | return_ v => exact ref_bind (ref_other fun _ => rfl) fun _ => ref_pure
      | break_ => exact ref_bind (ref_other fun _ => rfl) fun _ => ref_pure
  | init m tail pos h he hs hy =>
    exact ref_bind (hrec (.expr _ _ h he hs)) fun o => ref_go fun v p x => ref_bind (ref_assign hy) fun _ => ref_pure
  | stmt m tail h he hs => exact ref_stmt hrec h he hs
  | block m tail h he hs => exact ref_block hrec h he hs
  | loop m h1 h2 he hs =>
    refine ref_bind (hrec (.expr _ _ h1 he hs.left)) fun o => ref_go fun v p x => ?_
    cases v with
    | bool b =>
      cases b with
      | true =>
        exact ref_bind (hrec (.block (E := E.skip _) _ _ h2 he.loop (hs.expr h1))) fun o => ref_afterBody (hrec (.loop _ h1 h2 he hs))
      | false => exact ref_pure
    | _ => exact ref_panic
  | iter m f pos h he hs hy =>
    refine ref_bind (ref_other keepsFuns_get) fun s => ref_bind (ref_call0 hrec) fun o => ref_bind ref_result fun v =>
      ref_bind (ref_other keepsFuns_reads) fun v => ?_
    cases v with
    | none => exact ref_pure
    | some v =>
      exact ref_bind (ref_assign hy) fun _ => ref_bind (hrec (.block _ _ h he hs)) fun o => ref_afterBody (hrec (.iter _ _ _ h he hs hy))
  | call m obj f start pos => exact ref_call hrec
  | program m h => exact ref_program hrec h

end

/-- The semantics of variables refines the semantics of names. -/
theorem run_ref (w : World) : ∀ n, RecRef (Vars.run w n) (Src.run w n)
  | 0 => fun _ => ref_stop
  | n + 1 => fun h => ref_step (run_ref w n) h

end Hush

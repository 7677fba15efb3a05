import Verif.Lemmas.SourceRel
import Verif.Lemmas.Crash
import Mathlib.Data.List.Induction

/-!
The semantics of variables (`Vars`) refines the semantics of names (`Src`): the interpreter.
-/

namespace Hush
open Spec

/-- The same task, in slots and in names. -/
inductive TaskRel : List Nat → Task → Src.Env → Src.Job → Prop
  | expr {c env E D a p} (m tail) : Translates c (.expr a p) D → EnvRel c env E.names E.self → Supply env D E.own →
      TaskRel env (.expr m tail p) E (.expr m a)
  | items {c env E D a p} (m acc) : Translates c (.exprs a p) D → EnvRel c env E.names E.self → Supply env D E.own →
      TaskRel env (.items m p acc) E (.items m a acc)
  | fields {c env E D a p} (m acc) : Translates c (.fields a p) D → EnvRel c env E.names E.self → Supply env D E.own →
      TaskRel env (.fields m p acc) E (.fields m a acc)
  | args {c env E D a p} (m start) : Translates c (.exprs a p) D → EnvRel c env E.names E.self → Supply env D E.own →
      TaskRel env (.args m p start) E (.args m a start)
  | init {c env E D a p s y} (m tail pos) : Translates c (.expr a p) D → EnvRel c env E.names E.self → Supply env D E.own →
      env[s]? = some y → TaskRel env (.stmt m tail (.assign (.ident s pos) p)) E (.init m y a)
  | stmt {c env E D a p} (m tail) : Translates c (.stmt a p) D → EnvRel c env E.names E.self → Supply env D E.own →
      TaskRel env (.stmt m tail p) E (.stmt m a)
  | block {c env E D a p} (m tail) : Translates c (.block a p) D → EnvRel c env E.names E.self → Supply env D E.own →
      TaskRel env (.block m tail p) E (.block m a)
  | loop {c env E D₁ D₂ e e' b b'} (m) : Translates c (.expr e e') D₁ → Translates c.loop (.block b b') D₂ →
      EnvRel c env E.names E.self → Supply env (D₁ ++ D₂) E.own → TaskRel env (.loop m e' b') E (.loop m e b)
  | iter {c env E D s y b b'} (m f pos) : Translates c (.block b b') D → EnvRel c env E.names E.self → Supply env D E.own →
      env[s]? = some y → TaskRel env (.iter m s f pos b') E (.iter m y f pos b)
  | call {env E} (m obj f start pos) : TaskRel env (.call m obj f start pos) E (.call m obj f start pos)
  | program {env E b p} (m) : TranslatesProgram b p → TaskRel env (.program m p) E (.program m b)

/-- The recursive calls. -/
def RecRef (r : Vars.Rec) (r' : Src.Rec) : Prop := ∀ {env t E j}, TaskRel env t E j → Ref (r env t) (r' E j)

theorem ref_go {o pos} {k : Value → Pos → Value → Vars.VM Out} {k' : Value → Pos → Value → Src.NM Out}
    (h : ∀ v p x, Ref (k v p x) (k' v p x)) : Ref (Vars.go o pos k) (Src.go o pos k') := by
  simp only [Vars.go, Src.go]
  cases o.flow with
  | regular v => exact h _ _ _
  | return_ v => exact ref_pure
  | break_ => exact ref_pure

theorem ref_result {o} : Ref (Vars.result o) (Src.result o) := by
  simp only [Vars.result, Src.result]
  cases o.flow with
  | regular v => exact ref_pure
  | return_ v => exact ref_crash
  | break_ => exact ref_crash

theorem ref_afterBody {o} {q : Vars.VM Out} {p} (h : Ref q p) : Ref (Vars.afterBody o q) (Src.afterBody o p) := by
  simp only [Vars.afterBody, Src.afterBody]
  cases o.flow with
  | regular v => exact h
  | return_ v => exact ref_pure
  | break_ => exact ref_pure

theorem ref_value {env : List Nat} {s y} (h : env[s]? = some y) : Ref (Vars.value env s) (Src.value (some y)) := by
  intro σ τ hr r σ' he
  simp only [Vars.value, h, Option.some.injEq, Prod.mk.injEq] at he
  obtain ⟨rfl, rfl⟩ := he
  exact ⟨τ, by simp only [Src.value, hr.base], hr⟩

theorem ref_assign {env : List Nat} {s y v} (h : env[s]? = some y) : Ref (Vars.assign env s v) (Src.assign (some y) v) := by
  intro σ τ hr r σ' he
  simp only [Vars.assign, h, Option.some.injEq, Prod.mk.injEq] at he
  obtain ⟨rfl, rfl⟩ := he
  exact ⟨_, rfl, by rw [hr.base], hr.funs⟩

/-- Something that only changes the number of slots. -/
theorem ref_skip {q : Vars.VM Unit} {k : Vars.VM α} {p : Src.NM α} (hq : ∀ σ, ∃ σ', q σ = some (.ok (), σ') ∧ σ'.base = σ.base)
    (h : Ref k p) : Ref (q >>= fun _ => k) p := by
  intro σ τ hr r σ' he
  obtain ⟨σ1, h1, h2⟩ := hq σ
  simp only [bind, Vars.VM.andThen, h1] at he
  exact h σ1 τ ⟨hr.base.trans h2.symm, by rw [h2]; exact hr.funs⟩ r σ' he

theorem ref_release {tail} {k : Vars.VM α} {p : Src.NM α} (h : Ref k p) : Ref (Vars.release tail >>= fun _ => k) p := by
  refine ref_skip ?_ h
  intro σ
  cases tail with
  | none => exact ⟨σ, rfl, rfl⟩
  | some n => exact ⟨_, rfl, rfl⟩

theorem ref_restoring {q : Vars.VM α} {p : Src.NM α} (h : Ref q p) : Ref (Vars.restoring q) p := by
  intro σ τ hr r σ' he
  simp only [Vars.restoring] at he
  split at he
  · cases he
  · rename_i r1 σ1 h1
    cases he
    obtain ⟨τ', h2, h3⟩ := h σ τ hr _ _ h1
    exact ⟨τ', h2, h3.base, h3.funs⟩

theorem ref_failing {q : Vars.VM α} {p : Src.NM α} (h : Ref q p) : Ref (Vars.failing q) p := by
  intro σ τ hr r σ' he
  simp only [Vars.failing] at he
  split at he
  · rename_i e σ1 h1
    cases he
    obtain ⟨τ', h2, h3⟩ := h σ τ hr _ _ h1
    exact ⟨τ', h2, h3.base, h3.funs⟩
  · exact h σ τ hr _ _ he

theorem ref_enter {w n pos} : Ref (Vars.enter w n pos) (Src.mayOverflow pos) := by
  intro σ τ hr r σ' he
  simp only [Vars.enter] at he
  split at he
  · cases he; exact ⟨τ, .inr rfl, hr⟩
  · cases he; exact ⟨τ, .inl rfl, hr.base, hr.funs⟩

theorem ref_finally {q : Vars.VM α} {p : Src.NM α} {f : RState → RState} (h : Ref q p) (hf : ∀ s, (f s).heap = s.heap) :
    Ref (Vars.finally_ q f) (Src.finally_ p f) := by
  intro σ τ hr r σ' he
  simp only [Vars.finally_] at he
  split at he
  · cases he
  · rename_i r1 σ1 h1
    cases he
    obtain ⟨τ', h2, h3⟩ := h σ τ hr _ _ h1
    refine ⟨{ τ' with base := f τ'.base }, ⟨r, τ', h2, rfl⟩, by simp only [h3.base], ?_⟩
    simp only [hf]
    exact h3.funs

theorem ref_catching {w} {q : Vars.VM Out} {p : Src.NM Out} (h : Ref q p) : Ref (Vars.catching w q) (Src.catching w p) := by
  intro σ τ hr r σ' he
  simp only [Vars.catching] at he
  split at he
  · cases he
  · rename_i o σ1 h1
    obtain ⟨τ1, h2, h3⟩ := h σ τ hr _ _ h1
    refine ⟨τ1, .inl ⟨o, τ1, h2, ?_⟩, ?_⟩
    · simp only [Src.result]
      cases ho : o.flow <;> (rw [ho] at he; cases he; rfl)
    · cases ho : o.flow <;> (rw [ho] at he; cases he; exact h3)
  · rename_i k σ1 h1
    obtain ⟨τ1, h2, h3⟩ := h σ τ hr _ _ h1
    split at he
    · cases he
    · simp only [Option.some.injEq, Prod.mk.injEq] at he
      obtain ⟨rfl, rfl⟩ := he
      refine ⟨{ τ1 with base := { σ1.base with heap :=
          (σ1.base.heap.newError (bs "caught panic: " ++ w.showPanic σ1.base.heap k) (.string (bs "panic"))).2 } },
        .inr (.inl ⟨k, τ1, h2, ?_⟩), ?_⟩
      · rw [h3.base]
      · exact ⟨rfl, h3.funs⟩
  · rename_i e σ1 hne h1
    obtain ⟨τ1, h2, h3⟩ := h σ τ hr _ _ h1
    cases he
    exact ⟨τ1, .inr (.inr ⟨e, τ1, h2, fun k hk => hne k hk, rfl⟩), h3⟩

theorem ref_command {w c env names me b b'} (h : CommandBlockTo c.frames b b') (he : EnvRel c env names me) (own) :
    Ref (Vars.command w env b') (Src.command w ⟨names, me, own⟩ b) := by
  intro σ τ hr r σ' hq
  have ha : ArgRel c.frames names (Vars.argEnv w env σ.base) (Src.argEnv w σ.base) :=
    ⟨fun hx => by
      obtain ⟨y, h1, h2⟩ := he.names hx
      exact ⟨y, h2, by simp only [Src.argEnv, Vars.argEnv, h1, Option.map_some]⟩, rfl, rfl, rfl⟩
  obtain ⟨b2, h1, h2, h3⟩ := block_names ha h
  have key : ∀ A : RState → ArgEnv, KeepsFuns (do
      let s ← M.get
      let ex ← M.lift (buildBlock (A s) b2.head b2.tail)
      record (.command b2.kind ex)
      match b2.kind with
      | .asynchronous =>
        let f ← M.alloc (fun h => h.newNative (bs "<command>.join") (.join (some s.trace.length)))
        M.alloc (fun h => h.newDict [(.string (bs "join"), f)])
      | kind => answer [] (w.command s.trace kind ex) : M Value) := by
    intro A
    refine keepsFuns_bind keepsFuns_get fun s => keepsFuns_bind keepsFuns_lift fun ex => keepsFuns_bind keepsFuns_record fun _ => ?_
    cases b2.kind with
    | asynchronous => exact keepsFuns_bind (fun _ => rfl) fun _ => (fun _ => rfl)
    | synchronous => exact keepsFuns_answer
    | capture => exact keepsFuns_answer
  obtain ⟨τ', h4, h5⟩ := ref_other (key (Src.argEnv w)) σ τ hr r σ' (by
    rw [← hq]
    simp only [Vars.command, Vars.VM.other, bind, M.andThen, M.get, h2, h3]
    rfl)
  exact ⟨τ', ⟨b2, h1, h4⟩, h5⟩

theorem captures_vals {env : List Nat} : ∀ {cs : List Prog.Capture} {σ r σ'}, (∀ k ∈ cs, ∃ y, env[k.from_]? = some y) →
    Vars.captures env cs σ = some (r, σ') → σ' = σ ∧ ∃ l, r = .ok l ∧ l.map (·.2) = cs.map (·.to) ∧
      (∀ p s, ⟨p, s⟩ ∈ cs → ∃ y, env[p]? = some y ∧ (y, s) ∈ l) ∧ ∀ q ∈ l, ∃ k ∈ cs, env[k.from_]? = some q.1
  | [], σ, r, σ', _, h => by
    cases h
    exact ⟨rfl, [], rfl, rfl, by simp, by simp⟩
  | k :: cs, σ, r, σ', hk, h => by
    obtain ⟨y, hy⟩ := hk k (by simp)
    simp only [Vars.captures, hy] at h
    simp only [bind, Vars.VM.andThen] at h
    split at h
    · cases h
    · rename_i l σ1 h1
      cases h
      obtain ⟨rfl, l', hl, h2, h3, h4⟩ := captures_vals (fun k hk' => hk k (by simp [hk'])) h1
      cases hl
      refine ⟨rfl, (y, k.to) :: l, rfl, by simp [h2], ?_, ?_⟩
      · intro p s hm
        simp only [List.mem_cons] at hm
        rcases hm with rfl | hm
        · exact ⟨y, hy, by simp⟩
        · obtain ⟨z, hz, hz'⟩ := h3 p s hm
          exact ⟨z, hz, by simp [hz']⟩
      · intro q hq
        simp only [List.mem_cons] at hq
        rcases hq with rfl | hq
        · exact ⟨k, by simp, hy⟩
        · obtain ⟨k', h5, h6⟩ := h4 q hq
          exact ⟨k', by simp [h5], h6⟩
    · rename_i e σ1 h1
      obtain ⟨rfl, l', hl, _⟩ := captures_vals (fun k hk' => hk k (by simp [hk'])) h1
      cases hl

theorem ref_fun {c : Env} {env names me own m pos ps b b'} {info : Prog.FrameInfo} {D}
    (h1 : Translates (c.function ps info) (.block b b') D)
    (h2 : (List.range ps.length ++ D ++ info.captures.map (·.to) ++ info.selfSlot.toList).Nodup)
    (h3 : ∀ s ∈ List.range ps.length ++ D ++ info.captures.map (·.to) ++ info.selfSlot.toList, s < info.slots)
    (h4 : ∀ k ∈ info.captures, ∃ x, Refers c.frames x k.from_) (he : EnvRel c env names me) :
    Ref (do
      let context ← Vars.captures env info.captures
      let f ← Vars.VM.other (M.alloc (fun h => h.newClosure ⟨ps.length, info, b', context, m, pos⟩))
      pure (Out.value f pos)) (do
      let f ← Src.newFun ⟨names, me, own⟩ m ps b pos
      pure (Out.value f pos)) := by
  intro σ τ hr r σ' hq
  simp only [bind, Vars.VM.andThen] at hq
  have hk : ∀ k ∈ info.captures, ∃ y, env[k.from_]? = some y := by
    intro k hk
    obtain ⟨x, hx⟩ := h4 k hk
    obtain ⟨y, hy, _⟩ := he.names hx
    exact ⟨y, hy⟩
  split at hq
  · cases hq
  · rename_i l σ1 hc
    obtain ⟨rfl, l', hl, g1, g2, g3⟩ := captures_vals hk hc
    cases hl
    simp only [Vars.VM.other, M.alloc] at hq
    cases hq
    obtain ⟨tb, tf⟩ := τ
    obtain rfl : tb = σ1.base := hr.base
    refine ⟨⟨{ σ1.base with heap := (σ1.base.heap.newClosure ⟨ps.length, info, b', l, m, pos⟩).2 }, tf ++ [⟨ps, b, names, m⟩]⟩, .inl ⟨_, _, ⟨⟨ps.length, info, b', l, m, pos⟩, rfl, rfl, rfl, ?_, rfl⟩, ?_⟩, ?_⟩
    · intro q hq
      obtain ⟨k, hk1, hk2⟩ := g3 q hq
      obtain ⟨x, hx⟩ := h4 k hk1
      obtain ⟨y, hy, hy'⟩ := he.names hx
      rw [hk2] at hy
      cases hy
      exact ⟨x, hy'⟩
    · rfl
    · refine ⟨rfl, ?_⟩
      simp only [Heap.newClosure]
      refine List.rel_append hr.funs (.cons ?_ .nil)
      refine ⟨rfl, rfl, c, D, h1, h2, h3, g1, ?_⟩
      intro x p s hx hm
      obtain ⟨y, hy, hy'⟩ := g2 p s hm
      obtain ⟨z, hz, hz'⟩ := he.names hx
      rw [hy] at hz
      cases hz
      exact ⟨y, hy', hz'⟩
  · rename_i e σ1 hc
    obtain ⟨rfl, l', hl, _⟩ := captures_vals hk hc
    cases hl

/-! ### Bodies -/

theorem captured_length : ∀ (own : List Nat) (l : List (Nat × Nat)), (Vars.withCaptured own l).length = own.length
  | _, [] => rfl
  | own, (x, k) :: l => by simp only [Vars.withCaptured, captured_length (own.set k x) l, List.length_set]

theorem captured_get : ∀ (l : List (Nat × Nat)) (own : List Nat) (i : Nat), i ∉ l.map (·.2) → (Vars.withCaptured own l)[i]? = own[i]?
  | [], _, _, _ => rfl
  | (x, k) :: l, own, i, h => by
    simp only [List.map_cons, List.mem_cons, not_or] at h
    simp only [Vars.withCaptured, captured_get l _ i h.2, List.getElem?_set_ne (Ne.symm h.1)]

theorem captured_mem : ∀ (l : List (Nat × Nat)) (own : List Nat) {y s : Nat}, (l.map (·.2)).Nodup → (y, s) ∈ l → s < own.length →
    (Vars.withCaptured own l)[s]? = some y
  | [], _, _, _, _, h, _ => by simp at h
  | (x, k) :: l, own, y, s, hn, h, hs => by
    simp only [List.map_cons, List.nodup_cons] at hn
    simp only [List.mem_cons, Prod.mk.injEq] at h
    rcases h with ⟨rfl, rfl⟩ | h
    · simp only [Vars.withCaptured]
      rw [captured_get l _ _ hn.1, List.getElem?_set_self (by omega)]
    · simp only [Vars.withCaptured]
      exact captured_mem l _ hn.2 h (by simpa using hs)

theorem ref_assignAll (own : List Nat) : ∀ (vs : List Value) (i : Nat) (cells : List Nat), (∀ j, j < vs.length → ∃ y, cells[j]? = some y ∧ own[i + j]? = some y) →
    Ref (Vars.assignAll own i vs) (Src.assignAll cells vs)
  | [], i, cells, _ => by
    cases cells <;> exact ref_pure
  | v :: vs, i, cells, h => by
    cases cells with
    | nil => obtain ⟨y, hy, _⟩ := h 0 (by simp); simp at hy
    | cons y cells =>
      obtain ⟨z, hz, hz'⟩ := h 0 (by simp)
      simp only [List.getElem?_cons_zero, Option.some.injEq] at hz
      subst hz
      refine ref_bind (ref_assign hz') fun _ => ref_assignAll own vs (i + 1) cells ?_
      intro j hj
      have := h (j + 1) (by simpa using hj)
      simpa [Nat.add_assoc, Nat.add_comm 1 j] using this

/-- New variables for slots. -/
theorem ref_newVars {k : Nat} {α} {ps D me : List Nat} {q : List Nat → Vars.VM α} {n : Nat} {p : (List Nat × List Nat × Option Nat) → Src.NM α}
    (slots : Nat) (sf : Option Nat) (hme : me = sf.toList) (hps : ps.length = n) (hD : D.length = k)
    (hn : (ps ++ D ++ me).Nodup) (hb : ∀ s ∈ ps ++ D ++ me, s < slots)
    (h : ∀ base, Ref (q (List.range' base slots)) (p (ps.map (base + ·), D.map (base + ·), sf.map (base + ·)))) :
    Ref (Vars.newVars slots >>= q) (Src.newVars n k >>= p) := by
  subst hme
  intro σ τ hr r σ' he
  simp only [bind, Vars.VM.andThen, Vars.newVars] at he
  obtain ⟨τ', h1, h2⟩ := h _ { σ with base := { σ.base with heap := { σ.base.heap with cells := σ.base.heap.cells ++ List.replicate slots .nil } } }
    { τ with base := { σ.base with heap := { σ.base.heap with cells := σ.base.heap.cells ++ List.replicate slots .nil } } }
    ⟨rfl, hr.funs⟩ r σ' he
  obtain ⟨tb, tf⟩ := τ
  obtain rfl : tb = σ.base := hr.base
  refine ⟨τ', .inl ⟨_, _, ⟨slots, ps.map (σ.base.heap.cells.length + ·), D.map (σ.base.heap.cells.length + ·),
    sf.map (σ.base.heap.cells.length + ·), ?_, ?_, ?_, ?_, rfl⟩, h1⟩, h2⟩
  · simpa using hps
  · simpa using hD
  · have : ps.map (σ.base.heap.cells.length + ·) ++ D.map (σ.base.heap.cells.length + ·) ++ (sf.map (σ.base.heap.cells.length + ·)).toList =
        (ps ++ D ++ sf.toList).map (σ.base.heap.cells.length + ·) := by cases sf <;> simp
    rw [this]
    exact List.pairwise_map.2 (List.Pairwise.imp (fun h => by simpa using h) hn)
  · have : ps.map (σ.base.heap.cells.length + ·) ++ D.map (σ.base.heap.cells.length + ·) ++ (sf.map (σ.base.heap.cells.length + ·)).toList =
        (ps ++ D ++ sf.toList).map (σ.base.heap.cells.length + ·) := by cases sf <;> simp
    rw [this]
    intro x hx
    obtain ⟨s, hs, rfl⟩ := List.mem_map.1 hx
    have := hb s hs
    simp only
    omega

theorem range'_get {base n s : Nat} (h : s < n) : (List.range' base n)[s]? = some (base + s) := by
  rw [List.getElem?_range' h]; simp

theorem zip_lookup (base : Nat) (names : List (Sym × Nat)) (x : Sym) : ∀ (l : List Sym) (k : Nat),
    (∀ s, (l.zipIdx k).reverse.lookup x = some s → ((l.zip (List.range' k l.length |>.map (base + ·))).reverse ++ names).lookup x = some (base + s)) ∧
    ((l.zipIdx k).reverse.lookup x = none → ((l.zip (List.range' k l.length |>.map (base + ·))).reverse ++ names).lookup x = names.lookup x) := by
  intro l
  induction l using List.reverseRecOn with
  | nil => intro k; simp
  | append_singleton l a ih =>
    intro k
    have h1 : (l ++ [a]).zipIdx k = l.zipIdx k ++ [(a, k + l.length)] := by
      rw [List.zipIdx_append]; rfl
    have h2 : (l ++ [a]).zip ((List.range' k (l ++ [a]).length).map (base + ·)) =
        l.zip ((List.range' k l.length).map (base + ·)) ++ [(a, base + (k + l.length))] := by
      rw [List.length_append, List.length_singleton, List.range'_concat, List.map_append, List.zip_append (by simp)]
      simp
    rw [h1, h2]
    simp only [List.reverse_append, List.reverse_cons, List.reverse_nil, List.nil_append, List.cons_append, List.lookup_cons]
    by_cases hx : x = a
    · subst hx; simp
    · have hb : (x == a) = false := by simpa using hx
      rw [hb]
      exact ih k

theorem body_env {c : Env} {ps : List (Sym × Pos)} {info : Prog.FrameInfo} {D : List Nat} {ctx : List (Nat × Nat)} {names : List (Sym × Nat)}
    (h2 : (List.range ps.length ++ D ++ info.captures.map (·.to) ++ info.selfSlot.toList).Nodup)
    (h3 : ∀ s ∈ List.range ps.length ++ D ++ info.captures.map (·.to) ++ info.selfSlot.toList, s < info.slots)
    (h4 : ctx.map (·.2) = info.captures.map (·.to))
    (h5 : ∀ {x p s}, Refers c.frames x p → ⟨p, s⟩ ∈ info.captures → ∃ y, (y, s) ∈ ctx ∧ names.lookup x = some y) (base : Nat) :
    (∀ s ∈ List.range ps.length ++ D ++ info.selfSlot.toList, (Vars.withCaptured (List.range' base info.slots) ctx)[s]? = some (base + s)) ∧
    EnvRel (c.function ps info) (Vars.withCaptured (List.range' base info.slots) ctx)
      (((ps.map (·.1)).zip ((List.range ps.length).map (base + ·))).reverse ++ names) (info.selfSlot.map (base + ·)) := by
  have key : ∀ s ∈ List.range ps.length ++ D ++ info.selfSlot.toList,
      (Vars.withCaptured (List.range' base info.slots) ctx)[s]? = some (base + s) := by
    intro s hs
    rw [captured_get, range'_get]
    · apply h3
      simp only [List.mem_append] at hs ⊢
      tauto
    · rw [h4]
      intro hc
      simp only [List.nodup_append, List.mem_append] at h2 hs
      obtain ⟨⟨⟨-, -, -⟩, -, g⟩, -, g'⟩ := h2
      rcases hs with hs | hs
      · exact g s hs s hc rfl
      · exact g' s (.inr hc) s hs rfl
  refine ⟨key, ⟨⟨_, _, _, _, rfl, rfl⟩, ?_, ?_⟩⟩
  · intro x s hx
    have hz := zip_lookup base names x (ps.map (·.1)) 0
    simp only [List.length_map, ← List.range_eq_range'] at hz
    have hl : FrameEnv.lookup ⟨[paramScope ps], info⟩ x = ((ps.map (·.1)).zipIdx 0).reverse.lookup x := by
      simp only [FrameEnv.lookup, paramScope, List.findSome?_cons, List.findSome?_nil]
      cases (List.lookup x ((ps.map (·.1)).zipIdx 0).reverse) <;> rfl
    simp only [Env.function] at hx
    cases hx with
    | own h =>
      rw [hl] at h
      refine ⟨base + s, key s ?_, hz.1 s h⟩
      have hm := List.mem_reverse.1 (assoc_mem h)
      have := (List.mem_zipIdx hm).2.1
      simp only [List.length_map, Nat.zero_add] at this
      simp only [List.mem_append, List.mem_range]
      exact .inl (.inl this)
    | captured h h6 h7 =>
      rw [hl] at h
      obtain ⟨y, hy, hy'⟩ := h5 h6 h7
      refine ⟨y, captured_mem _ _ ?_ hy ?_, (hz.2 h).trans hy'⟩
      · rw [h4]
        simp only [List.nodup_append] at h2
        exact h2.1.2.1
      · rw [List.length_range']
        apply h3
        have : s ∈ info.captures.map (·.to) := List.mem_map.2 ⟨_, h7, rfl⟩
        simp only [List.mem_append]
        tauto
  · intro f fs s _ hf hs
    simp only [Env.function, List.cons.injEq] at hf
    obtain ⟨rfl, rfl⟩ := hf
    simp only at hs
    refine ⟨base + s, key s ?_, by rw [hs]; rfl⟩
    simp [hs]

theorem supply_map {env D : List Nat} {base : Nat} (h : ∀ s ∈ D, env[s]? = some (base + s)) : Supply env D (D.map (base + ·)) := by
  intro i s hi
  refine ⟨base + s, ?_, h s (List.mem_of_getElem? hi)⟩
  rw [List.getElem?_map, hi]; rfl

theorem ref_assignSelf {env : List Nat} {obj} {sf : Option Nat} {base : Nat} (h : ∀ s ∈ sf.toList, env[s]? = some (base + s)) :
    Ref (Vars.assignSelf env obj sf) (Src.assignSelf (sf.map (base + ·)) obj) := by
  cases sf with
  | none => exact ref_pure
  | some s => exact ref_assign (h s (by simp))

theorem ref_body {w : World} {rv : Vars.Rec} {rs : Src.Rec} (hrec : RecRef rv rs) {obj c f args pos} (hf : FunRel c f) :
    Ref (Vars.body w rv obj c args pos) (Src.body rs obj f args pos) := by
  obtain ⟨ctx, D, h1, h2, h3, h4, h5⟩ := hf.code
  simp only [Vars.body, Src.body, hf.params]
  split
  · exact ref_panic
  · rename_i hl
    simp only [ne_eq, Decidable.not_not] at hl
    refine ref_bind ref_enter fun _ => ?_
    refine ref_newVars (ps := List.range f.params.length) (D := D) c.frame.slots c.frame.selfSlot rfl (by simp) (decls_length h1) ?_ ?_ ?_
    · simp only [List.nodup_append, List.mem_append] at h2 ⊢
      obtain ⟨⟨⟨a1, a2, a3⟩, b1, b2⟩, d1, d2⟩ := h2
      exact ⟨⟨a1, a2, a3⟩, d1, fun a ha b hb => d2 a (.inl ha) b hb⟩
    · intro s hs
      apply h3
      simp only [List.mem_append] at hs ⊢
      tauto
    · intro base
      obtain ⟨hk, he⟩ := body_env h2 h3 h4 h5 base
      refine ref_bind (ref_assignAll _ args 0 _ ?_) fun _ => ?_
      · intro j hj
        rw [hl] at hj
        refine ⟨base + j, by simp [hj], ?_⟩
        rw [Nat.zero_add]
        exact range'_get (h3 j (by simp [hj]))
      refine ref_bind (ref_assignSelf fun s hs => hk s (by simp only [List.mem_append]; exact .inr hs)) fun _ => ?_
      refine ref_bind (hf.module ▸ hrec (.block (E := ⟨_, _, _⟩) _ _ h1 he (supply_map fun s hs => hk s (by simp only [List.mem_append]; tauto)))) fun o => ?_
      cases o.flow with
      | regular v => exact ref_pure
      | return_ v => exact ref_pure
      | break_ => exact ref_crash

theorem ref_program {w : World} {rv : Vars.Rec} {rs : Src.Rec} (hrec : RecRef rv rs) {m b p} (hp : TranslatesProgram b p) :
    Ref (Vars.program w rv m p) (Src.program rs m b) := by
  obtain ⟨info, D, h0, h1, h2, h3, h4⟩ := hp
  simp only [Vars.program, Src.program]
  refine ref_restoring (ref_bind ref_enter fun _ => ?_)
  refine ref_newVars (ps := [0]) (D := D) p.rootSlots none rfl rfl (decls_length h2) (by simpa using h3) (by simpa using h4) ?_
  intro base
  refine ref_bind (ref_other keepsFuns_get) fun s => ?_
  have hz : (List.range' base p.rootSlots)[0]? = some (base + 0) := range'_get (h4 0 (by simp))
  have ha : Ref (Vars.assign (List.range' base p.rootSlots) 0 s.std) (Src.assignAll [base + 0] [s.std]) := by
    have := ref_assignAll (List.range' base p.rootSlots) [s.std] 0 [base + 0] (by
      intro j hj
      simp only [List.length_singleton, Nat.lt_one_iff] at hj
      subst hj
      exact ⟨_, rfl, hz⟩)
    refine fun σ τ hr r σ' hq => this σ τ hr r σ' ?_
    simp only [Vars.assignAll, bind, Vars.VM.andThen, hq]
    cases r <;> rfl
  refine ref_bind ha fun _ => ?_
  have he : EnvRel (rootEnv info) (List.range' base p.rootSlots) [(bs "std", base + 0)] none := by
    refine ⟨⟨_, _, _, _, rfl, rfl⟩, ?_, ?_⟩
    · intro x s hx
      simp only [rootEnv] at hx
      cases hx with
      | own h =>
        simp only [FrameEnv.lookup, List.findSome?_cons, List.findSome?_nil, List.lookup_cons, List.lookup_nil] at h
        have hstd : ("std".toUTF8.toList : Sym) = bs "std" := by decide +kernel
        rw [hstd] at h
        cases hb : (x == bs "std") with
        | true =>
          rw [hb] at h
          cases h
          exact ⟨_, hz, by rw [List.lookup_cons, hb]⟩
        | false => rw [hb] at h; cases h
      | captured _ h _ => cases h
    · intro f fs s hi
      cases hi
  refine ref_bind (ref_failing (hrec (.block (E := ⟨_, _, _⟩) _ _ h2 he (supply_map fun s hs => range'_get (h4 s (by simp [hs])))))) fun o => ?_
  cases o.flow with
  | regular v => exact ref_pure
  | return_ v => exact ref_crash
  | break_ => exact ref_crash

end Hush

import Verif.Spec.Source
import Verif.Lemmas.VarSim

/-!
The semantics of variables (`Vars`) refines the semantics of names (`Src`): relation of states, and commands.
-/

namespace Hush
open Spec

/-! ### What names mean -/

theorem frameLookup_push (e : FrameEnv) (x : Sym) : FrameEnv.lookup { e with scopes := [] :: e.scopes } x = e.lookup x := by
  simp only [FrameEnv.lookup, List.findSome?_cons, List.lookup_nil]

theorem refers_block {c : Env} {x s} (h : Refers c.block.frames x s) : Refers c.frames x s := by
  obtain ⟨frames, f, l⟩ := c
  cases frames with
  | nil => exact h
  | cons e es =>
    simp only [Env.block] at h
    cases h with
    | own h => exact .own (by rw [← frameLookup_push]; exact h)
    | captured h h1 h2 => exact .captured (by rw [← frameLookup_push]; exact h) h1 h2

/-- There is an open scope. -/
def ScopeOpen (c : Env) : Prop := ∃ f fs s ss, c.frames = f :: fs ∧ f.scopes = s :: ss

theorem scopeOpen_block {c : Env} (h : ScopeOpen c) : ScopeOpen c.block := by
  obtain ⟨f, fs, s, ss, h1, h2⟩ := h
  refine ⟨{ f with scopes := [] :: f.scopes }, fs, [], f.scopes, ?_, rfl⟩
  simp only [Env.block, h1]

theorem scopeOpen_declare {c : Env} (h : ScopeOpen c) (x n) : ScopeOpen (c.declare x n) := by
  obtain ⟨f, fs, s, ss, h1, h2⟩ := h
  refine ⟨{ f with scopes := ((x, n) :: s) :: ss }, fs, (x, n) :: s, ss, ?_, rfl⟩
  simp only [Env.declare, h1, h2]

theorem refers_declare {c : Env} (ho : ScopeOpen c) {x y : Sym} {n s : Nat} (h : Refers (c.declare x n).frames y s) :
    (y = x ∧ s = n) ∨ (y ≠ x ∧ Refers c.frames y s) := by
  obtain ⟨f, fs, sc, ss, h1, h2⟩ := ho
  simp only [Env.declare, h1, h2] at h
  rw [h1]
  by_cases hy : y = x
  · left
    subst hy
    refine ⟨rfl, ?_⟩
    cases h with
    | own h => simp [FrameEnv.lookup] at h; exact h.symm
    | captured h _ _ => simp [FrameEnv.lookup] at h
  · right
    refine ⟨hy, ?_⟩
    have hb : (y == x) = false := by simpa using hy
    have hl : FrameEnv.lookup { f with scopes := ((x, n) :: sc) :: ss } y = f.lookup y := by
      simp only [FrameEnv.lookup, h2, List.findSome?_cons, List.lookup_cons, hb]
    cases h with
    | own h => exact .own (by rw [← hl]; exact h)
    | captured h h3 h4 => exact .captured (by rw [← hl]; exact h) h3 h4

/-- The variables of the slots are those of the names. -/
structure EnvRel (c : Env) (env : List Nat) (names : List (Sym × Nat)) (me : Option Nat) : Prop where
  open_ : ScopeOpen c
  names : ∀ {x s}, Refers c.frames x s → ∃ y, env[s]? = some y ∧ names.lookup x = some y
  selfs : ∀ {f fs s}, c.inFn = true → c.frames = f :: fs → f.info.selfSlot = some s → ∃ y, env[s]? = some y ∧ me = some y

/-- The variables of the declarations. -/
def Supply (env D own : List Nat) : Prop := ∀ (i s : Nat), D[i]? = some s → ∃ y, own[i]? = some y ∧ env[s]? = some y

theorem Supply.left {env D₁ D₂ own} (h : Supply env (D₁ ++ D₂) own) : Supply env D₁ own := by
  intro i s hi
  refine h i s ?_
  rw [List.getElem?_append_left (List.getElem?_eq_some_iff.1 hi).1]
  exact hi

theorem Supply.right {env D₁ D₂ own} (h : Supply env (D₁ ++ D₂) own) : Supply env D₂ (own.drop D₁.length) := by
  intro i s hi
  rw [List.getElem?_drop]
  refine h _ s ?_
  rw [List.getElem?_append_right (by omega)]
  simpa using hi

theorem Supply.cons {env s D own} (h : Supply env (s :: D) own) : ∃ y own', own = y :: own' ∧ env[s]? = some y ∧ Supply env D own' := by
  cases own with
  | nil => obtain ⟨y, hy, _⟩ := h 0 s rfl; simp at hy
  | cons y own' =>
    obtain ⟨z, hz, hz'⟩ := h 0 s rfl
    simp only [List.getElem?_cons_zero, Option.some.injEq] at hz
    subst hz
    refine ⟨y, own', rfl, hz', ?_⟩
    intro i t hi
    have := h (i + 1) t (by simpa using hi)
    simpa using this

theorem EnvRel.block {c env names me} (h : EnvRel c env names me) : EnvRel c.block env names me where
  open_ := scopeOpen_block h.open_
  names hr := h.names (refers_block hr)
  selfs := by
    intro f fs s hf hc hs
    obtain ⟨frames, fl, l⟩ := c
    cases frames with
    | nil => simp [Env.block] at hc
    | cons e es =>
      simp only [Env.block, List.cons.injEq] at hc hf
      obtain ⟨rfl, rfl⟩ := hc
      exact h.selfs hf rfl hs

theorem EnvRel.loop {c env names me} (h : EnvRel c env names me) : EnvRel c.loop env names me := by
  have := h.block
  refine ⟨this.open_, this.names, ?_⟩
  intro f fs s hf hc hs
  exact this.selfs hf hc hs

theorem EnvRel.declare {c env names me} (h : EnvRel c env names me) {x : Sym} {n y : Nat} (hy : env[n]? = some y) :
    EnvRel (c.declare x n) env ((x, y) :: names) me where
  open_ := scopeOpen_declare h.open_ x n
  names := by
    intro z s hr
    rcases refers_declare h.open_ hr with ⟨rfl, rfl⟩ | ⟨hz, hr⟩
    · exact ⟨y, hy, by simp⟩
    · obtain ⟨v, h1, h2⟩ := h.names hr
      have hb : (z == x) = false := by simpa using hz
      exact ⟨v, h1, by rw [List.lookup_cons, hb]; exact h2⟩
  selfs := by
    intro f fs s hf hc hs
    obtain ⟨frames, fl, l⟩ := c
    obtain ⟨e, es, sc, ss, h1, h2⟩ := h.open_
    simp only at h1
    subst h1
    simp only [Env.declare, h2, List.cons.injEq] at hc hf
    obtain ⟨rfl, rfl⟩ := hc
    exact h.selfs hf rfl hs

theorem decls_length : ∀ {c code D}, Translates c code D →
    D.length = (match code with
      | .expr a _ => Src.declsExpr a
      | .exprs a _ => Src.declsExprs a
      | .lit a _ => Src.declsLit a
      | .fields a _ => Src.declsFields a
      | .lvalue a _ => Src.declsExpr a
      | .stmt a _ => Src.declsStmt a
      | .block a _ => Src.declsBlock a) := by
  intro c code D h
  induction h with
  | let_ => simp_all [Src.declsBlock, Src.declsStmt]; omega
  | for_ => simp_all [Src.declsStmt]; omega
  | _ => simp_all [Src.declsExpr, Src.declsExprs, Src.declsLit, Src.declsFields, Src.declsStmt, Src.declsBlock]

/-! ### States -/

/-- The two representations of a function. -/
structure FunRel (c : Closure) (f : Src.Fun) : Prop where
  params : c.params = f.params.length
  module : c.module = f.module
  code : ∃ (ctx : Env) (D : List Nat), Translates (ctx.function f.params c.frame) (.block f.body c.body) D ∧
    (List.range f.params.length ++ D ++ c.frame.captures.map (·.to) ++ c.frame.selfSlot.toList).Nodup ∧
    (∀ s ∈ List.range f.params.length ++ D ++ c.frame.captures.map (·.to) ++ c.frame.selfSlot.toList, s < c.frame.slots) ∧
    c.context.map (·.2) = c.frame.captures.map (·.to) ∧
    ∀ {x p s}, Refers ctx.frames x p → ⟨p, s⟩ ∈ c.frame.captures → ∃ y, (y, s) ∈ c.context ∧ f.names.lookup x = some y

/-- The states are the same. -/
structure SrcRel (σ : Vars.State) (τ : Src.State) : Prop where
  base : τ.base = σ.base
  funs : List.Forall₂ FunRel σ.base.heap.closures τ.funs

theorem funRel_default : FunRel default default where
  params := rfl
  module := rfl
  code := by
    refine ⟨⟨[], true, false⟩, [], .noStmts _, ?_, ?_, rfl, ?_⟩
    · exact (by decide)
    · simp [default]
    · intro x p s h; cases h

theorem SrcRel.fun_ {σ τ} (h : SrcRel σ τ) (a : Nat) : FunRel (σ.base.heap.closure a) (τ.funs.getD a default) := by
  simp only [Heap.closure, List.getD_eq_getElem?_getD]
  have := h.funs
  revert this a
  generalize σ.base.heap.closures = l
  generalize τ.funs = l'
  intro a hf
  induction hf generalizing a with
  | nil => simpa using funRel_default
  | cons h _ ih =>
    cases a with
    | zero => simpa using h
    | succ a => simpa using ih a

/-- Whatever the one computation does, the other one may do. -/
def Ref (q : Vars.VM α) (p : Src.NM α) : Prop :=
  ∀ σ τ, SrcRel σ τ → ∀ r σ', q σ = some (r, σ') → ∃ τ', p τ (r, τ') ∧ SrcRel σ' τ'

theorem ref_bind {q : Vars.VM α} {p : Src.NM α} {f : α → Vars.VM β} {g : α → Src.NM β} (h : Ref q p) (hf : ∀ a, Ref (f a) (g a)) :
    Ref (q >>= f) (p >>= g) := by
  intro σ τ hr r σ' he
  simp only [bind, Vars.VM.andThen] at he
  split at he
  · cases he
  · rename_i a σ1 h1
    obtain ⟨τ1, h2, h3⟩ := h σ τ hr _ _ h1
    obtain ⟨τ', h4, h5⟩ := hf a σ1 τ1 h3 _ _ he
    exact ⟨τ', .inl ⟨a, τ1, h2, h4⟩, h5⟩
  · rename_i e σ1 h1
    obtain ⟨τ1, h2, h3⟩ := h σ τ hr _ _ h1
    cases he
    exact ⟨τ1, .inr ⟨e, τ1, h2, rfl⟩, h3⟩

theorem ref_pure {a : α} : Ref (pure a) (pure a) := by
  intro σ τ hr r σ' he
  cases he
  exact ⟨τ, rfl, hr⟩

theorem ref_stop {e} : Ref (Vars.VM.stop e : Vars.VM α) (Src.NM.stop e) := by
  intro σ τ hr r σ' he
  cases he
  exact ⟨τ, rfl, hr⟩

theorem ref_panic {k p} : Ref (Vars.VM.panic k p : Vars.VM α) (Src.NM.panic k p) := ref_stop
theorem ref_crash {k} : Ref (Vars.VM.crash k : Vars.VM α) (Src.NM.crash k) := ref_stop

/-- The functions stay as they are. -/
def KeepsFuns (m : M α) : Prop := ∀ s, (m s).2.heap.closures = s.heap.closures

theorem ref_other {m : M α} (hm : KeepsFuns m) : Ref (Vars.VM.other m) (Src.NM.other m) := by
  intro σ τ hr r σ' he
  simp only [Vars.VM.other, Option.some.injEq, Prod.mk.injEq] at he
  obtain ⟨rfl, rfl⟩ := he
  refine ⟨{ τ with base := (m σ.base).2 }, ?_, ?_⟩
  · simp only [Src.NM.other, hr.base]
  · refine ⟨rfl, ?_⟩
    show List.Forall₂ FunRel (m σ.base).2.heap.closures τ.funs
    rw [hm σ.base]
    exact hr.funs

theorem keepsFuns_bind {m : M α} {f : α → M β} (hm : KeepsFuns m) (hf : ∀ a, KeepsFuns (f a)) : KeepsFuns (m >>= f) := by
  intro s
  have h1 := hm s
  simp only [bind, M.andThen]
  rcases he : m s with ⟨_ | a, s'⟩
  · rw [he] at h1; exact h1
  · rw [he] at h1; exact (hf a s').trans h1
theorem keepsFuns_pure {a : α} : KeepsFuns (pure a : M α) := fun _ => rfl
theorem keepsFuns_stop {e} : KeepsFuns (M.stop e : M α) := fun _ => rfl
theorem keepsFuns_get : KeepsFuns M.get := fun _ => rfl
theorem keepsFuns_lift {x : Except Stop α} : KeepsFuns (M.lift x) := by cases x <;> exact fun _ => rfl
theorem keepsFuns_reads {f : Heap → Except Stop α} : KeepsFuns (M.reads f) := fun _ => rfl
theorem keepsFuns_record {e} : KeepsFuns (record e) := fun _ => rfl
theorem keepsFuns_alloc {f : Heap → α × Heap} (h : ∀ h, HeapKeeps h (f h).2) : KeepsFuns (M.alloc f) := fun s => (h s.heap).closures
theorem keepsFuns_answer {args r} : KeepsFuns (answer args r) := by
  cases r with
  | value t => exact keepsFuns_alloc fun h => keeps_build args h t
  | panic p => exact keepsFuns_stop
  | crash => exact keepsFuns_stop
  | exit c => exact keepsFuns_stop
theorem keepsFuns_callLib {w n name addr args pos} : KeepsFuns (callLib w n name addr args pos) := by
  intro s
  simp only [callLib]
  have h := libOk_call w name ⟨n, addr, args, pos, s.argv⟩ s.heap
  cases hx : Lib.call w name ⟨n, addr, args, pos, s.argv⟩ s.heap with
  | none => exact (keepsFuns_bind keepsFuns_record fun _ => keepsFuns_answer) s
  | some x =>
    rw [hx] at h
    cases x with
    | error e => rfl
    | ok p => exact (h.1 p.1 p.2 rfl).closures
theorem keepsFuns_join {w addr pos} : KeepsFuns (joinCommand w addr pos) := by
  intro s
  simp only [joinCommand]
  cases hx : s.heap.native addr with
  | join o =>
    cases o with
    | some t =>
      have : KeepsFuns (do
        M.modify (fun s => { s with heap := s.heap.setNative addr (.join none) })
        record (.join t)
        answer [] (w.joined s.trace t) : M Value) :=
        keepsFuns_bind (fun _ => rfl) fun _ => keepsFuns_bind keepsFuns_record fun _ => keepsFuns_answer
      have e : joinCommand w addr pos s = (do
        M.modify (fun s => { s with heap := s.heap.setNative addr (.join none) })
        record (.join t)
        answer [] (w.joined s.trace t) : M Value) s := by
        simp only [joinCommand, bind, M.andThen, M.get, hx]
      first | exact this s | (rw [← joinCommand, e]; exact this s)
    | none => simp [bind, M.andThen, M.get, hx, M.panic, M.stop]
  | _ => simp [bind, M.andThen, M.get, hx, M.panic, M.stop]

/-! ### Commands -/

section
variable {fs : List FrameEnv} {names : List (Sym × Nat)} {A B : ArgEnv}

/-- Both give the same values to variables. -/
structure ArgRel (fs : List FrameEnv) (names : List (Sym × Nat)) (A B : ArgEnv) : Prop where
  fetch : ∀ {x s}, Refers fs x s → ∃ y, names.lookup x = some y ∧ B.fetch y = A.fetch s
  array : B.array = A.array
  home : B.home = A.home
  floatText : B.floatText = A.floatText

/-- Names as a frame. -/
abbrev nameFrame (names : List (Sym × Nat)) : List FrameEnv := [⟨[names], ⟨0, [], none⟩⟩]

theorem refers_names {x y} (h : names.lookup x = some y) : Refers (nameFrame names) x y :=
  .own (by simp [FrameEnv.lookup, h])

theorem ArgRel.basic (r : ArgRel fs names A B) : buildBasicValue B = buildBasicValue A := by
  funext v p; cases v <;> simp [buildBasicValue, r.floatText]

theorem ArgRel.get (r : ArgRel fs names A B) {x s} (h : Refers fs x s) : ∃ y, names.lookup x = some y ∧ B.get y = A.get s := by
  obtain ⟨y, h1, h2⟩ := r.fetch h
  exact ⟨y, h1, by simp only [ArgEnv.get, h2]⟩

theorem unit_names (r : ArgRel fs names A B) {u u'} (h : UnitTo fs u u') :
    ∃ u2, UnitTo (nameFrame names) u u2 ∧ buildUnit B u2 = buildUnit A u' := by
  cases h with
  | literal s => exact ⟨_, .literal s, rfl⟩
  | dollar pos h =>
    obtain ⟨y, h1, h2⟩ := r.get h
    exact ⟨_, .dollar pos (refers_names h1), by simp only [buildUnit, h2, r.basic]⟩

theorem collect_names {R : α → β → Prop} {R' : α → γ → Prop} {f : β → Except Stop δ} {g : γ → Except Stop δ}
    (h : ∀ a b, R a b → ∃ c, R' a c ∧ g c = f b) {l : List α} {l' : List β} (hl : List.Forall₂ R l l') :
    ∃ l2, List.Forall₂ R' l l2 ∧ collect g l2 = collect f l' := by
  induction hl with
  | nil => exact ⟨[], .nil, rfl⟩
  | cons h1 _ ih =>
    obtain ⟨c, h2, h3⟩ := h _ _ h1
    obtain ⟨l2, h4, h5⟩ := ih
    exact ⟨c :: l2, .cons h2 h4, by simp only [collect, h3, h5]⟩

theorem part_names (r : ArgRel fs names A B) {u u'} (h : PartTo fs u u') :
    ∃ u2, PartTo (nameFrame names) u u2 ∧ ∀ args, addPart B args u2 = addPart A args u' := by
  cases h with
  | unit h =>
    cases h with
    | literal s => exact ⟨_, .unit (.literal s), fun _ => rfl⟩
    | dollar pos h =>
      obtain ⟨y, h1, h2⟩ := r.get h
      exact ⟨_, .unit (.dollar pos (refers_names h1)), fun _ => by simp only [addPart, h2, r.basic, r.array]⟩
  | home => exact ⟨_, .home, fun _ => by simp only [addPart, r.home]⟩
  | range a b => exact ⟨_, .range a b, fun _ => rfl⟩
  | collection h =>
    obtain ⟨l, h1, h2⟩ := collect_names (R := UnitTo fs) (R' := UnitTo (nameFrame names)) (fun _ _ h => unit_names r h) h
    exact ⟨_, .collection h1, fun _ => by simp only [addPart, h2]⟩
  | star => exact ⟨_, .star, fun _ => rfl⟩
  | percent => exact ⟨_, .percent, fun _ => rfl⟩
  | charClass s => exact ⟨_, .charClass s, fun _ => rfl⟩

theorem parts_names (r : ArgRel fs names A B) {l l'} (h : List.Forall₂ (PartTo fs) l l') :
    ∃ l2, List.Forall₂ (PartTo (nameFrame names)) l l2 ∧ ∀ args, addParts B args l2 = addParts A args l' := by
  induction h with
  | nil => exact ⟨[], .nil, fun _ => rfl⟩
  | cons h1 _ ih =>
    obtain ⟨c, h2, h3⟩ := part_names r h1
    obtain ⟨l2, h4, h5⟩ := ih
    exact ⟨c :: l2, .cons h2 h4, fun _ => by simp only [addParts, h3, h5]⟩

theorem arg_names (r : ArgRel fs names A B) {a a'} (h : ArgTo fs a a') :
    ∃ a2, ArgTo (nameFrame names) a a2 ∧ buildArgument B a2 = buildArgument A a' ∧ ∀ o, buildSingle B o a2 = buildSingle A o a' := by
  obtain ⟨l, h1, h2⟩ := parts_names r h.1
  refine ⟨⟨l, a.pos⟩, ⟨h1, rfl⟩, ?_⟩
  have hb : buildArgument B ⟨l, a.pos⟩ = buildArgument A a' := by simp only [buildArgument, h2]
  exact ⟨hb, fun o => by simp only [buildSingle, hb, h.2]⟩

theorem redir_names (r : ArgRel fs names A B) {a a'} (h : RedirTo fs a a') :
    ∃ a2, RedirTo (nameFrame names) a a2 ∧ buildRedirection B a2 = buildRedirection A a' := by
  cases h with
  | fd n m => exact ⟨_, .fd n m, rfl⟩
  | overwrite n h =>
    obtain ⟨b, h1, _, h2⟩ := arg_names r h
    exact ⟨_, .overwrite n h1, by simp only [buildRedirection, buildTarget, h2]⟩
  | append n h =>
    obtain ⟨b, h1, _, h2⟩ := arg_names r h
    exact ⟨_, .append n h1, by simp only [buildRedirection, buildTarget, h2]⟩
  | input l h =>
    obtain ⟨b, h1, _, h2⟩ := arg_names r h
    exact ⟨_, .input l h1, by simp only [buildRedirection, h2]⟩

theorem args_names (r : ArgRel fs names A B) {l l'} (h : List.Forall₂ (ArgTo fs) l l') :
    ∃ l2, List.Forall₂ (ArgTo (nameFrame names)) l l2 ∧ buildArguments B l2 = buildArguments A l' := by
  obtain ⟨l2, h1, h2⟩ := collect_names (R' := ArgTo (nameFrame names)) (f := buildArgument A) (g := buildArgument B)
    (fun a b hab => by obtain ⟨c, h1, h2, _⟩ := arg_names r hab; exact ⟨c, h1, h2⟩) h
  exact ⟨l2, h1, by simp only [buildArguments, h2]⟩

theorem basic_names (r : ArgRel fs names A B) {a a'} (h : BasicTo fs a a') :
    ∃ a2, BasicTo (nameFrame names) a a2 ∧ buildBasicCommand B a2 = buildBasicCommand A a' := by
  obtain ⟨h1, h2, h3, h4, h5, h6⟩ := h
  obtain ⟨p, p1, _, p2⟩ := arg_names r h1
  obtain ⟨e, e1, e2⟩ := collect_names
    (R' := fun x y => UnitTo (nameFrame names) x.1 y.1 ∧ ArgTo (nameFrame names) x.2 y.2)
    (f := buildEnvItem A) (g := buildEnvItem B)
    (fun a b hab => by
      obtain ⟨u, u1, u2⟩ := unit_names r hab.1
      obtain ⟨v, v1, _, v2⟩ := arg_names r hab.2
      exact ⟨(u, v), ⟨u1, v1⟩, by simp only [buildEnvItem, u2, v2]⟩) h2
  obtain ⟨l, l1, l2⟩ := args_names r h3
  obtain ⟨d, d1, d2⟩ := collect_names (f := buildRedirection A) (g := buildRedirection B) (R := RedirTo fs) (R' := RedirTo (nameFrame names)) (fun _ _ h => redir_names r h) h4
  exact ⟨⟨p, e, l, d, a.abortOnError, a.pos⟩, ⟨p1, e1, l1, d1, rfl, rfl⟩, by simp only [buildBasicCommand, p2, e2, l2, d2, h5, h6]⟩

theorem command_names (r : ArgRel fs names A B) {a a'} (h : CommandTo fs a a') :
    ∃ a2, CommandTo (nameFrame names) a a2 ∧ buildCommand B a2 = buildCommand A a' := by
  cases h with
  | builtin h1 h2 env abort pos =>
    obtain ⟨l, l1, l2⟩ := args_names r h2
    exact ⟨_, .builtin h1 l1 env abort pos, by simp only [buildCommand, l2]⟩
  | external h1 h2 =>
    obtain ⟨p, p1, p2⟩ := basic_names r h1
    obtain ⟨l, l1, l2⟩ := collect_names (f := buildBasicCommand A) (g := buildBasicCommand B) (R := BasicTo fs) (R' := BasicTo (nameFrame names)) (fun _ _ h => basic_names r h) h2
    exact ⟨_, .external p1 l1, by simp only [buildCommand, p2, l2]⟩

theorem block_names (r : ArgRel fs names A B) {a a'} (h : CommandBlockTo fs a a') :
    ∃ a2, CommandBlockTo (nameFrame names) a a2 ∧ a2.kind = a'.kind ∧
      buildBlock B a2.head a2.tail = buildBlock A a'.head a'.tail := by
  obtain ⟨h1, h2, h3⟩ := h
  obtain ⟨p, p1, p2⟩ := command_names r h2
  obtain ⟨l, l1, l2⟩ := collect_names (f := buildCommand A) (g := buildCommand B) (R := CommandTo fs) (R' := CommandTo (nameFrame names)) (fun _ _ h => command_names r h) h3
  exact ⟨⟨a.kind, p, l⟩, ⟨rfl, p1, l1⟩, h1.symm, by simp only [buildBlock, p2, l2]⟩

end
end Hush

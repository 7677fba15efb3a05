import Verif.Lemmas.AnalyzeTranslate
import Verif.Spec.WellFormed

/-!
Correct translations are well-formed programs.
-/

namespace Hush
open Spec

/-- Declared and captured slots of the functions around a point exist. -/
inductive EnvOk : List FrameEnv → Prop
  | nil : EnvOk []
  | cons {f fs} : (∀ sc ∈ f.scopes, ∀ q ∈ sc, q.2 < f.info.slots) → (∀ c ∈ f.info.captures, c.to < f.info.slots) →
      EnvOk fs → EnvOk (f :: fs)

/-- The size of the innermost frame. -/
def envSlots : List FrameEnv → Nat
  | [] => 0
  | f :: _ => f.info.slots

/-- The slot of `self` in the innermost frame. -/
def envSelf : List FrameEnv → Option Nat
  | [] => none
  | f :: _ => f.info.selfSlot

/-- Declared slots exist, and that of `self` if the point is in a function. -/
structure Spec.Env.Ok (c : Env) : Prop where
  env : EnvOk c.frames
  self_ : c.inFn = true → ∀ s, envSelf c.frames = some s → s < envSlots c.frames

/-- The point as seen by the program. -/
def Spec.Env.site (c : Env) : Site := ⟨envSlots c.frames, c.inFn, c.inLoop⟩

theorem lookup_mem {f : FrameEnv} {x s} (h : f.lookup x = some s) : ∃ sc ∈ f.scopes, ∃ q ∈ sc, q.2 = s := by
  simp only [FrameEnv.lookup] at h
  obtain ⟨sc, hs, hl⟩ := List.exists_of_findSome?_eq_some h
  refine ⟨sc, hs, (x, s), ?_, rfl⟩
  clear h hs
  induction sc with
  | nil => simp at hl
  | cons q sc ih =>
    obtain ⟨y, n⟩ := q
    rw [List.lookup_cons] at hl
    split at hl
    · rename_i hxy
      simp only [Option.some.injEq] at hl
      simp only [beq_iff_eq] at hxy
      subst hl hxy
      simp
    · exact List.mem_cons_of_mem _ (ih hl)

theorem refers_lt {fs x s} (h : Refers fs x s) (hok : EnvOk fs) : s < envSlots fs := by
  cases h with
  | own h =>
    cases hok with
    | cons h1 _ _ =>
      obtain ⟨sc, hs, q, hq, rfl⟩ := lookup_mem h
      exact h1 sc hs q hq
  | captured _ _ h =>
    cases hok with
    | cons _ h2 _ => exact h2 _ h

theorem unitTo_lt {fs u v} (h : UnitTo fs u v) (hok : EnvOk fs) : ∀ s ∈ unitSlots v, s < envSlots fs := by
  cases h with
  | literal => simp [unitSlots]
  | dollar _ hr => simpa [unitSlots] using refers_lt hr hok

theorem forall2_slots {R : α → β → Prop} {f : β → List Nat} {n : Nat} {as bs}
    (h : List.Forall₂ R as bs) (hR : ∀ a b, R a b → ∀ s ∈ f b, s < n) : ∀ s ∈ bs.flatMap f, s < n := by
  induction h with
  | nil => simp
  | cons h _ ih =>
    intro s hs
    simp only [List.flatMap_cons, List.mem_append] at hs
    exact hs.elim (hR _ _ h s) (ih s)

theorem argTo_lt {fs a b} (h : ArgTo fs a b) (hok : EnvOk fs) : ∀ s ∈ argSlots b, s < envSlots fs := by
  refine forall2_slots h.1 ?_
  intro p q hpq
  cases hpq with
  | unit hu => exact unitTo_lt hu hok
  | collection hu => exact forall2_slots hu (fun _ _ hu => unitTo_lt hu hok)
  | _ => simp [partSlots]

theorem redirTo_lt {fs a b} (h : RedirTo fs a b) (hok : EnvOk fs) : ∀ s ∈ redirSlots b, s < envSlots fs := by
  cases h with
  | fd => simp [redirSlots]
  | overwrite _ h => exact argTo_lt h hok
  | append _ h => exact argTo_lt h hok
  | input _ h => exact argTo_lt h hok

theorem basicTo_lt {fs a b} (h : BasicTo fs a b) (hok : EnvOk fs) : ∀ s ∈ basicSlots b, s < envSlots fs := by
  obtain ⟨h1, h2, h3, h4, _, _⟩ := h
  intro s hs
  simp only [basicSlots, List.mem_append] at hs
  rcases hs with ((hs | hs) | hs) | hs
  · exact argTo_lt h1 hok s hs
  · refine forall2_slots h2 ?_ s hs
    rintro x y ⟨hu, ha⟩ t ht
    rcases List.mem_append.mp ht with ht | ht
    · exact unitTo_lt hu hok t ht
    · exact argTo_lt ha hok t ht
  · exact forall2_slots h3 (fun _ _ h => argTo_lt h hok) s hs
  · exact forall2_slots h4 (fun _ _ h => redirTo_lt h hok) s hs

theorem commandTo_lt {fs a b} (h : CommandTo fs a b) (hok : EnvOk fs) : ∀ s ∈ commandSlots b, s < envSlots fs := by
  cases h with
  | builtin _ h => exact forall2_slots h (fun _ _ h => argTo_lt h hok)
  | external h hs => exact forall2_slots (.cons h hs) (fun _ _ h => basicTo_lt h hok)

theorem commandBlockTo_lt {fs a b} (h : CommandBlockTo fs a b) (hok : EnvOk fs) :
    ∀ s ∈ blockSlots b, s < envSlots fs :=
  forall2_slots (.cons h.2.1 h.2.2) (fun _ _ h => commandTo_lt h hok)

/-- The program part of a piece of code is well-formed. -/
def CodeOk (c : Site) : Code → Prop
  | .expr _ p => ExprOk c p
  | .exprs _ p => ExprsOk c p
  | .lit _ p => LitOk c p
  | .fields _ p => FieldsOk c p
  | .lvalue _ p => LvalueOk c p
  | .stmt _ p => StmtOk c p
  | .block _ p => BlockOk c p

theorem envOk_push {c : Env} (h : c.Ok) : c.block.Ok ∧ c.block.site = c.site := by
  obtain ⟨fs, a, b⟩ := c
  rw [block_eq]
  cases fs with
  | nil => exact ⟨⟨.nil, h.2⟩, rfl⟩
  | cons f fs =>
    obtain ⟨h, hself⟩ := h
    cases h with
    | cons h1 h2 h =>
      refine ⟨⟨.cons ?_ h2 h, hself⟩, rfl⟩
      intro sc hsc
      simp only [List.mem_cons] at hsc
      rcases hsc with rfl | hsc
      · simp
      · exact h1 sc hsc

theorem envOk_declare {c : Env} (h : c.Ok) {s} (hs : s < envSlots c.frames) (x) :
    (c.declare x s).Ok ∧ (c.declare x s).site = c.site := by
  obtain ⟨fs, a, b⟩ := c
  rw [declare_eq]
  cases fs with
  | nil => exact ⟨⟨.nil, h.2⟩, rfl⟩
  | cons f fs =>
    simp only [declScope]
    split
    · exact ⟨h, rfl⟩
    · rename_i sc scs hsc
      obtain ⟨h, hself⟩ := h
      cases h with
      | cons h1 h2 h =>
        refine ⟨⟨.cons ?_ h2 h, hself⟩, rfl⟩
        intro t ht
        simp only [List.mem_cons] at ht
        rcases ht with rfl | ht
        · intro q hq
          simp only [List.mem_cons] at hq
          rcases hq with rfl | hq
          · exact hs
          · exact h1 sc (by simp [hsc]) q hq
        · exact h1 t (by simp [hsc, ht])

theorem envOk_loop {c : Env} (h : c.Ok) :
    c.loop.Ok ∧ c.loop.site = { c.site with inLoop := true } := by
  have hb := envOk_push h
  refine ⟨⟨hb.1.1, hb.1.2⟩, ?_⟩
  have : c.loop.site = { c.block.site with inLoop := true } := rfl
  rw [this, hb.2]

theorem translates_ok {c : Env} {code : Code} {D : List Nat} (h : Translates c code D) :
    c.Ok → (∀ s ∈ D, s < envSlots c.frames) → CodeOk c.site code := by
  induction h with
  | self_ pos hfn hf hs =>
    intro hok _
    have := hok.2 hfn
    rw [hf] at this
    simp only [CodeOk, ExprOk, Env.site, hf]
    exact this _ hs
  | ident pos hr =>
    intro hok _
    simp only [CodeOk, ExprOk]
    exact refers_lt hr hok.1
  | lit pos _ ih => intro hok hD; simp only [CodeOk, ExprOk] at ih ⊢; exact ih hok hD
  | unary op pos ht _ ih => intro hok hD; simp only [CodeOk, ExprOk] at ih ⊢; exact ⟨ht, ih hok hD⟩
  | binary op pos _ _ ih1 ih2 =>
    intro hok hD
    simp only [CodeOk, ExprOk] at ih1 ih2 ⊢
    exact ⟨ih1 hok (fun s hs => hD s (by simp [hs])), ih2 hok (fun s hs => hD s (by simp [hs]))⟩
  | if_ pos _ _ _ ih1 ih2 ih3 =>
    intro hok hD
    simp only [CodeOk, ExprOk] at ih1 ih2 ih3 ⊢
    have hb := envOk_push hok
    have hs := congrArg Site.slots hb.2
    rw [hb.2] at ih2 ih3
    simp only [Env.site] at hs
    rw [hs] at ih2 ih3
    exact ⟨ih1 hok (fun s hs => hD s (by simp [hs])), ih2 hb.1 (fun s hs => hD s (by simp [hs])),
      ih3 hb.1 (fun s hs => hD s (by simp [hs]))⟩
  | access pos _ _ ih1 ih2 =>
    intro hok hD
    simp only [CodeOk, ExprOk] at ih1 ih2 ⊢
    exact ⟨ih1 hok (fun s hs => hD s (by simp [hs])), ih2 hok (fun s hs => hD s (by simp [hs]))⟩
  | call pos _ _ ih1 ih2 =>
    intro hok hD
    simp only [CodeOk, ExprOk] at ih1 ih2 ⊢
    exact ⟨ih1 hok (fun s hs => hD s (by simp [hs])), ih2 hok (fun s hs => hD s (by simp [hs]))⟩
  | command pos hc =>
    intro hok _
    simp only [CodeOk, ExprOk]
    exact commandBlockTo_lt hc hok.1
  | noExprs => intros; simp only [CodeOk, ExprsOk]
  | exprs _ _ ih1 ih2 =>
    intro hok hD
    simp only [CodeOk, ExprsOk] at ih1 ih2 ⊢
    exact ⟨ih1 hok (fun s hs => hD s (by simp [hs])), ih2 hok (fun s hs => hD s (by simp [hs]))⟩
  | nil | bool | int | float | byte | string | key => intros; simp only [CodeOk, LitOk]
  | array _ ih => intro hok hD; simp only [CodeOk, LitOk] at ih ⊢; exact ih hok hD
  | dict _ ih => intro hok hD; simp only [CodeOk, LitOk] at ih ⊢; exact ih hok hD
  | @function c ps b b' info D _ hnd hlt hcap ih =>
    intro hok _
    simp only [CodeOk, LitOk] at ih ⊢
    have hlt' : ∀ s, (s < ps.length ∨ s ∈ D ∨ (∃ k ∈ info.captures, k.to = s) ∨ info.selfSlot = some s) →
        s < info.slots := by
      intro s hs
      apply hlt
      simp only [List.mem_append, List.mem_range, List.mem_map, Option.mem_toList]
      rcases hs with hs | hs | hs | hs <;> simp [hs]
    have hps : ps.length ≤ info.slots := by
      rcases Nat.eq_zero_or_pos ps.length with h0 | h0
      · omega
      · have := hlt' (ps.length - 1) (.inl (by omega)); omega
    simp only [List.append_assoc, List.nodup_append, List.mem_append, List.mem_range, List.mem_map, Option.mem_toList,
      ne_eq] at hnd
    obtain ⟨_, ⟨_, ⟨hn1, _, hd3⟩, _⟩, hd1⟩ := hnd
    refine ⟨⟨hps, ?_, ?_, hn1, ?_⟩, ?_⟩
    · intro k hk
      obtain ⟨x, hx⟩ := hcap k hk
      exact refers_lt hx hok.1
    · intro k hk
      refine ⟨?_, hlt' _ (.inr (.inr (.inl ⟨k, hk, rfl⟩)))⟩
      rcases Nat.lt_or_ge k.to ps.length with hh | hh
      · exact absurd rfl (hd1 k.to hh k.to (.inr (.inl ⟨k, hk, rfl⟩)))
      · exact hh
    · intro s hs
      refine ⟨?_, hlt' _ (.inr (.inr (.inr hs))), ?_⟩
      · rcases Nat.lt_or_ge s ps.length with hh | hh
        · exact absurd rfl (hd1 s hh s (.inr (.inr hs)))
        · exact hh
      · intro k hk
        exact hd3 k.to ⟨k, hk, rfl⟩ s hs
    · refine ih ⟨.cons ?_ ?_ hok.1, ?_⟩ ?_
      · intro sc hsc q hq
        simp only [List.mem_singleton] at hsc
        subst hsc
        simp only [paramScope, List.mem_reverse] at hq
        have := List.snd_lt_of_mem_zipIdx hq
        simp only [List.length_map] at this
        exact hlt' _ (.inl (by omega))
      · intro k hk; exact hlt' _ (.inr (.inr (.inl ⟨k, hk, rfl⟩)))
      · intro _ s hs; exact hlt' _ (.inr (.inr (.inr hs)))
      · intro s hs; exact hlt' _ (.inr (.inl hs))
  | noFields => intros; simp only [CodeOk, FieldsOk]
  | fields k pos _ _ ih1 ih2 =>
    intro hok hD
    simp only [CodeOk, FieldsOk] at ih1 ih2 ⊢
    exact ⟨ih1 hok (fun s hs => hD s (by simp [hs])), ih2 hok (fun s hs => hD s (by simp [hs]))⟩
  | lvar pos hr =>
    intro hok _
    simp only [CodeOk, LvalueOk]
    exact refers_lt hr hok.1
  | laccess pos _ _ ih1 ih2 =>
    intro hok hD
    simp only [CodeOk, LvalueOk] at ih1 ih2 ⊢
    exact ⟨ih1 hok (fun s hs => hD s (by simp [hs])), ih2 hok (fun s hs => hD s (by simp [hs]))⟩
  | assign pos _ _ ih1 ih2 =>
    intro hok hD
    simp only [CodeOk, StmtOk] at ih1 ih2 ⊢
    exact ⟨ih1 hok (fun s hs => hD s (by simp [hs])), ih2 hok (fun s hs => hD s (by simp [hs]))⟩
  | return_ pos hf _ ih => intro hok hD; simp only [CodeOk, StmtOk] at ih ⊢; exact ⟨hf, ih hok hD⟩
  | break_ pos hl => intros; simp only [CodeOk, StmtOk]; exact hl
  | while_ pos _ _ ih1 ih2 =>
    intro hok hD
    simp only [CodeOk, StmtOk] at ih1 ih2 ⊢
    have hb := envOk_loop hok
    have hs := congrArg Site.slots hb.2
    simp only [Env.site] at hs
    rw [hb.2, hs] at ih2
    exact ⟨ih1 hok (fun s hs => hD s (by simp [hs])), ih2 hb.1 (fun s hs => hD s (by simp [hs]))⟩
  | @for_ c e e' b b' s D₁ D₂ x pos _ _ ih1 ih2 =>
    intro hok hD
    simp only [CodeOk, StmtOk] at ih1 ih2 ⊢
    have hb := envOk_loop hok
    have hs := congrArg Site.slots hb.2
    simp only [Env.site] at hs
    have hsl : s < envSlots c.loop.frames := by rw [hs]; exact hD s (by simp)
    have hd := envOk_declare hb.1 hsl x
    have hs' := congrArg Site.slots hd.2
    simp only [Env.site] at hs'
    rw [hd.2, hb.2, hs', hs] at ih2
    exact ⟨hD s (by simp), ih1 hok (fun s hs => hD s (by simp [hs])), ih2 hd.1 (fun s hs => hD s (by simp [hs]))⟩
  | expr _ ih => intro hok hD; simp only [CodeOk, StmtOk] at ih ⊢; exact ih hok hD
  | noStmts => intros; simp only [CodeOk, BlockOk]
  | @let_ c e e' ss ss' s D₁ D₂ x pos _ _ ih1 ih2 =>
    intro hok hD
    simp only [CodeOk, BlockOk, StmtOk, LvalueOk] at ih1 ih2 ⊢
    have hd := envOk_declare hok (hD s (by simp)) x
    have hs' := congrArg Site.slots hd.2
    simp only [Env.site] at hs'
    rw [hd.2, hs'] at ih1 ih2
    exact ⟨⟨hD s (by simp), ih1 hd.1 (fun s hs => hD s (by simp [hs]))⟩, ih2 hd.1 (fun s hs => hD s (by simp [hs]))⟩
  | stmts _ _ ih1 ih2 =>
    intro hok hD
    simp only [CodeOk, BlockOk] at ih1 ih2 ⊢
    exact ⟨ih1 hok (fun s hs => hD s (by simp [hs])), ih2 hok (fun s hs => hD s (by simp [hs]))⟩

theorem translatesProgram_ok {b p} (h : TranslatesProgram b p) : ProgramOk p := by
  obtain ⟨info, D, h1, h2, h3, h4, h5⟩ := h
  refine ⟨h5 0 (by simp), ?_⟩
  have := translates_ok h3 ⟨.cons ?_ ?_ .nil, ?_⟩ ?_
  · simp only [CodeOk, Env.site, rootEnv, envSlots, h1] at this
    exact this
  · intro sc hsc q hq
    simp only [List.mem_singleton] at hsc
    subst hsc
    simp only [List.mem_singleton] at hq
    subst hq
    simp only [h1]
    exact h5 0 (by simp)
  · simp [h2]
  · intro h; cases h
  · intro s hs
    simp only [rootEnv, envSlots, h1]
    exact h5 s (by simp [hs])

end Hush

import Verif.Lemmas.Handles

/-!
Which handles are held during the execution of commands (C71).
-/

namespace Hush
namespace Handles
open Hush.Exec
open Hush.Spec.Handles

theorem heldFrom_append (n : Nat) (fs : List Fd) (a b : List HEv) :
    heldFrom n fs (a ++ b) = heldFrom (n + (erase a).length) (heldFrom n fs a) b := by
  induction a generalizing n fs with
  | nil => rfl
  | cons h hs ih =>
    cases h with
    | os e =>
      simp only [List.cons_append, heldFrom, ih, erase, List.length_cons]
      congr 1
      omega
    | close f => simp only [List.cons_append, heldFrom, ih, erase]
    | toThread f => simp only [List.cons_append, heldFrom, ih, erase]
    | receive c => simp only [List.cons_append, heldFrom, ih, erase]

theorem held_append (a b : List HEv) : held (a ++ b) = heldFrom (erase a).length (held a) b := by
  unfold held
  rw [heldFrom_append, Nat.zero_add]

theorem made_id {n : Nat} {e : Ev} {f : Fd} (h : f ∈ made n e) : f.id = n := by
  rcases e with ⟨a, ok⟩
  cases a <;> cases ok <;> simp [made] at h
  all_goals first
    | (rcases h with h | h <;> subst h <;> rfl)
    | (subst h; rfl)

theorem heldFrom_lt {n : Nat} {fs : List Fd} {hs : List HEv} (h : ∀ f ∈ fs, f.id < n) : ∀ f ∈ heldFrom n fs hs, f.id < n + (erase hs).length := by
  induction hs generalizing n fs with
  | nil => exact h
  | cons x hs ih =>
    cases x with
    | os e =>
      intro f hf
      have := ih (n := n + 1) (fs := fs ++ made n e) (fun g hg => by
        rcases List.mem_append.1 hg with hg | hg
        · have := h g hg; omega
        · rw [made_id hg]; omega) f hf
      simp only [erase, List.length_cons]
      omega
    | close g => exact fun f hf => ih (fun k hk => h k (List.mem_filter.1 hk).1) f hf
    | toThread g => exact fun f hf => ih (fun k hk => h k (List.mem_filter.1 hk).1) f hf
    | receive c => exact fun f hf => ih h f hf

theorem held_lt {tr : List HEv} {f : Fd} (h : f ∈ held tr) : f.id < (erase tr).length := by
  have := heldFrom_lt (n := 0) (fs := []) (hs := tr) nofun f h
  omega

/-- A wait. -/
def IsWait : HEv → Prop
  | .os ⟨.wait _ _, _⟩ => True
  | _ => False

/-- From `tr`, with `fs` owned, the events `evs` happened, and now `gs` are owned. -/
structure Moves (fs : List Fd) (tr evs : List HEv) (gs : List Fd) : Prop where
  now : ∀ f, f ∈ held (tr ++ evs) ↔ (f ∈ held tr ∧ f ∉ fs) ∨ f ∈ gs
  new : ∀ f ∈ gs, f ∈ fs ∨ (erase tr).length ≤ f.id
  nodup : gs.Nodup

/-- Handles that are closed were held, in the events after `tr`. -/
def SoundFrom (tr evs : List HEv) : Prop := ∀ a b f, (evs = a ++ .close f :: b ∨ evs = a ++ .toThread f :: b) → f ∈ held (tr ++ a)

/-- The handles are held, each by one owner. -/
def Owns (fs : List Fd) (tr : List HEv) : Prop := (∀ f ∈ fs, f ∈ held tr) ∧ fs.Nodup

theorem Moves.owns {fs gs : List Fd} {tr evs : List HEv} (h : Moves fs tr evs gs) : Owns gs (tr ++ evs) :=
  ⟨fun f hf => (h.now f).2 (.inr hf), h.nodup⟩

theorem Moves.trans {fs gs ks : List Fd} {tr e1 e2 : List HEv} (h1 : Moves fs tr e1 gs) (h2 : Moves gs (tr ++ e1) e2 ks) :
    Moves fs tr (e1 ++ e2) ks := by
  refine ⟨fun f => ?_, fun f hf => ?_, h2.nodup⟩
  · rw [← List.append_assoc, h2.now, h1.now]
    constructor
    · rintro (⟨⟨ha, hb⟩ | hc, hd⟩ | h)
      · exact .inl ⟨ha, hb⟩
      · exact absurd hc hd
      · exact .inr h
    · rintro (⟨ha, hb⟩ | h)
      · refine .inl ⟨.inl ⟨ha, hb⟩, fun hg => ?_⟩
        rcases h1.new f hg with h | h
        · exact hb h
        · have := held_lt ha; omega
      · exact .inr h
  · rcases h2.new f hf with h | h
    · exact h1.new f h
    · right
      rw [erase_append, List.length_append] at h
      omega

theorem SoundFrom.nil {tr : List HEv} : SoundFrom tr [] := by
  intro a b f h
  rcases h with h | h <;> cases a <;> cases h

theorem SoundFrom.append {tr e1 e2 : List HEv} (h1 : SoundFrom tr e1) (h2 : SoundFrom (tr ++ e1) e2) : SoundFrom tr (e1 ++ e2) := by
  intro a b f h
  have key : ∀ x, (x = .close f ∨ x = .toThread f) → e1 ++ e2 = a ++ x :: b → f ∈ held (tr ++ a) := by
    intro x hx he
    rcases List.append_eq_append_iff.1 he with ⟨a', rfl, h'⟩ | ⟨a', rfl, h'⟩
    · have := h2 a' b f (by rcases hx with rfl | rfl; exact .inl h'; exact .inr h')
      rwa [List.append_assoc] at this
    · cases a' with
      | nil =>
        have := h2 [] b f (by rcases hx with rfl | rfl <;> simp_all)
        simpa using this
      | cons y ys =>
        simp only [List.cons_append, List.cons.injEq] at h'
        obtain ⟨rfl, rfl⟩ := h'
        exact h1 a ys f (by rcases hx with rfl | rfl <;> simp)
  rcases h with h | h
  · exact key _ (.inl rfl) h
  · exact key _ (.inr rfl) h

/-- A computation that waits for nothing and takes over the handles `fs`: it leaves the handles `gs` to its caller, or none if it stops. -/
def Keeps (fs : List Fd) (gs : α → List Fd) (m : HX α) : Prop :=
  ∀ tr, Owns fs tr → ∃ evs, (m tr).2 = tr ++ evs ∧ SoundFrom tr evs ∧ (∀ h ∈ evs, ¬ IsWait h) ∧
    match (m tr).1 with
    | .ok a => Moves fs tr evs (gs a)
    | .error e => Final e = false → Moves fs tr evs []

theorem Keeps.bind {fs : List Fd} {gs : α → List Fd} {ks : β → List Fd} {m : HX α} {f : α → HX β} (hm : Keeps fs gs m) (hf : ∀ a, Keeps (gs a) ks (f a)) :
    Keeps fs ks (m >>= f) := by
  intro tr ho
  obtain ⟨e1, h1, hs1, hw1, h2⟩ := hm tr ho
  change ∃ evs, (HX.bind m f tr).2 = _ ∧ _ ∧ _ ∧ match (HX.bind m f tr).1 with | .ok a => _ | .error e => _
  unfold HX.bind
  rcases hx : m tr with ⟨e | a, tr1⟩ <;> rw [hx] at h1 h2
  · exact ⟨e1, h1, hs1, hw1, h2⟩
  · dsimp only at h1 h2 ⊢
    subst h1
    obtain ⟨e2, h3, hs2, hw2, h4⟩ := hf a _ h2.owns
    refine ⟨e1 ++ e2, by rw [h3, List.append_assoc], hs1.append hs2, fun h hh => (List.mem_append.1 hh).elim (hw1 h) (hw2 h), ?_⟩
    rcases hy : f a (tr ++ e1) with ⟨e | b, tr2⟩ <;> rw [hy] at h4
    · exact fun hF => h2.trans (h4 hF)
    · exact h2.trans h4

theorem Keeps.perm {fs fs' : List Fd} {gs gs' : α → List Fd} {m : HX α} (hm : Keeps fs gs m) (hf : fs.Perm fs') (hg : ∀ a, (gs a).Perm (gs' a)) :
    Keeps fs' gs' m := by
  intro tr ho
  obtain ⟨evs, h1, hs, hw, h2⟩ := hm tr ⟨fun f h => ho.1 f (hf.mem_iff.1 h), hf.nodup_iff.2 ho.2⟩
  have conv : ∀ {a b}, Moves fs tr evs a → a.Perm b → Moves fs' tr evs b := fun h hp =>
    ⟨fun f => by rw [h.now, hf.mem_iff, hp.mem_iff], fun f hh => by rw [← hf.mem_iff]; exact h.new f (hp.mem_iff.2 hh), hp.nodup_iff.1 h.nodup⟩
  refine ⟨evs, h1, hs, hw, ?_⟩
  rcases hx : m tr with ⟨e | a, tr1⟩ <;> rw [hx] at h2
  · exact fun hF => conv (h2 hF) (.refl _)
  · exact conv h2 (hg a)

theorem Moves.refl {fs : List Fd} {tr : List HEv} (h : Owns fs tr) : Moves fs tr [] fs := by
  refine ⟨fun f => ?_, fun f hf => .inl hf, h.2⟩
  rw [List.append_nil]
  by_cases hf : f ∈ fs
  · simp [hf, h.1 f hf]
  · simp [hf]

theorem Keeps.pure {fs : List Fd} (a : α) : Keeps fs (fun _ => fs) (Pure.pure a : HX α) :=
  fun _ ho => ⟨[], (List.append_nil _).symm, .nil, nofun, .refl ho⟩

theorem heldFrom_close {n : Nat} {hs gs : List Fd} : ∀ f, f ∈ heldFrom n hs (gs.map .close) ↔ f ∈ hs ∧ f ∉ gs := by
  induction gs generalizing hs with
  | nil => simp [heldFrom]
  | cons g gs ih =>
    intro f
    simp only [List.map_cons, heldFrom, ih, List.mem_filter, List.mem_cons, decide_eq_true_eq, not_or, and_assoc]

theorem closes_moves {fs : List Fd} {tr : List HEv} : Moves fs tr (fs.map .close) [] := by
  refine ⟨fun f => ?_, nofun, .nil⟩
  rw [held_append, heldFrom_close]
  simp

theorem closes_sound {fs : List Fd} {tr : List HEv} (ho : Owns fs tr) : SoundFrom tr (fs.map .close) := by
  intro a b f h
  have key : fs.map HEv.close = a ++ .close f :: b := by
    rcases h with h | h
    · exact h
    · have : HEv.toThread f ∈ fs.map HEv.close := by rw [h]; simp
      obtain ⟨g, _, hg⟩ := List.mem_map.1 this
      cases hg
  obtain ⟨l1, l2, hl, h1, h2⟩ := List.map_eq_append_iff.1 key
  subst h1
  cases l2 with
  | nil => cases h2
  | cons g l2 =>
    cases h2
    rw [held_append, heldFrom_close]
    have hnd := ho.2
    rw [hl, List.nodup_append] at hnd
    exact ⟨ho.1 _ (by rw [hl]; simp), fun hh => hnd.2.2 _ hh _ (by simp) rfl⟩

theorem closes_nowait {fs : List Fd} : ∀ h ∈ fs.map HEv.close, ¬ IsWait h := by
  intro h hh
  obtain ⟨f, _, rfl⟩ := List.mem_map.1 hh
  exact id

theorem Keeps.close {fs : List Fd} : Keeps fs (fun _ => []) (closeAll fs) :=
  fun _ ho => ⟨_, rfl, closes_sound ho, closes_nowait, closes_moves⟩

/-- Handles that are not touched. -/
theorem Moves.frame {xs fs gs : List Fd} {tr evs : List HEv} (h : Moves xs tr evs gs) (ho : Owns (xs ++ fs) tr) : Moves (xs ++ fs) tr evs (gs ++ fs) := by
  have hd := List.nodup_append.1 ho.2
  refine ⟨fun f => ?_, fun f hf => ?_, List.nodup_append.2 ⟨h.nodup, hd.2.1, fun a ha b hb hab => ?_⟩⟩
  · rw [h.now]
    simp only [List.mem_append, not_or]
    constructor
    · rintro (⟨h1, h2⟩ | h1)
      · by_cases hf : f ∈ fs
        · exact .inr (.inr hf)
        · exact .inl ⟨h1, h2, hf⟩
      · exact .inr (.inl h1)
    · rintro (⟨h1, h2, _⟩ | h1 | h1)
      · exact .inl ⟨h1, h2⟩
      · exact .inr h1
      · exact .inl ⟨ho.1 f (List.mem_append_right _ h1), fun hx => hd.2.2 f hx f h1 rfl⟩
  · rcases List.mem_append.1 hf with hf | hf
    · rcases h.new f hf with h1 | h1
      · exact .inl (List.mem_append_left _ h1)
      · exact .inr h1
    · exact .inl (List.mem_append_right _ hf)
  · subst hab
    rcases h.new a ha with h1 | h1
    · exact hd.2.2 a h1 a hb rfl
    · have := held_lt (ho.1 a (List.mem_append_right _ hb)); omega

theorem Keeps.owning {xs : List Fd} {gs : α → List Fd} {m : HX α} (hm : Keeps xs gs m) (fs : List Fd) :
    Keeps (xs ++ fs) (fun a => gs a ++ fs) (owning fs m) := by
  intro tr ho
  have hd := List.nodup_append.1 ho.2
  obtain ⟨evs, h1, hs, hw, h2⟩ := hm tr ⟨fun f h => ho.1 f (List.mem_append_left _ h), hd.1⟩
  unfold Handles.owning
  rcases hx : m tr with ⟨e | a, tr1⟩ <;> rw [hx] at h1 h2
  · dsimp only at h1 h2 ⊢
    subst h1
    cases hF : Final e with
    | true => exact ⟨evs, rfl, hs, hw, nofun⟩
    | false =>
      have hm2 := (h2 hF).frame ho
      rw [List.nil_append] at hm2
      refine ⟨evs ++ fs.map .close, by simp, hs.append (closes_sound hm2.owns), fun h hh => (List.mem_append.1 hh).elim (hw h) (closes_nowait h), fun _ => ?_⟩
      exact hm2.trans closes_moves
  · dsimp only at h1 h2 ⊢
    subst h1
    exact ⟨evs, rfl, hs, hw, h2.frame ho⟩

theorem Keeps.owning0 {gs : α → List Fd} {m : HX α} (hm : Keeps [] gs m) (fs : List Fd) : Keeps fs (fun a => gs a ++ fs) (Handles.owning fs m) :=
  hm.owning fs

/-! ### Calls -/

/-- A computation that makes no handles and waits for nothing. -/
def Plain (m : X α) : Prop := ∀ t, ∃ evs, (m t).2 = t ++ evs ∧ ∀ e ∈ evs, (∀ n, made n e = []) ∧ ∀ id r, e.act ≠ .wait id r

theorem heldFrom_plain {n : Nat} {fs : List Fd} {evs : List Ev} (h : ∀ e ∈ evs, ∀ n, made n e = []) : heldFrom n fs (evs.map .os) = fs := by
  induction evs generalizing n fs with
  | nil => rfl
  | cons e es ih =>
    simp only [List.map_cons, heldFrom, h e (by simp) n, List.append_nil]
    exact ih fun e he => h e (by simp [he])

theorem os_sound {tr : List HEv} {evs : List Ev} : SoundFrom tr (evs.map .os) := by
  intro a b f h
  have : HEv.close f ∈ evs.map HEv.os ∨ HEv.toThread f ∈ evs.map HEv.os := by
    rcases h with h | h <;> rw [h] <;> simp
  rcases this with h | h <;> obtain ⟨g, _, hg⟩ := List.mem_map.1 h <;> cases hg

theorem os_nowait {evs : List Ev} (h : ∀ e ∈ evs, ∀ id r, e.act ≠ .wait id r) : ∀ x ∈ evs.map HEv.os, ¬ IsWait x := by
  intro x hx hw
  obtain ⟨⟨a, ok⟩, he, rfl⟩ := List.mem_map.1 hx
  cases a <;> first | exact hw.elim | exact h _ he _ _ rfl

theorem lift_trace {m : X α} {tr : List HEv} {evs : List Ev} (h : (m (erase tr)).2 = erase tr ++ evs) :
    (Handles.lift m tr).2 = tr ++ evs.map .os := by
  unfold Handles.lift
  rw [h, List.drop_left]

theorem Keeps.lift {m : X α} (hm : Plain m) : Keeps [] (fun _ => []) (lift m) := by
  intro tr ho
  obtain ⟨evs, h1, h2⟩ := hm (erase tr)
  refine ⟨evs.map .os, lift_trace h1, os_sound, os_nowait fun e he => (h2 e he).2, ?_⟩
  have hmv : Moves [] tr (evs.map .os) [] := by
    refine ⟨fun f => ?_, nofun, .nil⟩
    rw [held_append, heldFrom_plain fun e he => (h2 e he).1]
    simp
  unfold Handles.lift
  rcases (m (erase tr)).1 with e | a
  · exact fun _ => hmv
  · exact hmv

theorem Keeps.call {os : Os} {a : Act} {pos : Pos} (hw : ∀ id r, a ≠ .wait id r) (hnd : ∀ n, (made n ⟨a, true⟩).Nodup) :
    Keeps [] (fun id => made id ⟨a, true⟩) (Handles.lift (Exec.call os a pos)) := by
  intro tr ho
  unfold Handles.lift Exec.call
  cases hf : os.fails (erase tr) a with
  | none =>
    dsimp only
    refine ⟨[.os ⟨a, true⟩], by simp, os_sound (evs := [⟨a, true⟩]), os_nowait (evs := [⟨a, true⟩]) (by simpa using hw), ?_⟩
    refine ⟨fun f => ?_, fun f hf => .inr (by rw [made_id hf]; exact Nat.le_refl _), hnd _⟩
    rw [held_append]
    simp [heldFrom]
  | some msg =>
    dsimp only
    refine ⟨[.os ⟨a, false⟩], by simp, os_sound (evs := [⟨a, false⟩]), os_nowait (evs := [⟨a, false⟩]) (by simpa using hw), fun _ => ?_⟩
    refine ⟨fun f => ?_, nofun, .nil⟩
    rw [held_append]
    have : made (erase tr).length ⟨a, false⟩ = [] := by cases a <;> rfl
    simp [heldFrom, this]

end Handles
end Hush

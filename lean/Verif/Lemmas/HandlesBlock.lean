import Verif.Lemmas.HandlesRun

/-!
The handles held by a block, and who has the write ends of the pipes of a pipeline (C71).
-/

namespace Hush
namespace Handles
open Hush.Exec
open Hush.Spec.Handles

/-- Between `tr` and `tr ++ evs` only handles that are held are closed, and at every wait each handle held satisfies `P`, which may refer to what happened up
to the wait. At the end the handles are those of the beginning without `fs`, unless the shell does not go on. -/
structure Over (fs : List Fd) (P : List HEv → Fd → Prop) (tr evs : List HEv) (r : Except XStop α) : Prop where
  sound : SoundFrom tr evs
  waits : ∀ a b h, evs = a ++ h :: b → IsWait h → ∀ f ∈ held (tr ++ a), P (tr ++ a) f
  after : (∀ e, r = .error e → Final e = false) → Moves fs tr evs []

theorem runs_over {fs : List Fd} {P : List HEv → Fd → Prop} {m : HX α} (h : Runs fs P m) {tr : List HEv} (ho : Owns fs tr) :
    ∃ evs, (m tr).2 = tr ++ evs ∧ Over fs (fun _ => P tr) tr evs (m tr).1 := by
  obtain ⟨evs, h1, h2, h3, h4⟩ := h tr ho
  refine ⟨evs, h1, h2.sound, h2.waits, fun hF => ?_⟩
  rcases hr : (m tr).1 with e | a
  · rcases h3 e hr with h | h
    · rw [hF e hr] at h; cases h
    · exact h
  · exact h4 a hr

theorem keeps_over {fs : List Fd} {gs : α → List Fd} {P : List HEv → Fd → Prop} {m : HX α} (h : Keeps fs gs m) {tr : List HEv} (ho : Owns fs tr) :
    ∃ evs, (m tr).2 = tr ++ evs ∧ SoundFrom tr evs ∧ (∀ a b x, evs = a ++ x :: b → IsWait x → ∀ f ∈ held (tr ++ a), P (tr ++ a) f) ∧
      match (m tr).1 with
      | .ok a => Moves fs tr evs (gs a)
      | .error e => Final e = false → Moves fs tr evs [] := by
  obtain ⟨evs, h1, h2, h3, h4⟩ := h tr ho
  exact ⟨evs, h1, h2, fun a b x he hw => absurd hw (h3 x (by rw [he]; simp)), h4⟩

/-- Waits of a sequence. -/
theorem waits_seq {P : List HEv → Fd → Prop} {tr e1 e2 : List HEv} (h1 : ∀ a b h, e1 = a ++ h :: b → IsWait h → ∀ f ∈ held (tr ++ a), P (tr ++ a) f)
    (h2 : ∀ a b h, e2 = a ++ h :: b → IsWait h → ∀ f ∈ held (tr ++ e1 ++ a), P (tr ++ e1 ++ a) f) :
    ∀ a b h, e1 ++ e2 = a ++ h :: b → IsWait h → ∀ f ∈ held (tr ++ a), P (tr ++ a) f := by
  intro a b h he hw f hf
  rcases List.append_eq_append_iff.1 he with ⟨a2, rfl, he2⟩ | ⟨a2, he2, he3⟩
  · have := h2 a2 b h he2 hw f (by rw [List.append_assoc]; exact hf)
    rwa [List.append_assoc] at this
  · cases a2 with
    | nil =>
      rw [List.append_nil] at he2
      subst he2
      have := h2 [] b h (by simpa using he3.symm) hw f (by simpa using hf)
      simpa using this
    | cons x xs =>
      simp only [List.cons_append, List.cons.injEq] at he3
      obtain ⟨rfl, _⟩ := he3
      exact h1 a xs h he2 hw f hf

/-- The handle was made as the output or error output for a command. -/
def ForOutput (out err : Chan) (tr : List HEv) (f : Fd) : Prop :=
  ∃ c, (c = out ∨ c = err) ∧ (erase tr)[f.id]? = some ⟨obtain c, true⟩

theorem forOutput_mono {out err : Chan} {a b : List HEv} {f : Fd} (h : ForOutput out err a f) : ForOutput out err (a ++ b) f := by
  obtain ⟨c, hc, h⟩ := h
  refine ⟨c, hc, ?_⟩
  rw [erase_append, List.getElem?_append_left (List.getElem?_eq_some_iff.1 h).1]
  exact h

theorem newHandle_ok {os : Os} {a : Act} {pos : Pos} {chan : Nat → Chan} {tr tr' : List HEv} {o : Owned}
    (h : newHandle os a pos chan tr = (.ok o, tr')) : o.1.id = (erase tr).length ∧ tr' = tr ++ [.os ⟨a, true⟩] := by
  change HX.bind (lift (call os a pos)) (fun id => HX.pure ((⟨id, false⟩ : Fd), chan id)) tr = _ at h
  unfold HX.bind HX.pure lift call at h
  cases hf : os.fails (erase tr) a with
  | some msg => rw [hf] at h; cases h
  | none =>
    rw [hf] at h
    dsimp only at h
    cases h
    exact ⟨rfl, by simp⟩

theorem obtain_nowait (c : Chan) : ∀ id r, obtain c ≠ .wait id r := by cases c <;> exact fun _ _ h => by cases h
theorem obtain_made (c : Chan) : ∀ n, made n ⟨obtain c, true⟩ = [⟨n, false⟩] := by cases c <;> exact fun _ => rfl

theorem owning_ok {fs : List Fd} {m : HX α} {a : α} {tr tr' : List HEv} (h : owning fs m tr = (.ok a, tr')) : m tr = (.ok a, tr') := by
  unfold owning at h
  rcases hm : m tr with ⟨e | b, t⟩ <;> rw [hm] at h <;> cases h
  rfl

theorem hbind_eq {m : HX α} {f : α → HX β} {tr : List HEv} : (m >>= f) tr = match m tr with
    | (.ok a, tr) => f a tr
    | (.error e, tr) => (.error e, tr) := rfl

theorem commands_over {os : Os} {out err : Chan} {cs : List ExCommand} (tr : List HEv) :
    ∃ evs, (execCommands os out err cs tr).2 = tr ++ evs ∧
      Over [] (fun now f => f ∈ held tr ∨ ((erase tr).length ≤ f.id ∧ ForOutput out err now f)) tr evs (execCommands os out err cs tr).1 := by
  induction cs generalizing tr with
  | nil => exact ⟨[], (List.append_nil tr).symm, .nil, (fun a b h he => by cases a <;> cases he), fun _ => Moves.refl ⟨nofun, .nil⟩⟩
  | cons c cs ih =>
    let P := fun now f => f ∈ held tr ∨ ((erase tr).length ≤ f.id ∧ ForOutput out err now f)
    change ∃ evs, (execCommands os out err (c :: cs) tr).2 = _ ∧ Over [] P tr evs _
    have hdef : execCommands os out err (c :: cs) = (newHandle os (obtain out) (commandPos c) (fun _ => out) >>= fun o =>
      owning [o.1] (newHandle os (obtain err) (commandPos c) (fun _ => err)) >>= fun e => execCommand os o e c >>= fun r =>
      if r.abort then pure (if r.errors.isEmpty then [] else [r.errors])
      else execCommands os out err cs >>= fun later => pure ((if r.errors.isEmpty then [] else [r.errors]) ++ later)) := rfl
    rw [hdef]
    -- the handle for the output
    obtain ⟨e1, h1, hs1, hw1, hm1⟩ := keeps_over (P := P) (Keeps.handle (os := os) (pos := commandPos c) (chan := fun _ => out) (obtain_nowait out)
      (obtain_made out)) (tr := tr) ⟨nofun, .nil⟩
    rw [hbind_eq]
    rcases hx1 : newHandle os (obtain out) (commandPos c) (fun _ => out) tr with ⟨x | o, tr1⟩ <;> rw [hx1] at h1 hm1 <;> dsimp only at h1 hm1 ⊢
    · exact ⟨e1, h1, hs1, hw1, fun hF => hm1 (hF _ rfl)⟩
    · subst h1
      obtain ⟨hoid, hoe⟩ := newHandle_ok hx1
      have hout : ForOutput out err (tr ++ e1) o.1 := ⟨out, .inl rfl, by rw [hoe, erase_append, hoid]; simp [erase]⟩
      -- the handle for the error output
      obtain ⟨e2, h2, hs2, hw2, hm2⟩ := keeps_over (P := P) ((Keeps.handle (os := os) (pos := commandPos c) (chan := fun _ => err) (obtain_nowait err)
        (obtain_made err)).owning0 [o.1]) hm1.owns
      rw [hbind_eq]
      rcases hx2 : owning [o.1] (newHandle os (obtain err) (commandPos c) (fun _ => err)) (tr ++ e1) with ⟨x | e, tr2⟩ <;> rw [hx2] at h2 hm2 <;>
        dsimp only at h2 hm2 ⊢
      · exact ⟨e1 ++ e2, by rw [h2, List.append_assoc], hs1.append hs2, waits_seq hw1 hw2, fun hF => hm1.trans (hm2 (hF _ rfl))⟩
      · subst h2
        obtain ⟨heid, hee⟩ := newHandle_ok (owning_ok hx2)
        have herr : ForOutput out err (tr ++ e1 ++ e2) e.1 := ⟨err, .inr rfl, by rw [hee, erase_append, heid]; simp [erase]⟩
        have hown : Owns [o.1, e.1] (tr ++ e1 ++ e2) := by
          have := hm2.owns
          exact ⟨fun f hf => this.1 f (by simp only [List.mem_cons, List.not_mem_nil, or_false, List.mem_append] at hf ⊢; exact hf.symm),
            (List.Perm.swap o.1 e.1 []).nodup_iff.1 this.2⟩
        have hm12 : Moves [] tr (e1 ++ e2) [o.1, e.1] := by
          have h := hm1.trans hm2
          exact ⟨fun f => by rw [h.now]; simp [or_comm], fun f hf => h.new f (by simp only [List.mem_cons, List.not_mem_nil, or_false, List.mem_append] at hf ⊢; exact hf.symm),
            hown.2⟩
        -- the command
        obtain ⟨e3, h3, ho3⟩ := runs_over (Runs.command (os := os) (out := o) (err := e) (c := c)) hown
        have hw3 : ∀ a b h, e3 = a ++ h :: b → IsWait h → ∀ f ∈ held (tr ++ (e1 ++ e2) ++ a), P (tr ++ (e1 ++ e2) ++ a) f := by
          intro a b h he hw f hf
          rw [← List.append_assoc tr] at hf ⊢
          have hf1 := (ho3.waits a b h he hw f hf).1
          rw [List.append_assoc, hm12.now] at hf1
          rcases hf1 with ⟨hf1, _⟩ | hf1
          · exact .inl hf1
          · refine .inr ⟨?_, ?_⟩
            · rcases hm12.new f hf1 with h | h
              · cases h
              · exact h
            · rcases List.mem_cons.1 hf1 with rfl | hf1
              · rw [List.append_assoc]; exact forOutput_mono hout
              · obtain rfl := List.mem_singleton.1 hf1
                exact forOutput_mono herr
        have hs12 : SoundFrom tr (e1 ++ e2) := hs1.append hs2
        have hw12 := waits_seq hw1 hw2
        rw [List.append_assoc] at h3 ho3
        rw [hbind_eq]
        have hcmd : execCommand os o e c (tr ++ e1 ++ e2) = execCommand os o e c (tr ++ (e1 ++ e2)) := by rw [List.append_assoc]
        rw [hcmd]
        rcases hx3 : execCommand os o e c (tr ++ (e1 ++ e2)) with ⟨x | r, tr3⟩ <;> rw [hx3] at h3 ho3 <;> dsimp only at h3 ho3 ⊢
        · exact ⟨e1 ++ e2 ++ e3, by rw [h3]; simp, hs12.append ho3.sound, waits_seq hw12 hw3, fun hF => hm12.trans (ho3.after fun e he => hF e (by cases he; rfl))⟩
        · subst h3
          have hm3 := hm12.trans (ho3.after nofun)
          have hs3 := hs12.append ho3.sound
          have hws3 := waits_seq hw12 hw3
          split
          · exact ⟨_, by simp only [List.append_assoc]; rfl, hs3, hws3, fun _ => hm3⟩
          · -- the other commands
            obtain ⟨e4, h4, ho4⟩ := ih (tr ++ (e1 ++ e2) ++ e3)
            have hw4 : ∀ a b h, e4 = a ++ h :: b → IsWait h → ∀ f ∈ held (tr ++ (e1 ++ e2 ++ e3) ++ a), P (tr ++ (e1 ++ e2 ++ e3) ++ a) f := by
              intro a b h he hw f hf
              have hf' := hf
              rw [← List.append_assoc tr] at hf ⊢
              rcases ho4.waits a b h he hw f hf with h' | ⟨h', h''⟩
              · rw [List.append_assoc tr, hm3.now] at h'
                rcases h' with ⟨h', _⟩ | h'
                · exact .inl h'
                · cases h'
              · refine .inr ⟨?_, h''⟩
                rw [List.append_assoc, erase_append, List.length_append] at h'
                omega
            have hcs : execCommands os out err cs (tr ++ (e1 ++ e2) ++ e3) = execCommands os out err cs (tr ++ (e1 ++ e2 ++ e3)) := by
              rw [List.append_assoc tr]
            have ho4' : Over [] (fun now f => f ∈ held (tr ++ (e1 ++ e2) ++ e3) ∨ ((erase (tr ++ (e1 ++ e2) ++ e3)).length ≤ f.id ∧ ForOutput out err now f))
                (tr ++ (e1 ++ e2 ++ e3)) e4 (execCommands os out err cs (tr ++ (e1 ++ e2) ++ e3)).1 := by
              rw [List.append_assoc tr (e1 ++ e2) e3] at ho4 ⊢
              exact ho4
            rw [hbind_eq]
            rcases hx4 : execCommands os out err cs (tr ++ (e1 ++ e2) ++ e3) with ⟨x | l, tr4⟩ <;> rw [hx4] at h4 ho4' <;> dsimp only at h4 ho4' ⊢
            · exact ⟨e1 ++ e2 ++ e3 ++ e4, by rw [h4]; simp, hs3.append ho4'.sound, waits_seq hws3 hw4, fun hF => hm3.trans (ho4'.after hF)⟩
            · refine ⟨e1 ++ e2 ++ e3 ++ e4, ?_, hs3.append ho4'.sound, waits_seq hws3 hw4, fun _ => hm3.trans (ho4'.after nofun)⟩
              change tr4 = _
              rw [h4]; simp

theorem waits_close (P : List HEv → Fd → Prop) {fs : List Fd} {tr : List HEv} :
    ∀ a b h, fs.map HEv.close = a ++ h :: b → IsWait h → ∀ f ∈ held (tr ++ a), P (tr ++ a) f := by
  intro a b h he hw
  have : h ∈ fs.map HEv.close := by rw [he]; simp
  obtain ⟨f, _, rfl⟩ := List.mem_map.1 this
  exact hw.elim

/-- Handles owned by something else stay while nothing of them is owned here. -/
theorem Moves.outer {own : List Fd} {tr evs : List HEv} (h : Moves [] tr evs []) (ho : Owns own tr) : Owns own (tr ++ evs) :=
  ⟨fun f hf => (h.now f).2 (.inl ⟨ho.1 f hf, List.not_mem_nil⟩), ho.2⟩

theorem Moves.thenClose {own : List Fd} {tr evs : List HEv} (h : Moves [] tr evs []) :
    Moves own tr (evs ++ own.map .close) [] := by
  have hc := closes_moves (fs := own) (tr := tr ++ evs)
  refine ⟨fun f => ?_, nofun, .nil⟩
  rw [← List.append_assoc, hc.now, h.now]
  simp

theorem block_over {os : Os} {own : List Fd} {out err : Chan} {b : ExBlock} {tr : List HEv} (ho : Owns own tr) :
    ∃ evs, (execBlock os own out err b tr).2 = tr ++ evs ∧
      Over own (fun now f => f ∈ held tr ∨ ((erase tr).length ≤ f.id ∧ ForOutput out err now f)) tr evs (execBlock os own out err b tr).1 := by
  obtain ⟨e1, h1, hs, hw, hm⟩ := commands_over (os := os) (out := out) (err := err) (cs := b.head :: b.tail) tr
  let P : List HEv → Fd → Prop := fun now f => f ∈ held tr ∨ ((erase tr).length ≤ f.id ∧ ForOutput out err now f)
  unfold execBlock owning
  rcases hx : execCommands os out err (b.head :: b.tail) tr with ⟨x | r, tr1⟩ <;> rw [hx] at h1 hm <;> dsimp only at h1 hm ⊢
  · subst h1
    cases hF : Final x with
    | true =>
      cases x <;> first
        | exact absurd hF Bool.false_ne_true
        | exact ⟨e1, rfl, hs, hw, fun h => absurd (h _ rfl) (by decide)⟩
    | false =>
      have hm := hm fun e he => by cases he; exact hF
      have hs := hs.append (closes_sound (hm.outer ho))
      have hw := waits_seq (P := P) (tr := tr) hw (waits_close P (fs := own) (tr := tr ++ e1))
      have hc := hm.thenClose (own := own)
      cases x <;> first
        | exact absurd hF.symm Bool.false_ne_true
        | exact ⟨e1 ++ own.map .close, by rw [← List.append_assoc]; rfl, hs, hw, fun _ => hc⟩
  · subst h1
    have hm := hm nofun
    exact ⟨e1 ++ own.map .close, by rw [← List.append_assoc], hs.append (closes_sound (hm.outer ho)),
      waits_seq (P := P) (tr := tr) hw (waits_close P (fs := own) (tr := tr ++ e1)), fun _ => hm.thenClose⟩

theorem Keeps.toThread (f : Fd) (fs : List Fd) : Keeps (f :: fs) (fun _ => fs) (toThread f) := by
  intro tr ho
  have hd := List.nodup_cons.1 ho.2
  refine ⟨[.toThread f], rfl, fun a b g h => ?_, fun h hh hw => ?_, ?_⟩
  · cases a with
    | nil =>
      rcases h with h | h <;> cases h
      rw [List.append_nil]
      exact ho.1 f (by simp)
    | cons x xs => rcases h with h | h <;> cases xs <;> cases h
  · obtain rfl := List.mem_singleton.1 hh
    exact hw.elim
  · refine ⟨fun g => ?_, fun g hg => .inl (List.mem_cons_of_mem _ hg), hd.2⟩
    rw [held_append]
    simp only [heldFrom, List.mem_filter, decide_eq_true_eq, List.mem_cons, not_or]
    change g ∈ held tr ∧ _ ↔ _
    constructor
    · rintro ⟨h1, h2⟩
      by_cases hg : g ∈ fs
      · exact .inr hg
      · exact .inl ⟨h1, h2, hg⟩
    · rintro (⟨h1, h2, _⟩ | h)
      · exact ⟨h1, h2⟩
      · exact ⟨ho.1 g (List.mem_cons_of_mem _ h), fun he => hd.1 (he ▸ h)⟩

/-- Something that does not wait, then something described by `Over`. -/
theorem over_after {fs : List Fd} {gs : α → List Fd} {P : List HEv → Fd → Prop} {m : HX α} {k : α → HX β} {tr : List HEv} (hm : Keeps fs gs m)
    (ho : Owns fs tr)
    (hk : ∀ a evs, m tr = (.ok a, tr ++ evs) → Moves fs tr evs (gs a) →
      ∃ evs', (k a (tr ++ evs)).2 = tr ++ evs ++ evs' ∧ Over (gs a) P (tr ++ evs) evs' (k a (tr ++ evs)).1) :
    ∃ evs, ((m >>= k) tr).2 = tr ++ evs ∧ Over fs P tr evs ((m >>= k) tr).1 := by
  obtain ⟨e1, h1, hs, hw, hv⟩ := keeps_over (P := P) hm ho
  rw [hbind_eq]
  rcases hx : m tr with ⟨x | a, tr1⟩ <;> rw [hx] at h1 hv <;> dsimp only at h1 hv ⊢
  · exact ⟨e1, h1, hs, hw, fun hF => hv (hF _ rfl)⟩
  · subst h1
    obtain ⟨e2, h2, h3⟩ := hk a e1 hx hv
    exact ⟨e1 ++ e2, by rw [h2, List.append_assoc], hs.append h3.sound, waits_seq hw h3.waits, fun hF => hv.trans (h3.after hF)⟩

/-- Something described by `Over`, then something that does not wait. -/
theorem over_before {fs : List Fd} {P : List HEv → Fd → Prop} {m : HX α} {k : α → HX β} {tr : List HEv}
    (hm : ∃ evs, (m tr).2 = tr ++ evs ∧ Over fs P tr evs (m tr).1) (hk : ∀ a, Keeps [] (fun _ => []) (k a)) :
    ∃ evs, ((m >>= k) tr).2 = tr ++ evs ∧ Over fs P tr evs ((m >>= k) tr).1 := by
  obtain ⟨e1, h1, hs, hw, hv⟩ := hm
  rw [hbind_eq]
  rcases hx : m tr with ⟨x | a, tr1⟩ <;> rw [hx] at h1 hv <;> dsimp only at h1 hv ⊢
  · exact ⟨e1, h1, hs, hw, fun hF => hv fun e he => hF e (by cases he; rfl)⟩
  · subst h1
    have hm := hv nofun
    obtain ⟨e2, h2, hs2, hw2, hv2⟩ := keeps_over (P := P) (hk a) (tr := tr ++ e1) ⟨nofun, .nil⟩
    refine ⟨e1 ++ e2, by rw [h2, List.append_assoc], hs.append hs2, waits_seq hw hw2, fun hF => hm.trans ?_⟩
    rcases hy : k a (tr ++ e1) with ⟨x | c, tr2⟩ <;> rw [hy] at hv2 hF
    · exact hv2 (hF _ rfl)
    · exact hv2

theorem Keeps.announce (c : Chan) : Keeps [] (fun _ => []) (fun tr => (.ok (), tr ++ [.receive c]) : HX Unit) := by
  intro tr _
  refine ⟨[.receive c], rfl, fun a b g h => ?_, fun h hh hw => ?_, fun f => ?_, nofun, .nil⟩
  · rcases h with h | h <;> rcases a with _ | ⟨x, _ | ⟨y, a⟩⟩ <;> cases h
  · obtain rfl := List.mem_singleton.1 hh
    exact hw.elim
  · rw [held_append]
    simp [heldFrom]

theorem Keeps.received {os : Os} {c : Chan} {pos : Pos} : Keeps [] (fun _ => []) (received os c pos) :=
  Keeps.bind (m := fun tr => (.ok (), tr ++ [.receive c])) (f := fun _ => Handles.lift (Exec.receive os c pos)) (.announce c) fun _ => .lift .receive

/-- The pipes of a capture block. -/
def capturePipes (os : Os) (pos : Pos) : HX (Nat × Nat) := do
  let o ← lift (call os .pipe pos)
  let e ← owning [⟨o, false⟩, ⟨o, true⟩] (lift (call os .pipe pos))
  toThread ⟨o, false⟩
  toThread ⟨e, false⟩
  pure (o, e)

theorem Keeps.capturePipes {os : Os} {pos : Pos} : Keeps [] (fun p => [⟨p.1, true⟩, ⟨p.2, true⟩]) (capturePipes os pos) := by
  have hp : Keeps [] (fun id => [⟨id, false⟩, ⟨id, true⟩]) (Handles.lift (Exec.call os .pipe pos)) :=
    Keeps.call (fun _ _ h => by cases h) (fun n => by simp [made])
  refine .bind hp fun o => .bind (hp.owning0 _) fun e => ?_
  have h1 := Keeps.toThread ⟨o, false⟩ [⟨o, true⟩, ⟨e, false⟩, ⟨e, true⟩]
  have h2 := Keeps.toThread ⟨e, false⟩ [⟨o, true⟩, ⟨e, true⟩]
  refine .bind (h1.perm ?_ fun _ => ?_) fun _ => .bind h2 fun _ => ?_
  · exact (List.perm_append_comm (l₁ := [(⟨o, false⟩ : Fd), ⟨o, true⟩]) (l₂ := [(⟨e, false⟩ : Fd), ⟨e, true⟩]))
  · exact List.Perm.swap _ _ _
  · exact fun tr ho => Keeps.pure (fs := [⟨o, true⟩, ⟨e, true⟩]) (o, e) tr ho

theorem capturePipes_ok {os : Os} {pos : Pos} {tr tr' : List HEv} {p : Nat × Nat} (h : capturePipes os pos tr = (.ok p, tr')) :
    (erase tr')[p.1]? = some ⟨.pipe, true⟩ ∧ (erase tr')[p.2]? = some ⟨.pipe, true⟩ := by
  have hc : ∀ {tr tr' : List HEv} {id : Nat}, Handles.lift (Exec.call os .pipe pos) tr = (.ok id, tr') →
      id = (erase tr).length ∧ tr' = tr ++ [.os ⟨.pipe, true⟩] := by
    intro tr tr' id h
    unfold Handles.lift Exec.call at h
    cases hf : os.fails (erase tr) .pipe with
    | some msg => rw [hf] at h; cases h
    | none =>
      rw [hf] at h
      dsimp only at h
      cases h
      exact ⟨rfl, by simp⟩
  unfold capturePipes at h
  rw [hbind_eq] at h
  rcases h1 : Handles.lift (Exec.call os .pipe pos) tr with ⟨x | o, tr1⟩ <;> rw [h1] at h <;> dsimp only at h
  · cases h
  rw [hbind_eq] at h
  rcases h2 : owning [⟨o, false⟩, ⟨o, true⟩] (Handles.lift (Exec.call os .pipe pos)) tr1 with ⟨x | e, tr2⟩ <;> rw [h2] at h <;> dsimp only at h
  · cases h
  obtain ⟨ho, ht⟩ := hc h1
  obtain ⟨he, ht2⟩ := hc (owning_ok h2)
  have : (Except.ok (o, e), tr2 ++ [.toThread ⟨o, false⟩] ++ [.toThread ⟨e, false⟩]) = ((.ok p, tr') : Except XStop (Nat × Nat) × List HEv) := h
  cases this
  subst ht2 he ht ho
  simp [erase_append, erase]

theorem runBlock_capture (os : Os) (pos : Pos) (b : ExBlock) : runBlock os pos b .capture = (capturePipes os pos >>= fun p =>
    execBlock os [⟨p.1, true⟩, ⟨p.2, true⟩] .captureOut .captureErr b >>= fun ess => received os .captureOut pos >>= fun out =>
    received os .captureErr pos >>= fun err => pure (captureValue out err (blockValue os ess))) := by
  unfold capturePipes
  simp only [hx_assoc, hx_pure]
  rfl

/-- What may be held at a wait, other than what was held before: handles for the output, and the write ends of the pipes of a capture block. -/
def MayHold (kind : Ast.BlockKind) (now : List HEv) (f : Fd) : Prop :=
  match kind with
  | .capture => ForOutput .captureOut .captureErr now f ∨ (f.write = true ∧ (erase now)[f.id]? = some ⟨.pipe, true⟩)
  | _ => ForOutput .stdout .stderr now f

theorem runBlock_over {os : Os} {pos : Pos} {b : ExBlock} {kind : Ast.BlockKind} (tr : List HEv) :
    ∃ evs, (runBlock os pos b kind tr).2 = tr ++ evs ∧
      Over [] (fun now f => f ∈ held tr ∨ MayHold kind now f) tr evs (runBlock os pos b kind tr).1 := by
  have plain : ∀ kind, kind ≠ .capture → ∃ evs, (runBlock os pos b kind tr).2 = tr ++ evs ∧
      Over [] (fun now f => f ∈ held tr ∨ MayHold kind now f) tr evs (runBlock os pos b kind tr).1 := by
    intro kind hk
    have h : ∃ evs, ((execBlock os [] .stdout .stderr b >>= fun ess => (pure (blockValue os ess) : HX Tree)) tr).2 = tr ++ evs ∧
        Over [] (fun now f => f ∈ held tr ∨ ForOutput .stdout .stderr now f) tr evs
          ((execBlock os [] .stdout .stderr b >>= fun ess => (pure (blockValue os ess) : HX Tree)) tr).1 := by
      refine over_before ?_ fun _ => .pure _
      obtain ⟨evs, h1, hs, hw, ha⟩ := block_over (os := os) (own := []) (out := .stdout) (err := .stderr) (b := b) (tr := tr) ⟨nofun, .nil⟩
      exact ⟨evs, h1, hs, fun a b h he hi f hf => (hw a b h he hi f hf).imp id And.right, ha⟩
    cases kind with
    | capture => exact absurd rfl hk
    | _ => exact h
  cases kind with
  | capture =>
    rw [runBlock_capture]
    refine over_after Keeps.capturePipes ⟨nofun, .nil⟩ fun p e1 hp hmv => ?_
    obtain ⟨hp1, hp2⟩ := capturePipes_ok hp
    refine over_before ?_ fun ess => .bind .received fun out => .bind .received fun err => .pure _
    obtain ⟨evs, h1, hs, hw, ha⟩ := block_over (os := os) (own := [⟨p.1, true⟩, ⟨p.2, true⟩]) (out := .captureOut) (err := .captureErr) (b := b) hmv.owns
    refine ⟨evs, h1, hs, fun a b h he hi f hf => ?_, ha⟩
    rcases hw a b h he hi f hf with h' | h'
    · rcases (hmv.now f).1 h' with ⟨h', _⟩ | h'
      · exact .inl h'
      · refine .inr (.inr ?_)
        rw [erase_append (tr ++ e1)]
        rcases List.mem_cons.1 h' with rfl | h'
        · exact ⟨rfl, by rw [List.getElem?_append_left (List.getElem?_eq_some_iff.1 hp1).1]; exact hp1⟩
        · obtain rfl := List.mem_singleton.1 h'
          exact ⟨rfl, by rw [List.getElem?_append_left (List.getElem?_eq_some_iff.1 hp2).1]; exact hp2⟩
    · exact .inr (.inl h'.2)
  | _ => exact plain _ nofun

/-! ### When what was captured is received -/

/-- Nothing is received. -/
def Quiet (m : HX α) : Prop := ∀ tr, ∃ evs, (m tr).2 = tr ++ evs ∧ ∀ c, HEv.receive c ∉ evs

theorem Quiet.bind {m : HX α} {k : α → HX β} (hm : Quiet m) (hk : ∀ a, Quiet (k a)) : Quiet (m >>= k) := by
  intro tr
  obtain ⟨e1, h1, q1⟩ := hm tr
  rw [hbind_eq]
  rcases hx : m tr with ⟨x | a, tr1⟩ <;> rw [hx] at h1 <;> dsimp only at h1 ⊢
  · exact ⟨e1, h1, q1⟩
  · subst h1
    obtain ⟨e2, h2, q2⟩ := hk a (tr ++ e1)
    exact ⟨e1 ++ e2, by rw [h2, List.append_assoc], fun c hc => (List.mem_append.1 hc).elim (q1 c) (q2 c)⟩

theorem Quiet.pure (a : α) : Quiet (Pure.pure a : HX α) := fun tr => ⟨[], (List.append_nil tr).symm, nofun⟩

theorem Quiet.lift {m : X α} : Quiet (Handles.lift m) := fun tr => ⟨_, rfl, fun c hc => by
  obtain ⟨_, _, h⟩ := List.mem_map.1 hc
  cases h⟩

theorem Quiet.close {fs : List Fd} : Quiet (closeAll fs) := fun tr => ⟨_, rfl, fun c hc => by
  obtain ⟨_, _, h⟩ := List.mem_map.1 hc
  cases h⟩

theorem Quiet.thread {f : Fd} : Quiet (toThread f) := fun tr => ⟨_, rfl, fun c hc => by cases List.mem_singleton.1 hc⟩

theorem Quiet.owning {fs : List Fd} {m : HX α} (hm : Quiet m) : Quiet (Handles.owning fs m) := by
  intro tr
  obtain ⟨e1, h1, q1⟩ := hm tr
  unfold Handles.owning
  rcases hx : m tr with ⟨x | a, tr1⟩ <;> rw [hx] at h1 <;> dsimp only at h1 ⊢
  · subst h1
    split
    · exact ⟨e1, rfl, q1⟩
    · refine ⟨e1 ++ fs.map .close, by rw [List.append_assoc], fun c hc => (List.mem_append.1 hc).elim (q1 c) fun h => ?_⟩
      obtain ⟨_, _, h⟩ := List.mem_map.1 h
      cases h
  · exact ⟨e1, h1, q1⟩

theorem Quiet.handle {os : Os} {a : Act} {pos : Pos} {chan : Nat → Chan} : Quiet (newHandle os a pos chan) := .bind .lift fun _ => .pure _
theorem Quiet.file {os : Os} {a : ExArg} {app : Bool} {pos : Pos} : Quiet (openFile os a app pos) := .bind .lift fun _ => .handle

theorem Quiet.target {os : Os} {t : ExTarget} {s : HStdio} {pos : Pos} : Quiet (resolveTarget os t s pos) := by
  cases t with
  | overwrite a => exact .file
  | append a => exact .file
  | fd n =>
    unfold resolveTarget
    dsimp only
    split
    · exact .handle
    · split
      · exact .handle
      · exact .lift

theorem Quiet.input {os : Os} {lit : Bool} {a : ExArg} {pos : Pos} : Quiet (resolveInput os lit a pos) := by
  refine .bind .lift fun source => ?_
  cases lit with
  | true => exact .bind .lift fun id => .bind (.owning (.bind .lift fun _ => .lift)) fun _ => .bind .close fun _ => .pure _
  | false => exact .handle

theorem Quiet.redirect {os : Os} {r : ExRedirection} {s : HStdio} {pos : Pos} : Quiet (redirect os r s pos) := by
  cases r with
  | output source target =>
    refine .bind (.owning .target) fun c => ?_
    split
    · exact .bind .close fun _ => .pure _
    · split
      · exact .bind .close fun _ => .pure _
      · exact .owning .lift
  | input lit a => exact .bind (.owning .input) fun c => .bind .close fun _ => .pure _

theorem Quiet.redirectAll {os : Os} {rs : List ExRedirection} {s : HStdio} {pos : Pos} : Quiet (redirectAll os pos rs s) := by
  induction rs generalizing s with
  | nil => exact .pure _
  | cons r rs ih => exact .bind .redirect fun _ => ih

theorem Quiet.basic {os : Os} {c : ExBasic} {s : HStdio} : Quiet (execBasic os c s) :=
  .bind (.owning .lift) fun _ => .bind (.owning .lift) fun _ => .bind (.owning .lift) fun _ => .bind .redirectAll fun _ =>
    .bind (.owning .lift) fun _ => .bind .close fun _ => .pure _

theorem Quiet.startTail {os : Os} {out err : Owned} {cs : List ExBasic} : Quiet (startTail os out err cs) := by
  induction cs with
  | nil => exact .pure _
  | cons c cs ih => exact .bind ih fun _ => .bind (.owning .lift) fun _ => .bind (.owning .basic) fun _ => .bind (.owning .handle) fun _ => .pure _

theorem Quiet.command {os : Os} {out err : Owned} {c : ExCommand} : Quiet (execCommand os out err c) := by
  cases c with
  | builtin b args abort pos => exact .bind (.owning .lift) fun _ => .bind .close fun _ => .pure _
  | external head tail => exact .bind .startTail fun _ => .bind (.owning .handle) fun _ => .bind .basic fun _ => .lift

theorem Quiet.commands {os : Os} {out err : Chan} {cs : List ExCommand} : Quiet (execCommands os out err cs) := by
  induction cs with
  | nil => exact .pure _
  | cons c cs ih =>
    refine .bind .handle fun o => .bind (.owning .handle) fun e => .bind .command fun r => ?_
    change Quiet (if r.abort then _ else _)
    split
    · exact .pure _
    · exact .bind ih fun _ => .pure _

theorem Quiet.block {os : Os} {own : List Fd} {out err : Chan} {b : ExBlock} : Quiet (execBlock os own out err b) := by
  intro tr
  obtain ⟨e1, h1, q1⟩ := Quiet.owning (fs := own) (Quiet.commands (os := os) (out := out) (err := err) (cs := b.head :: b.tail)) tr
  unfold execBlock
  rcases hx : Handles.owning own (execCommands os out err (b.head :: b.tail)) tr with ⟨x | a, tr1⟩ <;> rw [hx] at h1 <;> dsimp only at h1
  · cases x <;> exact ⟨e1, h1, q1⟩
  · subst h1
    refine ⟨e1 ++ own.map .close, by rw [← List.append_assoc], fun c hc => (List.mem_append.1 hc).elim (q1 c) fun h => ?_⟩
    obtain ⟨_, _, h⟩ := List.mem_map.1 h
    cases h

theorem Quiet.pipes {os : Os} {pos : Pos} : Quiet (capturePipes os pos) :=
  .bind .lift fun _ => .bind (.owning .lift) fun _ => .bind .thread fun _ => .bind .thread fun _ => .pure _

/-- Whatever is received, is received when the handles are those held before the block. -/
theorem receives_closed {os : Os} {pos : Pos} {b : ExBlock} {kind : Ast.BlockKind} (tr : List HEv) :
    ∃ evs, (runBlock os pos b kind tr).2 = tr ++ evs ∧ ∀ pre c post, evs = pre ++ .receive c :: post → Same (held (tr ++ pre)) (held tr) := by
  have silent : ∀ {evs : List HEv}, (∀ c, HEv.receive c ∉ evs) → ∀ pre c post, evs = pre ++ .receive c :: post → Same (held (tr ++ pre)) (held tr) :=
    fun h pre c post he => absurd (by rw [he]; simp) (h c)
  have plain : Quiet (execBlock os [] .stdout .stderr b >>= fun ess => (pure (blockValue os ess) : HX Tree)) := .bind .block fun _ => .pure _
  have plain' : ∃ evs, ((execBlock os [] .stdout .stderr b >>= fun ess => (pure (blockValue os ess) : HX Tree)) tr).2 = tr ++ evs ∧
      ∀ pre c post, evs = pre ++ .receive c :: post → Same (held (tr ++ pre)) (held tr) := by
    obtain ⟨evs, h1, h2⟩ := plain tr
    exact ⟨evs, h1, silent h2⟩
  cases kind with
  | synchronous => exact plain'
  | asynchronous => exact plain'
  | capture =>
    rw [runBlock_capture, ← hx_assoc]
    -- the pipes and the commands
    have hq : Quiet (capturePipes os pos >>= fun p => execBlock os [⟨p.1, true⟩, ⟨p.2, true⟩] .captureOut .captureErr b) := .bind .pipes fun _ => .block
    have hv : ∃ evs, ((capturePipes os pos >>= fun p => execBlock os [⟨p.1, true⟩, ⟨p.2, true⟩] .captureOut .captureErr b) tr).2 = tr ++ evs ∧
        Over [] (fun _ _ => True) tr evs ((capturePipes os pos >>= fun p => execBlock os [⟨p.1, true⟩, ⟨p.2, true⟩] .captureOut .captureErr b) tr).1 := by
      refine over_after Keeps.capturePipes ⟨nofun, .nil⟩ fun p e1 hp hmv => ?_
      obtain ⟨evs, h1, hs, hw, ha⟩ := block_over (os := os) (own := [⟨p.1, true⟩, ⟨p.2, true⟩]) (out := .captureOut) (err := .captureErr) (b := b) hmv.owns
      exact ⟨evs, h1, hs, fun _ _ _ _ _ _ _ => trivial, ha⟩
    obtain ⟨e1, h1, q1⟩ := hq tr
    obtain ⟨e1', h1', hov⟩ := hv
    have : e1' = e1 := List.append_cancel_left (h1'.symm.trans h1)
    subst this
    rw [hbind_eq]
    rcases hx : (capturePipes os pos >>= fun p => execBlock os [⟨p.1, true⟩, ⟨p.2, true⟩] .captureOut .captureErr b) tr with ⟨x | ess, tr1⟩ <;>
      rw [hx] at h1 hov <;> dsimp only at h1 hov ⊢
    · exact ⟨e1', h1, silent q1⟩
    · subst h1
      have hm := hov.after nofun
      have hsame : ∀ l : List HEv, (∀ h ∈ l, ∃ c, h = .receive c) → Same (held (tr ++ e1' ++ l)) (held tr) := by
        intro l hl
        have hh : ∀ n fs, heldFrom n fs l = fs := by
          induction l with
          | nil => exact fun _ _ => rfl
          | cons x xs ih =>
            intro n fs
            obtain ⟨c, rfl⟩ := hl x (by simp)
            exact ih (fun h hh => hl h (by simp [hh])) n fs
        intro f
        rw [held_append, hh, hm.now]
        simp
      have fin : ∀ l : List HEv, (∀ h ∈ l, ∃ c, h = .receive c) → ∀ pre c post, e1' ++ l = pre ++ .receive c :: post → Same (held (tr ++ pre)) (held tr) := by
        intro l hl pre c post he
        rcases List.append_eq_append_iff.1 he with ⟨a2, rfl, he2⟩ | ⟨a2, he2, he3⟩
        · rw [← List.append_assoc]
          exact hsame a2 fun h hh => hl h (by rw [he2]; simp [hh])
        · cases a2 with
          | nil =>
            rw [List.append_nil] at he2
            subst he2
            have := hsame [] nofun
            rwa [List.append_nil] at this
          | cons x xs =>
            simp only [List.cons_append, List.cons.injEq] at he3
            obtain ⟨rfl, _⟩ := he3
            exact absurd (by rw [he2]; simp) (q1 c)
      have hr : ∀ c tr, (received os c pos tr).2 = tr ++ [.receive c] := by
        intro c tr
        unfold received
        have : (Exec.receive os c pos (erase (tr ++ [.receive c]))).2 = erase (tr ++ [.receive c]) ++ [] := by
          unfold Exec.receive
          cases os.received (erase (tr ++ [.receive c])) c <;> simp
        rw [lift_trace this]
        simp
      rw [hbind_eq]
      have h2 := hr .captureOut (tr ++ e1')
      rcases hy : received os .captureOut pos (tr ++ e1') with ⟨x | out, tr2⟩ <;> rw [hy] at h2 <;> dsimp only at h2 ⊢ <;> subst h2
      · exact ⟨e1' ++ [.receive .captureOut], by rw [List.append_assoc], fin _ fun h hh => ⟨_, List.mem_singleton.1 hh⟩⟩
      · rw [hbind_eq]
        have h3 := hr .captureErr (tr ++ e1' ++ [.receive .captureOut])
        have hl : ∀ h ∈ [HEv.receive .captureOut, .receive .captureErr], ∃ c, h = .receive c := by simp
        rcases hz : received os .captureErr pos (tr ++ e1' ++ [.receive .captureOut]) with ⟨x | err, tr3⟩ <;> rw [hz] at h3 <;> dsimp only at h3 <;> subst h3 <;> rw [hz] <;> dsimp only
        · exact ⟨e1' ++ [.receive .captureOut, .receive .captureErr], by simp, fin _ hl⟩
        · refine ⟨e1' ++ [.receive .captureOut, .receive .captureErr], ?_, fin _ hl⟩
          change tr ++ e1' ++ [.receive .captureOut] ++ [.receive .captureErr] = _
          simp

/-! ### Who has the write end of a pipe -/

open Hush.Spec.Exec in
theorem redirects_writer {os : Os} {T T' : Table} {t t' : List Ev} {rs : List ExRedirection} (h : Redirects os T t rs T' t') {n p : Nat}
    (hn : n < 3) (hw : T' n = .writer p) : ∃ k < 3, T k = .writer p := by
  induction h with
  | none => exact ⟨n, hn, hw⟩
  | @dup n' m' rs T' t' T t h1 h2 _ ih =>
    obtain ⟨k, hk, hT⟩ := ih hw
    unfold Table.set at hT
    split at hT
    · exact ⟨m', by rcases h2 with h | h <;> omega, hT⟩
    · exact ⟨k, hk, hT⟩
  | overwrite _ _ _ ih | append _ _ _ ih | input _ _ ih | here _ _ ih =>
    obtain ⟨k, hk, hT⟩ := ih hw
    unfold Table.set at hT
    split at hT
    · cases hT
    · exact ⟨k, hk, hT⟩

end Handles

namespace Exec
open Hush.Spec.Exec

theorem mem_starts_from {n k : Nat} {evs : List Ev} {l : Launch} (h : evs[k]? = some (did (.spawn l))) : n + k ∈ starts n evs := by
  induction evs generalizing n k with
  | nil => cases h
  | cons e es ih =>
    cases k with
    | zero =>
      cases h
      exact List.mem_cons_self
    | succ k =>
      have := ih (n := n + 1) (k := k) h
      rw [show n + 1 + k = n + (k + 1) by omega] at this
      rw [starts.eq_def]
      split
      · rename_i h; cases h
      · rename_i h; cases h; exact List.mem_cons_of_mem _ this
      · rename_i h; cases h; exact this

theorem mem_starts {t evs : List Ev} {id : Nat} {l : Launch} (hid : t.length ≤ id) (h : (t ++ evs)[id]? = some (did (.spawn l))) :
    id ∈ starts t.length evs := by
  rw [List.getElem?_append_right hid] at h
  have := mem_starts_from (n := t.length) h
  rwa [show t.length + (id - t.length) = id by omega] at this

end Exec
end Hush

import Verif.Spec.Capture

/-!
Lemmas for C76.
-/

namespace Hush.Capture
open Hush Spec

/-- The most steps that a process can make. -/
def Proc.depth : Proc → Nat
  | .exit => 0
  | .write _ _ k => k.depth + 1
  | .read f => ((List.finRange 256).map fun i => (f (some (UInt8.ofNat i.val))).depth).foldr max (f none).depth + 1

theorem le_foldr_max {l : List Nat} {a x : Nat} (h : x ∈ l ∨ x ≤ a) : x ≤ l.foldr max a := by
  induction l with
  | nil => rcases h with h | h; · cases h
           exact h
  | cons y l ih =>
    rw [List.foldr_cons]
    rcases h with h | h
    · rcases List.mem_cons.1 h with rfl | h
      · exact Nat.le_max_left _ _
      · exact Nat.le_trans (ih (.inl h)) (Nat.le_max_right _ _)
    · exact Nat.le_trans (ih (.inr h)) (Nat.le_max_right _ _)

theorem depth_read (f : Option UInt8 → Proc) : ∀ x, (f x).depth < (Proc.read f).depth
  | none => Nat.lt_succ_of_le (le_foldr_max (.inr (Nat.le_refl _)))
  | some b => by
    refine Nat.lt_succ_of_le (le_foldr_max (.inl (List.mem_map.2 ⟨⟨b.toNat, b.toNat_lt⟩, List.mem_finRange _, ?_⟩)))
    simp

/-- The most steps that the processes of a pipeline can make. -/
def depths (ps : List Proc) : Nat := (ps.map Proc.depth).sum

/-- A number that decreases with every step. -/
def Net.measure (N : Net) : Nat :=
  2 * depths (N.chain.map (·.proc)) + (N.chain.length - N.waited) + (N.rest.map fun p => 2 * depths p + p.length + 1).sum +
    N.out.length + N.err.length + (if N.closed then 0 else 1) + (if N.endedOut then 0 else 1) + (if N.endedErr then 0 else 1)

theorem depths_append (a b : List Proc) : depths (a ++ b) = depths a + depths b := by simp [depths]

theorem depths_cons (p : Proc) (b : List Proc) : depths (p :: b) = p.depth + depths b := by simp [depths]

theorem depth_write (s : Stream) (b : UInt8) (k : Proc) : (Proc.write s b k).depth = k.depth + 1 := rfl

theorem depth_exit : Proc.exit.depth = 0 := rfl

theorem step_decreases {cap : Nat} {N M : Net} {a : Label} (h : Step cap N a M) : M.measure < N.measure := by
  cases h with
  | send h1 h2 h3 h4 => simp [Net.measure, h1, depths_append, depths_cons, h2, depth_write]
  | broken h1 h2 h3 h4 =>
    rcases h4 with rfl | rfl
    · simp [Net.measure, h1, depths_append, depths_cons, h2, depth_write]
    · simp [Net.measure, h1, depths_append, depths_cons, h2, depth_write, depth_exit]
  | inherited h1 h2 => simp [Net.measure, h1, depths_append, depths_cons, h2, depth_write]
  | elsewhere h1 h2 => simp [Net.measure, h1, depths_append, depths_cons, h2, depth_write]
  | output h1 h2 h3 =>
    simp only [Net.measure, h1, List.map_append, List.map_cons, List.map_nil, depths_append, depths_cons, h2, depth_write, List.length_append, List.length_cons, List.length_nil]
    omega
  | error h1 h2 h3 =>
    simp only [Net.measure, h1, List.map_append, List.map_cons, List.map_nil, depths_append, depths_cons, h2, depth_write, List.length_append, List.length_cons, List.length_nil]
    omega
  | @receive pre l post f b i h1 _ h2 h3 =>
    have := depth_read f (some b)
    simp only [Net.measure, h1, List.map_append, List.map_cons, depths_append, depths_cons, h2, List.length_append, List.length_cons]
    omega
  | @eof pre p l post f h1 _ h2 h3 =>
    have := depth_read f none
    simp only [Net.measure, h1, List.map_append, List.map_cons, depths_append, depths_cons, h2, List.length_append, List.length_cons]
    omega
  | @stdin l post f x h1 h2 =>
    have := depth_read f x
    simp only [Net.measure, h1, List.map_cons, depths_cons, h2, List.length_cons]
    omega
  | wait h1 h2 =>
    have := (List.getElem?_eq_some_iff.1 h1).1
    simp only [Net.measure]
    omega
  | next h1 h2 =>
    simp only [Net.measure, h2, List.map_map, List.map_cons, List.sum_cons, List.length_map]
    rw [show ((fun x => x.proc) ∘ fun x => (⟨[], x⟩ : Link)) = id from rfl, List.map_id]
    omega
  | abort h1 h2 =>
    simp only [Net.measure, h2, List.map_cons, List.map_nil, List.sum_cons, List.sum_nil]
    omega
  | close h1 h2 h3 => simp [Net.measure, h3]
  | readOut h1 h2 =>
    have := List.length_pos_iff.2 h2
    simp only [Net.measure, h1, List.length_append]
    omega
  | readErr h1 h2 =>
    have := List.length_pos_iff.2 h2
    simp only [Net.measure, h1, List.length_append]
    omega
  | endOut h1 h2 h3 => simp [Net.measure, h3]
  | endErr h1 h2 h3 => simp [Net.measure, h3]

/-- Some step is possible. -/
def Can (cap : Nat) (N : Net) : Prop := ∃ a M, Step cap N a M

/-- Who waits for input can be helped by those before. -/
theorem can_before {cap : Nat} (hc : 0 < cap) {N : Net} : ∀ (n : Nat) (pre : List Link) (l : Link) (post : List Link), pre.length = n → N.chain = pre ++ l :: post →
    (∃ f, l.proc = .read f) → Can cap N
  | 0, pre, l, post, hn, h, ⟨f, hf⟩ => by
    cases List.eq_nil_of_length_eq_zero hn
    exact ⟨_, _, .stdin none h hf⟩
  | n + 1, pre, l, post, hn, h, ⟨f, hf⟩ => by
    have hne : pre ≠ [] := by rintro rfl; cases hn
    cases hi : l.input with
    | cons b i => exact ⟨_, _, .receive h hne hf hi⟩
    | nil =>
      obtain ⟨pre', p, rfl⟩ : ∃ pre' p, pre = pre' ++ [p] := ⟨pre.dropLast, pre.getLast hne, (List.dropLast_concat_getLast hne).symm⟩
      have h' : N.chain = pre' ++ p :: l :: post := by rw [h]; simp
      cases hp : p.proc with
      | exit => exact ⟨_, _, .eof h' hp hf hi⟩
      | write s b k =>
        cases s with
        | out => exact ⟨_, _, .send h' hp (by rw [hf]; exact fun e => by cases e) (by rw [hi]; exact hc)⟩
        | err => exact ⟨_, _, .inherited h' hp⟩
        | other => exact ⟨_, _, .elsewhere h' hp⟩
      | read g => exact can_before hc n pre' p (l :: post) (by simpa using hn) h' ⟨g, hp⟩

/-- A process that has not exited, while all after it have: something can be done. -/
theorem can_last {cap : Nat} (hc : 0 < cap) {N : Net} {pre : List Link} {l : Link} {post : List Link} (h : N.chain = pre ++ l :: post) (hl : l.proc ≠ .exit)
    (hp : ∀ x ∈ post, x.proc = .exit) : Can cap N := by
  cases hk : l.proc with
  | exit => exact absurd hk hl
  | read f => exact can_before hc _ pre l post rfl h ⟨f, hk⟩
  | write s b k =>
    cases post with
    | nil =>
      cases s with
      | out =>
        by_cases hs : N.out.length < cap
        · exact ⟨_, _, .output h hk hs⟩
        · exact ⟨_, _, .readOut (s := N.out) (t := []) (by simp) (by intro e; rw [e] at hs; exact hs hc)⟩
      | err =>
        by_cases hs : N.err.length < cap
        · exact ⟨_, _, .error h hk hs⟩
        · exact ⟨_, _, .readErr (s := N.err) (t := []) (by simp) (by intro e; rw [e] at hs; exact hs hc)⟩
      | other => exact ⟨_, _, .elsewhere h hk⟩
    | cons l' post =>
      cases s with
      | out => exact ⟨_, _, .broken h hk (hp l' List.mem_cons_self) (.inl rfl)⟩
      | err => exact ⟨_, _, .inherited h hk⟩
      | other => exact ⟨_, _, .elsewhere h hk⟩

/-- The last process that has not exited. -/
theorem last_alive : ∀ (c : List Link), (∃ l ∈ c, l.proc ≠ .exit) → ∃ pre l post, c = pre ++ l :: post ∧ l.proc ≠ .exit ∧ ∀ x ∈ post, x.proc = .exit
  | [], h => by obtain ⟨_, h, _⟩ := h; cases h
  | l :: c, h => by
    by_cases hc : ∃ x ∈ c, x.proc ≠ .exit
    · obtain ⟨pre, x, post, rfl, h1, h2⟩ := last_alive c hc
      exact ⟨l :: pre, x, post, rfl, h1, h2⟩
    · refine ⟨[], l, c, rfl, ?_, fun x hx => Classical.byContradiction fun hn => hc ⟨x, hx, hn⟩⟩
      obtain ⟨x, hx, hn⟩ := h
      rcases List.mem_cons.1 hx with rfl | hx
      · exact hn
      · exact absurd ⟨x, hx, hn⟩ hc

theorem can_step {cap : Nat} (hc : 0 < cap) (N : Net) (h : ¬ N.final) : Can cap N := by
  cases hw : N.chain[N.waited]? with
  | some l =>
    by_cases hl : l.proc = .exit
    · exact ⟨_, _, .wait hw hl⟩
    · obtain ⟨pre, x, post, h1, h2, h3⟩ := last_alive N.chain ⟨l, List.mem_of_getElem? hw, hl⟩
      exact can_last hc h1 h2 h3
  | none =>
    have hlen := List.getElem?_eq_none_iff.1 hw
    cases hr : N.rest with
    | cons p ps => exact ⟨_, _, .next hlen hr⟩
    | nil =>
      cases hcl : N.closed with
      | false => exact ⟨_, _, .close hlen hr hcl⟩
      | true =>
        cases ho : N.out with
        | cons b s => exact ⟨_, _, .readOut (s := b :: s) (t := []) (by simp [ho]) (by simp)⟩
        | nil =>
          cases he : N.err with
          | cons b s => exact ⟨_, _, .readErr (s := b :: s) (t := []) (by simp [he]) (by simp)⟩
          | nil =>
            cases h1 : N.endedOut with
            | false => exact ⟨_, _, .endOut hcl ho h1⟩
            | true =>
              cases h2 : N.endedErr with
              | false => exact ⟨_, _, .endErr hcl he h2⟩
              | true => exact absurd ⟨h1, h2⟩ h

theorem run_length {cap : Nat} {N M : Net} {as : List Label} (h : Run cap N as M) : as.length + M.measure ≤ N.measure := by
  induction h with
  | nil => simp
  | cons h1 _ ih =>
    have := step_decreases h1
    simp only [List.length_cons]
    omega

/-- The processes of the pipeline. -/
def Net.procs (N : Net) : List Proc := N.chain.map (·.proc)

/-- Readers that have ended have read all, and nothing is written any more. -/
structure Net.Sane (N : Net) : Prop where
  waited : ∀ p ∈ N.procs.take N.waited, p = .exit
  closed : N.closed = true → ∀ p ∈ N.procs, p = .exit
  last : N.closed = true → N.rest = []
  out : N.endedOut = true → N.out = [] ∧ N.closed = true
  err : N.endedErr = true → N.err = [] ∧ N.closed = true

/-- A process makes a step. -/
theorem Net.Sane.moves {N M : Net} (h : N.Sane) {pre post : List Proc} {p p' : Proc} (h1 : N.procs = pre ++ p :: post) (h2 : M.procs = pre ++ p' :: post)
    (hp : p ≠ .exit) (hw : M.waited = N.waited) (hc : M.closed = N.closed) (ho : M.endedOut = N.endedOut) (he : M.endedErr = N.endedErr)
    : M.Sane := by
  have open_ : N.closed = false := by
    cases hcl : N.closed with
    | false => rfl
    | true => exact absurd (h.closed hcl p (by rw [h1]; simp)) hp
  have hlen : N.waited ≤ pre.length := by
    refine Classical.byContradiction fun hn => hp (h.waited p ?_)
    rw [h1, List.take_append]
    refine List.mem_append_right _ ?_
    rw [show N.waited - pre.length = (N.waited - pre.length - 1) + 1 by omega, List.take_succ_cons]
    exact List.mem_cons_self
  refine ⟨?_, fun hx => ?_, fun hx => ?_, fun hx => ?_, fun hx => ?_⟩
  · have := h.waited
    rw [h1, List.take_append, show N.waited - pre.length = 0 by omega, List.take_zero, List.append_nil] at this
    rw [h2, hw, List.take_append, show N.waited - pre.length = 0 by omega, List.take_zero, List.append_nil]
    exact this
  · rw [hc, open_] at hx; cases hx
  · rw [hc, open_] at hx; cases hx
  · rw [ho] at hx; have := (h.out hx).2; rw [open_] at this; cases this
  · rw [he] at hx; have := (h.err hx).2; rw [open_] at this; cases this

theorem step_sane {cap : Nat} {N M : Net} {a : Label} (h : Step cap N a M) (hs : N.Sane) : M.Sane := by
  cases h with
  | @send pre l l' post b k h1 h2 h3 h4 =>
    exact hs.moves (pre := pre.map (·.proc)) (p := l.proc) (p' := k) (post := l'.proc :: post.map (·.proc)) (by simp [Net.procs, h1]) (by simp [Net.procs])
      (by rw [h2]; exact fun e => by cases e) rfl rfl rfl rfl
  | @broken pre l l' post b k k' h1 h2 h3 h4 =>
    exact hs.moves (pre := pre.map (·.proc)) (p := l.proc) (p' := k') (post := l'.proc :: post.map (·.proc)) (by simp [Net.procs, h1]) (by simp [Net.procs])
      (by rw [h2]; exact fun e => by cases e) rfl rfl rfl rfl
  | @inherited pre l l' post b k h1 h2 =>
    exact hs.moves (pre := pre.map (·.proc)) (p := l.proc) (p' := k) (post := l'.proc :: post.map (·.proc)) (by simp [Net.procs, h1]) (by simp [Net.procs])
      (by rw [h2]; exact fun e => by cases e) rfl rfl rfl rfl
  | @elsewhere pre l post b k h1 h2 =>
    exact hs.moves (pre := pre.map (·.proc)) (p := l.proc) (p' := k) (post := post.map (·.proc)) (by simp [Net.procs, h1]) (by simp [Net.procs])
      (by rw [h2]; exact fun e => by cases e) rfl rfl rfl rfl
  | @output pre l b k h1 h2 h3 =>
    exact hs.moves (pre := pre.map (·.proc)) (p := l.proc) (p' := k) (post := []) (by simp [Net.procs, h1]) (by simp [Net.procs])
      (by rw [h2]; exact fun e => by cases e) rfl rfl rfl rfl
  | @error pre l b k h1 h2 h3 =>
    exact hs.moves (pre := pre.map (·.proc)) (p := l.proc) (p' := k) (post := []) (by simp [Net.procs, h1]) (by simp [Net.procs])
      (by rw [h2]; exact fun e => by cases e) rfl rfl rfl rfl
  | @receive pre l post f b i h1 _ h2 h3 =>
    exact hs.moves (pre := pre.map (·.proc)) (p := l.proc) (p' := f (some b)) (post := post.map (·.proc)) (by simp [Net.procs, h1]) (by simp [Net.procs])
      (by rw [h2]; exact fun e => by cases e) rfl rfl rfl rfl
  | @eof pre p l post f h1 _ h2 h3 =>
    exact hs.moves (pre := (pre ++ [p]).map (·.proc)) (p := l.proc) (p' := f none) (post := post.map (·.proc)) (by simp [Net.procs, h1]) (by simp [Net.procs])
      (by rw [h2]; exact fun e => by cases e) rfl rfl rfl rfl
  | @stdin l post f x h1 h2 =>
    exact hs.moves (pre := []) (p := l.proc) (p' := f x) (post := post.map (·.proc)) (by simp [Net.procs, h1]) (by simp [Net.procs])
      (by rw [h2]; exact fun e => by cases e) rfl rfl rfl rfl
  | @wait l h1 h2 =>
    refine ⟨?_, hs.closed, hs.last, hs.out, hs.err⟩
    show ∀ p ∈ N.procs.take (N.waited + 1), p = .exit
    intro p hp
    rw [List.take_add_one] at hp
    rcases List.mem_append.1 hp with hp | hp
    · exact hs.waited p hp
    · rw [Net.procs, List.getElem?_map, h1] at hp
      simp only [Option.map_some, Option.toList_some, List.mem_singleton] at hp
      exact hp.trans h2
  | next h1 h2 =>
    have open_ : N.closed = false := by
      cases hcl : N.closed with
      | false => rfl
      | true => have := hs.last hcl; rw [h2] at this; cases this
    refine ⟨by simp, fun hx => ?_, fun hx => ?_, fun hx => ?_, fun hx => ?_⟩
    · exact absurd (open_.symm.trans hx) (by decide)
    · exact absurd (open_.symm.trans hx) (by decide)
    · exact absurd (open_.symm.trans (hs.out hx).2) (by decide)
    · exact absurd (open_.symm.trans (hs.err hx).2) (by decide)
  | abort h1 h2 => exact ⟨hs.waited, hs.closed, fun _ => rfl, hs.out, hs.err⟩
  | close h1 h2 h3 =>
    refine ⟨hs.waited, fun _ p hp => hs.waited p ?_, fun _ => h2, fun hx => ⟨(hs.out hx).1, rfl⟩, fun hx => ⟨(hs.err hx).1, rfl⟩⟩
    rw [List.take_of_length_le (by simpa [Net.procs] using h1)]
    exact hp
  | readOut h1 h2 =>
    refine ⟨hs.waited, hs.closed, hs.last, fun hx => ?_, hs.err⟩
    have := (hs.out hx).1
    rw [h1] at this
    exact absurd (List.append_eq_nil_iff.1 this).1 h2
  | readErr h1 h2 =>
    refine ⟨hs.waited, hs.closed, hs.last, hs.out, fun hx => ?_⟩
    have := (hs.err hx).1
    rw [h1] at this
    exact absurd (List.append_eq_nil_iff.1 this).1 h2
  | endOut h1 h2 h3 => exact ⟨hs.waited, hs.closed, hs.last, fun _ => ⟨h2, h1⟩, hs.err⟩
  | endErr h1 h2 h3 => exact ⟨hs.waited, hs.closed, hs.last, hs.out, fun _ => ⟨h2, h1⟩⟩

theorem run_sane {cap : Nat} {N M : Net} {as : List Label} (h : Run cap N as M) (hs : N.Sane) : M.Sane := by
  induction h with
  | nil => exact hs
  | cons h1 _ ih => exact ih (step_sane h1 hs)

theorem start_sane (block : List (List Proc)) : (start block).Sane :=
  ⟨fun _ h => (by simp [start, Net.procs] at h), fun h => (by cases h), fun h => (by cases h), fun h => (by cases h), fun h => (by cases h)⟩

theorem step_got {cap : Nat} {N M : Net} {a : Label} (h : Step cap N a M) :
    M.gotOut ++ M.out = N.gotOut ++ N.out ++ BlockOutput .out [a] ∧ M.gotErr ++ M.err = N.gotErr ++ N.err ++ BlockOutput .err [a] := by
  cases h with
  | readOut h1 h2 => simp [BlockOutput, h1]
  | readErr h1 h2 => simp [BlockOutput, h1]
  | _ => simp [BlockOutput]

theorem run_got {cap : Nat} {N M : Net} {as : List Label} (h : Run cap N as M) :
    M.gotOut ++ M.out = N.gotOut ++ N.out ++ BlockOutput .out as ∧ M.gotErr ++ M.err = N.gotErr ++ N.err ++ BlockOutput .err as := by
  induction h with
  | nil => simp [BlockOutput]
  | @cons N a _ as K h1 _ ih =>
    have := step_got h1
    have e : ∀ s, BlockOutput s (a :: as) = BlockOutput s [a] ++ BlockOutput s as := by
      intro s
      unfold BlockOutput
      rw [← List.filterMap_append]
      rfl
    rw [e, e, ih.1, ih.2, this.1, this.2, List.append_assoc, List.append_assoc, List.append_assoc, List.append_assoc]
    simp only [and_self]

/-! ### What is sent is received -/

/-- The processes and what is in the pipes between them, by number. -/
def Net.inputAt (N : Net) (j : Nat) : Bytes := ((N.chain[j]?).map (·.input)).getD []

def Net.exitedAt (N : Net) (j : Nat) : Prop := (N.chain[j]?).map (·.proc) = some .exit

theorem at_split {α : Type} (pre : List α) (x : α) (post : List α) (j : Nat) :
    (pre ++ x :: post)[j]? = if j < pre.length then pre[j]? else if j = pre.length then some x else post[j - pre.length - 1]? := by
  split
  · rename_i h; exact List.getElem?_append_left h
  · rename_i h
    rw [List.getElem?_append_right (by omega)]
    split
    · rename_i h'; subst h'; simp
    · rename_i h'
      obtain ⟨k, hk⟩ : ∃ k, j - pre.length = k + 1 := ⟨j - pre.length - 1, by omega⟩
      simp [hk]

theorem step_fifo {cap : Nat} {N M : Net} {a : Label} (h : Step cap N a M) (ha : a ≠ .started) (i : Nat) :
    ReceivedBy (i + 1) [a] ++ M.inputAt (i + 1) = N.inputAt (i + 1) ++ SentBy i [a] := by
  cases h with
  | next => exact absurd rfl ha
  | send h1 h2 h3 h4 =>
    rename_i pre l l' post b k
    simp only [Net.inputAt, h1, ReceivedBy, SentBy, at_split]
    rcases Nat.lt_trichotomy (i + 1) pre.length with h | h | h
    · have : ¬ pre.length = i := by omega
      simp [h, this]
    · have : ¬ pre.length = i := by omega
      simp [h, this]
    · obtain ⟨k', hk⟩ : ∃ k', i = pre.length + k' := ⟨i - pre.length, by omega⟩
      subst hk
      cases k' <;> simp [show ¬ pre.length + 1 < pre.length by omega, show ∀ k, pre.length + k + 1 - pre.length - 1 = k by omega, show ∀ k, ¬ pre.length + k + 1 < pre.length by omega,
        show ∀ k, pre.length + (k + 1) - pre.length = k + 1 by omega, show ∀ k, ¬ pre.length + (k + 1) + 1 = pre.length by omega]
  | receive h1 h2 h3 h4 =>
    rename_i pre l post f b i'
    simp only [Net.inputAt, h1, ReceivedBy, SentBy, at_split]
    rcases Nat.lt_trichotomy (i + 1) pre.length with h | h | h
    · have : ¬ pre.length = i + 1 := by omega
      simp [h, this]
    · simp [h, h4]
    · have : ¬ pre.length = i + 1 := by omega
      simp [this, show ¬ i + 1 < pre.length by omega, show ¬ i + 1 = pre.length by omega]
  | stdin x h1 h2 =>
    simp [Net.inputAt, h1, ReceivedBy, SentBy]
  | broken h1 =>
    simp only [Net.inputAt, h1, ReceivedBy, SentBy, at_split]
    split
    · simp
    · split <;> simp
  | inherited h1 =>
    simp only [Net.inputAt, h1, ReceivedBy, SentBy, at_split]
    split
    · simp
    · split <;> simp
  | elsewhere h1 =>
    simp only [Net.inputAt, h1, ReceivedBy, SentBy, at_split]
    split
    · simp
    · split <;> simp
  | output h1 =>
    simp only [Net.inputAt, h1, ReceivedBy, SentBy, at_split]
    split
    · simp
    · split <;> simp
  | error h1 =>
    simp only [Net.inputAt, h1, ReceivedBy, SentBy, at_split]
    split
    · simp
    · split <;> simp
  | eof h1 =>
    rename_i pre p l post f h2 h3 h4
    have e : ∀ (x : Link), pre ++ p :: x :: post = (pre ++ [p]) ++ x :: post := by simp
    simp only [Net.inputAt, h1, ReceivedBy, SentBy, e, at_split]
    split
    · simp
    · split <;> simp
  | wait => simp [Net.inputAt, ReceivedBy, SentBy]
  | abort => simp [Net.inputAt, ReceivedBy, SentBy]
  | close => simp [Net.inputAt, ReceivedBy, SentBy]
  | readOut => simp [Net.inputAt, ReceivedBy, SentBy]
  | readErr => simp [Net.inputAt, ReceivedBy, SentBy]
  | endOut => simp [Net.inputAt, ReceivedBy, SentBy]
  | endErr => simp [Net.inputAt, ReceivedBy, SentBy]

theorem sentBy_cons (i : Nat) (a : Label) (as : List Label) : SentBy i (a :: as) = SentBy i [a] ++ SentBy i as := by
  rw [show a :: as = [a] ++ as from rfl, SentBy, List.filterMap_append]; rfl

theorem receivedBy_cons (i : Nat) (a : Label) (as : List Label) : ReceivedBy i (a :: as) = ReceivedBy i [a] ++ ReceivedBy i as := by
  rw [show a :: as = [a] ++ as from rfl, ReceivedBy, List.filterMap_append]; rfl

theorem run_fifo {cap : Nat} {N M : Net} {as : List Label} (h : Run cap N as M) (ha : .started ∉ as) (i : Nat) :
    ReceivedBy (i + 1) as ++ M.inputAt (i + 1) = N.inputAt (i + 1) ++ SentBy i as := by
  induction h with
  | nil => simp [ReceivedBy, SentBy]
  | cons hs _ ih =>
    have h1 := step_fifo hs (fun e => ha (e ▸ List.mem_cons_self)) i
    have h2 := ih (fun m => ha (List.mem_cons_of_mem _ m))
    rw [receivedBy_cons, sentBy_cons, List.append_assoc, h2, ← List.append_assoc, h1, List.append_assoc]

theorem run_split {cap : Nat} {N M : Net} {as bs : List Label} (h : Run cap N (as ++ bs) M) : ∃ K, Run cap N as K ∧ Run cap K bs M := by
  induction as generalizing N with
  | nil => exact ⟨N, .nil, h⟩
  | cons a as ih =>
    cases h with
    | cons hs hr => obtain ⟨K, h1, h2⟩ := ih hr; exact ⟨K, .cons hs h1, h2⟩

theorem step_started {cap : Nat} {N M : Net} (h : Step cap N .started M) (j : Nat) : M.inputAt j = [] := by
  cases h
  simp only [Net.inputAt, List.getElem?_map, Option.map_map]
  rename_i p _ _ _
  cases p[j]? <;> rfl

theorem step_exited {cap : Nat} {N M : Net} {a : Label} (h : Step cap N a M) (ha : a ≠ .started) {j : Nat} (hj : N.exitedAt j) :
    SentBy j [a] = [] ∧ M.exitedAt j := by
  have key : ∀ {pre post : List Link} {l l' : Link}, N.chain = pre ++ l :: post → l.proc ≠ .exit →
      j ≠ pre.length ∧ Option.map (·.proc) (pre ++ l' :: post)[j]? = some .exit := by
    intro pre post l l' h1 h2
    rw [Net.exitedAt, h1, at_split] at hj
    have hne : j ≠ pre.length := by rintro rfl; simp at hj; exact h2 hj
    refine ⟨hne, ?_⟩
    rw [at_split]
    simpa [hne] using hj
  cases h with
  | next => exact absurd rfl ha
  | send h1 h2 h3 h4 =>
    rename_i pre l l' post b k
    have k1 := key (l' := l) h1 (by rw [h2]; intro e; cases e)
    refine ⟨by simp [SentBy, Ne.symm k1.1], ?_⟩
    have e : ∀ (p x : Link), pre ++ p :: x :: post = (pre ++ [p]) ++ x :: post := by simp
    have hne2 : j ≠ pre.length + 1 := by
      rintro rfl
      have hj' := hj
      rw [Net.exitedAt, h1, e, at_split] at hj'
      simp at hj'
      exact h3 hj'
    have := (key (l' := { l with proc := k }) h1 (by rw [h2]; intro e; cases e)).2
    rw [e, at_split] at this
    show Option.map _ (pre ++ _ :: _ :: post)[j]? = _
    rw [e, at_split]
    simpa [hne2] using this
  | eof h1 h2 h3 h4 =>
    rename_i pre p l post f
    have e : ∀ (x : Link), pre ++ p :: x :: post = (pre ++ [p]) ++ x :: post := by simp
    rw [e] at h1
    refine ⟨by simp [SentBy], ?_⟩
    simp only [Net.exitedAt, e]
    exact (key h1 (by rw [h3]; intro e; cases e)).2
  | broken h1 h2 => exact ⟨by simp [SentBy], (key h1 (by rw [h2]; intro e; cases e)).2⟩
  | inherited h1 h2 => exact ⟨by simp [SentBy], (key h1 (by rw [h2]; intro e; cases e)).2⟩
  | elsewhere h1 h2 => exact ⟨by simp [SentBy], (key h1 (by rw [h2]; intro e; cases e)).2⟩
  | output h1 h2 => exact ⟨by simp [SentBy], (key h1 (by rw [h2]; intro e; cases e)).2⟩
  | error h1 h2 => exact ⟨by simp [SentBy], (key h1 (by rw [h2]; intro e; cases e)).2⟩
  | receive h1 h2 h3 h4 => exact ⟨by simp [SentBy], (key h1 (by rw [h3]; intro e; cases e)).2⟩
  | stdin x h1 h2 => exact ⟨by simp [SentBy], (key (pre := []) h1 (by rw [h2]; intro e; cases e)).2⟩
  | wait => exact ⟨by simp [SentBy], hj⟩
  | abort => exact ⟨by simp [SentBy], hj⟩
  | close => exact ⟨by simp [SentBy], hj⟩
  | readOut => exact ⟨by simp [SentBy], hj⟩
  | readErr => exact ⟨by simp [SentBy], hj⟩
  | endOut => exact ⟨by simp [SentBy], hj⟩
  | endErr => exact ⟨by simp [SentBy], hj⟩

theorem run_exited {cap : Nat} {N M : Net} {as : List Label} (h : Run cap N as M) (ha : .started ∉ as) {j : Nat} (hj : N.exitedAt j) : SentBy j as = [] := by
  induction h with
  | nil => rfl
  | cons hs _ ih =>
    have h1 := step_exited hs (fun e => ha (e ▸ List.mem_cons_self)) hj
    rw [sentBy_cons, h1.1, ih (fun m => ha (List.mem_cons_of_mem _ m)) h1.2]; rfl

theorem step_ended {cap : Nat} {N M : Net} {i : Nat} (h : Step cap N (.ended (i + 1)) M) :
    N.exitedAt i ∧ M.exitedAt i ∧ N.inputAt (i + 1) = [] := by
  generalize hl : Label.ended (i + 1) = a at h
  cases h <;> first | (cases hl; done) | skip
  rename_i pre p l post f h1 h2 h3 h4
  simp only [Label.ended.injEq, Nat.add_right_cancel_iff] at hl
  subst hl
  have e : ∀ (x : Link), pre ++ p :: x :: post = (pre ++ [p]) ++ x :: post := by simp
  refine ⟨by simp [Net.exitedAt, h1, h2], by simp [Net.exitedAt, h2], ?_⟩
  simp [Net.inputAt, h1, h4]

theorem step_inputs {cap : Nat} {N M : Net} {a : Label} (h : Step cap N a M) (ha : a ≠ .started) (j : Nat) (hj : (N.inputAt j).length ≤ cap) :
    (M.inputAt j).length ≤ cap := by
  have key : ∀ {pre post : List Link} {l l' : Link}, N.chain = pre ++ l :: post → l'.input.length ≤ l.input.length →
      (((pre ++ l' :: post)[j]?.map (·.input)).getD []).length ≤ cap := by
    intro pre post l l' h1 h2
    rw [Net.inputAt, h1, at_split] at hj
    rw [at_split]
    by_cases e : j < pre.length
    · simpa [e] using hj
    · by_cases e' : j = pre.length
      · simp [e'] at hj ⊢; omega
      · simpa [e, e'] using hj
  cases h with
  | next => exact absurd rfl ha
  | send h1 h2 h3 h4 =>
    rename_i pre l l' post b k
    have e : ∀ (p x : Link), pre ++ p :: x :: post = (pre ++ [p]) ++ x :: post := by simp
    have := key (l' := { l with proc := k }) h1 (Nat.le_refl _)
    rw [e, at_split] at this
    show ((Option.map _ (pre ++ _ :: _ :: post)[j]?).getD []).length ≤ cap
    rw [e, at_split]
    by_cases e' : j = pre.length + 1
    · simp [e']; omega
    · simpa [e'] using this
  | eof h1 h2 h3 h4 =>
    rename_i pre p l post f
    have e : ∀ (x : Link), pre ++ p :: x :: post = (pre ++ [p]) ++ x :: post := by simp
    rw [e] at h1
    simp only [Net.inputAt, e]
    exact key h1 (Nat.le_refl _)
  | broken h1 h2 => exact key h1 (Nat.le_refl _)
  | inherited h1 h2 => exact key h1 (Nat.le_refl _)
  | elsewhere h1 h2 => exact key h1 (Nat.le_refl _)
  | output h1 h2 => exact key h1 (Nat.le_refl _)
  | error h1 h2 => exact key h1 (Nat.le_refl _)
  | receive h1 h2 h3 h4 => exact key h1 (by simp [h4])
  | stdin x h1 h2 => exact key (pre := []) h1 (Nat.le_refl _)
  | wait => exact hj
  | abort => exact hj
  | close => exact hj
  | readOut => exact hj
  | readErr => exact hj
  | endOut => exact hj
  | endErr => exact hj

theorem run_inputs {cap : Nat} {N M : Net} {as : List Label} (h : Run cap N as M) (ha : .started ∉ as) (j : Nat) (hj : (N.inputAt j).length ≤ cap) :
    (M.inputAt j).length ≤ cap := by
  induction h with
  | nil => exact hj
  | cons hs _ ih => exact ih (fun m => ha (List.mem_cons_of_mem _ m)) (step_inputs hs (fun e => ha (e ▸ List.mem_cons_self)) j hj)

end Hush.Capture

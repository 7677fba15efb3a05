import Verif.Spec.Exec

/-!
Lemmas on the execution of commands.
-/

namespace Hush
namespace Exec
open Hush.Spec.Exec (did Names Table fds given OutFd Redirects Starts waits starts written Words AllWords Assigns moves)

theorem X.pure_ok {a b : α} {t t' : List Ev} : (Pure.pure a : X α) t = (.ok b, t') ↔ a = b ∧ t = t' := by
  show (Except.ok a, t) = (.ok b, t') ↔ _
  simp

theorem X.bind_ok {m : X α} {f : α → X β} {b : β} {t t' : List Ev} :
    (m >>= f) t = (.ok b, t') ↔ ∃ a t1, m t = (.ok a, t1) ∧ f a t1 = (.ok b, t') := by
  show X.bind m f t = _ ↔ _
  unfold X.bind
  rcases hm : m t with ⟨_ | a, t1⟩
  · simp
  · simp only [Prod.mk.injEq, Except.ok.injEq]
    exact ⟨fun h => ⟨a, t1, ⟨rfl, rfl⟩, h⟩, fun ⟨_, _, ⟨h1, h2⟩, h⟩ => by rw [h1, h2]; exact h⟩

theorem X.stop_ok {e : XStop} {b : α} {t t' : List Ev} : (X.stop e : X α) t = (.ok b, t') ↔ False := by
  simp [X.stop]

theorem X.panic_ok {k : PanicKind} {pos : Pos} {b : α} {t t' : List Ev} :
    (X.panic k pos : X α) t = (.ok b, t') ↔ False := by
  simp [X.panic, X.stop]

theorem call_ok {os : Os} {a : Act} {pos : Pos} {id : Nat} {t t' : List Ev} :
    call os a pos t = (.ok id, t') ↔ os.fails t a = none ∧ id = t.length ∧ t' = t ++ [did a] := by
  unfold call
  cases h : os.fails t a
  · simp [did, eq_comm]
  · simp

theorem waitChild_ok {os : Os} {c : Child} {r : Option ErrorStatus} {t t' : List Ev} :
    waitChild os c t = (.ok r, t') ↔
      r = statusOf c.pos (os.ended t c.id) ∧ t' = t ++ [did (.wait c.id (os.ended t c.id))] := by
  simp [waitChild, did, eq_comm]

theorem resolveOne_ok {os : Os} {o : Bytes} {a : ExArg} {pos : Pos} {s : Bytes} {t t' : List Ev}
    (h : resolveOne os o a pos t = (.ok s, t')) : Names os t a s t' := by
  rcases X.bind_ok.1 h with ⟨l, t1, h1, h2⟩
  cases a with
  | literal lit =>
    simp only [resolve, Prod.mk.injEq, Except.ok.injEq] at h1
    rcases h1 with ⟨rfl, rfl⟩
    rcases X.pure_ok.1 h2 with ⟨rfl, rfl⟩
    exact .literal
  | pattern p =>
    simp only [resolve] at h1
    cases hc : Glob.chars p with
    | none => rw [hc] at h1; cases h1
    | some cs =>
      rw [hc] at h1
      cases hg : os.glob t p with
      | none => rw [hg] at h1; cases h1
      | some paths =>
        rw [hg] at h1
        simp only [Prod.mk.injEq, Except.ok.injEq] at h1
        rcases h1 with ⟨hl, rfl⟩
        by_cases hp : p.head? = some cSlash
        · rw [if_pos hp] at hl
          subst hl
          match paths, h2, hg with
          | [f], h2, hg =>
            rcases X.pure_ok.1 h2 with ⟨rfl, rfl⟩
            exact .absolute hp hg
          | [], h2, _ => exact (X.panic_ok.1 h2).elim
          | _ :: _ :: _, h2, _ => exact (X.panic_ok.1 h2).elim
        · rw [if_neg hp] at hl
          subst hl
          match paths, h2, hg with
          | [f], h2, hg =>
            rcases X.pure_ok.1 h2 with ⟨rfl, rfl⟩
            exact .relative hp hg
          | [], h2, _ => exact (X.panic_ok.1 h2).elim
          | _ :: _ :: _, h2, _ => exact (X.panic_ok.1 h2).elim

theorem resolve_words {os : Os} {a : ExArg} {pos : Pos} {l : List Bytes} {t t' : List Ev}
    (h : resolve os a pos t = (.ok l, t')) : Words os t a l t' := by
  cases a with
  | literal s =>
    simp only [resolve, Prod.mk.injEq, Except.ok.injEq] at h
    rcases h with ⟨rfl, rfl⟩
    exact .literal
  | pattern p =>
    simp only [resolve] at h
    cases hc : Glob.chars p with
    | none => rw [hc] at h; cases h
    | some cs =>
      rw [hc] at h
      cases hg : os.glob t p with
      | none => rw [hg] at h; cases h
      | some paths =>
        rw [hg] at h
        simp only [Prod.mk.injEq, Except.ok.injEq] at h
        rcases h with ⟨rfl, rfl⟩
        by_cases hp : p.head? = some cSlash
        · rw [if_pos hp]
          exact .absolute hp hg
        · rw [if_neg hp]
          exact .relative hp hg

theorem resolveAll_words {os : Os} {pos : Pos} {as : List ExArg} {l : List Bytes} {t t' : List Ev}
    (h : resolveAll os pos as t = (.ok l, t')) : AllWords os t as l t' := by
  induction as generalizing l t with
  | nil =>
    rcases X.pure_ok.1 h with ⟨rfl, rfl⟩
    exact .nil
  | cons a as ih =>
    rcases X.bind_ok.1 h with ⟨l1, t1, h1, h2⟩
    rcases X.bind_ok.1 h2 with ⟨l2, t2, h3, h4⟩
    rcases X.pure_ok.1 h4 with ⟨rfl, rfl⟩
    exact .cons (resolve_words h1) (ih h3)

theorem resolveEnv_assigns {os : Os} {pos : Pos} {es : List (Bytes × ExArg)} {l : List (Bytes × Bytes)} {t t' : List Ev}
    (h : resolveEnv os pos es t = (.ok l, t')) : Assigns os t es l t' := by
  induction es generalizing l t with
  | nil =>
    rcases X.pure_ok.1 h with ⟨rfl, rfl⟩
    exact .nil
  | cons e es ih =>
    rcases e with ⟨k, a⟩
    rcases X.bind_ok.1 h with ⟨l1, t1, h1, h2⟩
    rcases X.bind_ok.1 h2 with ⟨l2, t2, h3, h4⟩
    rcases X.pure_ok.1 h4 with ⟨rfl, rfl⟩
    exact .cons (resolveOne_ok h1) (ih h3)

/-! ### What happens during a part of the execution -/

theorem waits_append (a b : List Ev) : waits (a ++ b) = waits a ++ waits b := by
  induction a with
  | nil => rfl
  | cons e es ih =>
    rcases e with ⟨act, ok⟩
    cases act <;> simp [waits, ih]

theorem starts_append (n : Nat) (a b : List Ev) : starts n (a ++ b) = starts n a ++ starts (n + a.length) b := by
  induction a generalizing n with
  | nil => rfl
  | cons e es ih =>
    rcases e with ⟨act, ok⟩
    have harith : n + 1 + es.length = n + (es.length + 1) := by omega
    cases act <;> cases ok <;> simp [starts, ih, harith]

theorem written_append (id : Nat) (a b : List Ev) : written id (a ++ b) = written id a ++ written id b := by
  induction a with
  | nil => rfl
  | cons e es ih =>
    rcases e with ⟨act, ok⟩
    cases act <;> cases ok <;> simp [written, ih]

/-- No process is started or waited for. -/
def Silent (t t' : List Ev) : Prop := ∃ evs, t' = t ++ evs ∧ waits evs = [] ∧ ∀ n, starts n evs = []

theorem Silent.refl (t : List Ev) : Silent t t := ⟨[], by simp, rfl, fun _ => rfl⟩

theorem Silent.trans {a b c : List Ev} (h1 : Silent a b) (h2 : Silent b c) : Silent a c := by
  rcases h1 with ⟨e1, rfl, hw1, hs1⟩
  rcases h2 with ⟨e2, rfl, hw2, hs2⟩
  exact ⟨e1 ++ e2, by simp, by simp [waits_append, hw1, hw2], fun n => by simp [starts_append, hs1, hs2]⟩

theorem Silent.prefix {a b : List Ev} (h : Silent a b) : a <+: b := by
  rcases h with ⟨e, rfl, _, _⟩
  exact ⟨e, rfl⟩

/-- Calls that are neither the start of a process nor a wait. -/
def Other : Act → Prop
  | .spawn _ => False
  | .wait _ _ => False
  | _ => True

theorem Silent.one {a : Act} {t : List Ev} (h : Other a := by trivial) : Silent t (t ++ [did a]) := by
  refine ⟨[did a], rfl, ?_, fun n => ?_⟩ <;> cases a <;> first | exact h.elim | rfl

theorem Silent.call {os : Os} {a : Act} {pos : Pos} {id : Nat} {t t' : List Ev} (ha : Other a)
    (h : call os a pos t = (.ok id, t')) : Silent t t' := by
  rw [(call_ok.1 h).2.2]
  exact Silent.one ha

theorem Names.silent {os : Os} {a : ExArg} {s : Bytes} {t t' : List Ev} (h : Names os t a s t') : Silent t t' := by
  cases h with
  | literal => exact .refl _
  | absolute => exact .one
  | relative => exact .one

theorem resolve_silent {os : Os} {a : ExArg} {pos : Pos} {l : List Bytes} {t t' : List Ev}
    (h : resolve os a pos t = (.ok l, t')) : Silent t t' := by
  cases a with
  | literal s =>
    simp only [resolve, Prod.mk.injEq] at h
    rw [← h.2]
    exact .refl _
  | pattern p =>
    simp only [resolve] at h
    cases hc : Glob.chars p with
    | none => rw [hc] at h; cases h
    | some cs =>
      rw [hc] at h
      cases hg : os.glob t p with
      | none => rw [hg] at h; cases h
      | some paths =>
        rw [hg] at h
        simp only [Prod.mk.injEq] at h
        rw [← h.2]
        exact Silent.one (a := .glob p)

theorem resolveAll_silent {os : Os} {pos : Pos} {as : List ExArg} {l : List Bytes} {t t' : List Ev}
    (h : resolveAll os pos as t = (.ok l, t')) : Silent t t' := by
  induction as generalizing l t with
  | nil => rw [(X.pure_ok.1 h).2]; exact .refl _
  | cons a as ih =>
    rcases X.bind_ok.1 h with ⟨l1, t1, h1, h2⟩
    rcases X.bind_ok.1 h2 with ⟨l2, t2, h3, h4⟩
    rcases X.pure_ok.1 h4 with ⟨rfl, rfl⟩
    exact (resolve_silent h1).trans (ih h3)

theorem resolveEnv_silent {os : Os} {pos : Pos} {es : List (Bytes × ExArg)} {l : List (Bytes × Bytes)} {t t' : List Ev}
    (h : resolveEnv os pos es t = (.ok l, t')) : Silent t t' := by
  induction es generalizing l t with
  | nil => rw [(X.pure_ok.1 h).2]; exact .refl _
  | cons e es ih =>
    rcases e with ⟨k, a⟩
    rcases X.bind_ok.1 h with ⟨l1, t1, h1, h2⟩
    rcases X.bind_ok.1 h2 with ⟨l2, t2, h3, h4⟩
    rcases X.pure_ok.1 h4 with ⟨rfl, rfl⟩
    exact (Names.silent (resolveOne_ok h1)).trans (ih h3)

/-! ### Redirections -/

theorem given_stdout (s : Stdio) (c : Chan) : given { s with stdout := c } = (given s).set 1 c := by
  funext n
  rcases n with _ | _ | n <;> simp [given, Table.set]

/-- Tables agree on the three standard descriptors. -/
def Agree (T T' : Table) : Prop := ∀ n < 3, T n = T' n

theorem Agree.set {T T' : Table} (h : Agree T T') (n : Nat) (c : Chan) : Agree (T.set n c) (T'.set n c) := by
  intro k hk
  simp only [Table.set]
  by_cases hn : k = n
  · rw [if_pos hn, if_pos hn]
  · rw [if_neg hn, if_neg hn]; exact h k hk

theorem agree_stderr (s : Stdio) (c : Chan) : Agree ((given s).set 2 c) (given { s with stderr := c }) := by
  intro n hn
  match n, hn with
  | 0, _ => rfl
  | 1, _ => rfl
  | 2, _ => rfl

theorem given_stdin (s : Stdio) (c : Chan) : given { s with stdin := c } = (given s).set 0 c := by
  funext n
  rcases n with _ | _ | n <;> simp [given, Table.set]

/-- Only the standard descriptors matter. -/
theorem Redirects.agree {os : Os} {T T1 T' : Table} {t t' : List Ev} {rs : List ExRedirection}
    (h : Redirects os T t rs T' t') (ha : Agree T T1) : ∃ T1', Redirects os T1 t rs T1' t' ∧ Agree T' T1' := by
  induction h generalizing T1 with
  | none => exact ⟨T1, .none, ha⟩
  | @dup n m T t rs T' t' hn hm _ ih =>
    have hm3 : m < 3 := by rcases hm with rfl | rfl <;> omega
    rcases ih (T1 := T1.set n (T1 m)) (by rw [ha m hm3]; exact ha.set n _) with ⟨T1', h1, h2⟩
    exact ⟨T1', .dup hn hm (by rw [← ha m hm3] at h1 ⊢; exact h1), h2⟩
  | overwrite hn hp _ ih =>
    rcases ih (ha.set _ _) with ⟨T1', h1, h2⟩
    exact ⟨T1', .overwrite hn hp h1, h2⟩
  | append hn hp _ ih =>
    rcases ih (ha.set _ _) with ⟨T1', h1, h2⟩
    exact ⟨T1', .append hn hp h1, h2⟩
  | input hp _ ih =>
    rcases ih (ha.set _ _) with ⟨T1', h1, h2⟩
    exact ⟨T1', .input hp h1, h2⟩
  | here hp _ ih =>
    rcases ih (ha.set _ _) with ⟨T1', h1, h2⟩
    exact ⟨T1', .here hp h1, h2⟩

theorem Redirects.silent {os : Os} {T T' : Table} {t t' : List Ev} {rs : List ExRedirection}
    (h : Redirects os T t rs T' t') : Silent t t' := by
  induction h with
  | none => exact .refl _
  | dup _ _ _ ih => exact (Silent.one).trans ih
  | overwrite _ hp _ ih => exact (Names.silent hp).trans ((Silent.one).trans ih)
  | append _ hp _ ih => exact (Names.silent hp).trans ((Silent.one).trans ih)
  | input hp _ ih => exact (Names.silent hp).trans ((Silent.one).trans ih)
  | here hp _ ih =>
    exact (Names.silent hp).trans ((Silent.one).trans ((Silent.one).trans ((Silent.one).trans ih)))

theorem writePipe_ok {os : Os} {id held : Nat} {data : Bytes} {pos : Pos} {u : Unit} {t t' : List Ev}
    (h : writePipe os id held data pos t = (.ok u, t')) :
    held + data.length ≤ os.capacity ∧ t' = t ++ [did (.write id data)] := by
  unfold writePipe at h
  by_cases hc : held + data.length ≤ os.capacity
  · rw [if_pos hc] at h
    rcases X.bind_ok.1 h with ⟨_, t1, h1, h2⟩
    rw [← (X.pure_ok.1 h2).2]
    exact ⟨hc, (call_ok.1 h1).2.2⟩
  · rw [if_neg hc] at h
    exact (X.stop_ok.1 h).elim

/-- One redirection, then others. -/
theorem redirect_ok {os : Os} {r : ExRedirection} {s s1 : Stdio} {pos : Pos} {t t1 t' : List Ev} {rs : List ExRedirection}
    {T' : Table} (h : redirect os r s pos t = (.ok s1, t1)) (hr : Redirects os (given s1) t1 rs T' t') :
    ∃ T1', Redirects os (given s) t (r :: rs) T1' t' ∧ Agree T' T1' := by
  cases r with
  | output n target =>
    rcases X.bind_ok.1 h with ⟨c, t2, h1, h2⟩
    -- the source
    have hsrc : OutFd n ∧ t2 = t1 ∧ Agree (given s1) ((given s).set n c) := by
      by_cases h1n : n = 1
      · rw [if_pos h1n] at h2
        rcases X.pure_ok.1 h2 with ⟨rfl, rfl⟩
        subst h1n
        exact ⟨.inl rfl, rfl, by rw [given_stdout]; exact fun _ _ => rfl⟩
      · rw [if_neg h1n] at h2
        by_cases h2n : n = 2
        · rw [if_pos h2n] at h2
          rcases X.pure_ok.1 h2 with ⟨rfl, rfl⟩
          subst h2n
          exact ⟨.inr rfl, rfl, fun k hk => (agree_stderr s c k hk).symm⟩
        · rw [if_neg h2n] at h2
          exact (X.panic_ok.1 h2).elim
    rcases hsrc with ⟨hn, rfl, hag⟩
    rcases Redirects.agree hr hag with ⟨T1', h3, h4⟩
    refine ⟨T1', ?_, h4⟩
    cases target with
    | fd m =>
      unfold resolveTarget at h1
      simp only at h1
      by_cases h1m : m = 1
      · rw [if_pos h1m] at h1
        rcases X.bind_ok.1 h1 with ⟨_, t3, h5, h6⟩
        rcases X.pure_ok.1 h6 with ⟨rfl, rfl⟩
        rcases call_ok.1 h5 with ⟨_, _, rfl⟩
        subst h1m
        exact .dup hn (.inl rfl) h3
      · rw [if_neg h1m] at h1
        by_cases h2m : m = 2
        · rw [if_pos h2m] at h1
          rcases X.bind_ok.1 h1 with ⟨_, t3, h5, h6⟩
          rcases X.pure_ok.1 h6 with ⟨rfl, rfl⟩
          rcases call_ok.1 h5 with ⟨_, _, rfl⟩
          subst h2m
          exact .dup hn (.inr rfl) h3
        · rw [if_neg h2m] at h1
          exact (X.panic_ok.1 h1).elim
    | overwrite a =>
      rcases X.bind_ok.1 h1 with ⟨path, t3, h5, h6⟩
      rcases X.bind_ok.1 h6 with ⟨id, t4, h7, h8⟩
      rcases X.pure_ok.1 h8 with ⟨rfl, rfl⟩
      rcases call_ok.1 h7 with ⟨_, rfl, rfl⟩
      exact .overwrite hn (resolveOne_ok h5) h3
    | append a =>
      rcases X.bind_ok.1 h1 with ⟨path, t3, h5, h6⟩
      rcases X.bind_ok.1 h6 with ⟨id, t4, h7, h8⟩
      rcases X.pure_ok.1 h8 with ⟨rfl, rfl⟩
      rcases call_ok.1 h7 with ⟨_, rfl, rfl⟩
      exact .append hn (resolveOne_ok h5) h3
  | input literal a =>
    rcases X.bind_ok.1 h with ⟨c, t2, h1, h2⟩
    rcases X.pure_ok.1 h2 with ⟨rfl, rfl⟩
    rw [given_stdin] at hr
    refine ⟨T', ?_, fun _ _ => rfl⟩
    rcases X.bind_ok.1 h1 with ⟨source, t3, h5, h6⟩
    cases literal with
    | true =>
      rcases X.bind_ok.1 h6 with ⟨id, t4, h7, h8⟩
      rcases X.bind_ok.1 h8 with ⟨_, t5, h9, h10⟩
      rcases X.bind_ok.1 h10 with ⟨_, t6, h11, h12⟩
      rcases X.pure_ok.1 h12 with ⟨rfl, rfl⟩
      rcases call_ok.1 h7 with ⟨_, rfl, rfl⟩
      rcases writePipe_ok h9 with ⟨_, rfl⟩
      rcases writePipe_ok h11 with ⟨_, rfl⟩
      exact .here (resolveOne_ok h5) hr
    | false =>
      rcases X.bind_ok.1 h6 with ⟨id, t4, h7, h8⟩
      rcases X.pure_ok.1 h8 with ⟨rfl, rfl⟩
      rcases call_ok.1 h7 with ⟨_, rfl, rfl⟩
      exact .input (resolveOne_ok h5) hr

theorem redirectAll_ok {os : Os} {rs : List ExRedirection} {s s' : Stdio} {pos : Pos} {t t' : List Ev}
    (h : redirectAll os pos rs s t = (.ok s', t')) :
    ∃ T', Redirects os (given s) t rs T' t' ∧ Agree (given s') T' := by
  induction rs generalizing s t with
  | nil =>
    rcases X.pure_ok.1 h with ⟨rfl, rfl⟩
    exact ⟨_, .none, fun _ _ => rfl⟩
  | cons r rs ih =>
    rcases X.bind_ok.1 h with ⟨s1, t1, h1, h2⟩
    rcases ih h2 with ⟨T', h3, h4⟩
    rcases redirect_ok h1 h3 with ⟨T1', h5, h6⟩
    exact ⟨T1', h5, fun n hn => (h4 n hn).trans (h6 n hn)⟩

theorem execBasic_ok {os : Os} {c : ExBasic} {s : Stdio} {child : Child} {t t' : List Ev}
    (h : execBasic os c s t = (.ok child, t')) :
    child.pos = c.pos ∧ ∃ l, Starts os c (given s) t child.id l t' := by
  rcases X.bind_ok.1 h with ⟨program, t1, h1, h⟩
  rcases X.bind_ok.1 h with ⟨env, t2, h2, h⟩
  rcases X.bind_ok.1 h with ⟨args, t3, h3, h⟩
  rcases X.bind_ok.1 h with ⟨s', t4, h4, h⟩
  rcases X.bind_ok.1 h with ⟨id, t5, h5, h⟩
  rcases X.pure_ok.1 h with ⟨rfl, rfl⟩
  rcases call_ok.1 h5 with ⟨_, rfl, rfl⟩
  rcases redirectAll_ok h4 with ⟨T', h6, h7⟩
  exact ⟨rfl, _, t1, t2, t3, T', t4, resolveOne_ok h1, rfl, resolveEnv_assigns h2, resolveAll_words h3, h6, rfl, rfl,
    fun n hn => by rw [← h7 n hn]; rfl⟩

theorem execBasic_events {os : Os} {c : ExBasic} {s : Stdio} {child : Child} {t t' : List Ev}
    (h : execBasic os c s t = (.ok child, t')) :
    ∃ t1 l, Silent t t1 ∧ t' = t1 ++ [did (.spawn l)] ∧ child.id = t1.length := by
  rcases X.bind_ok.1 h with ⟨program, t1, h1, h⟩
  rcases X.bind_ok.1 h with ⟨env, t2, h2, h⟩
  rcases X.bind_ok.1 h with ⟨args, t3, h3, h⟩
  rcases X.bind_ok.1 h with ⟨s', t4, h4, h⟩
  rcases X.bind_ok.1 h with ⟨id, t5, h5, h⟩
  rcases X.pure_ok.1 h with ⟨rfl, rfl⟩
  rcases call_ok.1 h5 with ⟨_, rfl, rfl⟩
  rcases redirectAll_ok h4 with ⟨T', h6, _⟩
  exact ⟨t4, _, (Names.silent (resolveOne_ok h1)).trans ((resolveEnv_silent h2).trans ((resolveAll_silent h3).trans
    (Redirects.silent h6))), rfl, rfl⟩

/-! ### The directory -/

theorem moves_append (a b : List Ev) : moves (a ++ b) = moves a ++ moves b := by
  induction a with
  | nil => rfl
  | cons e a ih =>
    rcases e with ⟨act, ok⟩
    cases act <;> cases ok <;> simp [moves, ih]

/-- Computations that do not change the directory, whatever their result is. -/
def Still (m : X α) : Prop := ∀ t r t', m t = (r, t') → ∃ evs, t' = t ++ evs ∧ moves evs = []

theorem Still.pure {a : α} : Still (Pure.pure a : X α) := fun t r t' h => by
  cases h
  exact ⟨[], by simp, rfl⟩

theorem Still.stop {e : XStop} : Still (X.stop e : X α) := fun t r t' h => by
  cases h
  exact ⟨[], by simp, rfl⟩

theorem Still.bind {m : X α} {f : α → X β} (hm : Still m) (hf : ∀ a, Still (f a)) : Still (m >>= f) := fun t r t' h => by
  change X.bind m f t = _ at h
  unfold X.bind at h
  rcases hx : m t with ⟨_ | a, t1⟩
  · rw [hx] at h
    cases h
    exact hm _ _ _ hx
  · rw [hx] at h
    obtain ⟨e1, rfl, h1⟩ := hm _ _ _ hx
    obtain ⟨e2, rfl, h2⟩ := hf a _ _ _ h
    exact ⟨e1 ++ e2, by simp, by simp [moves_append, h1, h2]⟩

theorem Still.call {os : Os} {a : Act} {pos : Pos} (ha : ∀ d, a ≠ .chdir d) : Still (call os a pos) := fun t r t' h => by
  unfold Hush.Exec.call at h
  cases hf : os.fails t a <;> rw [hf] at h <;> cases h <;> refine ⟨_, rfl, ?_⟩ <;> cases a <;>
    first | rfl | exact absurd rfl (ha _)

theorem Still.resolve {os : Os} {a : ExArg} {pos : Pos} : Still (resolve os a pos) := fun t r t' h => by
  unfold Hush.Exec.resolve at h
  cases a with
  | literal s => cases h; exact ⟨[], by simp, rfl⟩
  | pattern p =>
    simp only at h
    split at h
    · cases h; exact ⟨[], by simp, rfl⟩
    · split at h <;> cases h <;> exact ⟨_, rfl, rfl⟩

theorem Still.resolveOne {os : Os} {o : Bytes} {a : ExArg} {pos : Pos} : Still (resolveOne os o a pos) :=
  .bind .resolve fun l => by
    match l with
    | [] => exact .stop
    | [_] => exact .pure
    | _ :: _ :: _ => exact .stop

theorem Still.resolveAll {os : Os} {pos : Pos} : ∀ {as : List ExArg}, Still (resolveAll os pos as)
  | [] => .pure
  | _ :: _ => .bind .resolve fun _ => .bind Still.resolveAll fun _ => .pure

theorem Still.resolveEnv {os : Os} {pos : Pos} : ∀ {es : List (Bytes × ExArg)}, Still (resolveEnv os pos es)
  | [] => .pure
  | (_, _) :: _ => .bind .resolveOne fun _ => .bind Still.resolveEnv fun _ => .pure

theorem Still.openFile {os : Os} {a : ExArg} {append : Bool} {pos : Pos} : Still (openFile os a append pos) :=
  .bind .resolveOne fun _ => .bind (.call nofun) fun _ => .pure

theorem Still.ite {c : Prop} [Decidable c] {a b : X α} (ha : Still a) (hb : Still b) : Still (if c then a else b) := by
  split
  · exact ha
  · exact hb

theorem Still.resolveTarget {os : Os} {t : ExTarget} {s : Stdio} {pos : Pos} : Still (resolveTarget os t s pos) := by
  cases t with
  | overwrite a => exact .openFile
  | append a => exact .openFile
  | fd n => exact .ite (.bind (.call nofun) fun _ => .pure) (.ite (.bind (.call nofun) fun _ => .pure) .stop)

theorem Still.writePipe {os : Os} {id held : Nat} {data : Bytes} {pos : Pos} : Still (writePipe os id held data pos) :=
  .ite (.bind (.call nofun) fun _ => .pure) .stop

theorem Still.resolveInput {os : Os} {literal : Bool} {a : ExArg} {pos : Pos} : Still (resolveInput os literal a pos) :=
  .bind .resolveOne fun _ => .ite
    (.bind (.call nofun) fun _ => .bind .writePipe fun _ => .bind .writePipe fun _ => .pure)
    (.bind (.call nofun) fun _ => .pure)

theorem Still.redirect {os : Os} {r : ExRedirection} {s : Stdio} {pos : Pos} : Still (redirect os r s pos) := by
  cases r with
  | output source target => exact .bind .resolveTarget fun _ => .ite .pure (.ite .pure .stop)
  | input literal a => exact .bind .resolveInput fun _ => .pure

theorem Still.redirectAll {os : Os} {pos : Pos} : ∀ {rs : List ExRedirection} {s : Stdio}, Still (redirectAll os pos rs s)
  | [], _ => .pure
  | _ :: _, _ => .bind .redirect fun _ => Still.redirectAll

theorem Still.execBasic {os : Os} {c : ExBasic} {s : Stdio} : Still (execBasic os c s) :=
  .bind .resolveOne fun _ => .bind .resolveEnv fun _ => .bind .resolveAll fun _ => .bind .redirectAll fun _ =>
    .bind (.call nofun) fun _ => .pure

theorem Still.waitChild {os : Os} {c : Child} : Still (waitChild os c) := fun t r t' h => by
  cases h
  exact ⟨_, rfl, rfl⟩

theorem Still.startTail {os : Os} {out err : Chan} : ∀ {cs : List ExBasic}, Still (startTail os out err cs)
  | [] => .pure
  | _ :: _ => .bind Still.startTail fun _ => .bind (.call nofun) fun _ => .bind .execBasic fun _ => .bind (.call nofun) fun _ => .pure

theorem Still.waitAll {os : Os} : ∀ {cs : List (Child × Bool)}, Still (waitAll os cs)
  | [] => .pure
  | (_, _) :: _ => .bind .waitChild fun e => .bind Still.waitAll fun _ => by cases e <;> exact .pure

/-- Commands other than builtin ones do not change the directory. -/
theorem Still.external {os : Os} {out err : Chan} {head : ExBasic} {tail : List ExBasic} :
    Still (execCommand os out err (.external head tail)) :=
  .bind .startTail fun _ => .bind (.call nofun) fun _ => .bind .execBasic fun _ => .waitAll

/-- Nor do builtin commands other than `cd`. -/
theorem Still.builtin {os : Os} {b : Prog.Builtin} {args : List ExArg} {pos : Pos} (hb : b ≠ .cd) :
    Still (execBuiltin os b args pos) := .bind .resolveAll fun ws => by
  cases b with
  | alias => exact .stop
  | cd => exact absurd rfl hb
  | exec =>
    match ws with
    | [] => exact .stop
    | _ :: _ => exact .bind (.call nofun) fun _ => .stop
  | exec0 =>
    match ws with
    | [] => exact .stop
    | [_] => exact .stop
    | _ :: _ :: _ => exact .bind (.call nofun) fun _ => .stop
  | spawn0 =>
    match ws with
    | [] => exact .stop
    | [_] => exact .stop
    | _ :: _ :: _ => exact .bind (.call nofun) fun _ => .waitChild

end Exec
end Hush

import Verif.Lemmas.Exec

/-!
Lemmas on pipelines and on the sequence of commands of a block.
-/

namespace Hush
namespace Exec
open Hush.Spec.Exec (did Names Table fds given OutFd Redirects Starts waits starts written processes Succeeded Tells
  TellsAll Executed InSequence wires Piped AllWords moves)

/-- What the first of the given stages is connected to by its predecessor: the write end of its pipe, or the output of the
block. -/
def outOf (out : Chan) (pipes : List Nat) : Chan :=
  match pipes with
  | [] => out
  | p :: _ => .writer p

/-- The same for the error output. -/
def errOf (err : Chan) (pipes : List Nat) : Chan :=
  match pipes with
  | [] => err
  | _ :: _ => .stderr

theorem prefix_get {t t' : List Ev} {i : Nat} {e : Ev} (h : t <+: t') (hi : t[i]? = some e) : t'[i]? = some e := by
  rcases h with ⟨s, rfl⟩
  rw [List.getElem?_append_left (List.getElem?_eq_some_iff.1 hi).1]
  exact hi

theorem get_last (t : List Ev) (e : Ev) : (t ++ [e])[t.length]? = some e := by simp

/-- What is known about the commands after the first once they are started. -/
structure TailStarted (os : Os) (out err : Chan) (cs : List ExBasic) (t : List Ev)
    (r : (Chan × Chan) × List (Child × Bool)) (t' : List Ev) (pipes : List Nat) : Prop where
  len : pipes.length = cs.length
  outEq : r.1.1 = outOf out pipes
  errEq : r.1.2 = errOf err pipes
  isPipe : ∀ p ∈ pipes, t.length ≤ p ∧ t'[p]? = some (did .pipe)
  nodup : pipes.Nodup
  flags : r.2.map (fun c => (c.2, c.1.pos)) = cs.map (fun c => (c.abortOnError, c.pos))
  events : ∃ evs, t' = t ++ evs ∧ waits evs = [] ∧ starts t.length evs = (r.2.map (·.1.id)).reverse
  stage : ∀ i c, cs[i]? = some c → ∃ p ch l tb ta, pipes[i]? = some p ∧ r.2[i]? = some ch ∧
    Starts os c (given ⟨.reader p, outOf out (pipes.drop (i + 1)), errOf err (pipes.drop (i + 1))⟩) tb ch.1.id l ta ∧
    ta <+: t'

theorem startTail_ok {os : Os} {out err : Chan} {cs : List ExBasic} {t t' : List Ev}
    {r : (Chan × Chan) × List (Child × Bool)} (h : startTail os out err cs t = (.ok r, t')) :
    ∃ pipes, TailStarted os out err cs t r t' pipes := by
  induction cs generalizing r t' with
  | nil =>
    rcases X.pure_ok.1 h with ⟨rfl, rfl⟩
    exact ⟨[], rfl, rfl, rfl, nofun, .nil, rfl, ⟨[], by simp, rfl, rfl⟩, nofun⟩
  | cons c cs ih =>
    rcases X.bind_ok.1 h with ⟨r1, t1, h1, h⟩
    rcases X.bind_ok.1 h with ⟨id, t2, h2, h⟩
    rcases X.bind_ok.1 h with ⟨child, t3, h3, h⟩
    rcases X.bind_ok.1 h with ⟨_, t4, h4, h⟩
    rcases X.pure_ok.1 h with ⟨rfl, rfl⟩
    rcases ih h1 with ⟨pipes, H⟩
    rcases call_ok.1 h2 with ⟨_, rfl, rfl⟩
    rcases call_ok.1 h4 with ⟨_, rfl, rfl⟩
    rcases execBasic_ok h3 with ⟨hpos, l, hst⟩
    rcases execBasic_events h3 with ⟨t5, l', hsil, rfl, hid⟩
    rcases H.events with ⟨evs, rfl, hw, hs⟩
    rcases hsil with ⟨e2, rfl, hw2, hs2⟩
    have hpre : t ++ evs <+: t ++ evs ++ [did .pipe] ++ e2 ++ [did (.spawn l')] ++ [did (.dup 2)] := by
      refine ⟨[did .pipe] ++ e2 ++ [did (.spawn l')] ++ [did (.dup 2)], by simp⟩
    refine ⟨(t ++ evs).length :: pipes, ?_, rfl, rfl, ?_, ?_, ?_, ?_, ?_⟩
    · simp [H.len]
    · intro p hp
      rcases List.mem_cons.1 hp with rfl | hp
      · refine ⟨by simp, ?_⟩
        apply prefix_get (t := t ++ evs ++ [did .pipe]) ⟨e2 ++ [did (.spawn l')] ++ [did (.dup 2)], by simp⟩
        exact get_last _ _
      · exact ⟨(H.isPipe p hp).1, prefix_get hpre (H.isPipe p hp).2⟩
    · refine List.nodup_cons.2 ⟨fun hm => ?_, H.nodup⟩
      have := (List.getElem?_eq_some_iff.1 (H.isPipe _ hm).2).1
      omega
    · simp [H.flags, hpos]
    · refine ⟨evs ++ [did .pipe] ++ e2 ++ [did (.spawn l')] ++ [did (.dup 2)], by simp, ?_, ?_⟩
      · simp [waits_append, hw, hw2, waits, did]
      · simp only [starts_append, hs, hs2, List.map_cons, List.reverse_cons, hid, List.length_append, did, starts]
        simp [Nat.add_assoc]
    · intro i c' hc
      cases i with
      | zero =>
        simp only [List.getElem?_cons_zero, Option.some.injEq] at hc
        subst hc
        refine ⟨(t ++ evs).length, (child, c.abortOnError), l, t ++ evs ++ [did .pipe],
          t ++ evs ++ [did .pipe] ++ e2 ++ [did (.spawn l')], rfl, rfl, ?_, ⟨[did (.dup 2)], rfl⟩⟩
        simp only [List.drop_succ_cons, Nat.zero_add, List.drop_zero, ← H.outEq, ← H.errEq]
        exact hst
      | succ i =>
        rw [List.getElem?_cons_succ] at hc
        rcases H.stage i c' hc with ⟨p, ch, l, tb, ta, hp, hch, hs, hta⟩
        refine ⟨p, ch, l, tb, ta, ?_, ?_, ?_, hta.trans hpre⟩
        · rw [List.getElem?_cons_succ]; exact hp
        · rw [List.getElem?_cons_succ]; exact hch
        · rw [List.drop_succ_cons]; exact hs

/-! ### Waiting -/

theorem statusOf_none {pos : Pos} {e : Ended} : statusOf pos e = none ↔ Succeeded e := by
  cases e with
  | code n =>
    simp only [statusOf, Succeeded, Ended.code.injEq]
    by_cases hn : n = 0
    · rw [if_pos hn]; simp [hn]
    · rw [if_neg hn]; simp [hn]
  | signal n => simp [statusOf, Succeeded, signalStatusOffset]
  | neither => simp [statusOf, Succeeded]
  | error m => simp [statusOf, Succeeded]

theorem statusOf_some {pos : Pos} {e : Ended} {s : ErrorStatus} (h : statusOf pos e = some s) : Tells s pos e := by
  cases e with
  | code n =>
    simp only [statusOf] at h
    by_cases hn : n = 0
    · rw [if_pos hn] at h; cases h
    · rw [if_neg hn] at h
      cases h
      exact ⟨rfl, rfl⟩
  | signal n =>
    have hne : n + signalStatusOffset ≠ 0 := by simp [signalStatusOffset]
    simp only [statusOf] at h
    rw [if_neg hne] at h
    cases h
    exact ⟨Nat.add_comm _ _, rfl⟩
  | neither =>
    simp only [statusOf] at h
    rw [if_neg (by decide)] at h
    cases h
    exact ⟨rfl, rfl⟩
  | error m =>
    simp only [statusOf, Option.some.injEq] at h
    subst h
    exact ⟨rfl, rfl⟩

/-- A failure among processes that abort. -/
theorem ends_cons {p : Bool × Pos} {ps : List (Bool × Pos)} {e : Ended} {es : List Ended} :
    Spec.Exec.Ends (p :: ps) (e :: es) ↔ (p.1 = true ∧ ¬ Succeeded e) ∨ Spec.Exec.Ends ps es := by
  constructor
  · rintro ⟨i, q, f, hq, hf, h1, h2⟩
    cases i with
    | zero =>
      simp only [List.getElem?_cons_zero, Option.some.injEq] at hq hf
      subst hq; subst hf
      exact .inl ⟨h1, h2⟩
    | succ i =>
      rw [List.getElem?_cons_succ] at hq hf
      exact .inr ⟨i, q, f, hq, hf, h1, h2⟩
  · rintro (⟨h1, h2⟩ | ⟨i, q, f, hq, hf, h1, h2⟩)
    · exact ⟨0, p, e, rfl, rfl, h1, h2⟩
    · exact ⟨i + 1, q, f, by rw [List.getElem?_cons_succ]; exact hq, by rw [List.getElem?_cons_succ]; exact hf, h1, h2⟩

theorem not_ends_nil {es : List Ended} : ¬ Spec.Exec.Ends [] es := by
  rintro ⟨i, q, f, hq, _⟩
  simp at hq

theorem waitAll_ok {os : Os} {cs : List (Child × Bool)} {r : CommandExec} {t t' : List Ev}
    (h : waitAll os cs t = (.ok r, t')) :
    ∃ evs es, t' = t ++ evs ∧ waits evs = (cs.map (·.1.id)).zip es ∧ es.length = cs.length ∧ (∀ n, starts n evs = []) ∧
      TellsAll (cs.map (fun c => (c.2, c.1.pos))) es r.errors ∧
      (r.abort = true ↔ Spec.Exec.Ends (cs.map (fun c => (c.2, c.1.pos))) es) := by
  induction cs generalizing r t t' with
  | nil =>
    rcases X.pure_ok.1 h with ⟨rfl, rfl⟩
    exact ⟨[], [], by simp, rfl, rfl, fun _ => rfl, .nil, by simpa using not_ends_nil⟩
  | cons c cs ih =>
    rcases c with ⟨c, flag⟩
    rcases X.bind_ok.1 h with ⟨e, t1, h1, h⟩
    rcases X.bind_ok.1 h with ⟨r1, t2, h2, h⟩
    rcases waitChild_ok.1 h1 with ⟨he, rfl⟩
    rcases ih h2 with ⟨evs, es, rfl, hw, hl, hs, ht, ha⟩
    refine ⟨did (.wait c.id (os.ended t c.id)) :: evs, os.ended t c.id :: es, ?_, ?_, ?_, ?_, ?_⟩
    · cases e with
      | none => rcases X.pure_ok.1 h with ⟨_, rfl⟩; simp
      | some e => rcases X.pure_ok.1 h with ⟨_, rfl⟩; simp
    · simp [did, waits, hw]
    · simp [hl]
    · intro n
      simp [did, starts, hs]
    · cases e with
      | none =>
        rcases X.pure_ok.1 h with ⟨rfl, _⟩
        have hg : Succeeded (os.ended t c.id) := statusOf_none.1 he.symm
        refine ⟨.good hg ht, ?_⟩
        rw [List.map_cons, ends_cons, ha]
        exact ⟨.inr, fun h => h.elim (fun h => (h.2 hg).elim) id⟩
      | some e =>
        rcases X.pure_ok.1 h with ⟨rfl, _⟩
        have hb : ¬ Succeeded (os.ended t c.id) := fun hg => by
          rw [statusOf_none.2 hg] at he; cases he
        refine ⟨.bad hb (statusOf_some he.symm) ht, ?_⟩
        rw [List.map_cons, ends_cons, ← ha, Bool.or_eq_true]
        exact ⟨fun h => h.imp (fun h => ⟨h, hb⟩) id, fun h => h.imp (·.1) id⟩

/-! ### Commands -/

theorem map_fst_zip {a : List Nat} {b : List Ended} (h : b.length = a.length) : (a.zip b).map Prod.fst = a := by
  induction a generalizing b with
  | nil => rfl
  | cons x a ih =>
    cases b with
    | nil => cases h
    | cons y b => simp [ih (Nat.succ.inj h)]

theorem map_snd_zip {a : List Nat} {b : List Ended} (h : b.length = a.length) : (a.zip b).map Prod.snd = b := by
  induction a generalizing b with
  | nil => cases b with
    | nil => rfl
    | cons => cases h
  | cons x a ih =>
    cases b with
    | nil => cases h
    | cons y b => simp [ih (Nat.succ.inj h)]

/-- What is known about an executed pipeline. -/
theorem execExternal_ok {os : Os} {out err : Chan} {head : ExBasic} {tail : List ExBasic} {r : CommandExec} {t t' : List Ev}
    (h : execCommand os out err (.external head tail) t = (.ok r, t')) :
    ∃ (pipes ids : List Nat) (evs : List Ev) (es : List Ended), t' = t ++ evs ∧ pipes.length = tail.length ∧ pipes.Nodup ∧
      (∀ p ∈ pipes, t.length ≤ p ∧ t'[p]? = some (did .pipe)) ∧
      ids.length = tail.length + 1 ∧ waits evs = ids.zip es ∧ es.length = tail.length + 1 ∧
      starts t.length evs = ids.reverse ∧
      TellsAll (processes (.external head tail)) es r.errors ∧
      (r.abort = true ↔ Spec.Exec.Ends (processes (.external head tail)) es) ∧
      ∀ i c, (head :: tail)[i]? = some c → ∃ id l tb ta, ids[i]? = some id ∧
        Starts os c (wires pipes out err i) tb id l ta ∧ ta <+: t' := by
  rcases X.bind_ok.1 h with ⟨r1, t1, h1, h⟩
  rcases X.bind_ok.1 h with ⟨_, t2, h2, h⟩
  rcases X.bind_ok.1 h with ⟨child, t3, h3, h⟩
  rcases startTail_ok h1 with ⟨pipes, H⟩
  rcases call_ok.1 h2 with ⟨_, _, rfl⟩
  rcases execBasic_ok h3 with ⟨hpos, l, hst⟩
  rcases execBasic_events h3 with ⟨t5, l', hsil, rfl, hid⟩
  rcases waitAll_ok h with ⟨evs, es, rfl, hw, hl, hs, ht, ha⟩
  rcases H.events with ⟨e1, rfl, hw1, hs1⟩
  rcases hsil with ⟨e2, rfl, hw2, hs2⟩
  have hlen2 : r1.2.length = tail.length := by
    have := congrArg List.length H.flags
    simpa using this
  have hproc : ((child, head.abortOnError) :: r1.2).map (fun c => (c.2, c.1.pos)) = processes (.external head tail) := by
    simp [processes, H.flags, hpos]
  have hpre : t ++ e1 <+: t ++ e1 ++ [did (.dup 0)] ++ e2 ++ [did (.spawn l')] ++ evs :=
    ⟨[did (.dup 0)] ++ e2 ++ [did (.spawn l')] ++ evs, by simp⟩
  refine ⟨pipes, child.id :: r1.2.map (·.1.id), e1 ++ [did (.dup 0)] ++ e2 ++ [did (.spawn l')] ++ evs, es, by simp, H.len,
    H.nodup, fun p hp => ⟨(H.isPipe p hp).1, prefix_get hpre (H.isPipe p hp).2⟩, by simp [hlen2], ?_, by simp [hl, hlen2], ?_,
    by rw [← hproc]; exact ht, by rw [← hproc]; exact ha, ?_⟩
  · simp only [waits_append, hw1, hw2, hw, List.map_cons]
    simp [did, waits]
  · simp only [starts_append, hs1, hs2, hs, List.reverse_cons, hid, List.length_append, did, starts]
    simp [Nat.add_assoc]
  · intro i c hc
    cases i with
    | zero =>
      simp only [List.getElem?_cons_zero, Option.some.injEq] at hc
      subst hc
      refine ⟨child.id, l, t ++ e1 ++ [did (.dup 0)], _, rfl, ?_, ⟨evs, rfl⟩⟩
      have hw : given ⟨.stdin, r1.1.1, r1.1.2⟩ = wires pipes out err 0 := by
        funext n
        rw [H.outEq, H.errEq]
        cases pipes with
        | nil => rfl
        | cons p ps => rcases n with _ | _ | n <;> rfl
      rw [← hw]
      exact hst
    | succ i =>
      rw [List.getElem?_cons_succ] at hc
      rcases H.stage i c hc with ⟨p, ch, l, tb, ta, hp, hch, hs, hta⟩
      refine ⟨ch.1.id, l, tb, ta, ?_, ?_, hta.trans hpre⟩
      · rw [List.getElem?_cons_succ, List.getElem?_map, hch]; rfl
      · have hw : given ⟨.reader p, outOf out (pipes.drop (i + 1)), errOf err (pipes.drop (i + 1))⟩ =
            wires pipes out err (i + 1) := by
          funext n
          have hlt := (List.getElem?_eq_some_iff.1 hp).1
          by_cases hi : i + 1 = pipes.length
          · have hd : pipes.drop (i + 1) = [] := List.drop_eq_nil_of_le (by omega)
            rw [hd]
            simp only [given, wires, if_pos hi, outOf, errOf, Nat.add_sub_cancel]
            simp [List.getD, hp]
          · have hlt1 : i + 1 < pipes.length := by omega
            have hd : pipes.drop (i + 1) = pipes[i + 1] :: pipes.drop (i + 1 + 1) := List.drop_eq_getElem_cons hlt1
            rw [hd]
            simp only [given, wires, outOf, errOf, if_neg hi, Nat.add_sub_cancel]
            simp [List.getD, hp, hlt1]
        rw [← hw]
        exact hs

theorem builtin_ok {os : Os} {b : Prog.Builtin} {args : List ExArg} {pos : Pos} {r : Option ErrorStatus} {t t' : List Ev}
    (h : execBuiltin os b args pos t = (.ok r, t')) :
    (b = .cd ∧ r = none ∧ Silent t t' ∧ ∃ ta dir, AllWords os t args [dir] ta ∧ moves ta = moves t ∧ t' = ta ++ [did (.chdir dir)]) ∨
    (b = .spawn0 ∧ ∃ evs l id e, t' = t ++ evs ++ [did (.spawn l)] ++ [did (.wait id e)] ∧ id = (t ++ evs).length ∧
      waits evs = [] ∧ (∀ n, starts n evs = []) ∧ r = statusOf pos e ∧ moves evs = [] ∧
      ∃ program name rest, AllWords os t args (program :: name :: rest) (t ++ evs) ∧
        l = ⟨program, some name, rest, [], .stdin, .stdout, .stderr⟩) := by
  rcases X.bind_ok.1 h with ⟨words, t1, h1, h⟩
  have hsil := resolveAll_silent h1
  have hwords := resolveAll_words h1
  have hstill := Still.resolveAll _ _ _ h1
  cases b with
  | alias => exact (X.stop_ok.1 h).elim
  | cd =>
    refine .inl ⟨rfl, ?_⟩
    match words, h with
    | [], h => exact (X.panic_ok.1 h).elim
    | [dir], h =>
      rcases X.bind_ok.1 h with ⟨_, t2, h2, h⟩
      rcases X.pure_ok.1 h with ⟨rfl, rfl⟩
      refine ⟨rfl, hsil.trans (Silent.call (a := .chdir dir) trivial h2), t1, dir, hwords, ?_, (call_ok.1 h2).2.2⟩
      obtain ⟨e, rfl, he⟩ := hstill
      rw [moves_append, he, List.append_nil]
    | _ :: _ :: _, h => exact (X.panic_ok.1 h).elim
  | exec =>
    match words, h with
    | [], h => exact (X.panic_ok.1 h).elim
    | cmd :: rest, h =>
      rcases X.bind_ok.1 h with ⟨_, t2, h2, h⟩
      exact (X.stop_ok.1 h).elim
  | exec0 =>
    match words, h with
    | [], h => exact (X.panic_ok.1 h).elim
    | [_], h => exact (X.panic_ok.1 h).elim
    | _ :: _ :: _, h =>
      rcases X.bind_ok.1 h with ⟨_, t2, h2, h⟩
      exact (X.stop_ok.1 h).elim
  | spawn0 =>
    refine .inr ⟨rfl, ?_⟩
    match words, h with
    | [], h => exact (X.panic_ok.1 h).elim
    | [_], h => exact (X.panic_ok.1 h).elim
    | cmd :: arg0 :: rest, h =>
      rcases X.bind_ok.1 h with ⟨id, t2, h2, h⟩
      rcases call_ok.1 h2 with ⟨_, rfl, rfl⟩
      rcases waitChild_ok.1 h with ⟨rfl, rfl⟩
      rcases hsil with ⟨evs, rfl, hw, hs⟩
      obtain ⟨e, he, hm⟩ := hstill
      have := List.append_cancel_left he
      subst this
      exact ⟨evs, _, _, _, rfl, rfl, hw, hs, rfl, hm, cmd, arg0, rest, hwords, rfl⟩

theorem execCommand_ok {os : Os} {out err : Chan} {c : ExCommand} {r : CommandExec} {t t' : List Ev}
    (h : execCommand os out err c t = (.ok r, t')) :
    ∃ evs es, t' = t ++ evs ∧ Executed os out err c t evs es ∧ TellsAll (processes c) es r.errors ∧
      (r.abort = true ↔ Spec.Exec.Ends (processes c) es) := by
  cases c with
  | external head tail =>
    rcases execExternal_ok h with ⟨pipes, ids, evs, es, rfl, hlp, hnd, hpp, hli, hw, hle, hs, ht, ha, hst⟩
    have hz : es.length = ids.length := by omega
    refine ⟨evs, es, rfl, ⟨by simp [processes, hle], by rw [hw, map_snd_zip hz], ?_, ?_, nofun⟩, ht, ha⟩
    · rw [hw, map_fst_zip hz, hs, List.reverse_reverse]
    · rintro _ _ ⟨rfl, rfl⟩
      refine ⟨?_, ?_⟩
      rotate_left
      · obtain ⟨e, he, hm⟩ := Still.external _ _ _ h
        rw [List.append_cancel_left he]
        exact hm
      refine ⟨pipes, by simp [hlp], hnd, hpp, fun i c hc => ?_⟩
      rcases hst i c hc with ⟨id, l, tb, ta, hid, hs, hta⟩
      have hlt : i < es.length := by
        rw [hz]; exact (List.getElem?_eq_some_iff.1 hid).1
      refine ⟨(id, es[i]), l, tb, ta, ?_, hs, hta⟩
      rw [hw, List.getElem?_zip_eq_some]
      exact ⟨hid, List.getElem?_eq_getElem hlt⟩
  | builtin b args abort pos =>
    rcases X.bind_ok.1 h with ⟨e, t1, h1, h⟩
    rcases X.pure_ok.1 h with ⟨rfl, rfl⟩
    rcases builtin_ok h1 with ⟨rfl, rfl, ⟨evs, rfl, hw, hs⟩, ta, dir, hws, hta, heq⟩ | ⟨rfl, evs, l, id, r, rfl, rfl, hw, hs, rfl, hm, program, name, rest, hws, rfl⟩
    · refine ⟨evs, [], rfl, ⟨rfl, by simp [hw], by simp [hw, hs], nofun, ?_⟩, .nil, ?_⟩
      · rintro _ _ _ _ ⟨rfl, rfl, rfl, rfl⟩
        refine ⟨t, _, ta, ⟨[], by simp⟩, rfl, hws, .inl ⟨rfl, dir, rfl, heq, ?_⟩⟩
        have := congrArg moves heq
        rw [moves_append, moves_append, hta] at this
        exact List.append_cancel_left this
      show (abort && false) = true ↔ Spec.Exec.Ends [] []
      simpa using not_ends_nil
    · refine ⟨evs ++ [did (.spawn ⟨program, some name, rest, [], .stdin, .stdout, .stderr⟩)] ++ [did (.wait (t ++ evs).length r)], [r],
        by simp, ⟨rfl, ?_, ?_, nofun, ?_⟩, ?_, ?_⟩
      rotate_left 2
      · rintro _ _ _ _ ⟨rfl, rfl, rfl, rfl⟩
        refine ⟨t, _, _, ⟨[], by simp⟩, rfl, hws, .inr ⟨rfl, program, name, rest, r, rfl, ?_, by simp⟩⟩
        simp [moves_append, hm, moves, did]
      rotate_left 2
      · simp [waits_append, hw, waits, did]
      · simp [waits_append, starts_append, hw, hs, waits, did, starts]
      · by_cases hg : Succeeded r
        · rw [statusOf_none.2 hg]
          exact .good hg .nil
        · cases hs : statusOf pos r with
          | none => exact (hg (statusOf_none.1 hs)).elim
          | some s => exact .bad hg (statusOf_some hs) .nil
      · show _ ↔ Spec.Exec.Ends [(abort, pos)] [r]
        rw [ends_cons]
        by_cases hg : Succeeded r
        · rw [statusOf_none.2 hg]
          simpa [hg] using not_ends_nil
        · cases hs : statusOf pos r with
          | none => exact (hg (statusOf_none.1 hs)).elim
          | some s => simpa [hg] using fun h => (not_ends_nil h).elim

theorem obtain_other (c : Chan) : Other (obtain c) := by cases c <;> trivial

theorem executed_prepend {os : Os} {out err : Chan} {c : ExCommand} {t pre evs : List Ev} {es : List Ended} (hw : waits pre = [])
    (hs : ∀ n, starts n pre = []) (hm : moves pre = []) (h : Executed os out err c (t ++ pre) evs es) : Executed os out err c t (pre ++ evs) es := by
  rcases h with ⟨h1, h2, h3, h4, hb⟩
  refine ⟨h1, by rw [waits_append, hw]; exact h2, ?_, ?_, ?_⟩
  rotate_left 2
  · rintro b args abort pos rfl
    obtain ⟨tb, ws, ta, ⟨e, rfl⟩, h5, h6, h7⟩ := hb b args abort pos rfl
    refine ⟨_, ws, ta, ⟨pre ++ e, by rw [← List.append_assoc]⟩, by rw [h5, moves_append, hm, List.append_nil], h6, ?_⟩
    rcases h7 with ⟨rfl, dir, h8, h9, h10⟩ | ⟨rfl, program, name, rest, r, h8, h9, h10⟩
    · exact .inl ⟨rfl, dir, h8, by rw [← h9, List.append_assoc], by rw [moves_append, hm]; exact h10⟩
    · exact .inr ⟨rfl, program, name, rest, r, h8, by rw [moves_append, hm]; exact h9, by rw [← h10, List.append_assoc]⟩
  · rw [waits_append, hw, starts_append, hs]
    simpa using h3
  · rintro head tail rfl
    refine ⟨?_, by rw [moves_append, hm]; exact (h4 head tail rfl).2⟩
    rcases (h4 head tail rfl).1 with ⟨pipes, h5, h6, h7, h8⟩
    refine ⟨pipes, h5, h6, fun p hp => ?_, fun i c hc => ?_⟩
    · rcases h7 p hp with ⟨h9, h10⟩
      exact ⟨by simp at h9; omega, by rw [← List.append_assoc]; exact h10⟩
    · rcases h8 i c hc with ⟨w, l, tb, ta, h9, h10, h11⟩
      exact ⟨w, l, tb, ta, by rw [waits_append, hw]; exact h9, h10, by rw [← List.append_assoc]; exact h11⟩

theorem execCommands_ok {os : Os} {out err : Chan} {cs : List ExCommand} {r : List (List ErrorStatus)} {t t' : List Ev}
    (h : execCommands os out err cs t = (.ok r, t')) : ∃ evs, t' = t ++ evs ∧ InSequence os out err cs t evs r := by
  induction cs generalizing r t t' with
  | nil =>
    rcases X.pure_ok.1 h with ⟨rfl, rfl⟩
    exact ⟨[], by simp, .done⟩
  | cons c cs ih =>
    rcases X.bind_ok.1 h with ⟨_, t1, h1, h⟩
    rcases X.bind_ok.1 h with ⟨_, t2, h2, h⟩
    rcases X.bind_ok.1 h with ⟨x, t3, h3, h⟩
    rcases (Silent.call (obtain_other _) h1).trans (Silent.call (obtain_other _) h2) with ⟨pre, rfl, hw, hs⟩
    rcases execCommand_ok h3 with ⟨evs, es, rfl, hex, ht, ha⟩
    have hm : moves pre = [] := by
      have hd : ∀ (c : Chan) (d : Bytes), obtain c ≠ .chdir d := by
        intro c d
        cases c <;> nofun
      obtain ⟨e1, e, he⟩ := Still.call (hd _) _ _ _ h1
      subst e
      obtain ⟨e2, e, he2⟩ := Still.call (hd _) _ _ _ h2
      rw [List.append_assoc] at e
      rw [List.append_cancel_left e, moves_append, he, he2]
      rfl
    have hex' := executed_prepend hw hs hm hex
    cases hab : x.abort with
    | true =>
      rw [hab, if_pos rfl] at h
      rcases X.pure_ok.1 h with ⟨rfl, rfl⟩
      refine ⟨pre ++ evs, by simp, ?_⟩
      have hends := ha.1 hab
      have hne : x.errors.isEmpty = false := by
        cases hx : x.errors with
        | cons => rfl
        | nil =>
          exfalso
          rw [hx] at ht
          rcases hends with ⟨i, p, e, hp, he, _, hb⟩
          clear ha hex hex' h3
          generalize processes c = ps at ht hp
          induction i generalizing ps es with
          | zero =>
            cases ht with
            | nil => simp at hp
            | good hg _ => simp at he; subst he; exact hb hg
          | succ i ihi =>
            cases ht with
            | nil => simp at hp
            | good hg h' => exact ihi _ he _ h' hp
      rw [hne]
      exact .stop hex' hends ht
    | false =>
      rw [hab, if_neg (by simp)] at h
      rcases X.bind_ok.1 h with ⟨later, t4, h4, h⟩
      rcases X.pure_ok.1 h with ⟨rfl, rfl⟩
      rcases ih h4 with ⟨evs', rfl, hseq⟩
      refine ⟨pre ++ evs ++ evs', by simp, ?_⟩
      have hn : ¬ Spec.Exec.Ends (processes c) es := fun hh => by
        rw [ha.2 hh] at hab; cases hab
      have hthis := InSequence.next (sss := later) hex' hn ht (by
        rw [← List.append_assoc]; exact hseq)
      cases hx : x.errors with
      | nil => rw [hx] at hthis; exact hthis
      | cons e es => rw [hx] at hthis; exact hthis

/-- Every process started in a block belongs to a command executed. -/
theorem inSequence_process {os : Os} {out err : Chan} {cs : List ExCommand} {t evs : List Ev} {r : List (List ErrorStatus)}
    (h : InSequence os out err cs t evs r) {id : Nat} (hid : id ∈ starts t.length evs) :
    ∃ c ∈ cs, ∃ tb evs' es, Executed os out err c tb evs' es ∧ tb ++ evs' <+: t ++ evs ∧ id ∈ starts tb.length evs' := by
  induction h with
  | done => simp [starts] at hid
  | @next c t evs es ss cs evs' sss hex _ _ _ ih =>
    rw [starts_append] at hid
    rcases List.mem_append.1 hid with hid | hid
    · exact ⟨c, by simp, t, evs, es, hex, ⟨evs', by simp⟩, hid⟩
    · rcases ih (by rw [List.length_append]; exact hid) with ⟨c', hc, tb, e, es', h1, h2, h3⟩
      exact ⟨c', by simp [hc], tb, e, es', h1, by rw [← List.append_assoc]; exact h2, h3⟩
  | @stop c t evs es ss cs hex _ _ => exact ⟨c, by simp, t, evs, es, hex, ⟨[], by simp⟩, hid⟩

theorem getElem?_of_mem_map_fst {l : List (Nat × Ended)} {id : Nat} (h : id ∈ l.map Prod.fst) :
    ∃ (i : Nat) (w : Nat × Ended), l[i]? = some w ∧ w.1 = id := by
  rcases List.mem_map.1 h with ⟨w, hw, rfl⟩
  rcases List.getElem?_of_mem hw with ⟨i, hi⟩
  exact ⟨i, w, hi, rfl⟩

/-- A process of a pipeline is one of its stages. -/
theorem executed_process {os : Os} {out err : Chan} {head : ExBasic} {tail : List ExBasic} {t evs : List Ev} {es : List Ended}
    (h : Executed os out err (.external head tail) t evs es) {id : Nat} (hid : id ∈ starts t.length evs) :
    ∃ (pipes : List Nat) (i : Nat) (c : ExBasic) (l : Launch) (tb ta : List Ev), pipes.length = tail.length ∧ (head :: tail)[i]? = some c ∧
      Starts os c (wires pipes out err i) tb id l ta ∧ ta <+: t ++ evs := by
  rcases h with ⟨h1, h2, h3, h4, _⟩
  rcases (h4 head tail rfl).1 with ⟨pipes, h5, h6, h7, h8⟩
  have hmem : id ∈ (waits evs).map Prod.fst := by
    rw [h3]; exact List.mem_reverse.2 hid
  rcases getElem?_of_mem_map_fst hmem with ⟨i, w, hi, rfl⟩
  have hlt : i < (head :: tail).length := by
    have := (List.getElem?_eq_some_iff.1 hi).1
    have hl := congrArg List.length h2
    simp only [List.length_map] at hl
    rw [hl, h1] at this
    simpa [processes] using this
  rcases h8 i _ (List.getElem?_eq_getElem hlt) with ⟨w', l, tb, ta, h9, h10, h11⟩
  rw [hi] at h9
  cases h9
  exact ⟨pipes, i, _, l, tb, ta, by simpa using h5, List.getElem?_eq_getElem hlt, h10, h11⟩

/-- Every process waited for in a sequence succeeded exactly when there is no error status. -/
theorem tellsAll_nil {ps : List (Bool × Pos)} {es : List Ended} {ss : List ErrorStatus} (h : TellsAll ps es ss) :
    ss = [] ↔ ∀ e ∈ es, Succeeded e := by
  induction h with
  | nil => simp
  | good hg _ ih => simp [ih, hg]
  | bad hb _ _ _ => simp [hb]

theorem ends_failed {ps : List (Bool × Pos)} {es : List Ended} (h : Spec.Exec.Ends ps es) : ∃ e ∈ es, ¬ Succeeded e := by
  rcases h with ⟨i, p, e, _, he, _, hb⟩
  exact ⟨e, List.mem_of_getElem? he, hb⟩

theorem executed_waits {os : Os} {out err : Chan} {c : ExCommand} {t evs : List Ev} {es : List Ended}
    (h : Executed os out err c t evs es) : (∀ w ∈ waits evs, Succeeded w.2) ↔ ∀ e ∈ es, Succeeded e := by
  rw [← h.2.1]
  exact ⟨fun hh e he => by rcases List.mem_map.1 he with ⟨w, hw, rfl⟩; exact hh w hw,
    fun hh w hw => hh w.2 (List.mem_map.2 ⟨w, hw, rfl⟩)⟩

theorem inSequence_nil {os : Os} {out err : Chan} {cs : List ExCommand} {t evs : List Ev} {r : List (List ErrorStatus)}
    (h : InSequence os out err cs t evs r) : (r = [] ↔ ∀ w ∈ waits evs, Succeeded w.2) ∧ ∀ ss ∈ r, ss ≠ [] := by
  induction h with
  | done => simp [waits]
  | @next c t evs es ss cs evs' sss hex _ ht _ ih =>
    rw [waits_append]
    by_cases hss : ss = []
    · rw [if_pos hss]
      refine ⟨?_, ih.2⟩
      rw [ih.1]
      have := (executed_waits hex).2 ((tellsAll_nil ht).1 hss)
      exact ⟨fun h w hw => (List.mem_append.1 hw).elim (this w) (h w), fun h w hw => h w (List.mem_append.2 (.inr hw))⟩
    · rw [if_neg hss]
      refine ⟨⟨nofun, fun h => ?_⟩, ?_⟩
      · exact (hss ((tellsAll_nil ht).2 ((executed_waits hex).1 (fun w hw => h w (List.mem_append.2 (.inl hw)))))).elim
      · intro s hs
        rcases List.mem_cons.1 hs with rfl | hs
        · exact hss
        · exact ih.2 s hs
  | @stop c t evs es ss cs hex hends ht =>
    have hss : ss ≠ [] := fun h => by
      rcases ends_failed hends with ⟨e, he, hb⟩
      exact hb ((tellsAll_nil ht).1 h e he)
    refine ⟨⟨nofun, fun h => ?_⟩, ?_⟩
    · exact (hss ((tellsAll_nil ht).2 ((executed_waits hex).1 h))).elim
    · intro s hs
      rw [List.mem_singleton.1 hs]
      exact hss

/-! ### Failed calls -/

/-- Whenever the computation stops with an error of the operating system, the last call failed with it. -/
def Fair (os : Os) (m : X α) : Prop :=
  ∀ t msg pos t', m t = (.error (.io msg pos), t') → ∃ t0 a, t' = t0 ++ [⟨a, false⟩] ∧ os.fails t0 a = some msg

theorem Fair.pure {os : Os} (a : α) : Fair os (Pure.pure a : X α) := by
  intro t msg pos t' h
  cases h

theorem Fair.bind {os : Os} {m : X α} {f : α → X β} (hm : Fair os m) (hf : ∀ a, Fair os (f a)) : Fair os (m >>= f) := by
  intro t msg pos t' h
  change X.bind m f t = _ at h
  unfold X.bind at h
  rcases hx : m t with ⟨e | a, t1⟩
  · rw [hx] at h
    cases h
    exact hm _ _ _ _ hx
  · rw [hx] at h
    exact hf a _ _ _ _ h

theorem Fair.call {os : Os} {a : Act} {pos : Pos} : Fair os (call os a pos) := by
  intro t msg pos' t' h
  unfold Exec.call at h
  cases hf : os.fails t a with
  | none => rw [hf] at h; cases h
  | some m =>
    rw [hf] at h
    cases h
    exact ⟨t, a, rfl, hf⟩

theorem Fair.panic {os : Os} {k : PanicKind} {pos : Pos} : Fair os (X.panic k pos : X α) := by
  intro t msg pos' t' h
  cases h

theorem Fair.wait {os : Os} {c : Child} : Fair os (waitChild os c) := by
  intro t msg pos' t' h
  cases h

theorem Fair.resolve {os : Os} {a : ExArg} {pos : Pos} : Fair os (resolve os a pos) := by
  intro t msg pos' t' h
  cases a with
  | literal => cases h
  | pattern p =>
    simp only [Exec.resolve] at h
    split at h
    · cases h
    · split at h <;> cases h

theorem Fair.resolveOne {os : Os} {o : Bytes} {a : ExArg} {pos : Pos} : Fair os (resolveOne os o a pos) := by
  refine Fair.bind Fair.resolve (fun l => ?_)
  match l with
  | [] => exact .panic
  | [s] => exact .pure _
  | _ :: _ :: _ => exact .panic

theorem Fair.resolveAll {os : Os} {as : List ExArg} {pos : Pos} : Fair os (resolveAll os pos as) := by
  induction as with
  | nil => exact .pure _
  | cons a as ih => exact Fair.bind Fair.resolve (fun l => Fair.bind ih (fun _ => .pure _))

theorem Fair.resolveEnv {os : Os} {es : List (Bytes × ExArg)} {pos : Pos} : Fair os (resolveEnv os pos es) := by
  induction es with
  | nil => exact .pure _
  | cons a as ih => exact Fair.bind Fair.resolveOne (fun l => Fair.bind ih (fun _ => .pure _))

theorem Fair.builtin {os : Os} {b : Prog.Builtin} {args : List ExArg} {pos : Pos} : Fair os (execBuiltin os b args pos) := by
  refine Fair.bind Fair.resolveAll (fun l => ?_)
  cases b with
  | alias => intro t msg pos' t' h; cases h
  | cd =>
    match l with
    | [] => exact .panic
    | [d] => exact Fair.bind Fair.call (fun _ => .pure _)
    | _ :: _ :: _ => exact .panic
  | exec =>
    match l with
    | [] => exact .panic
    | _ :: _ => exact Fair.bind Fair.call (fun _ t msg pos' t' h => by cases h)
  | exec0 =>
    match l with
    | [] => exact .panic
    | [_] => exact .panic
    | _ :: _ :: _ => exact Fair.bind Fair.call (fun _ t msg pos' t' h => by cases h)
  | spawn0 =>
    match l with
    | [] => exact .panic
    | [_] => exact .panic
    | _ :: _ :: _ => exact Fair.bind Fair.call (fun _ => .wait)

theorem Fair.target {os : Os} {t : ExTarget} {s : Stdio} {pos : Pos} : Fair os (resolveTarget os t s pos) := by
  cases t with
  | fd n =>
    unfold resolveTarget
    simp only
    split
    · exact Fair.bind Fair.call (fun _ => .pure _)
    · split
      · exact Fair.bind Fair.call (fun _ => .pure _)
      · exact .panic
  | overwrite a => exact Fair.bind Fair.resolveOne (fun _ => Fair.bind Fair.call (fun _ => .pure _))
  | append a => exact Fair.bind Fair.resolveOne (fun _ => Fair.bind Fair.call (fun _ => .pure _))

theorem Fair.write {os : Os} {id held : Nat} {data : Bytes} {pos : Pos} : Fair os (writePipe os id held data pos) := by
  unfold writePipe
  split
  · exact Fair.bind Fair.call (fun _ => .pure _)
  · intro t msg pos' t' h
    cases h

theorem Fair.redirect {os : Os} {r : ExRedirection} {s : Stdio} {pos : Pos} : Fair os (redirect os r s pos) := by
  cases r with
  | output n target =>
    refine Fair.bind Fair.target (fun c => ?_)
    split
    · exact .pure _
    · split
      · exact .pure _
      · exact .panic
  | input literal a =>
    refine Fair.bind (Fair.bind Fair.resolveOne (fun c => ?_)) (fun _ => .pure _)
    split
    · exact Fair.bind Fair.call (fun _ => Fair.bind Fair.write (fun _ => Fair.bind Fair.write (fun _ => .pure _)))
    · exact Fair.bind Fair.call (fun _ => .pure _)

theorem Fair.redirectAll {os : Os} {rs : List ExRedirection} {s : Stdio} {pos : Pos} : Fair os (redirectAll os pos rs s) := by
  induction rs generalizing s with
  | nil => exact .pure _
  | cons r rs ih => exact Fair.bind Fair.redirect (fun _ => ih)

theorem Fair.basic {os : Os} {c : ExBasic} {s : Stdio} : Fair os (execBasic os c s) :=
  Fair.bind Fair.resolveOne (fun _ => Fair.bind Fair.resolveEnv (fun _ => Fair.bind Fair.resolveAll (fun _ =>
    Fair.bind Fair.redirectAll (fun _ => Fair.bind Fair.call (fun _ => .pure _)))))

theorem Fair.startTail {os : Os} {out err : Chan} {cs : List ExBasic} : Fair os (startTail os out err cs) := by
  induction cs with
  | nil => exact .pure _
  | cons c cs ih => exact Fair.bind ih (fun _ => Fair.bind Fair.call (fun _ => Fair.bind Fair.basic (fun _ =>
      Fair.bind Fair.call (fun _ => .pure _))))

theorem Fair.waitAll {os : Os} {cs : List (Child × Bool)} : Fair os (waitAll os cs) := by
  induction cs with
  | nil => exact .pure _
  | cons c cs ih =>
    refine Fair.bind Fair.wait (fun e => Fair.bind ih (fun r => ?_))
    cases e
    · exact .pure _
    · exact .pure _

theorem Fair.command {os : Os} {out err : Chan} {c : ExCommand} : Fair os (execCommand os out err c) := by
  cases c with
  | builtin => exact Fair.bind Fair.builtin (fun _ => .pure _)
  | external head tail => exact Fair.bind Fair.startTail (fun _ => Fair.bind Fair.call (fun _ => Fair.bind Fair.basic (fun _ => Fair.waitAll)))

theorem Fair.commands {os : Os} {out err : Chan} {cs : List ExCommand} : Fair os (execCommands os out err cs) := by
  induction cs with
  | nil => exact .pure _
  | cons c cs ih =>
    refine Fair.bind Fair.call (fun _ => Fair.bind Fair.call (fun _ => Fair.bind Fair.command (fun r => ?_)))
    cases hr : r.abort
    · exact Fair.bind ih (fun _ => .pure _)
    · exact .pure _

/-- A block returns with what happened in sequence, or with a single error about the last call, which failed. -/
theorem execBlock_ok {os : Os} {out err : Chan} {b : ExBlock} {r : List (List ErrorStatus)} {t t' : List Ev}
    (h : execBlock os out err b t = (.ok r, t')) :
    (∃ evs, t' = t ++ evs ∧ InSequence os out err (b.head :: b.tail) t evs r) ∨
    (∃ t0 a msg pos, t' = t0 ++ [⟨a, false⟩] ∧ os.fails t0 a = some msg ∧ r = [[⟨msg, 127, pos⟩]]) := by
  unfold execBlock at h
  rcases hx : execCommands os out err (b.head :: b.tail) t with ⟨e | a, t1⟩
  · rw [hx] at h
    cases e with
    | io msg pos =>
      cases h
      rcases Fair.commands _ _ _ _ hx with ⟨t0, a, h1, h2⟩
      exact .inr ⟨t0, a, msg, pos, h1, h2, rfl⟩
    | panic p => cases h
    | hang => cases h
    | replaced => cases h
    | todo => cases h
  · rw [hx] at h
    cases h
    exact .inl (execCommands_ok hx)

end Exec
end Hush

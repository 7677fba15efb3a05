import Verif.Model.ModulePath
import Verif.Spec.ModulePath
import Verif.Lemmas.ModulePath
import Verif.Lemmas.Files
import Verif.Lemmas.Trace
import Verif.Lemmas.Library
import Verif.Props.Interp

/-!
Property C81: which file is imported.
-/

namespace Hush.Props
open Hush Hush.Spec

/-- C81: the path of an import is seen from the directory of the file with the import. -/
theorem import_path (file t p : Bytes) (hf : file.getLast? ≠ some 47) : modulePath file t = p ↔ SeenFrom file t p :=
  ⟨fun h => h ▸ seen_total hf t, modulePath_seen⟩

theorem allowed_all (w : World) : Allowed w fun _ => True := ⟨fun _ => trivial, fun _ _ => trivial, fun _ => trivial, fun _ _ => trivial, fun _ _ _ _ => trivial⟩

/-- C81: an import asks the operating system for the file that is meant. If there is none, it panics; otherwise it gives the module if it was
imported before, and loads that file if not. -/
theorem import_file {w : World} {canon : List Event → Bytes → Bytes → Except Bytes Sym} {cwd : List Event → Bytes} (hw : FindsModules w canon cwd)
    {m : Nat} {obj : Value} {addr start : Nat} {pos : Pos} {s s' : RState} {r : Except Stop Out} {t path : Bytes}
    (hs : start ≤ s.args.length) (ha : s.args.drop start = [.string t]) (hp : SeenFrom (s.file m) t path)
    (h : Ends w (.call m obj (.native (bs "std.import") addr) start pos) s r s') :
    match canon s.trace (cwd s.trace) path with
    | .error e => r = .error (.panic ⟨.io e, pos⟩) ∧ s'.trace = s.trace
    | .ok q =>
      match s.modules.lookup q with
      | some v => r = done v pos ∧ s'.trace = s.trace ++ [.imported q v]
      | none => ∃ rest, s'.trace = s.trace ++ .load q :: rest := by
  have n1 : ¬ bs "std.import" = bs "std.catch" := by decide
  have n2 : ¬ bs "std.import" = bs "std.bind<impl>" := by decide
  obtain ⟨ht, n, hr⟩ := h
  cases n with
  | zero =>
    cases hr
    exact absurd rfl ht
  | succ n =>
    have he := hw.resolve s.trace (s.file m) t
    rw [modulePath_seen hp] at he
    simp only [run, step, stepCall, if_neg (Nat.not_lt.2 hs), bind, M.andThen, finally_, nativeCall, M.get, if_neg n1, if_neg n2, if_pos,
      ha, importModule, he] at hr
    cases hc : canon s.trace (cwd s.trace) path with
    | error e =>
      simp only [hc, M.panic, M.stop, Prod.mk.injEq] at hr
      obtain ⟨rfl, rfl⟩ := hr
      exact ⟨rfl, rfl⟩
    | ok q =>
      simp only [hc] at hr
      dsimp only
      cases hl : s.modules.lookup q with
      | some u =>
        simp only [hl, record, M.modify, M.andThen, pure, M.ret, Prod.mk.injEq] at hr
        obtain ⟨rfl, rfl⟩ := hr
        exact ⟨rfl, rfl⟩
      | none =>
        simp only [hl] at hr
        have key : ∃ rest, (loadModule w (run w n) q pos s).2.trace = s.trace ++ .load q :: rest := by
          have hP := allowed_all w
          have hrec := mtells_run hP n
          unfold loadModule
          simp only [bind, M.andThen, M.get, record, M.modify]
          have aux : ∀ {k : M Value}, MTells (fun _ => True) k →
              ∃ rest, (k { s with trace := s.trace ++ [.load q] }).2.trace = s.trace ++ .load q :: rest := fun hk => by
            obtain ⟨es, he, _⟩ := hk { s with trace := s.trace ++ [.load q] }
            exact ⟨es, he.trans (by simp)⟩
          refine aux ?_
          split
          · tell
          · split
            · tell
            · split
              · split
                · exact mtells_bind (m := M.modify _) (mtells_modify fun _ => rfl) (by tell)
                · tell
                · tell
              · tell
        rcases hm : loadModule w (run w n) q pos s with ⟨e | v, s1⟩
        · rw [hm] at key
          simp only [M.andThen, hm, Prod.mk.injEq] at hr
          obtain ⟨rfl, rfl⟩ := hr
          exact key
        · rw [hm] at key
          obtain ⟨rest, hk⟩ := key
          simp only [M.andThen, hm, record, M.modify, pure, M.ret, Prod.mk.injEq] at hr
          obtain ⟨rfl, rfl⟩ := hr
          exact ⟨rest ++ [.imported q v], show s1.trace ++ _ = _ by rw [show s1.trace = _ from hk]; simp⟩

/-- C81: throughout an execution, the first file is the script, and the others have absolute paths. -/
theorem modules_absolute {w : World} {canon : List Event → Bytes → Bytes → Except Bytes Sym} {cwd : List Event → Bytes} (hw : FindsModules w canon cwd)
    {src : Bytes} {p : Program} {n k : Nat} {argv : List Bytes} {file : Sym} {t : Task} {s : RState} (hp : Accepts src p)
    (hr : Reaches w n (.program 0 p) (RState.init argv file) k t s) :
    s.file 0 = file ∧ ∀ m, 0 < m → m < s.files.length → Absolute (s.file m) := by
  have hq : Resolves w fun fs => fs.head? = some file ∧ ∀ q ∈ fs.tail, Absolute q := by
    rintro evs cur t q fs hq ⟨h1, h2⟩
    cases fs with
    | nil => cases h1
    | cons f fs =>
      refine ⟨h1, fun x hx => ?_⟩
      rcases List.mem_append.1 (show x ∈ fs ++ [q] from hx) with hx | hx
      · exact h2 x hx
      · rw [List.mem_singleton.1 hx, absolute_head]
        rw [hw.resolve] at hq
        exact (hw.canonical evs).absolute _ _ _ hq
  obtain ⟨h1, h2⟩ := reaches_files hq hr (c := ⟨0, false, false⟩) (program_pre hp) ⟨rfl, nofun⟩
  unfold RState.file
  cases hf : s.files with
  | nil => rw [hf] at h1; cases h1
  | cons f fs =>
    rw [hf] at h1 h2
    refine ⟨by simpa using h1, fun m h0 hm => ?_⟩
    cases m with
    | zero => exact absurd h0 (Nat.lt_irrefl _)
    | succ m =>
      have hm' : m < fs.length := by simpa using hm
      have : (f :: fs).getD (m + 1) [] = fs[m] := by simp [hm']
      rw [this]
      exact h2 _ (List.getElem_mem hm')

/-- C81: the file that is imported does not depend on the working directory, if the import is in a module, or in a script that was given by an
absolute path. (Not so for other scripts, see `import_moves_violated`.) -/
theorem import_fixed_partial {w : World} {canon : List Event → Bytes → Bytes → Except Bytes Sym} {cwd : List Event → Bytes} (hw : FindsModules w canon cwd)
    {src : Bytes} {p : Program} {n k : Nat} {argv : List Bytes} {file : Sym} {t : Task} {s : RState} (hp : Accepts src p)
    (hr : Reaches w n (.program 0 p) (RState.init argv file) k t s) {m : Nat} (hm : m < s.files.length) (hf : 0 < m ∨ Absolute file) (target : Bytes)
    {path : Bytes} (hs : SeenFrom (s.file m) target path) :
    Absolute path ∧ ∀ c, canon s.trace (cwd s.trace) path = canon s.trace c path := by
  obtain ⟨h0, h1⟩ := modules_absolute hw hp hr
  have ha : Absolute (s.file m) := by
    rcases Nat.eq_zero_or_pos m with rfl | h
    · rcases hf with hf | hf
      · exact absurd hf (Nat.lt_irrefl _)
      · rw [h0]; exact hf
    · exact h1 m h hm
  have := seen_absolute hs ha
  exact ⟨this, fun c => (hw.canonical _).rooted _ _ _ (absolute_head.1 this)⟩

/-! ### Examples -/

-- The file `../n.hsh` as seen from some files.
example : SeenFrom (bs "/a/b/m.hsh") (bs "../n.hsh") (bs "/a/b/../n.hsh") ∧ SeenFrom (bs "/m.hsh") (bs "../n.hsh") (bs "/../n.hsh") ∧
    SeenFrom (bs "m.hsh") (bs "../n.hsh") (bs "../n.hsh") ∧ SeenFrom (bs "a//m.hsh") (bs "n.hsh") (bs "a/n.hsh") ∧
    SeenFrom (bs "a/m.hsh") (bs "/n.hsh") (bs "/n.hsh") :=
  ⟨(import_path _ _ _ (by decide)).1 (by decide), (import_path _ _ _ (by decide)).1 (by decide), (import_path _ _ _ (by decide)).1 (by decide),
    (import_path _ _ _ (by decide)).1 (by decide), (import_path _ _ _ (by decide)).1 (by decide)⟩

/-- Every path is there; `.` and `..` are left alone. -/
def plainCanon (c p : Bytes) : Except Bytes Sym := if p.head? = some sep then .ok p else .ok (sep :: (c ++ sep :: p))

/-- The working directory after events: the one of the last `std.cd`, or `a`. (Here they are named without the first `/`.) -/
def movedTo (evs : List Event) : Bytes := evs.foldl (fun c e =>
  match e with
  | .native name [.string d] => if name = bs "std.cd" then d else c
  | _ => c) (bs "a")

/-- A world in which all files are the module `@[]`, and the working directory is `/a` at first. -/
def movingWorld : World :=
  { fileWorld fun _ => some (bs "@[]") with
    resolve := fun evs cur t => plainCanon (movedTo evs) (modulePath cur t)
    native := fun _ _ _ _ _ => .value .nil }

/-- It finds modules. -/
theorem moving_finds : FindsModules movingWorld (fun _ => plainCanon) movedTo where
  canonical _ :=
    { absolute := fun c p q h => by
        unfold plainCanon at h
        split at h
        · rename_i hp; cases h; exact hp
        · cases h; rfl
      rooted := fun c c' p h => by simp [plainCanon, h] }
  resolve _ _ _ := rfl

/-- The program `std.cd("b") std.import("m")`. -/
def movingProgram : Program :=
  ⟨[.expr (.call (.access (.ident 0 (q 0)) (.lit (.ident (bs "cd")) (q 4)) (q 3)) [.lit (.string (bs "b")) (q 7)] (q 6)),
    .expr (.call (.access (.ident 0 (q 12)) (.lit (.ident (bs "import")) (q 16)) (q 15)) [.lit (.string (bs "m")) (q 23)] (q 22))], 1⟩

set_option maxRecDepth 100000 in
/-- C81 is violated: the script `s` of the directory `/a`, when given by this relative path, imports `/b/m` after it has changed the directory,
though `/a/m` is beside it. -/
theorem import_moves_violated :
    FindsModules movingWorld (fun _ => plainCanon) movedTo ∧ Accepts (bs "std.cd(\"b\") std.import(\"m\")") movingProgram ∧
    (runProgram movingWorld 20 movingProgram [] (bs "s")).2.trace =
      [.native (bs "std.cd") [.string (bs "b")], .load (bs "/b/m"), .imported (bs "/b/m") (.dict 4)] ∧
    (runProgram movingWorld 20 movingProgram [] (bs "/a/s")).2.trace =
      [.native (bs "std.cd") [.string (bs "b")], .load (bs "/a/m"), .imported (bs "/a/m") (.dict 4)] :=
  ⟨moving_finds, accepts_of (by decide +kernel), by decide +kernel, by decide +kernel⟩

/-- As above, but the module `/a/m` changes the directory and imports `n`. -/
def nestedWorld : World :=
  { movingWorld with
    readFile := fun _ p => .ok (if p = bs "/a/m" then bs "std.cd(\"b\") std.import(\"n\")" else bs "@[]") }

set_option maxRecDepth 100000 in
-- The script `s` is given by a relative path, but the import in the module is not affected by the change of the directory.
example : Accepts (bs "std.import(\"m\")") importProgram ∧ ((runProgram nestedWorld 30 importProgram [] (bs "s")).2.trace.take 3,
      (runProgram nestedWorld 30 importProgram [] (bs "s")).2.files) =
    ([.load (bs "/a/m"), .native (bs "std.cd") [.string (bs "b")], .load (bs "/a/n")], [bs "s", bs "/a/m", bs "/a/n"]) :=
  ⟨accepts_of (by decide +kernel), by decide +kernel⟩

-- `import_fixed_partial` for a script with an absolute path.
example : Absolute (bs "/a/m") ∧ ∀ c, plainCanon (movedTo []) (bs "/a/m") = plainCanon c (bs "/a/m") :=
  import_fixed_partial moving_finds (accepts_of (by decide +kernel) : Accepts (bs "std.cd(\"b\") std.import(\"m\")") movingProgram)
    (.self 0 _ (RState.init [] (bs "/a/s"))) (m := 0) (by decide) (.inr ⟨_, rfl⟩) (bs "m") ((import_path _ _ _ (by decide)).1 (by decide))

end Hush.Props

import Verif.Lemmas.Launch
import Verif.Model.Launch
import Verif.Props.Args
import Verif.Props.Reaping

/-!
Properties C78 and C79: what programs are started with, and in which directory. All theorems hold for every behaviour of the operating system.
-/

namespace Hush
namespace Props
open Hush.Exec
open Hush.Spec
open Hush.Spec.Exec (did Starts StartsProgram AsWritten AllWords Dirs Texts moves plain Words Assigns)

/-! ### C78 -/

/-- **C78.** Whatever the result of a block is, every program that it starts is started by one of its commands, as written there: its program, the values of its
assignments, its arguments and its redirections are those of the command, in this order (`Spec.Exec.Starts`), no more and no less. -/
theorem programs_as_written {os : Os} {pos : Pos} {b : ExBlock} {kind : Ast.BlockKind} {r : Except XStop Tree} {t t' : List Exec.Ev}
    (h : runBlock os pos b kind t = (r, t')) {n : Nat} {a : Act} (hn : t.length ≤ n) (ha : t'[n]? = some (did a)) (hr : StartsProgram a) :
    ∃ c ∈ b.head :: b.tail, AsWritten os c (t'.take n) a := by
  obtain ⟨before, c, after, _, hb, hw, _, _⟩ := (makes_run b kind t r t' h).2 n a hn ha hr
  exact ⟨c, by simp [hb], hw⟩

/-- `{ [1]=[2] [4] [5] *; spawn0 [6] [7]; exec [8] [9] }` where `*` are the files `a` and `b`. -/
def manyBlock : ExBlock :=
  ⟨.external ⟨.literal [0], [([1], .literal [2])], [.literal [4], .literal [5], .pattern [42]], [], true, ⟨1, 1⟩⟩ [],
   [.builtin .spawn0 [.literal [0], .literal [7]] true ⟨1, 2⟩, .builtin .exec [.literal [8], .literal [9]] true ⟨1, 3⟩]⟩

def twoFiles : Os := { smallOs [] with glob := fun _ _ => some [[97], [98]] }

-- Three programs are started; the last replaces the shell.
example : ∃ t', runBlock twoFiles ⟨1, 1⟩ manyBlock .synchronous [] = (.error .replaced, t') ∧
    t'[4]? = some (did (.spawn ⟨[0], none, [[4], [5], [46, 47, 97], [46, 47, 98]], [([1], [2])], .stdin, .stdout, .stderr⟩)) ∧
    t'[8]? = some (did (.spawn (plain [0] (some [7]) []))) ∧ t'[12]? = some (did (.exec (plain [8] none [[9]]))) :=
  ⟨_, rfl, rfl, rfl, rfl⟩

theorem texts_build {env : ArgEnv} {arg : Prog.Argument} {ws : List Bytes} (h : Texts env arg ws) :
    buildArgument env arg = .ok (ws.map .literal) := by
  obtain ⟨alts, h0, hn, hf, rfl⟩ := h
  obtain ⟨args, h1, h2⟩ := expansion_product_partial (alts := alts.map (List.map Spec.Atom.text)) h0
    (List.forall₂_map_right_iff.2 hf) (by simpa using hn)
  rw [combos_texts] at h2
  rw [means_texts h2] at h1
  rw [h1 arg.pos, List.map_map]
  rfl

theorem texts_single {env : ArgEnv} {object : Bytes} {arg : Prog.Argument} {w : Bytes} {a : ExArg} (h : Texts env arg [w])
    (hb : buildSingle env object arg = .ok a) : a = .literal w := by
  simp only [buildSingle, texts_build h, List.map_cons, List.map_nil, List.getLast?_singleton, List.dropLast_singleton,
    List.isEmpty_nil, if_true, Except.ok.injEq] at hb
  exact hb.symm

theorem texts_arguments {env : ArgEnv} {args : List Prog.Argument} {wss : List (List Bytes)} {as : List ExArg}
    (h : List.Forall₂ (Texts env) args wss) (hb : buildArguments env args = .ok as) : as = wss.flatten.map .literal := by
  have : collect (buildArgument env) args = .ok (wss.map (List.map .literal)) :=
    collect_ok.2 (List.forall₂_map_right_iff.2 (h.imp fun _ _ h => texts_build h))
  simp only [buildArguments, this, Except.ok.injEq] at hb
  rw [← hb, List.map_flatten]

/-- What a part of a pipeline was built from. -/
theorem built_parts {env : ArgEnv} {c : Prog.BasicCommand} {ex : ExBasic} (h : buildBasicCommand env c = .ok ex) :
    buildSingle env (bs "program") c.program = .ok ex.program ∧ collect (buildEnvItem env) c.env = .ok ex.env ∧
      buildArguments env c.arguments = .ok ex.arguments := by
  unfold buildBasicCommand at h
  split at h
  · cases h
  · split at h
    · cases h
    · split at h
      · cases h
      · split at h
        · cases h
        · cases h
          exact ⟨by assumption, by assumption, by assumption⟩

theorem texts_env {env : ArgEnv} {items : List (Prog.ArgUnit × Prog.Argument)} {kvs : List (Bytes × Bytes)} {es : List (Bytes × ExArg)}
    (h : List.Forall₂ (fun item kv => UnitText env item.1 kv.1 ∧ Texts env item.2 [kv.2]) items kvs)
    (hb : collect (buildEnvItem env) items = .ok es) : es = kvs.map fun kv => (kv.1, .literal kv.2) := by
  have : collect (buildEnvItem env) items = .ok (kvs.map fun kv => (kv.1, .literal kv.2)) := by
    refine collect_ok.2 (List.forall₂_map_right_iff.2 (h.imp fun item kv h => ?_))
    simp [buildEnvItem, unitText_build.2 h.1, buildSingle, texts_build h.2]
  rw [this] at hb
  cases hb
  rfl

/-- The words of a command without wildcards: its program, its assignments and its arguments. -/
structure CommandTexts (env : ArgEnv) (c : Prog.BasicCommand) (program : Bytes) (vars : List (Bytes × Bytes)) (args : List (List Bytes)) : Prop where
  program : Texts env c.program [program]
  vars : List.Forall₂ (fun item kv => UnitText env item.1 kv.1 ∧ Texts env item.2 [kv.2]) c.env vars
  args : List.Forall₂ (Texts env) c.arguments args

/-- **C78, partial.** From the block of the program to the process: a process started by a block is a part of one of its pipelines, and is given exactly the texts that
its words stand for (one word for each choice of alternatives of its pieces, as in C32), in the order in which they are written; its environment variables are the
assignments before it. Or it is started by `spawn0` with its words. Missing: words with wildcards are described by `programs_as_written`, and words that offer no alternative at all,
such as empty strings and empty arrays, are lost (C31, C32). -/
theorem process_texts_partial {env : ArgEnv} {head : Prog.Command} {tail : List Prog.Command} {b : ExBlock} (hb : buildBlock env head tail = .ok b)
    {os : Os} {pos : Pos} {kind : Ast.BlockKind} {r : Except XStop Tree} {t t' : List Exec.Ev} (h : runBlock os pos b kind t = (r, t'))
    {n : Nat} {l : Launch} (hn : t.length ≤ n) (hl : t'[n]? = some (did (.spawn l))) :
    (∃ first rest, .external first rest ∈ head :: tail ∧ ∃ c ∈ first :: rest, ∀ program vars args, CommandTexts env c program vars args →
      l.program = program ∧ l.arg0 = none ∧ l.env = vars ∧ l.args = args.flatten) ∨
    (∃ words abort p, .builtin .spawn0 words abort p ∈ head :: tail ∧ ∀ args, List.Forall₂ (Texts env) words args →
      ∃ name, args.flatten = l.program :: name :: l.args ∧ l.arg0 = some name ∧ l.env = []) := by
  obtain ⟨c, hc, hw⟩ := programs_as_written h hn hl trivial
  have hcol : collect (buildCommand env) (head :: tail) = .ok (b.head :: b.tail) := by
    unfold buildBlock at hb
    split at hb
    · cases hb
    · rename_i e he
      cases htl : collect (buildCommand env) tail with
      | error e => rw [htl] at hb; cases hb
      | ok l =>
        rw [htl] at hb
        cases hb
        simp only [collect, he, htl]
  obtain ⟨cmd, hm, hcmd⟩ : ∃ cmd ∈ head :: tail, buildCommand env cmd = .ok c := by
    have := collect_ok.1 hcol
    revert hc
    generalize b.head :: b.tail = bs at this ⊢
    generalize head :: tail = cmds at this ⊢
    intro hc
    induction this with
    | nil => cases hc
    | cons h1 _ ih =>
      rcases List.mem_cons.1 hc with rfl | hc
      · exact ⟨_, List.mem_cons_self, h1⟩
      · obtain ⟨cmd, h2, h3⟩ := ih hc
        exact ⟨cmd, List.mem_cons_of_mem _ h2, h3⟩
  cases cmd with
  | external first rest =>
    left
    refine ⟨first, rest, hm, ?_⟩
    simp only [buildCommand] at hcmd
    split at hcmd
    · cases hcmd
    rename_i ef hef
    cases htl : collect (buildBasicCommand env) rest with
    | error e => rw [htl] at hcmd; cases hcmd
    | ok es =>
      rw [htl] at hcmd
      cases hcmd
      obtain ⟨x, T, tb, hx, hs⟩ : ∃ x T tb, x ∈ ef :: es ∧ Starts os x T tb (t'.take n).length l (t'.take n ++ [did (.spawn l)]) := by
        cases hw with
        | part h1 h2 => exact ⟨_, _, _, h1, h2⟩
      · have hcol : collect (buildBasicCommand env) (first :: rest) = .ok (ef :: es) := by simp only [collect, hef, htl]
        have := collect_ok.1 hcol
        obtain ⟨c, h1, h2⟩ : ∃ c ∈ first :: rest, buildBasicCommand env c = .ok x := by
          clear hcol hef htl h hb hm
          revert hx
          generalize ef :: es = bs at this ⊢
          generalize first :: rest = cmds at this ⊢
          intro hx
          induction this with
          | nil => cases hx
          | cons h1 _ ih =>
            rcases List.mem_cons.1 hx with rfl | hc
            · exact ⟨_, List.mem_cons_self, h1⟩
            · obtain ⟨cmd, h2, h3⟩ := ih hc
              exact ⟨cmd, List.mem_cons_of_mem _ h2, h3⟩
        refine ⟨c, h1, fun program vars args ht => ?_⟩
        obtain ⟨hp, he, ha⟩ := built_parts h2
        obtain ⟨tp, te, t1, T', t2, s1, s2, s3, s4, _⟩ := hs
        rw [texts_single ht.program hp] at s1
        rw [texts_env ht.vars he] at s3
        rw [texts_arguments ht.args ha] at s4
        refine ⟨?_, s2, (assigns_literals s3).1, (allWords_literals s4).1⟩
        cases s1
        rfl
  | builtin x words abort p =>
    right
    simp only [buildCommand] at hcmd
    cases hargs : buildArguments env words with
    | error e => rw [hargs] at hcmd; cases hcmd
    | ok as =>
      rw [hargs] at hcmd
      cases hcmd
      cases hw with
      | @spawn0 tb _ program name rest _ _ _ hws =>
        refine ⟨words, abort, p, hm, fun args ht => ?_⟩
        rw [texts_arguments ht hargs] at hws
        exact ⟨name, (allWords_literals hws).1.symm, rfl, rfl⟩

-- `k=v prog a{1..2} "x"` : the texts of a command, with the alternatives of a range.
example : CommandTexts sampleEnv
    ⟨⟨[.unit (.literal (bs "prog"))], q 0⟩, [(.literal (bs "k"), ⟨[.unit (.literal (bs "v"))], q 0⟩)],
      [⟨[.unit (.literal (bs "a")), .collection [.literal (bs "1"), .literal (bs "2")]], q 0⟩, ⟨[.unit (.dollar 3 (q 0))], q 0⟩], [], true, q 0⟩
    (bs "prog") [(bs "k", bs "v")] [[bs "a1", bs "a2"], [bs "*b c"]] where
  program := ⟨[[bs "prog"]], by simp, by simp, .cons .literal .nil, rfl⟩
  vars := .cons ⟨.literal, [[bs "v"]], by simp, by simp, .cons .literal .nil, rfl⟩ .nil
  args := .cons ⟨[[bs "a"], [bs "1", bs "2"]], by simp, by simp, .cons .literal (.cons (.collection _ (.cons .literal (.cons .literal .nil))) .nil), rfl⟩
    (.cons ⟨[[bs "*b c"]], by simp, by simp, .cons (.value rfl .string) .nil, rfl⟩ .nil)

theorem childVars_append (shell : Bytes → Option Bytes) (a b : List (Bytes × Bytes)) : childVars shell (a ++ b) = childVars (childVars shell a) b := by
  induction a generalizing shell with
  | nil => rfl
  | cons x a ih => exact ih _

theorem childVars_other {shell : Bytes → Option Bytes} {vars : List (Bytes × Bytes)} {k : Bytes} (h : k ∉ vars.map Prod.fst) :
    childVars shell vars k = shell k := by
  induction vars generalizing shell with
  | nil => rfl
  | cons x vars ih =>
    simp only [List.map_cons, List.mem_cons, not_or] at h
    rw [childVars, ih h.2, if_neg h.1]

/-- **C78.** A started command has the environment variables of the shell, except for those assigned before it. -/
theorem variables_inherited {os : Os} {c : ExBasic} {T : Spec.Exec.Table} {t t' : List Exec.Ev} {id : Nat} {l : Launch} (h : Starts os c T t id l t')
    (shell : Bytes → Option Bytes) {k : Bytes} (hk : ∀ a, (k, a) ∉ c.env) : childVars shell l.env k = shell k := by
  obtain ⟨tp, te, t1, T', t2, _, _, ha, _⟩ := h
  refine childVars_other fun hm => ?_
  rw [assigns_keys ha] at hm
  obtain ⟨⟨k', a⟩, hm', rfl⟩ := List.mem_map.1 hm
  exact hk a hm'

/-- **C78.** Of several assignments to the same variable the last one counts: its value is what the argument of the assignment stands for. -/
theorem last_assignment {os : Os} {c : ExBasic} {T : Spec.Exec.Table} {t t' : List Exec.Ev} {id : Nat} {l : Launch} (h : Starts os c T t id l t')
    (shell : Bytes → Option Bytes) {k : Bytes} {a : ExArg} {es es' : List (Bytes × ExArg)} (hc : c.env = es ++ (k, a) :: es') (hk : ∀ x, (k, x) ∉ es') :
    ∃ v ta tb, childVars shell l.env k = some v ∧ Spec.Exec.Names os ta a v tb := by
  obtain ⟨tp, te, t1, T', t2, _, _, ha, _⟩ := h
  rw [hc] at ha
  obtain ⟨vs1, vs2, tm, he, _, h2⟩ := assigns_append ha
  cases h2 with
  | @cons _ _ v tn _ vs _ _ hv hrest =>
    refine ⟨v, tm, tn, ?_, hv⟩
    rw [he, childVars_append, childVars, childVars_other]
    · exact if_pos rfl
    · rw [assigns_keys hrest]
      intro hm
      obtain ⟨⟨k', x⟩, hm', rfl⟩ := List.mem_map.1 hm
      exact hk x hm'

-- `[1]=[2] [5]=[6] [1]=[3] prog`: the variable `[1]` is `[3]`, `[5]` is `[6]`, and others are those of the shell.
example : ∃ child t' l, execBasic (smallOs []) ⟨.literal [0], [([1], .literal [2]), ([5], .literal [6]), ([1], .literal [3])], [], [], true, ⟨1, 1⟩⟩
      ⟨.stdin, .stdout, .stderr⟩ [] = (.ok child, t' ++ [did (.spawn l)]) ∧
    [[1], [5], [7]].map (childVars (fun _ => some [9]) l.env) = [some [3], some [6], some [9]] :=
  ⟨_, [], ⟨[0], none, [], [([1], [2]), ([5], [6]), ([1], [3])], .stdin, .stdout, .stderr⟩, rfl, by decide⟩

/-- `{ x=1 spawn0 a b }` -/
def droppedProgram : Ast.Block :=
  [.expr (.command ⟨.synchronous,
    ⟨⟨⟨[.unit (.literal (bs "spawn0"))], q 6⟩, [(.literal (bs "x"), ⟨[.unit (.literal (bs "1"))], q 2⟩)],
      [⟨[.unit (.literal (bs "a"))], q 13⟩, ⟨[.unit (.literal (bs "b"))], q 15⟩], [], true, q 6⟩, []⟩, []⟩ (q 0))]

/-- It is the syntax tree of that text. -/
theorem dropped_source : syntaxAnalysis (bs "{ x=1 spawn0 a b }") = some ⟨droppedProgram, [], []⟩ := by
  have hl : lex (bs "{ x=1 spawn0 a b }") = .done
      [.ok ⟨.command, q 0⟩, .ok ⟨.argument [.unquoted (.literal (bs "x")), .envAssign, .unquoted (.literal (bs "1"))], q 2⟩,
       .ok ⟨.argument [.unquoted (.literal (bs "spawn0"))], q 6⟩, .ok ⟨.argument [.unquoted (.literal (bs "a"))], q 13⟩,
       .ok ⟨.argument [.unquoted (.literal (bs "b"))], q 15⟩, .ok ⟨.closeCommand, q 17⟩] := by rfl
  have hb : Basic ⟨⟨[.unit (.literal (bs "spawn0"))], q 6⟩, [(.literal (bs "x"), ⟨[.unit (.literal (bs "1"))], q 2⟩)],
      [⟨[.unit (.literal (bs "a"))], q 13⟩, ⟨[.unit (.literal (bs "b"))], q 15⟩], [], true, q 6⟩
      ([⟨.argument [.unquoted (.literal (bs "x")), .envAssign, .unquoted (.literal (bs "1"))], q 2⟩] ++
        (⟨.argument [.unquoted (.literal (bs "spawn0"))], q 6⟩ ::
          ([⟨.argument [.unquoted (.literal (bs "a"))], q 13⟩, ⟨.argument [.unquoted (.literal (bs "b"))], q 15⟩] ++ ([] ++ [])))) :=
    .mk (.cons (ts' := []) (EnvTok.mk (k := .literal (bs "x")) (ps := [.unquoted (.literal (bs "1"))])) .nil)
      (.mk (ps := [.unquoted (.literal (bs "spawn0"))])) rfl
      (.cons (ts' := [_]) (ArgTok.mk (ps := [.unquoted (.literal (bs "a"))])) (.cons (ts' := []) (ArgTok.mk (ps := [.unquoted (.literal (bs "b"))])) .nil)) .nil
      (fun _ h => by cases h) rfl (Or.inl ⟨rfl, rfl⟩)
  have hd : Derives (.primary _) _ := .command (.one (kind := .synchronous) (p := q 0) (p' := q 17) (.mk hb .nil))
  have hp : IsProgram droppedProgram _ :=
    ⟨_, .blockLast (.exprStmt (.up (.up (.up (.up (.up (.up (.up (.noPrefix (.noPostfix hd)))))))))), rfl⟩
  have := parse_complete hp
  unfold syntaxAnalysis
  rw [hl]
  simp only [List.filterMap, okToken]
  simp only [List.cons_append, List.nil_append, openTok] at this
  rw [this]
  rfl

/-- **C78 is violated**: assignments before a builtin command are dropped. The text `{ x=1 spawn0 a b }` is accepted, and however it is executed, the process that it starts
has the variable `x` of the shell; and there is an execution that starts it. -/
theorem assignments_dropped_violated :
    syntaxAnalysis (bs "{ x=1 spawn0 a b }") = some ⟨droppedProgram, [], []⟩ ∧
    ∃ head slots, analyze droppedProgram = .ok ⟨[.expr (.command ⟨.synchronous, head, []⟩ (q 0))], slots⟩ ∧
      ∀ env, ∃ b, buildBlock env head [] = .ok b ∧
        (∀ os pos kind r t t' n l shell, runBlock os pos b kind t = (r, t') → t.length ≤ n → t'[n]? = some (did (.spawn l)) →
          childVars shell l.env (bs "x") = shell (bs "x")) ∧
        ∃ v t' l, runBlock (smallOs []) ⟨1, 1⟩ b .synchronous [] = (.ok v, t') ∧ t'[2]? = some (did (.spawn l)) := by
  refine ⟨dropped_source, .builtin .spawn0 [⟨[.unit (.literal (bs "a"))], q 13⟩, ⟨[.unit (.literal (bs "b"))], q 15⟩] true (q 6), 1, rfl, fun env =>
    ⟨⟨.builtin .spawn0 [.literal (bs "a"), .literal (bs "b")] true (q 6), []⟩, rfl, ?_, _, _, plain (bs "a") (some (bs "b")) [], rfl, rfl⟩⟩
  intro os pos kind r t t' n l shell h hn hl
  obtain ⟨c, hc, hw⟩ := programs_as_written h hn hl trivial
  obtain rfl : c = _ := by simpa using hc
  cases hw
  rfl

/-! ### C79 -/

/-- **C79.** Whatever the result of a block is, every program that it starts is started in the directory reached by the `cd` commands before it in the block, in order, from the directory
in which the block was started. -/
theorem programs_in_directory {os : Os} {pos : Pos} {b : ExBlock} {kind : Ast.BlockKind} {r : Except XStop Tree} {t t' : List Exec.Ev}
    (h : runBlock os pos b kind t = (r, t')) {n : Nat} {a : Act} (hn : t.length ≤ n) (ha : t'[n]? = some (did a)) (hr : StartsProgram a) :
    ∃ before c after dirs, b.head :: b.tail = before ++ c :: after ∧ AsWritten os c (t'.take n) a ∧ Dirs os before dirs ∧
      moves (t'.take n) = moves t ++ dirs :=
  (makes_run b kind t r t' h).2 n a hn ha hr

-- `{ cd [1]; [0]; cd [2]; [0] }`
example : ∃ t', runBlock (smallOs []) ⟨1, 1⟩ ⟨.builtin .cd [.literal [1]] true ⟨1, 1⟩, [simple [0] false, .builtin .cd [.literal [2]] true ⟨1, 1⟩, simple [0] false]⟩
      .synchronous [] = (.ok .nil, t') ∧ t'[6]? = some (did (.spawn ⟨[0], none, [], [], .stdin, .stdout, .stderr⟩)) ∧ moves (t'.take 6) = [[1]] ∧
      t'[14]? = some (did (.spawn ⟨[0], none, [], [], .stdin, .stdout, .stderr⟩)) ∧ moves (t'.take 14) = [[1], [2]] :=
  ⟨_, rfl, rfl, rfl, rfl, rfl⟩

/-- **C79.** The directory after a block is the one reached by the `cd` commands among those executed: all before some point, and all of the block if no command failed. -/
theorem directory_after {os : Os} {out err : Chan} {b : ExBlock} {r : Except XStop (List (List ErrorStatus))} {t t' : List Exec.Ev}
    (h : execBlock os out err b t = (r, t')) :
    ∃ before after dirs, b.head :: b.tail = before ++ after ∧ Dirs os before dirs ∧ moves t' = moves t ++ dirs ∧ (r = .ok [] → after = []) := by
  obtain ⟨evs, rfl, ⟨ss, rfl, hs, _⟩ | ⟨msg, pos, rfl, hi⟩ | ⟨e, rfl, _, hi⟩⟩ := block_outcome h
  · obtain ⟨before, after, ds, h1, h2, h3, h4⟩ := inSequence_moves hs
    exact ⟨before, after, ds, h1, h2, by rw [moves_append, h3], fun h => by cases h; exact h4 rfl⟩
  · obtain ⟨before, c, after, ds, h1, h2, h3⟩ := interrupted_moves hi
    exact ⟨before, c :: after, ds, h1, h2, by rw [moves_append, h3], nofun⟩
  · obtain ⟨before, c, after, ds, h1, h2, h3⟩ := interrupted_moves hi
    exact ⟨before, c :: after, ds, h1, h2, by rw [moves_append, h3], nofun⟩

/-- **C79.** A block without `cd` leaves the directory as it was. -/
theorem directory_kept {os : Os} {out err : Chan} {b : ExBlock} {r : Except XStop (List (List ErrorStatus))} {t t' : List Exec.Ev}
    (h : execBlock os out err b t = (r, t')) (hb : ∀ args abort pos, .builtin .cd args abort pos ∉ b.head :: b.tail) : moves t' = moves t := by
  obtain ⟨before, after, dirs, h1, h2, h3, _⟩ := directory_after h
  rw [h1] at hb
  have : dirs = [] := by
    clear h1 h3 h
    induction h2 with
    | nil => rfl
    | cd _ _ _ => exact absurd (List.mem_append_left _ List.mem_cons_self) (hb _ _ _)
    | other _ _ ih => exact ih fun args abort pos hm => hb args abort pos (by simp at hm ⊢; exact .inr hm)
  rw [h3, this, List.append_nil]

/-- **C79.** If the directory cannot be changed, nothing is done after it, and the block ends with the error of this call: the commands that follow are not executed in the wrong directory. -/
theorem failed_cd_ends {os : Os} {out err : Chan} {b : ExBlock} {r : Except XStop (List (List ErrorStatus))} {t t' : List Exec.Ev}
    (h : execBlock os out err b t = (r, t')) {n : Nat} {dir : Bytes} (hn : t.length ≤ n) (hd : t'[n]? = some ⟨.chdir dir, false⟩) :
    n + 1 = t'.length ∧ ∃ msg pos, os.fails (t'.take n) (.chdir dir) = some msg ∧ r = .ok [[⟨msg, 127, pos⟩]] := by
  unfold execBlock at h
  split at h
  · rename_i h1
    cases h
    obtain ⟨h2, msg, pos, h3, h4⟩ := (LastIo.commands _ _ _ h1).2 n _ hn hd nofun
    cases h3
    exact ⟨h2, _, _, h4, rfl⟩
  · rename_i hne
    obtain ⟨h2, msg, pos, h3, h4⟩ := (LastIo.commands _ _ _ h).2 n _ hn hd nofun
    subst h3
    exact absurd h (hne msg pos t')

-- `{ cd [1]; cd [7]; [0] }` where there is no directory `[7]`.
example : ∃ t', execBlock { smallOs [] with fails := fun _ a => if a = .chdir [7] then some [110] else none } .stdout .stderr
      ⟨.builtin .cd [.literal [1]] true ⟨1, 1⟩, [.builtin .cd [.literal [7]] true ⟨1, 1⟩, simple [0] false]⟩ [] = (.ok [[⟨[110], 127, ⟨1, 1⟩⟩]], t') ∧
    t'[5]? = some ⟨.chdir [7], false⟩ ∧ moves t' = [[1]] := ⟨_, rfl, rfl, rfl⟩

end Props
end Hush

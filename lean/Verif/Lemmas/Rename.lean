import Verif.Spec.Rename
import Verif.Lemmas.AnalyzeBasic

/-!
The analyser commutes with renaming: the renamed program in the renamed state gives the same result.
-/

namespace Hush
open Spec

/-! ### The renaming of all names -/

theorem stem_no_at (x : Sym) : (64 : UInt8) ∉ x.takeWhile (· ≠ 64) := fun h => by
  have := List.all_eq_true.1 (List.all_takeWhile (p := fun b : UInt8 => decide (b ≠ 64)) (l := x)) _ h
  simp at this

theorem stem_user (x : Sym) (h : x.takeWhile (· ≠ 64) ≠ []) : UserName (x.takeWhile (· ≠ 64)) := ⟨h, stem_no_at x⟩

theorem stem_split {s t s' t' : Bytes} (hs : (64 : UInt8) ∉ s) (hs' : (64 : UInt8) ∉ s') (ht : t = [] ∨ ∃ u, t = 64 :: u) (ht' : t' = [] ∨ ∃ u, t' = 64 :: u)
    (h : s ++ t = s' ++ t') : s = s' ∧ t = t' := by
  induction s generalizing s' with
  | nil =>
    cases s' with
    | nil => exact ⟨rfl, h⟩
    | cons b s' =>
      simp only [List.nil_append, List.cons_append] at h
      rcases ht with rfl | ⟨u, rfl⟩
      · cases h
      · injection h with h1 h2; subst h1; simp at hs'
  | cons a s ih =>
    cases s' with
    | nil =>
      simp only [List.nil_append, List.cons_append] at h
      rcases ht' with rfl | ⟨u, rfl⟩
      · cases h
      · injection h with h1 h2; subst h1; simp at hs
    | cons b s' =>
      simp only [List.cons_append] at h
      injection h with h1 h2
      have := ih (fun hm => hs (List.mem_cons_of_mem _ hm)) (fun hm => hs' (List.mem_cons_of_mem _ hm)) h2
      exact ⟨by rw [h1, this.1], this.2⟩

theorem rest_at (x : Sym) : x.dropWhile (· ≠ 64) = [] ∨ ∃ u, x.dropWhile (· ≠ 64) = 64 :: u := by
  cases h : x.dropWhile (· ≠ 64) with
  | nil => exact .inl rfl
  | cons b u =>
    have := List.head_dropWhile_not (p := fun b : UInt8 => decide (b ≠ 64)) (l := x) (by rw [h]; simp)
    simp only [h, List.head_cons] at this
    simp at this
    exact .inr ⟨u, by rw [this]⟩

theorem renamed_user {r : Sym → Sym} {x : Sym} (hx : UserName x) : renamed r x = r x := by
  have h : ∀ y : Sym, (64 : UInt8) ∉ y → y.takeWhile (fun b : UInt8 => decide (b ≠ 64)) = y ∧ y.dropWhile (fun b : UInt8 => decide (b ≠ 64)) = [] := by
    intro y
    induction y with
    | nil => intro _; exact ⟨rfl, rfl⟩
    | cons b y ih =>
      intro hy
      have hb : b ≠ 64 := fun hb => hy (by rw [hb]; exact List.mem_cons_self)
      obtain ⟨h1, h2⟩ := ih fun hm => hy (List.mem_cons_of_mem _ hm)
      rw [List.takeWhile_cons, List.dropWhile_cons, h1, h2, if_pos (by simpa using hb), if_pos (by simpa using hb)]
      exact ⟨rfl, rfl⟩
  obtain ⟨h1, h2⟩ := h x hx.2
  unfold renamed
  rw [h1, h2, if_neg hx.1, List.append_nil]

/-- What the proofs need of a renaming. -/
structure Renames (g : Sym → Sym) : Prop where
  inj : ∀ {x y}, g x = g y → x = y
  nil : g [] = []
  std : g stdName = stdName
  closed : ∀ x, g (closedName x) = closedName (g x)

theorem renames_renamed {r : Sym → Sym} (h : Renaming r) : Renames (renamed r) := by
  have head : ∀ x : Sym, (64 : UInt8) ∉ (if x.takeWhile (· ≠ 64) = [] then [] else r (x.takeWhile (· ≠ 64))) := by
    intro x
    split
    · simp
    · rename_i hx; exact (h.user (stem_user x hx)).2
  refine ⟨fun {x y} hxy => ?_, rfl, ?_, fun x => ?_⟩
  · obtain ⟨h1, h2⟩ := stem_split (head x) (head y) (rest_at x) (rest_at y) hxy
    have hs : x.takeWhile (· ≠ 64) = y.takeWhile (· ≠ 64) := by
      split at h1
      · rename_i hx
        split at h1
        · rename_i hy; rw [hx, hy]
        · rename_i hy; exact absurd h1.symm (h.user (stem_user y hy)).1
      · rename_i hx
        split at h1
        · exact absurd h1 (h.user (stem_user x hx)).1
        · rename_i hy; exact h.inj (stem_user x hx) (stem_user y hy) h1
    rw [← List.takeWhile_append_dropWhile (p := fun b : UInt8 => decide (b ≠ 64)) (l := x), ← List.takeWhile_append_dropWhile (p := fun b : UInt8 => decide (b ≠ 64)) (l := y),
      hs, h2]
  · rw [renamed_user ⟨by decide, by decide⟩]; exact h.std
  · have ht : ∀ x : Sym, (x ++ closedSuffix).takeWhile (· ≠ 64) = x.takeWhile (· ≠ 64) := by
      intro x
      induction x with
      | nil => rfl
      | cons b x ih => rw [List.cons_append, List.takeWhile_cons, List.takeWhile_cons, ih]
    have hd : ∀ x : Sym, (x ++ closedSuffix).dropWhile (· ≠ 64) = x.dropWhile (· ≠ 64) ++ closedSuffix := by
      intro x
      induction x with
      | nil => rfl
      | cons b x ih =>
        rw [List.cons_append, List.dropWhile_cons, List.dropWhile_cons, ih]
        split <;> rfl
    unfold closedName renamed
    rw [ht, hd, List.append_assoc]

/-! ### States -/

variable {r : Sym → Sym}

def rnScope (r : Sym → Sym) (s : Scope) : Scope := s.map fun p => (renamed r p.1, p.2)
def rnFrame (r : Sym → Sym) (f : Frame) : Frame := { f with scopes := f.scopes.map (rnScope r) }
def rnState (r : Sym → Sym) (st : AState) : AState :=
  { st with frames := st.frames.map (rnFrame r), errors := st.errors.map (renameError r) }

theorem rn_find (h : Renames (renamed r)) (x : Sym) : ∀ s : Scope, Scope.find (rnScope r s) (renamed r x) = Scope.find s x
  | [] => rfl
  | (y, n) :: s => by
    have ih := rn_find h x s
    unfold Scope.find rnScope at ih ⊢
    rw [List.map_cons, List.lookup_cons, List.lookup_cons, ih]
    have : (renamed r x == renamed r y) = (x == y) := by
      rw [Bool.eq_iff_iff, beq_iff_eq, beq_iff_eq]
      exact ⟨h.inj, fun h => by rw [h]⟩
    rw [this]

theorem rn_resolve (h : Renames (renamed r)) (x : Sym) (f : Frame) : (rnFrame r f).resolve (renamed r x) = f.resolve x := by
  unfold Frame.resolve rnFrame
  simp only
  induction f.scopes with
  | nil => rfl
  | cons s ss ih => rw [List.map_cons, List.findSome?_cons, List.findSome?_cons, rn_find h, ih]

theorem rn_insertRoot (x : Sym) (n : Nat) : ∀ ss : List Scope, insertRoot (renamed r x) n (ss.map (rnScope r)) = (insertRoot x n ss).map (rnScope r)
  | [] => rfl
  | [s] => rfl
  | s :: s' :: ss => by
    have ih := rn_insertRoot x n (s' :: ss)
    simp only [List.map_cons, insertRoot] at ih ⊢
    rw [ih]

theorem rn_capture (h : Renames (renamed r)) (x : Sym) (n : Nat) (f : Frame) :
    (rnFrame r f).capture (renamed r x) n = ((f.capture x n).1, rnFrame r (f.capture x n).2) := by
  unfold Frame.capture
  have : ((rnFrame r f).scopes.getLast? >>= fun root => Scope.find root (renamed r x)) = (f.scopes.getLast? >>= fun root => Scope.find root x) := by
    unfold rnFrame
    simp only [List.getLast?_map]
    cases f.scopes.getLast? with
    | none => rfl
    | some s => exact rn_find h x s
  rw [this]
  split
  · rfl
  · simp only [rnFrame, rn_insertRoot]

theorem rn_resolveFrames (h : Renames (renamed r)) (x : Sym) : ∀ fs : List Frame,
    resolveFrames (renamed r x) (fs.map (rnFrame r)) = (resolveFrames x fs).map fun p => (p.1, p.2.map (rnFrame r))
  | [] => rfl
  | f :: fs => by
    have ih := rn_resolveFrames h x fs
    rw [List.map_cons, resolveFrames, resolveFrames, rn_resolve h, ih]
    cases f.resolve x with
    | some n => rfl
    | none =>
      cases resolveFrames x fs with
      | none => rfl
      | some p =>
        obtain ⟨n, fs'⟩ := p
        simp only [Option.map_some, ← h.closed, rn_capture h, List.map_cons]

/-! ### Steps -/

/-- `a'` does in the renamed state what `a` does. -/
def Commutes (r : Sym → Sym) (a a' : A α) : Prop := ∀ st, a' (rnState r st) = ((a st).1, rnState r (a st).2)

theorem rn_ok (x : α) : Commutes r (A.ok x) (A.ok x) := fun _ => rfl
theorem rn_fail : Commutes r (A.fail : A α) A.fail := fun _ => rfl

theorem rn_report (k : SemErrorKind) (p : Pos) : Commutes r (A.report k p : A α) (A.report (renameError r ⟨k, p⟩).kind p) := fun st => by
  simp only [A.report, rnState, List.map_append, List.map_cons, List.map_nil]
  rfl

theorem rn_zip {a a' : A α} {b b' : A β} (ha : Commutes r a a') (hb : Commutes r b b') : Commutes r (A.zip a b) (A.zip a' b') := fun st => by
  simp only [A.zip, ha st, hb (a st).2]
  split <;> rfl

theorem rn_map {f : α → β} {a a' : A α} (ha : Commutes r a a') : Commutes r (A.map f a) (A.map f a') := fun st => by
  simp only [A.map, ha st]

theorem rn_andThen {a a' : A α} {f f' : α → A β} (ha : Commutes r a a') (hf : ∀ x, Commutes r (f x) (f' x)) : Commutes r (A.andThen a f) (A.andThen a' f') := fun st => by
  simp only [A.andThen, ha st]
  cases (a st).1 with
  | none => rfl
  | some x => exact hf x _

theorem rn_items {f f' : α → A β} {g : α → α} (h : ∀ x, Commutes r (f x) (f' (g x))) : ∀ l, Commutes r (analyzeItems f l) (analyzeItems f' (l.map g))
  | [] => rn_ok _
  | x :: l => rn_map (rn_zip (h x) (rn_items h l))

theorem rn_enterBlock (st : AState) : (rnState r st).enterBlock = rnState r st.enterBlock := by
  obtain ⟨fs, k, e, c⟩ := st
  cases fs <;> rfl

theorem rn_exitBlock (st : AState) : (rnState r st).exitBlock = rnState r st.exitBlock := by
  obtain ⟨fs, k, e, c⟩ := st
  cases fs with
  | nil => rfl
  | cons f fs =>
    obtain ⟨n, cs, s, ss⟩ := f
    cases ss <;> rfl

theorem rn_exitFrame (st : AState) : (rnState r st).exitFrame = (st.exitFrame.1, rnState r st.exitFrame.2) := by
  obtain ⟨fs, k, e, c⟩ := st
  cases fs with
  | nil => rfl
  | cons f fs => simp [AState.exitFrame, rnState, rnFrame]

theorem rn_inBlock {a a' : A α} (h : Commutes r a a') : Commutes r (inBlock a) (inBlock a') := fun st => by
  have e := h st.enterBlock
  simp only [inBlock, rn_enterBlock, e, rn_exitBlock]

theorem rn_declare (h : Renames (renamed r)) (x : Sym) (p : Pos) : Commutes r (declare x p) (declare (renamed r x) p) := fun st => by
  obtain ⟨fs, k, e, c⟩ := st
  cases fs with
  | nil => rfl
  | cons f fs =>
    obtain ⟨n, cs, sl, ss⟩ := f
    cases ss with
    | nil => rfl
    | cons s ss =>
      have hf := rn_find h x s
      simp only [declare, rnState, rnFrame, List.map_cons]
      rw [hf]
      cases Scope.find s x with
      | none => rfl
      | some m => exact rn_report (r := r) (.duplicateVariable x) p ⟨⟨n, cs, sl, s :: ss⟩ :: fs, k, e, c⟩

theorem rn_resolveVar (h : Renames (renamed r)) (x : Sym) (p : Pos) : Commutes r (resolve x p) (resolve (renamed r x) p) := fun st => by
  have hf := rn_resolveFrames h x st.frames
  unfold resolve
  rw [show (rnState r st).frames = st.frames.map (rnFrame r) from rfl, hf]
  cases resolveFrames x st.frames with
  | none => exact rn_report (.undeclaredVariable x) p st
  | some q => rfl

theorem rn_resolveSelf : Commutes r resolveSelf resolveSelf := fun st => by
  obtain ⟨fs, k, e, c⟩ := st
  cases fs with
  | nil => rfl
  | cons f fs =>
    obtain ⟨n, cs, s, ss⟩ := f
    cases s <;> rfl

theorem rn_symIll (h : Renames (renamed r)) (x : Sym) : symIll (renamed r x) = symIll x := by
  unfold symIll
  rw [Bool.eq_iff_iff, List.isEmpty_iff, List.isEmpty_iff]
  exact ⟨fun hx => h.inj (hx.trans h.nil.symm), fun hx => by rw [hx]; rfl⟩

theorem rn_ite {a a' b b' : A α} (c : Prop) [Decidable c] (ha : Commutes r a a') (hb : Commutes r b b') :
    Commutes r (if c then a else b) (if c then a' else b') := by split <;> assumption

theorem rn_resolveIdent (h : Renames (renamed r)) (x : Sym) (p : Pos) : Commutes r (resolveIdent x p) (resolveIdent (renamed r x) p) := by
  unfold resolveIdent
  rw [rn_symIll h]
  exact rn_ite _ rn_fail (rn_resolveVar h x p)

theorem rn_insertKey (x : Sym) (p : Pos) : Commutes r (insertKey x p) (insertKey x p) := fun st => by
  unfold insertKey
  rw [show (rnState r st).dictKeys = st.dictKeys from rfl]
  split
  · rfl
  split
  · exact rn_report (.duplicateKey x) p st
  · rfl

theorem rn_declareOr (h : Renames (renamed r)) (x : Sym) (p : Pos) :
    Commutes r (if symIll x then A.fail else declare x p) (if symIll (renamed r x) then A.fail else declare (renamed r x) p) := by
  rw [rn_symIll h]
  exact rn_ite _ rn_fail (rn_declare h x p)

theorem rn_params (h : Renames (renamed r)) : ∀ ps : List (Sym × Pos), Commutes r (declareParams ps) (declareParams (ps.map fun p => (renamed r p.1, p.2)))
  | [] => rn_ok _
  | (x, p) :: ps => rn_map (rn_zip (rn_declareOr h x p) (rn_params h ps))

theorem rn_unit (h : Renames (renamed r)) : ∀ u, Commutes r (analyzeArgUnit u) (analyzeArgUnit (renameUnit r u))
  | .literal _ => rn_ok _
  | .dollar x p => rn_map (rn_resolveIdent h x p)

theorem rn_part (h : Renames (renamed r)) : ∀ p, Commutes r (analyzeArgPart p) (analyzeArgPart (renamePart r p))
  | .unit u => rn_map (rn_unit h u)
  | .expansion (.collection items) => rn_map (rn_items (rn_unit h) items)
  | .expansion .home | .expansion (.range _ _) | .expansion .star | .expansion .percent | .expansion (.charClass _) => rn_ok _

theorem rn_argument (h : Renames (renamed r)) (a : Ast.Argument) : Commutes r (analyzeArgument a) (analyzeArgument (renameArg r a)) :=
  rn_ite _ rn_fail (rn_map (rn_items (rn_part h) a.parts))

theorem rn_redirection (h : Renames (renamed r)) : ∀ x, Commutes r (analyzeRedirection x) (analyzeRedirection (renameRedirection r x))
  | .illFormed => rn_fail
  | .output _ (.fd _) => rn_ok _
  | .output _ (.overwrite a) => rn_map (rn_argument h a)
  | .output _ (.append a) => rn_map (rn_argument h a)
  | .input _ a => rn_map (rn_argument h a)

theorem rn_builtin (a : Ast.Argument) : Prog.Builtin.ofArgument (renameArg r a) = Prog.Builtin.ofArgument a := by
  obtain ⟨ps, p⟩ := a
  cases ps with
  | nil => rfl
  | cons q ps =>
    cases ps with
    | cons q' ps => rcases q with (_ | _) | (_ | _ | _ | _ | _ | _) <;> rfl
    | nil => rcases q with (_ | _) | (_ | _ | _ | _ | _ | _) <;> rfl

theorem rn_env (h : Renames (renamed r)) (e : ArgUnit × Ast.Argument) :
    Commutes r (analyzeEnvItem e) (analyzeEnvItem (renameUnit r e.1, renameArg r e.2)) := by
  unfold analyzeEnvItem
  exact rn_andThen (rn_unit h e.1) (fun _ => rn_map (rn_argument h e.2))

theorem rn_basic (h : Renames (renamed r)) (c : Ast.BasicCommand) : Commutes r (analyzeBasicCommand c) (analyzeBasicCommand (renameBasic r c)) := by
  unfold analyzeBasicCommand
  rw [show (renameBasic r c).program = renameArg r c.program from rfl, rn_builtin]
  split
  · exact rn_report .asyncBuiltin c.pos
  · exact rn_map (rn_zip (rn_argument h _) (rn_zip (rn_items (rn_env h) _)
      (rn_zip (rn_items (rn_argument h) _) (rn_items (rn_redirection h) _))))

theorem rn_command (h : Renames (renamed r)) (b : Bool) (c : Ast.Command) : Commutes r (analyzeCommand b c) (analyzeCommand b (renameCommand r c)) := by
  unfold analyzeCommand
  rw [show (renameCommand r c).head.program = renameArg r c.head.program from rfl, rn_builtin]
  split
  · have e1 : (renameCommand r c).tail.isEmpty = c.tail.isEmpty := by simp [renameCommand]
    have e2 : (renameCommand r c).head.redirections.isEmpty = c.head.redirections.isEmpty := by simp [renameCommand, renameBasic]
    rw [e1, e2]
    exact rn_ite _ (rn_report .asyncBuiltin c.head.pos) (rn_map (rn_items (rn_argument h) _))
  · exact rn_map (rn_zip (rn_basic h _) (rn_items (rn_basic h) _))

theorem rn_commands (h : Renames (renamed r)) (b : Ast.CommandBlock) : Commutes r (analyzeCommandBlock b) (analyzeCommandBlock (renameCommands r b)) :=
  rn_map (rn_zip (rn_command h _ b.head) (rn_items (rn_command h _) b.tail))

/-! ### Programs -/

mutual

theorem rn_expr (h : Renames (renamed r)) (fl) : ∀ e, Commutes r (analyzeExpr fl e) (analyzeExpr fl (renameExpr r e))
  | .illFormed => by rw [renameExpr, analyzeExpr]; exact rn_fail
  | .self_ pos => by
    rw [renameExpr, analyzeExpr]
    exact rn_ite _ (rn_map rn_resolveSelf) (rn_report .selfOutsideFunction pos)
  | .ident x pos => by rw [renameExpr, analyzeExpr, analyzeExpr]; exact rn_map (rn_resolveIdent h x pos)
  | .lit l pos => by rw [renameExpr, analyzeExpr, analyzeExpr]; exact rn_map (rn_lit h fl l)
  | .unary op e pos => by
    rw [renameExpr, analyzeExpr, analyzeExpr]
    exact rn_andThen (rn_expr h fl e) fun _ => rn_ite _ (rn_report .tryOutsideFunction pos) (rn_ok _)
  | .binary l op e pos => by rw [renameExpr, analyzeExpr, analyzeExpr]; exact rn_map (rn_zip (rn_expr h fl l) (rn_expr h fl e))
  | .if_ c t e pos => by
    rw [renameExpr, analyzeExpr, analyzeExpr]
    exact rn_map (rn_zip (rn_expr h fl c) (rn_zip (rn_inBlock (rn_block h fl t)) (rn_inBlock (rn_block h fl e))))
  | .access o f pos => by rw [renameExpr, analyzeExpr, analyzeExpr]; exact rn_map (rn_zip (rn_expr h fl o) (rn_expr h fl f))
  | .call f args pos => by rw [renameExpr, analyzeExpr, analyzeExpr]; exact rn_map (rn_zip (rn_expr h fl f) (rn_exprs h fl args))
  | .command b pos => by rw [renameExpr, analyzeExpr, analyzeExpr]; exact rn_map (rn_commands h b)

theorem rn_exprs (h : Renames (renamed r)) (fl) : ∀ es, Commutes r (analyzeExprs fl es) (analyzeExprs fl (renameExprs r es))
  | [] => by rw [renameExprs, analyzeExprs]; exact rn_ok _
  | e :: es => by rw [renameExprs, analyzeExprs, analyzeExprs]; exact rn_map (rn_zip (rn_expr h fl e) (rn_exprs h fl es))

theorem rn_lit (h : Renames (renamed r)) (fl) : ∀ l, Commutes r (analyzeLit fl l) (analyzeLit fl (renameLit r l))
  | .nil | .bool _ | .int _ | .float _ | .byte _ | .string _ => by rw [renameLit, analyzeLit]; exact rn_ok _
  | .array es => by rw [renameLit, analyzeLit, analyzeLit]; exact rn_map (rn_exprs h fl es)
  | .dict items => by
    intro st
    rw [renameLit, analyzeLit, analyzeLit]
    exact rn_map (f := Prog.Lit.dict) (rn_itemsDict h fl items) { st with dictKeys := [] }
  | .function params body => by
    intro st
    rw [renameLit, analyzeLit, analyzeLit]
    dsimp only
    rw [show (rnState r st).enterFrame = rnState r st.enterFrame from rfl, rn_params h params, rn_block h ⟨true, false⟩ body, rn_exitFrame, List.length_map]
    dsimp only
    split <;> rfl
  | .ident x => by
    rw [renameLit, analyzeLit]
    exact rn_ite _ rn_fail (rn_ok _)

theorem rn_itemsDict (h : Renames (renamed r)) (fl) : ∀ items, Commutes r (analyzeItemsDict fl items) (analyzeItemsDict fl (renameItems r items))
  | [] => by rw [renameItems, analyzeItemsDict]; exact rn_ok _
  | ((x, pos), e) :: items => by
    rw [renameItems, analyzeItemsDict, analyzeItemsDict]
    exact rn_map (rn_zip (rn_zip (rn_insertKey x pos) (rn_expr h fl e)) (rn_itemsDict h fl items))

theorem rn_lvalue (h : Renames (renamed r)) (fl pos) : ∀ e, Commutes r (analyzeLvalue fl pos e) (analyzeLvalue fl pos (renameExpr r e))
  | .ident x ipos => by
    rw [renameExpr, analyzeLvalue, analyzeLvalue, rn_symIll h]
    exact rn_ite _ (rn_report .invalidAssignment pos) (rn_map (rn_resolveVar h x ipos))
  | .access o f apos => by
    rw [renameExpr, analyzeLvalue, analyzeLvalue]; exact rn_map (rn_zip (rn_expr h fl o) (rn_expr h fl f))
  | .illFormed => rn_report .invalidAssignment pos
  | .self_ _ => rn_report .invalidAssignment pos
  | .lit _ _ => rn_report .invalidAssignment pos
  | .unary _ _ _ => rn_report .invalidAssignment pos
  | .binary _ _ _ _ => rn_report .invalidAssignment pos
  | .if_ _ _ _ _ => rn_report .invalidAssignment pos
  | .call _ _ _ => rn_report .invalidAssignment pos
  | .command _ _ => rn_report .invalidAssignment pos

theorem rn_stmt (h : Renames (renamed r)) (fl) : ∀ s, Commutes r (analyzeStmt fl s) (analyzeStmt fl (renameStmt r s))
  | .illFormed => by rw [renameStmt, analyzeStmt]; exact rn_fail
  | .let_ x e pos => by rw [renameStmt, analyzeStmt, analyzeStmt]; exact rn_map (rn_zip (rn_declare h x pos) (rn_expr h fl e))
  | .assign a b pos => by rw [renameStmt, analyzeStmt, analyzeStmt]; exact rn_map (rn_zip (rn_lvalue h fl pos a) (rn_expr h fl b))
  | .return_ e pos => by
    rw [renameStmt, analyzeStmt, analyzeStmt]
    exact rn_map (rn_zip (rn_ite _ (rn_ok _) (rn_report .returnOutsideFunction pos)) (rn_expr h fl e))
  | .break_ pos => by rw [renameStmt, analyzeStmt]; exact rn_ite _ (rn_ok _) (rn_report .breakOutsideLoop pos)
  | .while_ c b pos => by
    rw [renameStmt, analyzeStmt, analyzeStmt]; exact rn_map (rn_zip (rn_expr h fl c) (rn_inBlock (rn_block h _ b)))
  | .for_ x e b pos => by
    rw [renameStmt, analyzeStmt, analyzeStmt]
    exact rn_map (rn_zip (rn_expr h fl e) (rn_inBlock (rn_zip (rn_declareOr h x pos) (rn_block h _ b))))
  | .expr e => by rw [renameStmt, analyzeStmt, analyzeStmt]; exact rn_map (rn_expr h fl e)

theorem rn_block (h : Renames (renamed r)) (fl) : ∀ b, Commutes r (analyzeBlock fl b) (analyzeBlock fl (renameBlock r b))
  | [] => by rw [renameBlock, analyzeBlock]; exact rn_ok _
  | s :: ss => by rw [renameBlock, analyzeBlock, analyzeBlock]; exact rn_map (rn_zip (rn_stmt h fl s) (rn_block h fl ss))

end

end Hush

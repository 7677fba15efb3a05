import Verif.Lemmas.MonoHeap
import Verif.Model.Interp

/-!
The outcome of a task does not depend on the budget, if that is large enough.
-/

namespace Hush

/-- The second computation does what the first one does, unless the first one runs out of budget. -/
def MLe (m m' : M α) : Prop := ∀ s, (m s).1 = .error .timeout ∨ m s = m' s

/-- The same for results. -/
def ELe (a b : Except Stop α) : Prop := a = .error .timeout ∨ a = b

theorem MLe.refl (m : M α) : MLe m m := fun _ => .inr rfl
theorem ELe.refl (a : Except Stop α) : ELe a a := .inr rfl

theorem MLe.trans {a b c : M α} (h1 : MLe a b) (h2 : MLe b c) : MLe a c := by
  intro s
  rcases h1 s with h | h
  · exact .inl h
  · rw [h]; exact h2 s

theorem mle_bind {m m' : M α} {f f' : α → M β} (hm : MLe m m') (hf : ∀ a, MLe (f a) (f' a)) : MLe (m >>= f) (m' >>= f') := by
  intro s
  show (M.andThen m f s).1 = _ ∨ M.andThen m f s = M.andThen m' f' s
  unfold M.andThen
  rcases hm s with h | h
  · left
    generalize m s = r at h
    rcases r with ⟨r, s'⟩
    dsimp only at h
    subst h
    rfl
  · rw [← h]
    generalize m s = r
    rcases r with ⟨r | r, s'⟩
    · exact .inr rfl
    · exact hf r s'

theorem mle_lift {a b : Except Stop α} (h : ELe a b) : MLe (M.lift a) (M.lift b) := by
  rcases h with h | h <;> subst h
  · exact fun s => .inl rfl
  · exact .refl _

theorem mle_reads {f g : Heap → Except Stop α} (h : ∀ x, ELe (f x) (g x)) : MLe (M.reads f) (M.reads g) := by
  intro s
  show f s.heap = _ ∨ (f s.heap, s) = (g s.heap, s)
  rcases h s.heap with h | h
  · exact .inl h
  · rw [h]; exact .inr rfl

theorem mle_regular (o : Out) (pos : Pos) {k k' : Value → Pos → Value → M Out} (h : ∀ v p x, MLe (k v p x) (k' v p x)) :
    MLe (o.regular pos k) (o.regular pos k') := by
  unfold Out.regular
  split
  · exact h _ _ _
  · exact .refl _

theorem ele_deep {a b : Option α} (h : OLe a b) : ELe (M.deep a) (M.deep b) := by
  cases a with
  | none => exact .inl rfl
  | some x => rw [h x rfl]; exact .refl _

theorem ele_map {a b : Except Stop α} (f : α → β) (h : ELe a b) : ELe (a.map f) (b.map f) := by
  rcases h with h | h <;> subst h
  · exact .inl rfl
  · exact .refl _

theorem strictValue_mono (w h) {n n' : Nat} (hn : n ≤ n') (op pos l lpos r rpos) :
    ELe (strictValue w h n op pos l lpos r rpos) (strictValue w h n' op pos l lpos r rpos) := by
  unfold strictValue
  split
  · exact .refl _
  · split
    · exact .refl _
    · split
      · exact ele_map _ (ele_deep (valueEq_mono h hn _ _))
      · split
        · exact ele_map _ (ele_deep (valueEq_mono h hn _ _))
        · exact .refl _

theorem accessValue_mono (h) {n n' : Nat} (hn : n ≤ n') (obj opos field fpos) :
    ELe (accessValue h n obj opos field fpos) (accessValue h n' obj opos field fpos) := by
  cases obj <;> try exact .refl _
  · cases field <;> exact .refl _
  · cases field <;> exact .refl _
  · rename_i d
    unfold accessValue
    simp only
    cases hd : dictGet h n d field with
    | none => exact .inl rfl
    | some x => rw [dictGet_mono h hn _ _ x hd]; exact .refl _

theorem assignValue_mono (h) {n n' : Nat} (hn : n ≤ n') (obj opos field fpos v pos) :
    ELe (assignValue h n obj opos field fpos v pos) (assignValue h n' obj opos field fpos v pos) := by
  cases obj <;> try exact .refl _
  · cases field <;> exact .refl _
  · rename_i d
    unfold assignValue
    simp only
    cases ht : touches h (.inl d) n field with
    | none => exact .inl rfl
    | some x =>
      rw [touches_mono h _ hn _ x ht]
      cases x with
      | true => exact .refl _
      | false =>
        simp only
        cases hd : dictInsert h n (h.dict d) field v with
        | none => exact .inl rfl
        | some x => rw [dictInsert_mono h hn _ _ _ x hd]; exact .refl _

theorem nextValue_mono (h) {n n' : Nat} (hn : n ≤ n') (v pos) : ELe (nextValue h n v pos) (nextValue h n' v pos) := by
  cases v <;> try exact .refl _
  rename_i d
  unfold nextValue
  simp only
  cases h1 : dictGet h n d Lib.kFinished with
  | none => exact .inl rfl
  | some x =>
    rw [dictGet_mono h hn _ _ x h1]
    cases h2 : dictGet h n d Lib.kValue with
    | some y => rw [dictGet_mono h hn _ _ y h2]; exact .refl _
    | none =>
      rcases x with _ | x
      · exact .refl _
      · cases x <;> try exact .refl _
        rename_i b
        cases b
        · exact .inl rfl
        · exact .refl _

/-- The relation for library functions. -/
def LLe (a b : LibRes) : Prop := a = some (.error .timeout) ∨ a = b

theorem contains_mono (w : World) {n n' : Nat} (hn : n ≤ n') (addr args pos argv h) :
    LLe (Lib.contains w ⟨n, addr, args, pos, argv⟩ h) (Lib.contains w ⟨n', addr, args, pos, argv⟩ h) := by
  unfold Lib.contains
  simp only
  split
  · rename_i a v
    cases hc : anyM (fun x => valueEq h n x v) (h.array a) with
    | none => exact .inl rfl
    | some x => rw [anyM_mono (fun x => valueEq_mono h hn x v) _ x hc]; exact .inr rfl
  · rename_i d k
    cases hc : dictGet h n d k with
    | none => exact .inl rfl
    | some x => rw [dictGet_mono h hn _ _ x hc]; exact .inr rfl
  all_goals exact .inr rfl

theorem hasError_mono (w : World) {n n' : Nat} (hn : n ≤ n') (addr args pos argv h) :
    LLe (Lib.hasError w ⟨n, addr, args, pos, argv⟩ h) (Lib.hasError w ⟨n', addr, args, pos, argv⟩ h) := by
  unfold Lib.hasError
  simp only
  split
  · rename_i v
    cases hc : Lib.findError h n v with
    | none => exact .inl rfl
    | some x => rw [findError_mono h hn _ x hc]; exact .inr rfl
  · exact .inr rfl

theorem toString_mono (w : World) {n n' : Nat} (hn : n ≤ n') (addr args pos argv h) :
    LLe (Lib.toStringFun w ⟨n, addr, args, pos, argv⟩ h) (Lib.toStringFun w ⟨n', addr, args, pos, argv⟩ h) := by
  unfold Lib.toStringFun
  simp only
  split
  · exact .inr rfl
  · rename_i v _
    cases hc : Show.value w h n v with
    | none => exact .inl rfl
    | some x => rw [show_mono w h hn _ x hc]; exact .inr rfl
  · exact .inr rfl

theorem sort_mono (w : World) {n n' : Nat} (hn : n ≤ n') (addr args pos argv h) :
    LLe (Lib.sort w ⟨n, addr, args, pos, argv⟩ h) (Lib.sort w ⟨n', addr, args, pos, argv⟩ h) := by
  unfold Lib.sort
  simp only
  split
  · rename_i a
    cases hc : anyM (touches h (.inr a) n) (h.array a) with
    | none => exact .inl rfl
    | some x =>
      rw [anyM_mono (touches_mono h _ hn) _ x hc]
      simp only
      split
      · exact .inr rfl
      · cases hs : Lib.sortValues h n (h.array a) with
        | none => exact .inl rfl
        | some x => rw [sortValues_mono h hn _ x hs]; exact .inr rfl
  · exact .inr rfl
  · exact .inr rfl

theorem jsonEncode_mono (w : World) {n n' : Nat} (hn : n ≤ n') (addr args pos argv h) :
    LLe (Lib.jsonEncode w ⟨n, addr, args, pos, argv⟩ h) (Lib.jsonEncode w ⟨n', addr, args, pos, argv⟩ h) := by
  unfold Lib.jsonEncode
  simp only
  split
  · rename_i v
    by_cases hc : Json.encode w h n 0 v = .error .deep
    · rw [hc]; exact .inl rfl
    · rw [encode_mono w h hn 0 v hc]; exact .inr rfl
  · exact .inr rfl

theorem libCall_mono (w : World) {n n' : Nat} (hn : n ≤ n') (name addr args pos argv h) :
    LLe (Lib.call w name ⟨n, addr, args, pos, argv⟩ h) (Lib.call w name ⟨n', addr, args, pos, argv⟩ h) := by
  unfold Lib.call
  have key : ∀ (t : List (Bytes × (World → LibCall → Heap → LibRes))),
      (∀ e ∈ t, LLe (e.2 w ⟨n, addr, args, pos, argv⟩ h) (e.2 w ⟨n', addr, args, pos, argv⟩ h)) →
      LLe (match t.lookup name with | some f => f w ⟨n, addr, args, pos, argv⟩ h | none => none)
        (match t.lookup name with | some f => f w ⟨n', addr, args, pos, argv⟩ h | none => none) := by
    intro t ht
    induction t with
    | nil => exact .inr rfl
    | cons e t ih =>
      obtain ⟨k, f⟩ := e
      simp only [List.lookup_cons]
      cases name == k with
      | true => exact ht _ (List.mem_cons_self ..)
      | false => exact ih (fun e he => ht e (List.mem_cons_of_mem _ he))
  refine key _ ?_
  intro e he
  unfold Lib.table at he
  simp only [List.mem_cons, List.not_mem_nil, or_false] at he
  rcases he with he | he | he | he | he | he | he | he | he | he | he | he | he | he | he | he | he | he | he | he | he |
    he | he | he | he | he | he | he | he | he |
    he | he | he | he | he | he | he | he | he | he | he | he | he | he | he | he | he | he <;> rw [he] <;>
    first
    | exact .inr rfl
    | exact contains_mono w hn _ _ _ _ _
    | exact hasError_mono w hn _ _ _ _ _
    | exact sort_mono w hn _ _ _ _ _
    | exact jsonEncode_mono w hn _ _ _ _ _
    | exact toString_mono w hn _ _ _ _ _

theorem callLib_mono (w : World) {n n' : Nat} (hn : n ≤ n') (name addr args pos) :
    MLe (callLib w n name addr args pos) (callLib w n' name addr args pos) := by
  intro s
  unfold callLib
  rcases libCall_mono w hn name addr args pos s.argv s.heap with h | h
  · rw [h]; exact .inl rfl
  · rw [h]; exact .inr rfl

theorem mle_catching (w : World) {m m' : M Out} (h : MLe m m') : MLe (catching w m) (catching w m') := by
  intro s
  unfold catching
  rcases h s with h | h
  · left
    generalize m s = r at h
    rcases r with ⟨r, s'⟩
    dsimp only at h
    subst h
    rfl
  · rw [h]; exact .inr rfl

theorem mle_finally {m m' : M α} (f : RState → RState) (h : MLe m m') : MLe (finally_ m f) (finally_ m' f) := by
  intro s
  unfold finally_
  rcases h s with h | h
  · left
    generalize m s = r at h
    rcases r with ⟨r, s'⟩
    exact h
  · rw [h]; exact .inr rfl

theorem mle_withFrame (k : Nat) {m m' : M Out} (h : MLe m m') : MLe (withFrame k m) (withFrame k m') := by
  intro s
  unfold withFrame
  rcases h { s with shrunk := false } with h | h
  · left
    generalize m { s with shrunk := false } = r at h
    rcases r with ⟨r, s'⟩
    dsimp only at h
    subst h
    dsimp only
    by_cases hs : s'.shrunk = true
    · rw [if_pos hs]
    · rw [if_neg hs]
      generalize shrink k s' = q
      rcases q with ⟨q | q, s2⟩ <;> rfl
  · rw [h]; exact .inr rfl

theorem loadModule_mono (w : World) {r r' : Task → M Out} (hr : ∀ t, MLe (r t) (r' t)) (path pos) :
    MLe (loadModule w r path pos) (loadModule w r' path pos) := by
  unfold loadModule
  refine mle_bind (.refl _) (fun s => mle_bind (.refl _) (fun _ => ?_))
  cases w.readFile s.trace path with
  | error e => exact .refl _
  | ok src =>
    simp only
    cases syntaxAnalysis src with
    | none => exact .refl _
    | some a =>
      simp only
      split
      · cases analyze a.ast with
        | ok p => exact mle_bind (.refl _) (fun _ => mle_bind (hr _) (fun _ => .refl _))
        | errors _ => exact .refl _
        | crash => exact .refl _
      · exact .refl _

theorem importModule_mono (w : World) {r r' : Task → M Out} (hr : ∀ t, MLe (r t) (r' t)) (m args pos) :
    MLe (importModule w r m args pos) (importModule w r' m args pos) := by
  unfold importModule
  split
  · refine mle_bind (.refl _) (fun s => ?_)
    split
    · exact .refl _
    · split
      · exact .refl _
      · exact mle_bind (loadModule_mono w hr _ _) (fun _ => .refl _)
  · exact .refl _
  · exact .refl _

theorem nativeCall_mono (w : World) {n n' : Nat} (hn : n ≤ n') {r r' : Task → M Out} (hr : ∀ t, MLe (r t) (r' t))
    (m name addr start pos) : MLe (nativeCall w n r m name addr start pos) (nativeCall w n' r' m name addr start pos) := by
  unfold nativeCall
  refine mle_bind (.refl _) (fun s => ?_)
  simp only
  split
  · split
    · exact mle_catching w (hr _)
    · exact .refl _
    · exact .refl _
  · split
    · split
      · exact mle_bind (hr _) (fun _ => .refl _)
      · exact .refl _
    · split
      · exact importModule_mono w hr _ _ _
      · split
        · exact .refl _
        · exact callLib_mono w hn _ _ _ _

theorem stepCall_mono (w : World) {n n' : Nat} (hn : n ≤ n') {r r' : Task → M Out} (hr : ∀ t, MLe (r t) (r' t))
    (m obj f start pos) : MLe (stepCall w n r m obj f start pos) (stepCall w n' r' m obj f start pos) := by
  intro s
  unfold stepCall
  by_cases hs : s.args.length < start
  · rw [if_pos hs, if_pos hs]; exact .inr rfl
  · rw [if_neg hs, if_neg hs]
    cases f with
    | hush a =>
      refine mle_bind (.refl _) (fun _ => ?_) s
      split
      · exact .refl _
      · exact mle_bind (.refl _) (fun _ => mle_bind (.refl _) (fun _ => mle_bind (.refl _) (fun _ => mle_bind (.refl _) (fun _ =>
          mle_bind (mle_withFrame _ (hr _)) (fun _ => .refl _)))))
    | native name addr =>
      exact mle_bind (mle_finally _ (nativeCall_mono w hn hr _ _ _ _ _)) (fun _ => .refl _) s

theorem stepProgram_mono (w : World) {r r' : Task → M Out} (hr : ∀ t, MLe (r t) (r' t)) (m p) :
    MLe (stepProgram w r m p) (stepProgram w r' m p) := by
  unfold stepProgram
  refine mle_bind (.refl _) (fun _ => mle_bind (.refl _) (fun _ => mle_bind (.refl _) (fun _ => mle_bind ?_ (fun _ => .refl _))))
  intro s
  dsimp only
  rcases hr (.block m none p.statements) s with h | h
  · left
    generalize r (.block m none p.statements) s = q at h
    rcases q with ⟨q, s'⟩
    dsimp only at h
    subst h
    rfl
  · rw [h]; exact .inr rfl

theorem stepLit_mono (w : World) {r r' : Task → M Out} (hr : ∀ t, MLe (r t) (r' t)) (m l pos) :
    MLe (stepLit w r m l pos) (stepLit w r' m l pos) := by
  unfold stepLit
  split <;> try exact .refl _
  · exact mle_bind (hr _) (fun _ => .refl _)
  · exact mle_bind (hr _) (fun _ => .refl _)

theorem stepExpr_mono (w : World) {n n' : Nat} (hn : n ≤ n') {r r' : Task → M Out} (hr : ∀ t, MLe (r t) (r' t))
    (m tail e) : MLe (stepExpr w n r m tail e) (stepExpr w n' r' m tail e) := by
  unfold stepExpr
  split
  · exact .refl _
  · exact stepLit_mono w hr _ _ _
  · exact mle_bind (hr _) (fun o => .refl _)
  · refine mle_bind (hr _) (fun o => mle_regular o _ (fun v p _ => ?_))
    split
    · refine mle_bind (.refl _) (fun x => ?_)
      cases x with
      | some v => exact .refl _
      | none => exact mle_bind (hr _) (fun o => .refl _)
    · exact mle_bind (hr _) (fun o => mle_regular o _ (fun _ _ _ =>
        mle_bind (mle_reads (fun h => strictValue_mono w h hn _ _ _ _ _ _)) (fun _ => .refl _)))
  · refine mle_bind (hr _) (fun o => mle_regular o _ (fun v p _ => ?_))
    split
    · exact mle_bind (hr _) (fun _ => .refl _)
    · exact .refl _
  · exact mle_bind (hr _) (fun o => mle_regular o _ (fun _ _ _ => mle_bind (hr _) (fun o => mle_regular o _ (fun _ _ _ =>
      mle_bind (mle_reads (fun h => accessValue_mono h hn _ _ _ _)) (fun _ => .refl _)))))
  · refine mle_bind (hr _) (fun o => mle_regular o _ (fun v p _ => ?_))
    split
    · exact mle_bind (.refl _) (fun s => mle_bind (hr _) (fun o => mle_regular o _ (fun _ _ _ =>
        mle_bind (.refl _) (fun _ => mle_bind (hr _) (fun _ => .refl _)))))
    · exact .refl _
  · exact .refl _

theorem stepStmt_mono {n n' : Nat} (hn : n ≤ n') {r r' : Task → M Out} (hr : ∀ t, MLe (r t) (r' t))
    (m tail s) : MLe (stepStmt n r m tail s) (stepStmt n' r' m tail s) := by
  unfold stepStmt
  split
  · refine mle_bind (hr _) (fun o => mle_regular o _ (fun v p _ => ?_))
    split
    · exact .refl _
    · exact mle_bind (hr _) (fun o => mle_regular o _ (fun _ _ _ => mle_bind (hr _) (fun o => mle_regular o _ (fun _ _ _ =>
        mle_bind (mle_reads (fun h => assignValue_mono h hn _ _ _ _ _ _)) (fun _ => .refl _)))))
  · exact mle_bind (hr _) (fun _ => .refl _)
  · exact .refl _
  · exact hr _
  · refine mle_bind (hr _) (fun o => mle_regular o _ (fun v p _ => ?_))
    split
    · exact hr _
    · exact .refl _
  · exact hr _

theorem afterBody_mono (o : Out) {m m' : M Out} (h : MLe m m') : MLe (afterBody o m) (afterBody o m') := by
  unfold afterBody
  split
  · exact h
  · exact .refl _
  · exact .refl _

/-- One task, with a larger budget for its parts. -/
theorem step_mono (w : World) {n n' : Nat} (hn : n ≤ n') {r r' : Task → M Out} (hr : ∀ t, MLe (r t) (r' t)) (t) :
    MLe (step w n r t) (step w n' r' t) := by
  cases t with
  | expr m tail e => exact stepExpr_mono w hn hr m tail e
  | items m es acc =>
    cases es with
    | nil => exact .refl _
    | cons e es => exact mle_bind (hr _) (fun o => mle_regular o _ (fun _ _ _ => hr _))
  | fields m es acc =>
    cases es with
    | nil => exact .refl _
    | cons e es => exact mle_bind (hr _) (fun o => mle_regular o _ (fun _ _ _ => hr _))
  | args m es start =>
    cases es with
    | nil => exact .refl _
    | cons e es =>
      refine mle_bind (hr _) (fun o => ?_)
      split
      · exact mle_bind (.refl _) (fun _ => hr _)
      · exact .refl _
  | stmt m tail s => exact stepStmt_mono hn hr m tail s
  | block m tail b =>
    match b with
    | [] => exact .refl _
    | [s] => exact hr _
    | s :: s' :: rest => exact mle_bind (hr _) (fun o => mle_regular o _ (fun _ _ _ => hr _))
  | loop m c b =>
    refine mle_bind (hr _) (fun o => mle_regular o _ (fun v p _ => ?_))
    split
    · exact mle_bind (hr _) (fun o => afterBody_mono o (hr _))
    · exact .refl _
    · exact .refl _
  | iter m slot f pos b =>
    refine mle_bind (.refl _) (fun s => mle_bind (hr _) (fun o => mle_bind (.refl _) (fun v =>
      mle_bind (mle_reads (fun h => nextValue_mono h hn _ _)) (fun x => ?_))))
    cases x with
    | none => exact .refl _
    | some v => exact mle_bind (.refl _) (fun _ => mle_bind (hr _) (fun o => afterBody_mono o (hr _)))
  | call m obj f start pos => exact stepCall_mono w hn hr m obj f start pos
  | program m p => exact stepProgram_mono w hr m p

theorem runTask_succ (w : World) (n : Nat) (t) : MLe (run w n t) (run w (n + 1) t) := by
  induction n generalizing t with
  | zero => exact fun s => .inl rfl
  | succ n ih => exact step_mono w (Nat.le_succ n) ih t

/-- A larger budget changes nothing, once the task comes to its end. -/
theorem runTask_mono (w : World) {n n' : Nat} (hn : n ≤ n') (t) : MLe (run w n t) (run w n' t) := by
  induction hn with
  | refl => exact .refl _
  | step _ ih => exact ih.trans (runTask_succ w _ t)

end Hush

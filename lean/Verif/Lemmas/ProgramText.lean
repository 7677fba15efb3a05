import Verif.Lemmas.ProgramFmt

/-!
The text of an analysed program is read back: frames, expressions and statements.
-/

namespace Hush.ProgramRead
open Hush Hush.Spec Hush.Prog

/-! ### What follows -/

theorem quiet_cons {x : UInt8} {r : Bytes} (h : Done [x]) (hx : x ≠ 32) : Quiet (x :: r) := by
  refine ⟨h, ?_, ?_⟩ <;> · cases r <;> simp [hx]

theorem quiet_blank {r : Bytes} (h : r.head? ≠ some 61) (h' : r.head? ≠ some 115) : Quiet (32 :: r) := by
  refine ⟨rfl, ?_, ?_⟩ <;> · cases r <;> simp_all

theorem quiet_between (c : Option Nat) (r : Bytes) : Quiet (AstFmt.between c ++ r) := by
  cases c
  · exact quiet_cons (x := 59) rfl (by decide)
  · exact quiet_cons (x := 10) rfl (by decide)

theorem tabs_sep (n : Nat) : (AstFmt.tabs n).all isSep = true := by
  rw [List.all_eq_true]
  intro b hb
  rw [List.eq_of_mem_replicate hb]
  rfl

theorem before_sep (c : Option Nat) : (AstFmt.before c).all isSep = true := by
  cases c
  · rfl
  · exact tabs_sep _
theorem margin_sep (c : Option Nat) : (AstFmt.margin c).all isSep = true := by
  cases c
  · rfl
  · exact tabs_sep _
theorem line_sep (c : Option Nat) : (AstFmt.line c).all isSep = true := by cases c <;> rfl
theorem newline_sep (c : Option Nat) : (AstFmt.newline c).all isSep = true := by cases c <;> rfl
theorem between_sep (c : Option Nat) : (AstFmt.between c).all isSep = true := by cases c <;> rfl
theorem step_sep (c : Option Nat) : (AstFmt.step c).all isSep = true := by
  cases c
  · rfl
  · rw [AstFmt.step, List.all_cons, tabs_sep]; rfl

theorem head_tabs (n : Nat) {r : Bytes} {y : UInt8} (hy : y ≠ 9) (h : r.head? ≠ some y) : (AstFmt.tabs n ++ r).head? ≠ some y := by
  cases n with
  | zero => exact h
  | succ n =>
    intro e
    have : (9 : UInt8) = y := Option.some.inj e
    exact hy this.symm

theorem quiet_line (c : Option Nat) {r : Bytes} (h : r.head? ≠ some 61) (h' : r.head? ≠ some 115) : Quiet (AstFmt.line c ++ r) := by
  cases c
  · exact quiet_blank h h'
  · exact quiet_cons (x := 10) rfl (by decide)

theorem quiet_step (c : Option Nat) {r : Bytes} (h : r.head? ≠ some 61) (h' : r.head? ≠ some 115) : Quiet (AstFmt.step c ++ r) := by
  cases c
  · exact quiet_blank h h'
  · exact quiet_cons (x := 10) rfl (by decide)

/-! ### Frames -/

/-- The node of a slot. -/
def slotNode (f : FrameInfo) (i : Nat) : Node := .slot i (ProgramFmt.captured f i) (decide (f.selfSlot = some i))

theorem slotLine_auto (i : Nat) {q : Bytes} (hq : q.head?.all (fun y => !isWord y) = true) :
    slotLine (natDigits i ++ 58 :: 32 :: (bs "auto" ++ q)) = if q.take 2 = [32, 115] then (.slot i none true, q.drop 5) else (.slot i none false, q) := by
  have hn := number_digits i (r := 58 :: 32 :: (bs "auto" ++ q)) rfl
  have hw := takeWhile_split (p := isWord) (a := bs "auto") (r := q) (by decide) hq
  unfold slotLine
  simp only [hn.1, hn.2, List.drop_succ_cons, List.drop_zero, word, behindWord, hw.1, hw.2, if_true]

theorem slotLine_capture (i j : Nat) {q : Bytes} (hq : q.head?.all (fun y => !isDigit y) = true) :
    slotLine (natDigits i ++ 58 :: 32 :: (bs "capture" ++ 32 :: 35 :: (natDigits j ++ q))) =
      if q.take 2 = [32, 115] then (.slot i (some j) true, q.drop 5) else (.slot i (some j) false, q) := by
  have hn := number_digits i (r := 58 :: 32 :: (bs "capture" ++ 32 :: 35 :: (natDigits j ++ q))) rfl
  have hw := takeWhile_split (p := isWord) (a := bs "capture") (r := 32 :: 35 :: (natDigits j ++ q)) (by decide) rfl
  have hm := number_digits j hq
  unfold slotLine
  simp only [hn.1, hn.2, List.drop_succ_cons, List.drop_zero, word, behindWord, hw.1, hw.2, hm.1, hm.2, if_neg (show bs "capture" ≠ bs "auto" by decide)]

theorem read_slotLine (f : FrameInfo) (c : Option Nat) (i : Nat) {r : Bytes} (h : Quiet r) :
    rBlock (ProgramFmt.slotLine f c i ++ r) = more [slotNode f i] r := by
  have ha := h.1.after
  have key : ∀ X, slotLine (natDigits i ++ 58 :: 32 :: (X ++ r)) = (slotNode f i, r) → rBlock (AstFmt.before c ++ (bs "let" ++ 32 :: 35 :: (natDigits i ++ 58 :: 32 :: (X ++ r)))) =
      more [slotNode f i] r := by
    intro X hX
    rw [rBlock_seps (before_sep c)]
    refine rBlock_node ?_ (by intro e; cases e) (by intro e; cases e) h.2.1
    rw [rNode_let, hX]
    exact rSuffix_other (by intro _ e; cases e)
  have text : ProgramFmt.slotLine f c i ++ r = AstFmt.before c ++ (bs "let" ++ 32 :: 35 :: (natDigits i ++ 58 :: 32 ::
      (((match ProgramFmt.captured f i with
      | none => bs "auto"
      | some j => bs "capture" ++ bs " " ++ ProgramFmt.slot j) ++ if f.selfSlot = some i then bs " self" else []) ++ r))) := by
    unfold ProgramFmt.slotLine
    simp only [List.append_assoc]
    rfl
  rw [text]
  refine key _ ?_
  unfold slotNode
  cases hc : ProgramFmt.captured f i with
  | none =>
    dsimp only
    by_cases hs : f.selfSlot = some i
    · rw [if_pos hs, List.append_assoc, slotLine_auto i (q := bs " self" ++ r) rfl, if_pos (show List.take 2 (bs " self" ++ r) = [32, 115] from rfl), decide_eq_true hs]
      rfl
    · rw [if_neg hs, List.append_nil, slotLine_auto i ha.1, if_neg h.2.2, decide_eq_false hs]
  | some j =>
    dsimp only
    by_cases hs : f.selfSlot = some i
    · rw [if_pos hs, show (bs "capture" ++ bs " " ++ ProgramFmt.slot j ++ bs " self" ++ r) = bs "capture" ++ 32 :: 35 :: (natDigits j ++ (bs " self" ++ r)) by
        simp only [ProgramFmt.slot, List.append_assoc]; rfl, slotLine_capture i j (q := bs " self" ++ r) rfl, if_pos (show List.take 2 (bs " self" ++ r) = [32, 115] from rfl), decide_eq_true hs]
      rfl
    · rw [if_neg hs, show (bs "capture" ++ bs " " ++ ProgramFmt.slot j ++ [] ++ r) = bs "capture" ++ 32 :: 35 :: (natDigits j ++ r) by
        simp only [ProgramFmt.slot, List.append_assoc]; rfl, slotLine_capture i j ha.digit, if_neg h.2.2, decide_eq_false hs]

theorem read_slots (f : FrameInfo) (c : Option Nat) {r : Bytes} (h : Quiet r) : ∀ l : List Nat,
    rBlock ((l.map (ProgramFmt.slotLine f c)).flatMap (AstFmt.between c ++ ·) ++ r) = more (l.map (slotNode f)) r ∧
      Quiet ((l.map (ProgramFmt.slotLine f c)).flatMap (AstFmt.between c ++ ·) ++ r)
  | [] => ⟨(more_nil r).symm, h⟩
  | i :: l => by
    obtain ⟨h1, h2⟩ := read_slots f c h l
    simp only [List.map_cons, List.flatMap_cons, List.append_assoc]
    refine ⟨?_, quiet_between _ _⟩
    rw [rBlock_seps (between_sep c), read_slotLine f c i h2]
    exact more_more h1

theorem read_frame (f : FrameInfo) (c : Option Nat) {r : Bytes} (h : Quiet r) :
    rBlock (ProgramFmt.frame f c ++ r) = more ((List.range f.slots).map (slotNode f)) r := by
  unfold ProgramFmt.frame
  cases List.range f.slots with
  | nil => exact (more_nil r).symm
  | cons i l =>
    obtain ⟨h1, h2⟩ := read_slots f c h l
    simp only [List.map_cons, AstFmt.sepBy, List.append_assoc]
    rw [read_slotLine f c i h2]
    exact more_more h1

/-! ### What was read -/

/-- The node of a statement. -/
def stmtNode : Stmt → Node
  | .expr e => .e e
  | s => .s s

theorem stmtsOf_nodes (b : List Stmt) : stmtsOf (b.map stmtNode) = b := by
  induction b with
  | nil => rfl
  | cons s b ih => cases s <;> exact congrArg _ ih

theorem stmtsOf_slots (f : FrameInfo) (l : List Nat) (ns : List Node) : stmtsOf (l.map (slotNode f) ++ ns) = stmtsOf ns := by
  induction l with
  | nil => rfl
  | cons i l ih => exact ih

theorem find_range (k : Option Nat) : ∀ n, (List.range n).find? (fun i => decide (k = some i)) = k.filter (fun i => decide (i < n))
  | 0 => by cases k <;> rfl
  | n + 1 => by
    rw [List.range_succ, List.find?_append, find_range k n]
    cases k with
    | none => rfl
    | some k =>
      by_cases h : k < n
      · simp [Option.filter, h, Nat.lt_succ_of_lt h]
      · by_cases e : k = n
        · subst e; simp [Option.filter]
        · have : ¬ k < n + 1 := by omega
          simp [Option.filter, h, e, this]

theorem frameOf_slots (f : FrameInfo) (b : List Stmt) : frameOf ((List.range f.slots).map (slotNode f) ++ b.map stmtNode) = plainFrame f := by
  have h0 : ∀ b : List Stmt, (b.map stmtNode).filterMap slotOf = ([] : List (Nat × Option Nat × Bool)) := by
    intro b
    induction b with
    | nil => rfl
    | cons s b ih => cases s <;> exact ih
  have h1 : ∀ l : List Nat, (l.map (slotNode f)).filterMap slotOf =
      l.map (fun i => (i, ProgramFmt.captured f i, decide (f.selfSlot = some i))) := by
    intro l
    induction l with
    | nil => rfl
    | cons i l ih => exact congrArg _ ih
  unfold frameOf plainFrame
  rw [List.filterMap_append, h0, h1, List.append_nil]
  simp only [List.length_map, List.length_range, List.filterMap_map, List.find?_map, Option.map_map]
  rw [FrameInfo.mk.injEq]
  refine ⟨rfl, ?_, ?_⟩
  · refine congrArg (fun g => List.filterMap g _) ?_
    funext i
    simp only [Function.comp, ProgramFmt.captured, Option.map_map]
    rfl
  · rw [← find_range]
    have : ∀ o : Option Nat, Option.map ((fun x => x.1) ∘ fun i => (i, ProgramFmt.captured f i, decide (f.selfSlot = some i))) o = o := by
      intro o; cases o <;> rfl
    rw [this]
    rfl

/-! ### Brackets -/

theorem rNode_open {X r : Bytes} {n : Node} (h : rNode X = some (n, r)) : rNode (40 :: X) = (
      if r.head? = some 41 then some (n, r.drop 1)
      else if r.take 2 = [32, 63] then some (.e (.unary .try_ n.expr noPos), r.drop 3)
      else do
        let (op, r) ← operator (r.drop 1)
        let (e', r) ← rNode r
        some (.e (.binary n.expr op e'.expr noPos), r.drop 1)) >>= fun y => rSuffix y.1 y.2 := by
  rw [rNode, skip_start (by decide), rAtom.eq_def]
  dsimp only
  rw [if_neg (by decide), if_neg (by decide), if_neg (by decide), if_neg (by decide), if_neg (by decide), if_neg (by decide), if_pos rfl, h]
  rfl

theorem rNode_paren {X r : Bytes} {e : Expr} (h : rNode X = some (.e e, 41 :: r)) : rNode (40 :: X) = rSuffix (.e e) r := by
  rw [rNode_open h, if_pos (show List.head? (41 :: r) = some 41 from rfl)]
  rfl

theorem rNode_tried {X r : Bytes} {e : Expr} (h : rNode X = some (.e e, 32 :: 63 :: 41 :: r)) :
    rNode (40 :: X) = rSuffix (.e (.unary .try_ e noPos)) r := by
  rw [rNode_open h, if_neg (show ¬ (List.head? (32 :: 63 :: 41 :: r) = some 41) by simp), if_pos (show List.take 2 (32 :: 63 :: 41 :: r) = [32, 63] from rfl)]
  rfl

theorem binOp_head (op : BinOp) : ∃ x xs, AstFmt.binOp op = x :: xs ∧ x ≠ 63 := by cases op <;> exact ⟨_, _, rfl, by decide⟩

theorem rNode_binary {X Y r : Bytes} {e e' : Expr} {op : BinOp} (h : rNode X = some (.e e, 32 :: (AstFmt.binOp op ++ 32 :: Y)))
    (h' : rNode (32 :: Y) = some (.e e', 41 :: r)) : rNode (40 :: X) = rSuffix (.e (.binary e op e' noPos)) r := by
  rw [rNode_open h, if_neg (show ¬ (List.head? (32 :: (AstFmt.binOp op ++ 32 :: Y)) = some 41) by simp),
    if_neg (show ¬ (List.take 2 (32 :: (AstFmt.binOp op ++ 32 :: Y)) = [32, 63]) by
      obtain ⟨x, xs, hx, hn⟩ := binOp_head op
      rw [hx]
      simpa using hn)]
  rw [show (32 :: (AstFmt.binOp op ++ 32 :: Y)).drop 1 = AstFmt.binOp op ++ 32 :: Y from rfl, operator_text]
  simp only [Option.bind_eq_bind, Option.bind_some, h']
  rfl

theorem rNode_minus {X r : Bytes} {e : Expr} (h : rNode X = some (.e e, r)) (hr : Done r) : rNode (45 :: X) = some (.e (.unary .minus e noPos), r) := by
  rw [rNode, skip_start (by decide), rAtom.eq_def]
  dsimp only
  rw [if_neg (by decide), if_neg (by decide), if_neg (by decide), if_neg (by decide), if_neg (by decide), if_pos rfl, h]
  exact rSuffix_done hr

theorem rSuffix_call {f : Expr} {es : List Expr} {X r : Bytes} (h : rList 41 X = some (es, r)) :
    rSuffix (.e f) (40 :: X) = rSuffix (.e (.call f es noPos)) r := by
  rw [rSuffix.eq_def]
  dsimp only
  rw [if_pos rfl, h]
  rfl

theorem rSuffix_index {f i : Expr} {X r : Bytes} (h : rNode X = some (.e i, 93 :: r)) :
    rSuffix (.e f) (91 :: X) = rSuffix (.e (.access f i noPos)) r := by
  rw [rSuffix.eq_def]
  dsimp only
  rw [if_neg (by decide), if_pos rfl, h]
  rfl

theorem rSuffix_field {w : World} {f : Expr} {x : Sym} {r : Bytes} (hx : IsIdent x) (hr : r.head?.all (fun y => !isWord y) = true) :
    rSuffix (.e f) (46 :: (AstFmt.symbol w x ++ r)) = rSuffix (.e (.access f (.lit (.ident x) noPos) noPos)) r := by
  rw [rSuffix.eq_def]
  dsimp only
  obtain ⟨h1, h2, -⟩ := word_split (w := w) hx hr
  rw [if_neg (by decide), if_neg (by decide), if_pos rfl, h1, h2]

theorem after_field {w : World} {x : Sym} (hx : IsIdent x) {r : Bytes} : After (46 :: (AstFmt.symbol w x ++ r)) := by
  refine ⟨rfl, ?_⟩
  intro d y e
  rw [symbol_name w hx] at e
  obtain ⟨⟨z, zs, rfl, h1, h2⟩, -⟩ := hx
  cases e
  have key : ∀ b : UInt8, isWordStart b = true → isDigit b = false := forall_byte (by decide +kernel)
  exact key _ h1

theorem rList_end (c : UInt8) (hc : isSep c = false) {s r : Bytes} (hs : s.all isSep = true) : rList c (s ++ c :: r) = some ([], r) := by
  rw [rList_seps hs, rList, skip_start hc]
  dsimp only
  rw [if_pos rfl]

theorem rItems_end {s r : Bytes} (hs : s.all isSep = true) : rItems (s ++ 93 :: r) = some ([], r) := by
  rw [rItems_seps hs, rItems, skip_start (by decide)]
  dsimp only
  rw [if_pos rfl]

theorem done_sep {s r : Bytes} (h : s.all isSep = true) (hr : Done r) : Done (s ++ r) := by
  cases s with
  | nil => exact hr
  | cons x s =>
    have key : ∀ x : UInt8, isSep x = true → (!isWord x && x != 40 && x != 91 && x != 46) = true := forall_byte (by decide +kernel)
    rw [List.all_cons, Bool.and_eq_true] at h
    exact key x h.1

theorem rNode_close (Y : Bytes) : rNode (41 :: Y) = none ∧ rNode (93 :: Y) = none := by
  constructor <;>
  · rw [rNode, skip_start (by decide), rAtom.eq_def]
    dsimp only
    rw [if_neg (by decide), if_neg (by decide), if_neg (by decide), if_neg (by decide), if_neg (by decide), if_neg (by decide), if_neg (by decide),
      if_neg (by decide), if_neg (by decide)]
    rfl

theorem rList_cons {c : UInt8} {X r r' : Bytes} {e : Expr} {es : List Expr} (hc : c = 41 ∨ c = 93) (h : rNode X = some (.e e, r))
    (h' : rList c r = some (es, r')) : rList c X = some (e :: es, r') := by
  obtain ⟨x, xs, hx⟩ := rNode_some h
  rw [rList, hx]
  dsimp only
  rw [if_neg, rBlock_cons hx, h]
  · simp only [Option.bind_eq_bind, Option.bind_some, h']
    rfl
  · rintro rfl
    have := (rBlock_cons hx).trans h
    rcases hc with rfl | rfl
    · rw [(rNode_close xs).1] at this; cases this
    · rw [(rNode_close xs).2] at this; cases this

theorem rItems_cons {w : World} {k : Sym} (hk : IsIdent k) {X r r' : Bytes} {e : Expr} {is : List (Sym × Expr)} (h : rNode X = some (.e e, r))
    (h' : rItems r = some (is, r')) : rItems (AstFmt.symbol w k ++ 58 :: X) = some ((k, e) :: is, r') := by
  obtain ⟨h1, h2, y, z, h3, h4⟩ := word_split (w := w) hk (r := 58 :: X) rfl
  have key : ∀ b : UInt8, isWordStart b = true → isSep b = false ∧ b ≠ 93 := forall_byte (by decide +kernel)
  rw [rItems, h3, skip_start (key y h4).1]
  dsimp only
  rw [if_neg (key y h4).2, ← h3, h1, h2]
  simp only [List.drop_succ_cons, List.drop_zero, h, Option.bind_eq_bind, Option.bind_some, h']
  rfl

/-! ### Expressions and statements -/

theorem read_part {w : World} {c : Option Nat} {b : List Stmt} {ns : List Node} (hn : b = [] → ns = [])
    (hb : ∀ r, Quiet r → rBlock (ProgramFmt.block w (AstFmt.indent c) b ++ r) = more ns r) (X : Bytes) :
    rBlock ((if b.isEmpty = true then [] else ProgramFmt.block w (AstFmt.indent c) b ++ AstFmt.line c) ++ (AstFmt.margin c ++ 101 :: X)) = more ns (101 :: X) := by
  cases b with
  | nil => rw [hn rfl, more_nil, if_pos List.isEmpty_nil, List.nil_append, rBlock_seps (margin_sep c)]
  | cons s ss =>
    rw [if_neg (by simp), List.append_assoc, hb]
    · unfold more
      rw [rBlock_seps (line_sep c), rBlock_seps (margin_sep c)]
    · refine quiet_line c ?_ ?_ <;>
      · cases c with
        | none => simp [AstFmt.margin]
        | some n => exact head_tabs n (by decide) (by simp)

end Hush.ProgramRead

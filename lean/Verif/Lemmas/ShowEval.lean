import Verif.Lemmas.ShowParse
import Verif.Lemmas.JsonRead
import Verif.Lemmas.MonoHeap
import Verif.Lemmas.ParseComplete
import Verif.Lemmas.InterpParts
import Verif.Lemmas.Library
import Verif.Spec.Execution
import Verif.Spec.Show

/-!
The text of data: it is that of the library, and the value of the expression has the same contents.
-/

namespace Hush
open Spec

/-! ### The text -/

mutual
theorem show_data {w : World} {h : Heap} : ∀ (d : Data) (v : Value), Readable w d → Holds h d v →
    ∃ n, Show.value w h n v = some (litText w d)
  | .nil, v, _, hv | .bool _, v, _, hv | .int _, v, _, hv | .float _, v, _, hv | .text _, v, _, hv => by
    rw [Holds] at hv
    subst hv
    exact ⟨1, rfl⟩
  | .list js, v, hr, hv => by
    rw [Holds] at hv
    obtain ⟨a, vs, rfl, h1, h2⟩ := hv
    obtain ⟨n, hn⟩ := show_items js vs hr h2
    refine ⟨n + 1, ?_⟩
    have ha : h.array a = vs := by simp [Heap.array, h1]
    simp only [Show.value, ha, hn]
    rfl
  | .record _, _, hr, _ => absurd hr (by simp [Readable])
theorem show_items {w : World} {h : Heap} : ∀ (js : List Data) (vs : List Value), ReadableItems w js → HoldItems h js vs →
    ∃ n, Show.all (Show.value w h n) vs = some (litTexts w js)
  | [], vs, _, hv => by
    rw [HoldItems] at hv
    subst hv
    exact ⟨0, rfl⟩
  | j :: js, vs, hr, hv => by
    rw [HoldItems] at hv
    obtain ⟨v, rest, rfl, h1, h2⟩ := hv
    have hr : Readable w j ∧ ReadableItems w js := hr
    obtain ⟨n, hn⟩ := show_data j v hr.1 h1
    obtain ⟨m, hm⟩ := show_items js rest hr.2 h2
    refine ⟨max n m, ?_⟩
    have e1 := show_mono w h (Nat.le_max_left n m) v _ hn
    have e2 := all_mono (show_mono w h (Nat.le_max_right n m)) rest _ hm
    simp only [Show.all, e1, e2]
    rfl
end

/-! ### The value -/

mutual
theorem eval_data {w : World} (m : Nat) : ∀ (d : Data) (e : Prog.Expr), Readable w d → LitProg w d e → ∀ s : RState,
    ∃ v p obj h', Yields w m e s v p obj { s with heap := h' } ∧ Holds h' d v ∧ HeapKept s.heap h'
  | .nil, e, _, he, s => by
    obtain ⟨p, rfl⟩ := he
    exact ⟨_, p, .nil, s.heap, ⟨nofun, 1, rfl⟩, rfl, .refl _⟩
  | .bool b, e, _, he, s => by
    obtain ⟨p, rfl⟩ := he
    exact ⟨_, p, .nil, s.heap, ⟨nofun, 1, rfl⟩, rfl, .refl _⟩
  | .text t, e, _, he, s => by
    obtain ⟨p, rfl⟩ := he
    exact ⟨_, p, .nil, s.heap, ⟨nofun, 1, rfl⟩, rfl, .refl _⟩
  | .int i, e, hr, he, s => by
    have hr : -2 ^ 63 < i ∧ i < 2 ^ 63 := hr
    rcases he with ⟨_, p, rfl⟩ | ⟨_, p, p', rfl⟩
    · exact ⟨_, p, .nil, s.heap, ⟨nofun, 1, rfl⟩, rfl, .refl _⟩
    · refine ⟨.int i, p', .nil, s.heap, ends_iff.2 (lim_go (s1 := s) (v := .int (-i)) (p := p) (x := .nil)
        ⟨nofun, 1, rfl⟩ (lim_const.2 ⟨nofun, ?_⟩)), rfl, .refl _⟩
      have : isI64 (- -i) = true := by simp [isI64]; omega
      simp only [unaryValue, World.arith, this, if_true]
      rw [Int.neg_neg]
      rfl
  | .float f, e, _, he, s => by
    rcases he with ⟨p, t, rfl, h⟩ | ⟨p, p', t, rfl, h⟩
    · exact ⟨.float (w.parseFloat t), p, .nil, s.heap, ⟨nofun, 1, rfl⟩, by rw [Holds, h], .refl _⟩
    · refine ⟨.float (w.fneg (w.parseFloat t)), p', .nil, s.heap, ends_iff.2 (lim_go (s1 := s) (v := .float (w.parseFloat t)) (p := p) (x := .nil)
        ⟨nofun, 1, rfl⟩ (lim_const.2 ⟨nofun, rfl⟩)), by rw [Holds, h], .refl _⟩
  | .list js, e, hr, he, s => by
    obtain ⟨p, es, rfl, he⟩ := he
    obtain ⟨vs, h1, g1, g2, g3⟩ := eval_items m js es hr he s
    refine ⟨.array h1.arrays.length, p, .nil, { h1 with arrays := h1.arrays ++ [vs] }, ends_array.2 (.inl ⟨vs, _, g1, rfl, rfl⟩), ?_, ?_⟩
    · rw [Holds]
      refine ⟨_, vs, rfl, by simp, items_grown (grown_array h1 vs) js vs g2⟩
    · exact g3.trans (grown_array h1 vs)
  | .record _, _, hr, _, _ => absurd hr (by simp [Readable])
theorem eval_items {w : World} (m : Nat) : ∀ (js : List Data) (es : List Prog.Expr), ReadableItems w js → LitProgs w js es → ∀ s : RState,
    ∃ vs h', InOrder w m hold es s vs { s with heap := h' } ∧ HoldItems h' js vs ∧ HeapKept s.heap h'
  | [], es, _, he, s => by
    cases he
    exact ⟨[], s.heap, .nil s, rfl, .refl _⟩
  | j :: js, es, hr, he, s => by
    obtain ⟨e, rest, rfl, h1, h2⟩ := he
    have hr : Readable w j ∧ ReadableItems w js := hr
    obtain ⟨v, p, obj, ha, g1, g2, g3⟩ := eval_data m j e hr.1 h1 s
    obtain ⟨vs, hb, k1, k2, k3⟩ := eval_items m js rest hr.2 h2 { s with heap := ha }
    exact ⟨v :: vs, hb, .cons g1 k1, ⟨v, vs, rfl, holds_grown k3 j v g2, k2⟩, g3.trans k3⟩
end

/-! ### Contents -/

mutual
theorem holds_unique {h : Heap} : ∀ (d d' : Data) (v : Value), Holds h d v → Holds h d' v → d = d'
  | .nil, d', v, h1, h2 | .bool _, d', v, h1, h2 | .int _, d', v, h1, h2 | .float _, d', v, h1, h2 => by
    rw [Holds] at h1
    subst h1
    cases d' <;> simp [Holds] at h2 <;> first | rfl | rw [h2]
  | .text s, d', v, h1, h2 => by
    rw [Holds] at h1
    subst h1
    cases d' <;> simp [Holds] at h2
    rw [utf8_inj h2]
  | .list js, d', v, h1, h2 => by
    rw [Holds] at h1
    obtain ⟨a, vs, rfl, h3, h4⟩ := h1
    cases d' with
    | list js' =>
      rw [Holds] at h2
      obtain ⟨a', vs', e, h5, h6⟩ := h2
      cases e
      rw [h3] at h5
      cases h5
      rw [items_unique js js' vs h4 h6]
    | _ => simp [Holds] at h2
  | .record es, d', v, h1, h2 => by
    rw [Holds] at h1
    obtain ⟨a, vs, rfl, h3, h4⟩ := h1
    cases d' with
    | record es' =>
      rw [Holds] at h2
      obtain ⟨a', vs', e, h5, h6⟩ := h2
      cases e
      rw [h3] at h5
      cases h5
      rw [entries_unique es es' vs h4 h6]
    | _ => simp [Holds] at h2
theorem items_unique {h : Heap} : ∀ (d d' : List Data) (v : List Value), HoldItems h d v → HoldItems h d' v → d = d'
  | [], d', v, h1, h2 => by
    rw [HoldItems] at h1
    subst h1
    cases d' with
    | nil => rfl
    | cons _ _ => simp [HoldItems] at h2
  | j :: js, d', v, h1, h2 => by
    rw [HoldItems] at h1
    obtain ⟨x, rest, rfl, h3, h4⟩ := h1
    cases d' with
    | nil => simp [HoldItems] at h2
    | cons j' js' =>
      rw [HoldItems] at h2
      obtain ⟨y, rest', e, h5, h6⟩ := h2
      cases e
      rw [holds_unique j j' x h3 h5, items_unique js js' rest h4 h6]
theorem entries_unique {h : Heap} : ∀ (d d' : List (List Char × Data)) (v : List (Value × Value)), HoldEntries h d v → HoldEntries h d' v → d = d'
  | [], d', v, h1, h2 => by
    rw [HoldEntries] at h1
    subst h1
    cases d' with
    | nil => rfl
    | cons _ _ => simp [HoldEntries] at h2
  | (k, j) :: js, d', v, h1, h2 => by
    rw [HoldEntries] at h1
    obtain ⟨x, rest, rfl, h3, h4⟩ := h1
    cases d' with
    | nil => simp [HoldEntries] at h2
    | cons e' js' =>
      obtain ⟨k', j'⟩ := e'
      rw [HoldEntries] at h2
      obtain ⟨y, rest', e, h5, h6⟩ := h2
      injection e with e1 e2
      injection e1 with e3 e4
      injection e3 with e3
      subst e4 e2
      rw [utf8_inj e3, holds_unique j j' x h3 h5, entries_unique js js' rest h4 h6]
end

/-! ### The program -/

theorem lex_root (src : Bytes) : lex src = lexFrom .root src := rfl

/-- Not a command argument. -/
def notArgument : TokenKind → Bool
  | .argument _ => false
  | _ => true

theorem erase_kind {k k' : TokenKind} (h : k.erase = k') (h' : notArgument k' = true) : k = k' := by
  cases k <;> first | exact h | (subst h; cases h')

theorem kinds_map {os : List Output} {ks : List TokenKind} (h : os.map Output.kind = ks.map .ok) (hk : ks.all notArgument = true) :
    (os.filterMap okToken).map (·.kind) = ks ∧ os.filterMap errOutput = [] := by
  induction os generalizing ks with
  | nil =>
    cases ks with
    | nil => exact ⟨rfl, rfl⟩
    | cons k ks => cases h
  | cons o os ih =>
    cases ks with
    | nil => cases h
    | cons k ks =>
      rw [List.map_cons, List.map_cons] at h
      injection h with h1 h2
      rw [List.all_cons, Bool.and_eq_true] at hk
      obtain ⟨g1, g2⟩ := ih h2 hk.2
      cases o with
      | ok t =>
        injection h1 with h1
        refine ⟨?_, g2⟩
        show t.kind :: (os.filterMap okToken).map (·.kind) = _
        rw [g1, erase_kind h1 hk.1]
      | error e => cases h1

theorem signed_code (f : Bytes → TokLit) (t : Bytes) : (signedKinds f t).all notArgument = true := by
  unfold signedKinds
  split <;> rfl

mutual
theorem data_code (w : World) : ∀ d : Data, (litKinds w d).all notArgument = true
  | .nil => rfl
  | .bool _ => rfl
  | .int i => by unfold litKinds; split <;> rfl
  | .float f => signed_code _ _
  | .text _ => rfl
  | .list [] => rfl
  | .list (j :: js) => by
    simp only [litKinds, itemKinds, List.all_cons, List.all_append, List.all_nil, data_code w j, more_code w js]
    rfl
  | .record _ => rfl
theorem more_code (w : World) : ∀ js : List Data, (moreKinds w js).all notArgument = true
  | [] => rfl
  | j :: js => by
    simp only [moreKinds, List.all_cons, List.all_append, data_code w j, more_code w js]
    rfl
end

theorem data_accepted {w : World} (d : Data) (hr : Readable w d) :
    ∃ e, Accepts (litText w d) ⟨[.expr e], 1⟩ ∧ LitProg w d e := by
  have hk := lex_data d hr [] rfl
  rw [List.append_nil] at hk
  have he : (lexFrom .root []).kinds = some (true, []) := rfl
  rw [he] at hk
  cases hl : lexFrom .root (litText w d) with
  | timeout => rw [hl] at hk; cases hk
  | crash os => rw [hl] at hk; simp [LexResult.kinds, prependKinds] at hk
  | done os =>
    rw [hl] at hk
    simp only [LexResult.kinds, prependKinds, List.append_nil, Option.some.injEq, Prod.mk.injEq, true_and] at hk
    obtain ⟨h1, h2⟩ := kinds_map hk (data_code w d)
    obtain ⟨e, he, hx⟩ := parse_data d hr _ h1
    have hp := parse_complete (b := [.expr e]) ⟨_, .blockLast (.exprStmt he), rfl⟩
    obtain ⟨e', ha, hx'⟩ := analyze_data ⟨false, false⟩ AState.initial d e hx
    refine ⟨e', ⟨⟨[.expr e], [], []⟩, ?_, rfl, ?_⟩, hx'⟩
    · rw [syntaxAnalysis, lex_root, hl]
      simp only [hp, h2]
      rfl
    · have hb : analyzeBlock ⟨false, false⟩ [.expr e] AState.initial = (some [.expr e'], AState.initial) := by
        simp [analyzeBlock, analyzeStmt, A.map, A.zip, A.ok, ha]
      rw [analyze, hb]
      rfl

theorem run_expr_program {w : World} (hl : 1 ≤ w.limit) {e : Prog.Expr} {argv : List Bytes} {file : Sym}
    {P : Heap → Value → Prop}
    (h : ∀ s : RState, ∃ v p obj h', Yields w 0 e s v p obj { s with heap := h' } ∧ P h' v) :
    ∃ n v s, runProgram w n ⟨[.expr e], 1⟩ argv file = (done v noPos, s) ∧ P s.heap v := by
  let s0 := RState.init argv file
  obtain ⟨v, p, obj, h', ⟨-, n, hn⟩, hp⟩ := h { s0 with stack := [.regular s0.std] }
  refine ⟨n + 3, v, { s0 with heap := h' }, ?_, hp⟩
  have hs : run w (n + 2) (.block 0 none [.expr e]) { s0 with stack := [.regular s0.std] } =
      (.ok ⟨.regular v, p, obj⟩, { { s0 with stack := [.regular s0.std] } with heap := h' }) := by
    show stepStmt n (run w n) 0 none (.expr e) { s0 with stack := [.regular s0.std] } = _
    simp only [stepStmt, hn]
  show stepProgram w (run w (n + 2)) 0 ⟨[.expr e], 1⟩ s0 = _
  have hx : extend w 1 noPos s0 = (.ok (), { s0 with stack := [.regular .nil] }) := by
    unfold extend
    rw [if_neg (by show ¬ 0 + 1 > w.limit; omega)]
    rfl
  simp only [stepProgram, Bind.bind, M.andThen, hx, M.get]
  have ht : store 0 s0.std { s0 with stack := [.regular .nil] } = (.ok (), { s0 with stack := [.regular s0.std] }) := rfl
  simp only [ht, hs]
  rfl

end Hush

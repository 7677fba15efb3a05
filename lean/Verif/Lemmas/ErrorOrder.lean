import Verif.Lemmas.PlacesParse
import Verif.Spec.ErrorOrder

/-!
Syntax errors are reported in the order of the tokens that they are about.
-/

namespace Hush
open Spec

variable (toks : List Token)

/-- The error is about the token with this index, or the end. -/
def AtRank : ParseError → Nat → Prop
  | .unexpected t _, r => toks[r]? = some t
  | .emptyCommandBlock p, r => (toks[r]?).map Token.pos = some p
  | .unexpectedEof, r => r = toks.length

/-- The index of the next token. -/
def rankOf (st : PState) : Nat := toks.length - st.toks.length

structure Ordered (st : PState) : Prop where
  rest : st.toks <:+ toks
  order : ∃ ks : List Nat, List.Forall₂ (AtRank toks) st.errors ks ∧ ks.Pairwise (· ≥ ·) ∧ ∀ k ∈ ks, k ≤ rankOf toks st

def OrderedError (e : ParseError) (st : PState) : Prop := st.toks <:+ toks ∧ ∃ r, AtRank toks e r ∧ r ≤ rankOf toks st ∧
  ∃ ks : List Nat, List.Forall₂ (AtRank toks) st.errors ks ∧ ks.Pairwise (· ≥ ·) ∧ ∀ k ∈ ks, k ≤ r

variable {toks}

theorem rank_head {st : PState} {t ts} (h : st.toks <:+ toks) (hs : st.toks = t :: ts) : toks[rankOf toks st]? = some t := by
  obtain ⟨pre, rfl⟩ := h
  unfold rankOf
  rw [List.length_append, Nat.add_sub_cancel, List.getElem?_append_right (Nat.le_refl _), Nat.sub_self, hs]
  rfl

theorem rank_mono {st : PState} {ts} (hs : ts <:+ st.toks) : rankOf toks st ≤ rankOf toks { st with toks := ts } :=
  Nat.sub_le_sub_left hs.length_le _

theorem parse_order : Yields (Ordered toks) (OrderedError toks) (InAstStmts fun _ => True) (parse toks) := by
  have lost : ∀ {st : PState} {e ts}, Ordered toks st → ts <:+ st.toks → AtRank toks e (rankOf toks st) → OrderedError toks e { st with toks := ts } := by
    intro st e ts h hs he
    exact ⟨hs.trans h.rest, _, he, rank_mono hs, h.order⟩
  have err : ∀ {st : PState} {e}, Ordered toks st → AtRank toks e (rankOf toks st) → OrderedError toks e st :=
    fun h he => lost h (List.suffix_refl _) he
  refine parse_walk ⟨trivial, fun _ _ _ _ => trivial, fun h t ht => h.rest.subset ht, ?_, ?_, ?_, ?_, ?_, ?_⟩
    ⟨List.suffix_refl _, [], .nil, .nil, nofun⟩
  · intro st ts h hs
    obtain ⟨ks, h1, h2, h3⟩ := h.order
    exact ⟨hs.trans h.rest, ks, h1, h2, fun k hk => Nat.le_trans (h3 k hk) (rank_mono hs)⟩
  · intro st h hs
    exact err h (by simp [AtRank, rankOf, hs])
  · intro st t ts x h hs _
    exact err h (rank_head h.rest hs)
  · intro st t ts x h hs _
    exact lost h (List.nil_suffix) (rank_head h.rest hs)
  · intro st t ts h hs _
    exact err h (by simp only [AtRank]; rw [rank_head h.rest hs]; rfl)
  · intro st e h
    obtain ⟨h0, r, h1, h2, ks, h3, h4, h5⟩ := h
    exact ⟨h0, r :: ks, .cons h1 h3, List.pairwise_cons.2 ⟨h5, h4⟩, List.forall_mem_cons.2 ⟨h2, fun k hk => Nat.le_trans (h5 k hk) h2⟩⟩

theorem forall₂_map_right {R : α → β → Prop} {S : α → γ → Prop} {f : β → γ} (hf : ∀ a b, R a b → S a (f b)) :
    ∀ {l : List α} {l' : List β}, List.Forall₂ R l l' → List.Forall₂ S l (l'.map f)
  | _, _, .nil => .nil
  | _, _, .cons h hs => .cons (hf _ _ h) (forall₂_map_right hf hs)

theorem forall₂_append {R : α → β → Prop} : ∀ {l m : List α} {l' m' : List β}, List.Forall₂ R l l' → List.Forall₂ R m m' → List.Forall₂ R (l ++ m) (l' ++ m')
  | _, _, _, _, .nil, h => h
  | _, _, _, _, .cons h hs, h' => .cons h (forall₂_append hs h')

theorem forall₂_reverse {R : α → β → Prop} : ∀ {l : List α} {l' : List β}, List.Forall₂ R l l' → List.Forall₂ R l.reverse l'.reverse
  | _, _, .nil => .nil
  | _, _, .cons h hs => by
    rw [List.reverse_cons, List.reverse_cons]
    exact forall₂_append (forall₂_reverse hs) (.cons h .nil)

/-- The errors are at non-decreasing offsets. -/
theorem errors_order {src : Bytes} {a : SyntaxAnalysis} (h : syntaxAnalysis src = some a) {offs : List Nat} (h1 : offs.Pairwise (· < ·))
    (h2 : ∀ k ∈ offs, k < src.length) (h3 : (tokensOf (lex src).outputs).map Token.pos = offs.map (lineCol src)) :
    ∃ ks : List Nat, List.Forall₂ (PlacedAt src) a.parseErrors ks ∧ ks.Pairwise (· ≤ ·) := by
  unfold syntaxAnalysis at h
  split at h
  · rename_i outs hl
    have hp := parse_order (toks := outs.filterMap okToken)
    split at h
    · rename_i b st hb
      injection h with h
      subst h
      rw [hb] at hp
      obtain ⟨ks, h4, h5, h6⟩ := hp.2.order
      have ht : (outs.filterMap okToken).map Token.pos = offs.map (lineCol src) := by
        rw [← h3, hl]
        rfl
      generalize outs.filterMap okToken = toks at ht h4 h5 h6
      have hlen : toks.length = offs.length := by simpa using congrArg List.length ht
      let f : Nat → Nat := fun r => offs[r]?.getD src.length
      have hf : ∀ r p, (toks[r]?).map Token.pos = some p → f r < src.length ∧ p = lineCol src (f r) := by
        intro r p hr
        have : (offs[r]?).map (lineCol src) = some p := by
          rw [← List.getElem?_map, ← ht, List.getElem?_map, hr]
        cases ho : offs[r]? with
        | none => rw [ho] at this; cases this
        | some k =>
          rw [ho] at this
          injection this with this
          simp only [f, ho, Option.getD_some]
          exact ⟨h2 k (List.mem_of_getElem? ho), this.symm⟩
      refine ⟨(ks.map f).reverse, ?_, ?_⟩
      · refine forall₂_reverse (forall₂_map_right (fun e r he => ?_) h4)
        cases e with
        | unexpectedEof =>
          simp only [AtRank] at he
          simp [PlacedAt, f, he, hlen]
        | unexpected t x =>
          simp only [AtRank] at he
          exact hf r t.pos (by rw [he]; rfl)
        | emptyCommandBlock p => exact hf r p he
      · rw [List.pairwise_reverse, List.pairwise_map]
        refine h5.imp fun {a b} hab => ?_
        simp only [f]
        cases hb : offs[b]? with
        | none =>
          have : offs[a]? = none := List.getElem?_eq_none (Nat.le_trans (List.getElem?_eq_none_iff.1 hb) hab)
          rw [this]
        | some kb =>
          cases ha : offs[a]? with
          | none => exact Nat.le_of_lt (h2 kb (List.mem_of_getElem? hb))
          | some ka =>
            simp only [Option.getD_some]
            rcases Nat.lt_or_eq_of_le hab with hlt | heq
            · obtain ⟨hb1, hb2⟩ := List.getElem?_eq_some_iff.1 hb
              obtain ⟨ha1, ha2⟩ := List.getElem?_eq_some_iff.1 ha
              rw [← ha2, ← hb2]
              exact Nat.le_of_lt (List.pairwise_iff_getElem.1 h1 b a hb1 ha1 hlt)
            · subst heq
              rw [ha] at hb
              cases hb
              exact Nat.le_refl _
    · cases h
  · cases h

end Hush

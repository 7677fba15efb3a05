import Verif.Lemmas.PlacesParse
import Verif.Lemmas.Args
import Verif.Spec.Reports

/-!
The texts of errors: no control characters, and the position can be read from the text.
-/

namespace Hush
open Spec Report

instance (s : Bytes) : Decidable (Printable s) := by unfold Printable; infer_instance

theorem printable_append {s t : Bytes} (hs : Printable s) (ht : Printable t) : Printable (s ++ t) := List.forall_mem_append.2 ⟨hs, ht⟩
theorem printable_flatMap {f : α → Bytes} {l : List α} (h : ∀ a ∈ l, Printable (f a)) : Printable (l.flatMap f) := by
  intro b hb
  obtain ⟨a, ha, hb⟩ := List.mem_flatMap.1 hb
  exact h a ha b hb
theorem printable_ite {c : Prop} [Decidable c] {s t : Bytes} (hs : Printable s) (ht : Printable t) : Printable (if c then s else t) := by
  split <;> assumption

theorem printable_digit {n : Nat} (h : n < 10) : Printable [UInt8.ofNat (48 + n)] := by
  have : n = 0 ∨ n = 1 ∨ n = 2 ∨ n = 3 ∨ n = 4 ∨ n = 5 ∨ n = 6 ∨ n = 7 ∨ n = 8 ∨ n = 9 := by omega
  rcases this with rfl | rfl | rfl | rfl | rfl | rfl | rfl | rfl | rfl | rfl <;> decide

theorem printable_nat (n : Nat) : Printable (natDigits n) := by
  induction n using natDigits.induct with
  | case1 n h => rw [natDigits, if_pos h]; exact printable_digit h
  | case2 n h ih => rw [natDigits, if_neg h]; exact printable_append ih (printable_digit (Nat.mod_lt _ (by decide)))

theorem printable_int (i : Int) : Printable (intText i) := by
  unfold intText
  exact printable_ite (printable_append (s := [cMinus]) (by decide) (printable_nat _)) (printable_nat _)

theorem printable_hex (n : Nat) : Printable (Show.hexText n) := by
  unfold Show.hexText
  intro b hb
  obtain ⟨d, hd, rfl⟩ := List.mem_map.1 hb
  have hd : d ∈ ([5, 4, 3, 2, 1, 0] : List Nat).map (fun i => n / 16 ^ i % 16) := (List.dropWhile_sublist _).subset hd
  obtain ⟨i, -, rfl⟩ := List.mem_map.1 hd
  have h : n / 16 ^ i % 16 < 16 := Nat.mod_lt _ (by decide)
  generalize n / 16 ^ i % 16 = d at h
  have : d = 0 ∨ d = 1 ∨ d = 2 ∨ d = 3 ∨ d = 4 ∨ d = 5 ∨ d = 6 ∨ d = 7 ∨ d = 8 ∨ d = 9 ∨ d = 10 ∨ d = 11 ∨ d = 12 ∨ d = 13 ∨ d = 14 ∨ d = 15 := by omega
  rcases this with rfl | rfl | rfl | rfl | rfl | rfl | rfl | rfl | rfl | rfl | rfl | rfl | rfl | rfl | rfl | rfl <;> decide

theorem printable_unicode (c : Bytes) : Printable (Show.unicode c) :=
  printable_append (printable_append (by decide) (printable_hex _)) (by decide)

/-- Bytes beyond ASCII. -/
def HighBytes (s : Bytes) : Prop := ∀ b ∈ s, 128 ≤ b

theorem printable_high {s : Bytes} (h : HighBytes s) : Printable s := by
  intro b hb
  have := h b hb
  constructor
  · exact UInt8.le_trans (by decide) this
  · rintro rfl; exact absurd this (by decide)

theorem printable_escapeChar (w : World) (first : Bool) {c : Bytes} (h : c.length = 1 ∨ HighBytes c) : Printable (Show.escapeChar w first c) := by
  unfold Show.escapeChar
  split
  · rename_i b
    refine printable_ite (by decide) (printable_ite (by decide) (printable_ite (by decide) (printable_ite (by decide) ?_)))
    split
    · rename_i hb
      rcases hb with rfl | rfl | rfl <;> decide
    split
    · rename_i hb
      intro x hx
      rw [List.mem_singleton.1 hx]
      refine ⟨hb.1, ?_⟩
      rintro rfl
      exact absurd hb.2 (by decide)
    · exact printable_unicode _
  · rename_i hc
    split
    · rcases h with h | h
      · obtain ⟨b, rfl⟩ := List.length_eq_one_iff.1 h
        exact absurd rfl (hc b)
      · exact printable_high h
    · exact printable_unicode _

theorem high_cont {b : UInt8} (h : isCont b = true) : 128 ≤ b := by
  simp only [isCont, decide_eq_true_eq] at h
  exact h.1

theorem high_second {b b' : UInt8} (h : utf8Second b b' = true) : 128 ≤ b' := by
  unfold utf8Second at h
  split at h
  · simp only [decide_eq_true_eq] at h; exact UInt8.le_trans (by decide) h.1
  split at h
  · simp only [decide_eq_true_eq] at h; exact h.1
  split at h
  · simp only [decide_eq_true_eq] at h; exact UInt8.le_trans (by decide) h.1
  split at h
  · simp only [decide_eq_true_eq] at h; exact h.1
  exact high_cont h

theorem high_fits (b : UInt8) (s : Bytes) {g : Nat} (hg : g ≤ utf8Fits b s) : HighBytes (s.take g) := by
  cases s with
  | nil => intro x hx; simp at hx
  | cons b' s =>
    simp only [utf8Fits] at hg
    split at hg
    · rename_i h
      cases g with
      | zero => intro x hx; simp at hx
      | succ g =>
        rw [List.take_succ_cons]
        refine List.forall_mem_cons.2 ⟨high_second h, fun x hx => high_cont ?_⟩
        have hs : s = s.takeWhile isCont ++ s.dropWhile isCont := (List.takeWhile_append_dropWhile).symm
        rw [hs, List.take_append_of_le_length (by omega)] at hx
        exact List.all_eq_true.1 List.all_takeWhile x (List.mem_of_mem_take hx)
    · have : g = 0 := by omega
      subst this
      intro x hx
      simp at hx

/-- A chunk is one byte, or consists of bytes beyond ASCII. -/
theorem chunk_shape {s : Bytes} (h : s ≠ []) : (s.take (utf8Chunk s).2).length = 1 ∨ HighBytes (s.take (utf8Chunk s).2) := by
  cases s with
  | nil => exact absurd rfl h
  | cons b s =>
    have : (utf8Chunk (b :: s)).2 = min (utf8Width b - 1) (utf8Fits b s) + 1 := by
      unfold utf8Chunk
      dsimp only
      split <;> rfl
    rw [this, List.take_succ_cons]
    by_cases hb : utf8Width b ≤ 1
    · left
      have : min (utf8Width b - 1) (utf8Fits b s) = 0 := by omega
      rw [this]
      rfl
    · right
      refine List.forall_mem_cons.2 ⟨?_, high_fits b s (Nat.min_le_right _ _)⟩
      rw [utf8Width] at hb
      split at hb
      · exact absurd (Nat.le_refl _) hb
      · rename_i hb'
        rcases Nat.lt_or_ge b.toNat 128 with h | h
        · exact absurd (UInt8.le_iff_toNat_le.2 (by simpa using Nat.le_of_lt_succ h)) hb'
        · exact UInt8.le_iff_toNat_le.2 (by simpa using h)

theorem printable_escapeOf (w : World) : ∀ n first s, Printable (Show.escapeOf w n first s)
  | 0, _, _ => by simp [Show.escapeOf, Printable]
  | _ + 1, _, [] => by simp [Show.escapeOf, Printable]
  | n + 1, first, b :: s => by
    rw [Show.escapeOf]
    · exact printable_append (printable_escapeChar w first (chunk_shape (by simp))) (printable_escapeOf w n _ _)
    · simp

theorem printable_escape (w : World) (s : Bytes) : Printable (Show.escapeDebug w s) := printable_escapeOf w _ _ _

theorem printable_symbol (w : World) (x : Sym) : Printable (Report.symbol w x) := printable_ite (by decide) (printable_escape w _)

theorem printable_byteChar (w : World) (b : UInt8) : Printable (Show.escapeChar w true (utf8Encode b.toNat)) := by
  refine printable_escapeChar w true ?_
  have hb := b.toNat_lt
  unfold utf8Encode
  split
  · exact .inl rfl
  · right
    rename_i h
    rw [if_pos (show b.toNat < 0x800 by omega)]
    have h1 : b.toNat / 64 < 4 := by omega
    have h2 : b.toNat % 64 < 64 := Nat.mod_lt _ (by decide)
    intro x hx
    simp only [List.mem_cons, List.not_mem_nil, or_false] at hx
    rw [UInt8.le_iff_toNat_le]
    rcases hx with rfl | rfl <;> simp <;> omega

theorem printable_bs_fixed {x : String} (h : (Expected.msg x).Fixed) : Printable (bs x) := by
  simp only [Expected.Fixed, List.mem_cons, List.not_mem_nil, or_false] at h
  rcases h with rfl | rfl | rfl | rfl | rfl | rfl | rfl <;> decide +kernel

section
variable {w : World} (hw : ∀ x, Printable (w.floatDisplay x))
include hw

theorem printable_literal (l : TokLit) : Printable (Report.literal w l) := by
  cases l with
  | nil => show Printable (bs "nil"); decide
  | true_ => show Printable (bs "true"); decide
  | false_ => show Printable (bs "false"); decide
  | int i => exact printable_int i
  | float t => exact hw _
  | byte b => exact printable_append (printable_append (by decide) (printable_byteChar w b)) (by decide)
  | string s => exact printable_append (s := [34]) (by decide) (printable_append (printable_escape w _) (by decide))

omit hw in
theorem printable_argUnit (u : ArgUnit) : Printable (Report.argUnit w u) := by
  cases u with
  | literal s => exact printable_escape w _
  | dollar x p => exact printable_append (printable_append (by decide) (printable_symbol w x)) (by decide)

omit hw in
theorem printable_sepBy {sep : Bytes} (hs : Printable sep) : ∀ {l : List Bytes}, (∀ t ∈ l, Printable t) → Printable (AstFmt.sepBy sep l)
  | [], _ => nofun
  | t :: ts, h => by
    have h := List.forall_mem_cons.1 h
    exact printable_append h.1 (printable_flatMap fun t ht => printable_append hs (h.2 t ht))

omit hw in
theorem printable_argExpansion (e : ArgExpansion) : Printable (Report.argExpansion w e) := by
  cases e with
  | home => show Printable (bs "~/"); decide
  | star => show Printable (bs "*"); decide
  | percent => show Printable (bs "%"); decide
  | range a b =>
    exact printable_append (printable_append (printable_append (printable_append (by decide) (printable_int a)) (by decide)) (printable_int b)) (by decide)
  | collection items =>
    refine printable_append (printable_append (by decide) (printable_sepBy (by decide) fun t ht => ?_)) (by decide)
    obtain ⟨u, -, rfl⟩ := List.mem_map.1 ht
    exact printable_argUnit u
  | charClass s => exact printable_append (printable_append (by decide) (printable_escape w _)) (by decide)

omit hw in
theorem printable_argPart (p : ArgPart) : Printable (Report.argPart w p) := by
  cases p with
  | unquoted u => exact printable_argUnit u
  | singleQuoted s => exact printable_append (printable_append (by decide) (printable_escape w _)) (by decide)
  | doubleQuoted us => exact printable_append (printable_append (by decide) (printable_flatMap fun u _ => printable_argUnit u)) (by decide)
  | expansion e => exact printable_argExpansion e
  | envAssign => show Printable (bs "="); decide

theorem printable_token (k : TokenKind) : Printable (Report.token w k) := by
  cases k with
  | identifier s => exact printable_symbol w s
  | keyword k => cases k <;> (simp only [Report.token, Report.keyword]; decide)
  | operator o => cases o <;> (simp only [Report.token, Report.operator]; decide)
  | literal l => exact printable_literal hw l
  | argument ps => exact printable_flatMap fun p _ => printable_argPart p
  | cmdOperator o => cases o with
    | output a => cases a <;> (simp only [Report.token, Report.cmdOperator]; decide)
    | input a => cases a <;> (simp only [Report.token, Report.cmdOperator]; decide)
    | try_ => simp only [Report.token, Report.cmdOperator]; decide
  | _ => simp only [Report.token]; decide

omit hw in
theorem printable_position (path : Bytes) (p : Pos) : Printable (Report.position w path p) := by
  unfold Report.position
  refine printable_append (printable_append (printable_append (printable_append (printable_append ?_ (by decide)) (printable_nat _)) (by decide))
    (printable_nat _)) (by decide)
  exact printable_ite (by decide) (printable_escape w _)

theorem printable_expected {x : Expected} (hx : x.Fixed) : Printable (Report.expected w x) := by
  cases x with
  | token k => exact printable_append (printable_append (by decide) (printable_token hw k)) (by decide)
  | msg s => exact printable_bs_fixed hx

theorem printable_parseError (path : Bytes) {e : ParseError} (he : ∀ t x, e = .unexpected t x → x.Fixed) : Printable (Report.parseError w path e) := by
  cases e with
  | unexpectedEof => simp only [Report.parseError]; decide
  | unexpected t x =>
    exact printable_append (printable_append (printable_append (printable_append (printable_position path t.pos) (by decide)) (printable_token hw _))
      (by decide)) (printable_expected hw (he t x rfl))
  | emptyCommandBlock p => exact printable_append (printable_position path p) (by decide)

omit hw in
theorem printable_semError (path : Bytes) (e : SemError) : Printable (Report.semError w path e) := by
  refine printable_append (printable_append (printable_position path e.pos) (by decide)) ?_
  cases e.kind with
  | undeclaredVariable x => exact printable_append (printable_append (by decide) (printable_symbol w x)) (by decide)
  | duplicateVariable x => exact printable_append (printable_append (by decide) (printable_symbol w x)) (by decide)
  | duplicateKey x => exact printable_append (printable_append (by decide) (printable_symbol w x)) (by decide)
  | _ => simp only [Report.semKind]; decide

omit hw in
theorem printable_lexError (path : Bytes) {e : LexError}
    (he : e.error = .unexpectedEof ∨ e.error = .emptyByteLiteral ∨ ∃ c, e.error = .unexpected c) : Printable (Report.lexError w path e) := by
  refine printable_append (printable_append (printable_append (printable_position path e.pos) (by decide)) ?_) (by decide)
  rcases he with h | h | ⟨c, h⟩ <;> rw [h]
  · simp only [Report.lexKind]; decide
  · simp only [Report.lexKind]; decide
  · exact printable_append (printable_append (by decide) (printable_byteChar w c)) (by decide)

end

/-- The messages of the parser are fixed. -/
theorem messages_fixed {src : Bytes} {a : SyntaxAnalysis} (h : syntaxAnalysis src = some a) :
    ∀ t x, .unexpected t x ∈ a.parseErrors → x.Fixed := by
  unfold syntaxAnalysis at h
  split at h
  · rename_i outs hl
    have hp : Yields (fun st => (∀ t ∈ st.toks, t ∈ outs.filterMap okToken) ∧ ∀ t x, .unexpected t x ∈ st.errors → x.Fixed)
        (fun e st => (∀ t x, e = .unexpected t x → x.Fixed) ∧ (∀ t ∈ st.toks, t ∈ outs.filterMap okToken) ∧ ∀ t x, .unexpected t x ∈ st.errors → x.Fixed)
        (InAstStmts fun _ => True) (parse (outs.filterMap okToken)) := by
      refine parse_walk ⟨trivial, fun _ _ _ _ => trivial, fun h => h.1, fun h hs => ⟨fun t ht => h.1 t (hs.subset ht), h.2⟩, fun h _ => ⟨nofun, h⟩,
        fun h _ hx => ⟨fun _ _ he => ?_, h⟩, fun h _ hx => ⟨fun _ _ he => ?_, nofun, h.2⟩, fun h _ _ => ⟨nofun, h⟩, fun h => ⟨h.2.1, fun t x he => ?_⟩⟩
        ⟨fun _ h => h, nofun⟩
      · injection he with _ he; exact he ▸ hx
      · injection he with _ he; exact he ▸ hx
      · rcases List.mem_cons.1 he with he | he
        · exact h.1 t x he.symm
        · exact h.2.2 t x he
    split at h
    · rename_i b st hb
      injection h with h
      subst h
      rw [hb] at hp
      exact fun t x he => hp.2.2 t x (List.mem_reverse.1 he)
    · cases h
  · cases h

/-! ### Positions -/

theorem digits_cut {n m : Nat} {c : UInt8} {s t : Bytes} (hc : isDigit c = false) (h : natDigits n ++ c :: s = natDigits m ++ c :: t) : n = m ∧ s = t := by
  have hcut : ∀ k (r : Bytes), (natDigits k ++ c :: r).takeWhile isDigit = natDigits k := by
    intro k r
    rw [List.takeWhile_append_of_pos (natDigits_digits k), List.takeWhile_cons_of_neg (by rw [hc]; decide), List.append_nil]
  have h1 : natDigits n = natDigits m := by rw [← hcut n s, ← hcut m t, h]
  refine ⟨?_, ?_⟩
  · rw [← natDigits_decimal n, ← natDigits_decimal m, h1]
  · rw [h1] at h
    exact List.cons_inj_right _ |>.1 (List.append_cancel_left h)

theorem position_cut {w : World} {path : Bytes} {p p' : Pos} (hp : p ≠ Ast.illPos) (hp' : p' ≠ Ast.illPos) {s t : Bytes}
    (h : Report.position w path p ++ s = Report.position w path p' ++ t) : p = p' := by
  unfold Report.position at h
  rw [if_neg hp, if_neg hp'] at h
  simp only [List.append_assoc, List.append_cancel_left_eq] at h
  obtain ⟨h1, h2⟩ := digits_cut (c := 44) rfl h
  have h3 := List.append_cancel_left (as := [32, 99, 111, 108, 117, 109, 110, 32]) h2
  obtain ⟨h4, -⟩ := digits_cut (c := 41) rfl h3
  cases p; cases p'
  exact congr (congrArg Pos.mk h1) h4

end Hush

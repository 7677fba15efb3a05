import Verif.Lemmas.ParseTop
import Verif.Lemmas.LexNames
import Verif.Lemmas.AnalyzeBasic
import Verif.Lemmas.AnalyzeStatic
import Verif.Spec.Grammar
import Verif.Model.Frontend

/-!
A syntax tree derived from tokens of the lexer satisfies `WrittenRule`.
-/

namespace Hush
open Spec Ast

/-- A token as produced by the lexer. -/
def TokWritten (t : Token) : Prop := TokNames t ∧ t.pos ≠ illPos

def WrittenE (e : Expr) : Prop := ∀ c, Everywhere WrittenRule c (.expr e)
def WrittenS (s : Stmt) : Prop := ∀ c, Everywhere WrittenRule c (.stmt s)
def WrittenB (b : Block) : Prop := ∀ c, Everywhere WrittenRule c (.block b)

def WrittenPhrase : Phrase → Prop
  | .level _ e | .postfix e | .primary e => WrittenE e
  | .exprs es => ∀ e ∈ es, WrittenE e
  | .items is => ∀ i ∈ is, UserName i.1.1 ∧ WrittenE i.2
  | .func ps b => (∀ p ∈ ps, UserName p.1) ∧ WrittenB b
  | .cond c t e => WrittenE c ∧ WrittenB t ∧ WrittenB e
  | .stmt s _ => WrittenS s
  | .block b _ => WrittenB b

theorem written_addPiece (S : Sym → Prop) (p : Ast.ArgPart) (ps : List Ast.ArgPart) (pos pos' : Pos)
    (hp : ∀ x ∈ argVars ⟨[p], pos⟩, S x) (hps : ∀ x ∈ argVars ⟨ps, pos'⟩, S x) :
    ∀ x ∈ argVars ⟨addPiece p ps, pos'⟩, S x := by
  unfold addPiece
  split
  · exact hps
  · intro x hx
    apply hps
    simpa [argVars, unitVars] using hx
  · intro x hx
    simp only [argVars, List.flatMap_cons, List.mem_append, List.flatMap_nil, List.append_nil] at hx hp hps
    rcases hx with hx | hx
    · exact hp x hx
    · exact hps x hx

theorem written_argParts {ps : List Hush.ArgPart} (h : PartsNames ps) (pos : Pos) :
    ∀ x ∈ argVars ⟨argParts ps, pos⟩, UserName x := by
  unfold argParts
  have hpieces : ∀ q ∈ ps.flatMap partPieces, ∀ x ∈ argVars ⟨[q], pos⟩, UserName x := by
    intro q hq
    obtain ⟨p, hp, hq⟩ := List.mem_flatMap.mp hq
    have hn := h p hp
    intro x hx
    cases p with
    | unquoted u => simp only [partPieces, List.mem_singleton] at hq; subst hq; simp [argVars] at hx; exact hn x hx
    | singleQuoted s => simp only [partPieces, List.mem_singleton] at hq; subst hq; simp [argVars, unitVars] at hx
    | doubleQuoted us =>
      simp only [partPieces, List.mem_map] at hq
      obtain ⟨u, hu, rfl⟩ := hq
      simp [argVars] at hx
      exact hn u hu x hx
    | expansion e =>
      simp only [partPieces, List.mem_singleton] at hq; subst hq
      cases e <;> simp [argVars] at hx
      obtain ⟨u, hu, hx⟩ := hx
      exact hn u hu x hx
    | envAssign => simp only [partPieces, List.mem_singleton] at hq; subst hq; simp [argVars, unitVars] at hx
  revert hpieces
  generalize ps.flatMap partPieces = qs
  intro hq
  induction qs with
  | nil => intro x hx; simp [argVars] at hx
  | cons q qs ih =>
    exact written_addPiece _ q _ pos pos (hq q (by simp)) (ih (fun q' h' => hq q' (by simp [h'])))

theorem written_arg {ps : List Hush.ArgPart} {p : Pos} (h : TokWritten ⟨.argument ps, p⟩) : ArgWritten ⟨argParts ps, p⟩ :=
  ⟨h.2, written_argParts h.1 p⟩

theorem many_all {α : Type} {P : α → List Token → Prop} {Q : α → Prop} {as : List α} {ts : List Token} (h : Many P as ts)
    (hp : ∀ a ts, P a ts → (∀ t ∈ ts, TokWritten t) → Q a) (ht : ∀ t ∈ ts, TokWritten t) : ∀ a ∈ as, Q a := by
  induction h with
  | nil => intro a ha; cases ha
  | cons h1 _ ih =>
    intro a ha
    rcases List.mem_cons.mp ha with rfl | ha
    · exact hp _ _ h1 (fun t h => ht t (by simp [h]))
    · exact ih (fun t h => ht t (by simp [h])) a ha

theorem sepBy_all {α : Type} {P : α → List Token → Prop} {Q : α → Prop} {sep} {as : List α} {ts : List Token}
    (h : SepBy P sep as ts)
    (hp : ∀ a ts, P a ts → (∀ t ∈ ts, TokWritten t) → Q a) (ht : ∀ t ∈ ts, TokWritten t) : ∀ a ∈ as, Q a := by
  induction h with
  | nil => intro a ha; cases ha
  | last h1 =>
    intro a ha
    simp only [List.mem_singleton] at ha
    subst ha
    exact hp _ _ h1 ht
  | cons h1 _ ih =>
    intro a ha
    rcases List.mem_cons.mp ha with rfl | ha
    · exact hp _ _ h1 (fun t h => ht t (by simp [h]))
    · exact ih (fun t h => ht t (by simp [h])) a ha

theorem written_target {t : RedirectionTarget} {tok : Token} (h : Target t tok) (ht : TokWritten tok) (n : Nat) :
    RedirWritten (.output n t) := by
  cases h with
  | fd _ => trivial
  | file _ => exact written_arg ht

theorem written_redir (r : Redirection) (ts : List Token) (h : Redir r ts) (ht : ∀ t ∈ ts, TokWritten t) : RedirWritten r := by
  cases h with
  | input => exact written_arg (ht _ (by simp))
  | append => exact written_arg (ht _ (by simp))
  | output h => exact written_target h (ht _ (by simp)) _
  | appendFd _ => exact written_arg (ht _ (by simp))
  | outputFd _ h => exact written_target h (ht _ (by simp)) _

theorem written_argTok (a : Argument) (ts : List Token) (h : ArgTok a ts) (ht : ∀ t ∈ ts, TokWritten t) : ArgWritten a := by
  cases h with
  | mk => exact written_arg (ht _ (by simp))

theorem written_basic (c : BasicCommand) (ts : List Token) (h : Basic c ts) (ht : ∀ t ∈ ts, TokWritten t) : BasicWritten c := by
  cases h with
  | mk hE hP _ hA hR _ _ _ =>
    refine ⟨written_argTok _ _ hP (fun t h => ht t (by simp at h; simp [h])), ?_, ?_, ?_⟩
    · refine many_all hE ?_ (fun t h => ht t (by simp [h]))
      intro e ts he ht
      cases he with
      | mk =>
        have := ht _ (.head _)
        refine ⟨fun x hx => ?_, this.2, written_argParts (fun p hp => this.1 p (by simp [hp])) _⟩
        exact this.1 (.unquoted _) (by simp) x hx
    · exact many_all hA written_argTok (fun t h => ht t (by simp [h]))
    · exact many_all hR written_redir (fun t h => ht t (by simp [h]))

theorem written_pipeline (c : Command) (ts : List Token) (h : Pipeline c ts) (ht : ∀ t ∈ ts, TokWritten t) :
    ∀ bc ∈ c.head :: c.tail, BasicWritten bc := by
  cases h with
  | mk hH hT =>
    intro bc hbc
    rcases List.mem_cons.mp hbc with rfl | hbc
    · exact written_basic _ _ hH (fun t h => ht t (by simp [h]))
    · refine many_all hT ?_ (fun t h => ht t (by simp [h])) bc hbc
      intro c ts hc ht
      cases hc with
      | mk hb => exact written_basic _ _ hb (fun t h => ht t (by simp [h]))

theorem written_cmdBlock {b : CommandBlock} {ts : List Token} (h : CmdBlock b ts) (ht : ∀ t ∈ ts, TokWritten t) :
    ∀ c ∈ b.head :: b.tail, ∀ bc ∈ c.head :: c.tail, BasicWritten bc := by
  cases h with
  | one h =>
    intro c hc
    simp only [List.mem_singleton] at hc
    subst hc
    exact written_pipeline _ _ h (fun t h => ht t (by simp [h]))
  | many h hT =>
    intro c hc
    rcases List.mem_cons.mp hc with rfl | hc
    · exact written_pipeline _ _ h (fun t h => ht t (by simp [h]))
    · exact sepBy_all hT written_pipeline (fun t h => ht t (by simp [h])) c hc

theorem written_block_nil : WrittenB [] := fun _ => everywhere_intro trivial (fun _ _ h => by cases h)

theorem written_lit (l : TokLit) (p : Pos) : WrittenE (.lit (litValue l) p) := by
  intro c
  cases l <;> exact everywhere_intro trivial (fun _ _ h => by cases h)

theorem written_derives {nd : Phrase} {ts : List Token} (h : Derives nd ts) : (∀ t ∈ ts, TokWritten t) → WrittenPhrase nd := by
  induction h with
  | binary _ _ _ ih1 ih2 =>
    intro ht
    have h1 := ih1 (fun t h => ht t (by simp [h]))
    have h2 := ih2 (fun t h => ht t (by simp [h]))
    intro c
    refine everywhere_intro trivial (fun _ _ h => ?_)
    cases h
    · exact h1 _
    · exact h2 _
  | up _ ih => exact ih
  | minus _ ih =>
    intro ht c
    have h1 := ih (fun t h => ht t (by simp [h]))
    refine everywhere_intro trivial (fun _ _ h => ?_)
    cases h
    exact h1 _
  | not _ ih =>
    intro ht c
    have h1 := ih (fun t h => ht t (by simp [h]))
    refine everywhere_intro trivial (fun _ _ h => ?_)
    cases h
    exact h1 _
  | noPrefix _ ih => exact ih
  | call _ _ ih1 ih2 =>
    intro ht c
    have h1 := ih1 (fun t h => ht t (by simp [h]))
    have h2 := ih2 (fun t h => ht t (by simp [h]))
    refine everywhere_intro trivial (fun _ _ h => ?_)
    cases h with
    | callee => exact h1 _
    | arg _ _ _ _ hm => exact h2 _ hm _
  | index _ _ ih1 ih2 =>
    intro ht c
    have h1 := ih1 (fun t h => ht t (by simp [h]))
    have h2 := ih2 (fun t h => ht t (by simp [h]))
    refine everywhere_intro trivial (fun _ _ h => ?_)
    cases h
    · exact h1 _
    · exact h2 _
  | @dot o ts x p p' _ ih1 =>
    intro ht c
    have h1 := ih1 (fun t h => ht t (by simp [h]))
    have h2 := ht ⟨.identifier x, p'⟩ (by simp)
    refine everywhere_intro trivial (fun _ _ h => ?_)
    cases h
    · exact h1 _
    · exact everywhere_intro h2.1 (fun _ _ h => by cases h)
  | try_ _ ih =>
    intro ht c
    have h1 := ih (fun t h => ht t (by simp [h]))
    refine everywhere_intro trivial (fun _ _ h => ?_)
    cases h
    exact h1 _
  | noPostfix _ ih => exact ih
  | @ident x p =>
    intro ht c
    exact everywhere_intro (ht ⟨.identifier x, p⟩ (by simp)).1 (fun _ _ h => by cases h)
  | self_ => intro _ c; exact everywhere_intro trivial (fun _ _ h => by cases h)
  | lit => intro _; exact written_lit _ _
  | array _ ih =>
    intro ht c
    have h1 := ih (fun t h => ht t (by simp [h]))
    refine everywhere_intro trivial (fun _ _ h => ?_)
    cases h with
    | item _ _ _ hm => exact h1 _ hm _
  | dict _ ih =>
    intro ht c
    have h1 := ih (fun t h => ht t (by simp [h]))
    refine everywhere_intro (fun i hi => (h1 i hi).1) (fun _ _ h => ?_)
    cases h with
    | value _ _ _ _ hm => exact (h1 _ hm).2 _
  | function _ ih =>
    intro ht c
    have h1 := ih (fun t h => ht t (by simp [h]))
    refine everywhere_intro h1.1 (fun _ _ h => ?_)
    cases h
    exact h1.2 _
  | if_ _ ih =>
    intro ht c
    have h1 := ih (fun t h => ht t (by simp [h]))
    refine everywhere_intro trivial (fun _ _ h => ?_)
    cases h
    · exact h1.1 _
    · exact h1.2.1 _
    · exact h1.2.2 _
  | paren _ ih => intro ht; exact ih (fun t h => ht t (by simp [h]))
  | command hc =>
    intro ht c
    exact everywhere_intro (written_cmdBlock hc ht) (fun _ _ h => by cases h)
  | exprsNil => intro _ e he; cases he
  | exprsLast _ ih =>
    intro ht e he
    simp only [List.mem_singleton] at he
    subst he
    exact ih ht
  | exprsCons _ _ ih1 ih2 =>
    intro ht e he
    rcases List.mem_cons.mp he with rfl | he
    · exact ih1 (fun t h => ht t (by simp [h]))
    · exact ih2 (fun t h => ht t (by simp [h])) e he
  | itemsNil => intro _ e he; cases he
  | @itemsLast x px pc e ts _ ih =>
    intro ht i hi
    simp only [List.mem_singleton] at hi
    subst hi
    exact ⟨(ht ⟨.identifier x, px⟩ (by simp)).1, ih (fun t h => ht t (by simp [h]))⟩
  | @itemsCons x px pc e ts is ts' p _ _ ih1 ih2 =>
    intro ht i hi
    rcases List.mem_cons.mp hi with rfl | hi
    · exact ⟨(ht ⟨.identifier x, px⟩ (by simp)).1, ih1 (fun t h => ht t (by simp [h]))⟩
    · exact ih2 (fun t h => ht t (by simp [h])) i hi
  | func hp _ ih =>
    intro ht
    refine ⟨sepBy_all hp ?_ (fun t h => ht t (by simp [h])), ih (fun t h => ht t (by simp [h]))⟩
    intro a ts ha hts
    cases ha with
    | mk => exact (hts _ (.head _)).1
  | condThen _ _ ih1 ih2 =>
    intro ht
    exact ⟨ih1 (fun t h => ht t (by simp [h])), ih2 (fun t h => ht t (by simp [h])), written_block_nil⟩
  | condElse _ _ _ ih1 ih2 ih3 =>
    intro ht
    exact ⟨ih1 (fun t h => ht t (by simp [h])), ih2 (fun t h => ht t (by simp [h])), ih3 (fun t h => ht t (by simp [h]))⟩
  | condElseif _ _ _ ih1 ih2 ih3 =>
    intro ht
    refine ⟨ih1 (fun t h => ht t (by simp [h])), ih2 (fun t h => ht t (by simp [h])), ?_⟩
    have h3 := ih3 (fun t h => ht t (by simp [h]))
    intro c
    refine everywhere_intro trivial (fun _ _ h => ?_)
    cases h
    · refine everywhere_intro trivial (fun _ _ h => ?_)
      cases h
      refine everywhere_intro trivial (fun _ _ h => ?_)
      cases h
      · exact h3.1 _
      · exact h3.2.1 _
      · exact h3.2.2 _
    · exact written_block_nil _
  | @let_ x p p' =>
    intro ht c
    refine everywhere_intro (ht ⟨.identifier x, p⟩ (by simp)).1 (fun _ _ h => ?_)
    cases h
    exact everywhere_intro trivial (fun _ _ h => by cases h)
  | @letInit x p p' p'' e ts _ ih =>
    intro ht c
    have h1 := ih (fun t h => ht t (by simp [h]))
    refine everywhere_intro (ht ⟨.identifier x, p⟩ (by simp)).1 (fun _ _ h => ?_)
    cases h
    exact h1 _
  | @letFun x p p' ps b ts _ ih =>
    intro ht c
    have h1 := ih (fun t h => ht t (by simp [h]))
    refine everywhere_intro (ht ⟨.identifier x, p'⟩ (by simp)).1 (fun _ _ h => ?_)
    cases h
    refine everywhere_intro h1.1 (fun _ _ h => ?_)
    cases h
    exact h1.2 _
  | returnNil =>
    intro ht c
    refine everywhere_intro trivial (fun _ _ h => ?_)
    cases h
    exact everywhere_intro trivial (fun _ _ h => by cases h)
  | return_ _ ih =>
    intro ht c
    have h1 := ih (fun t h => ht t (by simp [h]))
    refine everywhere_intro trivial (fun _ _ h => ?_)
    cases h
    exact h1 _
  | break_ => intro _ c; exact everywhere_intro trivial (fun _ _ h => by cases h)
  | while_ _ _ ih1 ih2 =>
    intro ht c
    have h1 := ih1 (fun t h => ht t (by simp [h]))
    have h2 := ih2 (fun t h => ht t (by simp [h]))
    refine everywhere_intro trivial (fun _ _ h => ?_)
    cases h
    · exact h1 _
    · exact h2 _
  | @for_ x px p e tsE b f tsB p' p'' p''' _ _ ih1 ih2 =>
    intro ht c
    have h1 := ih1 (fun t h => ht t (by simp [h]))
    have h2 := ih2 (fun t h => ht t (by simp [h]))
    refine everywhere_intro (ht ⟨.identifier x, px⟩ (by simp)).1 (fun _ _ h => ?_)
    cases h
    · exact h1 _
    · exact h2 _
  | assign _ _ ih1 ih2 =>
    intro ht c
    have h1 := ih1 (fun t h => ht t (by simp [h]))
    have h2 := ih2 (fun t h => ht t (by simp [h]))
    refine everywhere_intro trivial (fun _ _ h => ?_)
    cases h
    · exact h1 _
    · exact h2 _
  | exprStmt _ ih =>
    intro ht c
    have h1 := ih ht
    refine everywhere_intro trivial (fun _ _ h => ?_)
    cases h
    exact h1 _
  | blockNil => intro _; exact written_block_nil
  | blockLast _ ih =>
    intro ht c
    have h1 := ih ht
    refine everywhere_intro trivial (fun _ _ h => ?_)
    cases h
    · exact h1 _
    · exact written_block_nil _
  | blockCons _ _ _ _ _ ih1 ih2 =>
    intro ht c
    have h1 := ih1 (fun t h => ht t (by simp [h]))
    have h2 := ih2 (fun t h => ht t (by simp [h]))
    refine everywhere_intro trivial (fun _ _ h => ?_)
    cases h
    · exact h1 _
    · exact h2 _

theorem written_program {b : Block} {ts : List Token} (h : IsProgram b ts) (ht : ∀ t ∈ ts, TokWritten t) :
    Throughout WrittenRule b := by
  obtain ⟨f, h, -⟩ := h
  exact written_derives h ht _

theorem okToken_tokensOf (os : List Output) : os.filterMap okToken = tokensOf os := by
  unfold tokensOf
  congr 1

theorem lineCol_ne (src : Bytes) (k : Nat) : lineCol src k ≠ illPos := by
  intro h
  have := congrArg Pos.line h
  simp [lineCol, illPos] at this

theorem lex_tokWritten {src : Bytes} {os : List Output} (h : lex src = .done os) : ∀ t ∈ os.filterMap okToken, TokWritten t := by
  intro t ht
  refine ⟨?_, ?_⟩
  · apply lex_names src os h t
    obtain ⟨o, ho, hot⟩ := List.mem_filterMap.mp ht
    cases o with
    | ok t' => simp [okToken] at hot; subst hot; exact ho
    | error e => simp [okToken] at hot
  · have hp := run_positions (src := src) (lexBudget src) (lo := 0) (off := 0) (st := .root) (Nat.zero_le _) (Nat.zero_le _)
    obtain ⟨offs, h1, h2, h3⟩ := hp
    have e : cursorAt src 0 = Cursor.start src := by simp [cursorAt, Cursor.start, lineCol]
    rw [e, show LexSt.run (lexBudget src) ⟨.root, Cursor.start src⟩ = lex src from rfl, h] at h3
    have hm : t.pos ∈ (tokensOf os).map Token.pos := List.mem_map_of_mem (by rw [← okToken_tokensOf]; exact ht)
    simp only [LexResult.outputs] at h3
    rw [h3] at hm
    obtain ⟨k, -, hk⟩ := List.mem_map.mp hm
    rw [← hk]
    exact lineCol_ne src k

/-- The syntax tree of a source without syntax errors. -/
theorem source_written {src : Bytes} {a : SyntaxAnalysis} (h : syntaxAnalysis src = some a) (hok : a.isOk = true) :
    Throughout WrittenRule a.ast := by
  unfold syntaxAnalysis at h
  split at h
  · rename_i outs hl
    split at h
    · rename_i b st hp
      cases h
      simp only [SyntaxAnalysis.isOk, Bool.and_eq_true, List.isEmpty_iff] at hok
      obtain ⟨b', es, ht⟩ := parse_total (outs.filterMap okToken)
      rw [ht] at hp
      cases hp
      have hes : es = [] := by simpa using hok.2
      subst hes
      obtain ⟨bs, pre, ts', hts, -, hprog⟩ := parse_sound ht
      refine written_program hprog (fun t htm => lex_tokWritten hl t ?_)
      rw [hts]
      simp [htm]
    · cases h
  · cases h

end Hush

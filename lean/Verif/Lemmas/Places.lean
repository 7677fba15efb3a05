import Verif.Spec.Places
import Verif.Lemmas.ParseWritten

/-!
The positions in syntax trees and programs are those of tokens.
-/

namespace Hush
open Spec

/-! ### Positions in syntax trees -/

variable (P : Pos → Prop)

/-- All positions in a unit are fine. -/
def InUnit : ArgUnit → Prop
  | .literal _ => True
  | .dollar _ p => P p

def InAstPart : Ast.ArgPart → Prop
  | .unit u => InUnit P u
  | .expansion (.collection us) => ∀ u ∈ us, InUnit P u
  | .expansion _ => True

def InAstArg (a : Ast.Argument) : Prop := P a.pos ∧ ∀ q ∈ a.parts, InAstPart P q

def InAstTarget : Ast.RedirectionTarget → Prop
  | .fd _ => True
  | .overwrite a => InAstArg P a
  | .append a => InAstArg P a

def InAstRedir : Ast.Redirection → Prop
  | .illFormed => True
  | .output _ t => InAstTarget P t
  | .input _ a => InAstArg P a

def InAstBasic (c : Ast.BasicCommand) : Prop :=
  P c.pos ∧ InAstArg P c.program ∧ (∀ e ∈ c.env, InUnit P e.1 ∧ InAstArg P e.2) ∧ (∀ a ∈ c.arguments, InAstArg P a) ∧
    ∀ r ∈ c.redirections, InAstRedir P r

def InAstCommand (c : Ast.Command) : Prop := InAstBasic P c.head ∧ ∀ d ∈ c.tail, InAstBasic P d

def InAstBlock (b : Ast.CommandBlock) : Prop := InAstCommand P b.head ∧ ∀ c ∈ b.tail, InAstCommand P c

mutual
def InAstExpr : Ast.Expr → Prop
  | .illFormed => True
  | .self_ p => P p
  | .ident _ p => P p
  | .lit l p => P p ∧ InAstLit l
  | .unary _ e p => P p ∧ InAstExpr e
  | .binary l _ r p => P p ∧ InAstExpr l ∧ InAstExpr r
  | .if_ c t e p => P p ∧ InAstExpr c ∧ InAstStmts t ∧ InAstStmts e
  | .access o f p => P p ∧ InAstExpr o ∧ InAstExpr f
  | .call f as p => P p ∧ InAstExpr f ∧ InAstExprs as
  | .command b p => P p ∧ InAstBlock P b
def InAstExprs : List Ast.Expr → Prop
  | [] => True
  | e :: es => InAstExpr e ∧ InAstExprs es
def InAstItems : List ((Sym × Pos) × Ast.Expr) → Prop
  | [] => True
  | ((_, p), e) :: is => P p ∧ InAstExpr e ∧ InAstItems is
def InAstLit : Ast.Lit → Prop
  | .array es => InAstExprs es
  | .dict is => InAstItems is
  | .function ps b => (∀ q ∈ ps, P q.2) ∧ InAstStmts b
  | _ => True
def InAstStmt : Ast.Stmt → Prop
  | .illFormed => True
  | .let_ _ e p => P p ∧ InAstExpr e
  | .assign l r p => P p ∧ InAstExpr l ∧ InAstExpr r
  | .return_ e p => P p ∧ InAstExpr e
  | .break_ p => P p
  | .while_ c b p => P p ∧ InAstExpr c ∧ InAstStmts b
  | .for_ _ e b p => P p ∧ InAstExpr e ∧ InAstStmts b
  | .expr e => InAstExpr e
def InAstStmts : List Ast.Stmt → Prop
  | [] => True
  | s :: ss => InAstStmt s ∧ InAstStmts ss
end

/-! ### Positions in programs -/

def InProgUnit : Prog.ArgUnit → Prop
  | .literal _ => True
  | .dollar _ p => P p

def InProgPart : Prog.ArgPart → Prop
  | .unit u => InProgUnit P u
  | .collection us => ∀ u ∈ us, InProgUnit P u
  | _ => True

def InProgArg (a : Prog.Argument) : Prop := P a.pos ∧ ∀ q ∈ a.parts, InProgPart P q

def InProgTarget : Prog.RedirectionTarget → Prop
  | .fd _ => True
  | .overwrite a => InProgArg P a
  | .append a => InProgArg P a

def InProgRedir : Prog.Redirection → Prop
  | .output _ t => InProgTarget P t
  | .input _ a => InProgArg P a

def InProgBasic (c : Prog.BasicCommand) : Prop :=
  P c.pos ∧ InProgArg P c.program ∧ (∀ e ∈ c.env, InProgUnit P e.1 ∧ InProgArg P e.2) ∧ (∀ a ∈ c.arguments, InProgArg P a) ∧
    ∀ r ∈ c.redirections, InProgRedir P r

def InProgCommand : Prog.Command → Prop
  | .builtin _ as _ p => P p ∧ ∀ a ∈ as, InProgArg P a
  | .external h t => InProgBasic P h ∧ ∀ c ∈ t, InProgBasic P c

def InProgBlock (b : Prog.CommandBlock) : Prop := InProgCommand P b.head ∧ ∀ c ∈ b.tail, InProgCommand P c

mutual
def InExpr : Prog.Expr → Prop
  | .ident _ p => P p
  | .lit l p => P p ∧ InLit l
  | .unary _ e p => P p ∧ InExpr e
  | .binary l _ r p => P p ∧ InExpr l ∧ InExpr r
  | .if_ c t e p => P p ∧ InExpr c ∧ InStmts t ∧ InStmts e
  | .access o f p => P p ∧ InExpr o ∧ InExpr f
  | .call f as p => P p ∧ InExpr f ∧ InExprs as
  | .command b p => P p ∧ InProgBlock P b
def InExprs : List Prog.Expr → Prop
  | [] => True
  | e :: es => InExpr e ∧ InExprs es
def InFields : List (Sym × Prog.Expr) → Prop
  | [] => True
  | (_, e) :: is => InExpr e ∧ InFields is
def InLit : Prog.Lit → Prop
  | .array es => InExprs es
  | .dict is => InFields is
  | .function _ _ b => InStmts b
  | _ => True
def InLvalue : Prog.Lvalue → Prop
  | .ident _ p => P p
  | .access o f p => P p ∧ InExpr o ∧ InExpr f
def InStmt : Prog.Stmt → Prop
  | .assign l r => InLvalue l ∧ InExpr r
  | .return_ e => InExpr e
  | .break_ => True
  | .while_ c b => InExpr c ∧ InStmts b
  | .for_ _ e b => InExpr e ∧ InStmts b
  | .expr e => InExpr e
def InStmts : List Prog.Stmt → Prop
  | [] => True
  | s :: ss => InStmt s ∧ InStmts ss
end

/-! ### Tokens -/

/-- All positions in some tokens are fine. -/
def InToks (ts : List Token) : Prop := ∀ t ∈ ts, ∀ p ∈ tokenMarks t, P p

variable {P}

theorem inToks_append {a b : List Token} : InToks P (a ++ b) ↔ InToks P a ∧ InToks P b := by
  simp only [InToks, List.forall_mem_append]
theorem inToks_cons {t : Token} {b : List Token} : InToks P (t :: b) ↔ (∀ p ∈ tokenMarks t, P p) ∧ InToks P b := by
  simp only [InToks, List.forall_mem_cons]
theorem inToks_nil : InToks P [] := by simp [InToks]
theorem inToks_pos {k p} (h : ∀ q ∈ tokenMarks ⟨k, p⟩, P q) : P p := h p List.mem_cons_self

theorem inUnit_marks {u : ArgUnit} (h : ∀ p ∈ unitMarks u, P p) : InUnit P u := by
  cases u with
  | literal s => trivial
  | dollar x p => exact h p List.mem_cons_self

theorem inAst_pieces {q : ArgPart} (h : ∀ p ∈ partMarks q, P p) : ∀ x ∈ partPieces q, InAstPart P x := by
  cases q with
  | unquoted u => intro x hx; simp only [partPieces, List.mem_singleton] at hx; subst hx; exact inUnit_marks h
  | singleQuoted s => intro x hx; simp only [partPieces, List.mem_singleton] at hx; subst hx; trivial
  | doubleQuoted us =>
    intro x hx
    simp only [partPieces, List.mem_map] at hx
    obtain ⟨u, hu, rfl⟩ := hx
    exact inUnit_marks fun p hp => h p (List.mem_flatMap.2 ⟨u, hu, hp⟩)
  | expansion e =>
    intro x hx
    simp only [partPieces, List.mem_singleton] at hx
    subst hx
    cases e with
    | collection us => exact fun u hu => inUnit_marks fun p hp => h p (List.mem_flatMap.2 ⟨u, hu, hp⟩)
    | _ => trivial
  | envAssign => intro x hx; simp only [partPieces, List.mem_singleton] at hx; subst hx; trivial

theorem inAst_addPiece {x : Ast.ArgPart} {ps : List Ast.ArgPart} (hx : InAstPart P x) (h : ∀ q ∈ ps, InAstPart P q) :
    ∀ q ∈ addPiece x ps, InAstPart P q := by
  unfold addPiece
  split
  · exact h
  · intro q hq
    rcases List.mem_cons.1 hq with rfl | hq
    · trivial
    · exact h q (List.mem_cons_of_mem _ hq)
  · exact List.forall_mem_cons.2 ⟨hx, h⟩

theorem inAst_parts {ps : List ArgPart} (h : ∀ p ∈ ps.flatMap partMarks, P p) : ∀ q ∈ argParts ps, InAstPart P q := by
  have h1 : ∀ x ∈ ps.flatMap partPieces, InAstPart P x := by
    intro x hx
    obtain ⟨q, hq, hx⟩ := List.mem_flatMap.1 hx
    exact inAst_pieces (fun p hp => h p (List.mem_flatMap.2 ⟨q, hq, hp⟩)) x hx
  unfold argParts
  generalize ps.flatMap partPieces = l at h1
  induction l with
  | nil => simp
  | cons x l ih =>
    obtain ⟨h2, h3⟩ := List.forall_mem_cons.1 h1
    exact inAst_addPiece h2 (ih h3)

theorem inAst_arg {ps p} (h : ∀ q ∈ tokenMarks ⟨.argument ps, p⟩, P q) : InAstArg P ⟨argParts ps, p⟩ := by
  simp only [tokenMarks, dollarMarks, List.forall_mem_cons] at h
  exact ⟨h.1, inAst_parts h.2⟩

theorem inAst_many {α : Type} {D : α → List Token → Prop} {R : α → Prop} (hD : ∀ a ts, D a ts → InToks P ts → R a) {as ts} (h : Many D as ts)
    (ht : InToks P ts) : ∀ a ∈ as, R a := by
  induction h with
  | nil => simp
  | cons h1 _ ih =>
    rw [inToks_append] at ht
    exact List.forall_mem_cons.2 ⟨hD _ _ h1 ht.1, ih ht.2⟩

theorem inAst_sepBy {α : Type} {D : α → List Token → Prop} {R : α → Prop} {sep} (hD : ∀ a ts, D a ts → InToks P ts → R a) {as ts} (h : SepBy D sep as ts)
    (ht : InToks P ts) : ∀ a ∈ as, R a := by
  induction h with
  | nil => simp
  | last h1 => exact List.forall_mem_cons.2 ⟨hD _ _ h1 ht, by simp⟩
  | cons h1 _ ih =>
    rw [inToks_append, inToks_cons] at ht
    exact List.forall_mem_cons.2 ⟨hD _ _ h1 ht.1, ih ht.2.2⟩

theorem inAst_target {t tok} (h : Target t tok) (ht : ∀ q ∈ tokenMarks tok, P q) : InAstTarget P t := by
  cases h with
  | fd _ => trivial
  | file _ => exact inAst_arg ht

theorem inAst_redir {r ts} (h : Redir r ts) (ht : InToks P ts) : InAstRedir P r := by
  cases h <;> simp only [inToks_cons] at ht
  · exact inAst_arg ht.2.1
  · exact inAst_arg ht.2.1
  · rename_i h; exact inAst_target h ht.2.1
  · exact inAst_arg ht.2.2.1
  · rename_i h; exact inAst_target h ht.2.2.1

theorem inAst_argTok {a ts} (h : ArgTok a ts) (ht : InToks P ts) : InAstArg P a := by
  cases h
  exact inAst_arg (inToks_cons.1 ht).1

theorem inAst_env {e ts} (h : EnvTok e ts) (ht : InToks P ts) : InUnit P e.1 ∧ InAstArg P e.2 := by
  cases h
  have h1 := (inToks_cons.1 ht).1
  simp only [tokenMarks, dollarMarks, List.flatMap_cons, List.forall_mem_cons, List.forall_mem_append, partMarks] at h1
  exact ⟨inUnit_marks h1.2.1, h1.1, inAst_parts h1.2.2.2⟩

theorem inAst_basic {c ts} (h : Basic c ts) (ht : InToks P ts) : InAstBasic P c := by
  cases h with
  | mk h1 h2 h3 h4 h5 h6 h7 h8 =>
    simp only [inToks_append, inToks_cons] at ht
    have hp := inAst_argTok h2 (inToks_cons.2 ⟨ht.2.1, inToks_nil⟩)
    exact ⟨hp.1, hp, inAst_many (R := fun e => InUnit P e.1 ∧ InAstArg P e.2) (fun _ _ => inAst_env) h1 ht.1, inAst_many (R := InAstArg P) (fun _ _ => inAst_argTok) h4 ht.2.2.1,
      inAst_many (R := InAstRedir P) (fun _ _ => inAst_redir) h5 ht.2.2.2.1⟩

theorem inAst_piped {c ts} (h : Piped c ts) (ht : InToks P ts) : InAstBasic P c := by
  cases h with
  | mk h => exact inAst_basic h (inToks_cons.1 ht).2

theorem inAst_pipeline {c ts} (h : Pipeline c ts) (ht : InToks P ts) : InAstCommand P c := by
  cases h with
  | mk h1 h2 =>
    rw [inToks_append] at ht
    exact ⟨inAst_basic h1 ht.1, inAst_many (R := InAstBasic P) (fun _ _ => inAst_piped) h2 ht.2⟩

theorem inAst_block {b ts} (h : CmdBlock b ts) (ht : InToks P ts) : InAstBlock P b := by
  cases h with
  | one h1 =>
    simp only [inToks_append, inToks_cons] at ht
    exact ⟨inAst_pipeline h1 ht.2.1, by simp⟩
  | many h1 h2 =>
    simp only [inToks_append, inToks_cons] at ht
    exact ⟨inAst_pipeline h1 ht.2.1, inAst_sepBy (R := InAstCommand P) (fun _ _ => inAst_pipeline) h2 ht.2.2.2.1⟩

/-- All positions in a phrase are fine. -/
def InPhrase (P : Pos → Prop) : Phrase → Prop
  | .level _ e | .postfix e | .primary e => InAstExpr P e
  | .exprs es => InAstExprs P es
  | .items is => InAstItems P is
  | .func ps b => (∀ q ∈ ps, P q.2) ∧ InAstStmts P b
  | .cond c t e => InAstExpr P c ∧ InAstStmts P t ∧ InAstStmts P e
  | .stmt s _ => InAstStmt P s
  | .block b _ => InAstStmts P b

theorem inAst_param {q ts} (h : Param q ts) (ht : InToks P ts) : P q.2 := by
  cases h
  exact inToks_pos (inToks_cons.1 ht).1

theorem inAst_litValue (l : TokLit) : InAstLit P (litValue l) := by cases l <;> simp [litValue, InAstLit]

/-- The positions in a derived phrase are those of its tokens. -/
theorem inPhrase_derives {ph ts} (h : Derives ph ts) : InToks P ts → InPhrase P ph := by
  induction h with
  | command hb =>
    intro ht
    simp only [InPhrase, InAstExpr]
    exact ⟨inToks_pos (inToks_cons.1 ht).1, inAst_block hb ht⟩
  | lit => intro ht; simp only [InPhrase, InAstExpr]; exact ⟨inToks_pos (inToks_cons.1 ht).1, inAst_litValue _⟩
  | func hp hb ih =>
    intro ht
    simp only [inToks_append, inToks_cons] at ht
    exact ⟨inAst_sepBy (R := fun q => P q.2) (fun _ _ => inAst_param) hp ht.2.1, ih ht.2.2.2.1⟩
  | _ =>
    intro ht
    try simp only [inToks_append, inToks_cons, tokenMarks, List.forall_mem_cons] at ht
    simp only [InPhrase, InAstExpr, InAstExprs, InAstItems, InAstLit, InAstStmt, InAstStmts, and_true] at *
    try grind

/-- The positions in a syntax tree are those of tokens. -/
theorem inAst_accepts {src : Bytes} {a : SyntaxAnalysis} (h : syntaxAnalysis src = some a) (ha : a.isOk = true) : InAstStmts (Mark src) a.ast := by
  unfold syntaxAnalysis at h
  split at h
  · rename_i outs ho
    split at h
    · rename_i b st hp
      cases h
      simp only [SyntaxAnalysis.isOk, Bool.and_eq_true, List.isEmpty_iff] at ha
      obtain ⟨b', es, ht⟩ := parse_total (outs.filterMap okToken)
      rw [ht] at hp
      cases hp
      have hes : es = [] := by simpa using ha.2
      subst hes
      obtain ⟨bs, pre, ts', h1, -, f, h3, -⟩ := parse_sound ht
      refine inPhrase_derives h3 ?_
      intro t ht p hp
      have h4 : t ∈ outs.filterMap okToken := by rw [h1]; exact List.mem_append_right _ ht
      obtain ⟨o, h5, h6⟩ := List.mem_filterMap.1 h4
      cases o with
      | ok t' => cases h6; exact ⟨outs, t, ho, h5, hp⟩
      | error e => cases h6
    · cases h
  · cases h

/-! ### Analysis -/

/-- The analysis of something good gives something good, and reports only good positions. -/
def Pinned (P : Pos → Prop) (R : α → Prop) (a : A α) : Prop :=
  ∀ st, (∀ x, (a st).1 = some x → R x) ∧ ∀ e ∈ (a st).2.errors, e ∈ st.errors ∨ P e.pos

theorem pinned_ok {R : α → Prop} {a : α} (h : R a) : Pinned P R (A.ok a) :=
  fun st => ⟨fun x hx => by cases hx; exact h, fun e he => .inl he⟩
theorem pinned_fail {R : α → Prop} : Pinned P R (A.fail : A α) := fun st => ⟨fun x hx => (by cases hx), fun e he => .inl he⟩
theorem pinned_report {R : α → Prop} {k p} (h : P p) : Pinned P R (A.report k p : A α) := by
  refine fun st => ⟨fun x hx => (by cases hx), fun e he => ?_⟩
  simp only [A.report, List.mem_append, List.mem_singleton] at he
  rcases he with he | rfl
  · exact .inl he
  · exact .inr h
theorem pinned_zip {R : α → Prop} {S : β → Prop} {a : A α} {b : A β} (ha : Pinned P R a) (hb : Pinned P S b) :
    Pinned P (fun x => R x.1 ∧ S x.2) (A.zip a b) := by
  intro st
  have h1 := ha st
  have h2 := hb (a st).2
  have h3 : ∀ e ∈ (b (a st).2).2.errors, e ∈ st.errors ∨ P e.pos := by
    intro e he
    rcases h2.2 e he with h | h
    · exact h1.2 e h
    · exact .inr h
  unfold A.zip
  dsimp only
  split
  · rename_i x y hx hy
    exact ⟨fun z hz => by cases hz; exact ⟨h1.1 x hx, h2.1 y hy⟩, h3⟩
  · exact ⟨fun z hz => (by cases hz), h3⟩
theorem pinned_andThen {R : α → Prop} {S : β → Prop} {a : A α} {f : α → A β} (ha : Pinned P R a) (hf : ∀ x, R x → Pinned P S (f x)) :
    Pinned P S (A.andThen a f) := by
  intro st
  have h1 := ha st
  unfold A.andThen
  dsimp only
  split
  · rename_i x hx
    have h2 := hf x (h1.1 x hx) (a st).2
    refine ⟨h2.1, fun e he => ?_⟩
    rcases h2.2 e he with h | h
    · exact h1.2 e h
    · exact .inr h
  · exact ⟨fun z hz => (by cases hz), h1.2⟩
theorem pinned_map {R : α → Prop} {S : β → Prop} {f : α → β} {a : A α} (ha : Pinned P R a) (hf : ∀ x, R x → S (f x)) : Pinned P S (A.map f a) := by
  intro st
  have h1 := ha st
  unfold A.map
  refine ⟨fun y hy => ?_, h1.2⟩
  cases hx : (a st).1 with
  | none => simp [hx] at hy
  | some x =>
    simp only [hx, Option.map_some, Option.some.injEq] at hy
    subst hy
    exact hf x (h1.1 x hx)
theorem pinned_mono {R S : α → Prop} {a : A α} (ha : Pinned P R a) (h : ∀ x, R x → S x) : Pinned P S a :=
  fun st => ⟨fun x hx => h x ((ha st).1 x hx), (ha st).2⟩
theorem pinned_items {R : α → Prop} {S : β → Prop} {f : α → A β} (hf : ∀ x, R x → Pinned P S (f x)) : ∀ {xs : List α}, (∀ x ∈ xs, R x) →
    Pinned P (fun ys => ∀ y ∈ ys, S y) (analyzeItems f xs)
  | [], _ => pinned_ok (by simp)
  | x :: xs, h => by
    rw [List.forall_mem_cons] at h
    exact pinned_map (pinned_zip (hf x h.1) (pinned_items hf h.2)) fun y hy => List.forall_mem_cons.2 hy

theorem enterBlock_errors (st : AState) : st.enterBlock.errors = st.errors := by unfold AState.enterBlock; split <;> rfl
theorem exitBlock_errors (st : AState) : st.exitBlock.errors = st.errors := by
  unfold AState.exitBlock
  split
  · rfl
  · split <;> rfl
theorem exitFrame_errors (st : AState) : st.exitFrame.2.errors = st.errors := by unfold AState.exitFrame; split <;> rfl

theorem pinned_inBlock {R : α → Prop} {a : A α} (ha : Pinned P R a) : Pinned P R (inBlock a) := by
  intro st
  have h1 := ha st.enterBlock
  rw [enterBlock_errors] at h1
  unfold inBlock
  dsimp only
  rw [exitBlock_errors]
  exact h1

theorem pinned_declare {R : Nat → Prop} {x p} (hR : ∀ n, R n) (h : P p) : Pinned P R (declare x p) := by
  intro st
  unfold declare
  split
  · exact ⟨fun _ h => (by cases h), fun e he => .inl he⟩
  · split
    · exact ⟨fun _ h => (by cases h), fun e he => .inl he⟩
    · split
      · exact pinned_report h st
      · exact ⟨fun _ _ => hR _, fun e he => .inl he⟩

theorem pinned_resolve {R : Nat → Prop} {x p} (hR : ∀ n, R n) (h : P p) : Pinned P R (resolve x p) := by
  intro st
  unfold resolve
  split
  · exact pinned_report h st
  · exact ⟨fun _ _ => hR _, fun e he => .inl he⟩

theorem pinned_resolveIdent {R : Nat → Prop} {x p} (hR : ∀ n, R n) (h : P p) : Pinned P R (resolveIdent x p) := by
  unfold resolveIdent
  split
  · exact pinned_fail
  · exact pinned_resolve hR h

theorem pinned_resolveSelf {R : Nat → Prop} (hR : ∀ n, R n) : Pinned P R resolveSelf := by
  intro st
  unfold resolveSelf
  split
  · exact ⟨fun _ h => (by cases h), fun e he => .inl he⟩
  · split
    · exact ⟨fun _ _ => hR _, fun e he => .inl he⟩
    · exact ⟨fun _ _ => hR _, fun e he => .inl he⟩

theorem pinned_insertKey {R : Sym → Prop} {x p} (hR : ∀ n, R n) (h : P p) : Pinned P R (insertKey x p) := by
  intro st
  unfold insertKey
  split
  · exact ⟨fun _ h => (by cases h), fun e he => .inl he⟩
  · split
    · exact pinned_report h st
    · exact ⟨fun _ _ => hR _, fun e he => .inl he⟩

theorem pinned_declareParams : ∀ {ps : List (Sym × Pos)}, (∀ q ∈ ps, P q.2) → Pinned P (fun _ => True) (declareParams ps)
  | [], _ => pinned_ok trivial
  | (x, p) :: ps, h => by
    rw [List.forall_mem_cons] at h
    unfold declareParams
    refine pinned_map (pinned_zip (R := fun _ => True) ?_ (pinned_declareParams h.2)) fun _ _ => trivial
    split
    · exact pinned_fail
    · exact pinned_declare (fun _ => trivial) h.1

theorem pinned_argUnit {u} (h : InUnit P u) : Pinned P (InProgUnit P) (analyzeArgUnit u) := by
  cases u with
  | literal s => exact pinned_ok trivial
  | dollar x p => exact pinned_map (pinned_resolveIdent (R := fun _ => True) (fun _ => trivial) h) fun _ _ => h

theorem pinned_argPart {q} (h : InAstPart P q) : Pinned P (InProgPart P) (analyzeArgPart q) := by
  cases q with
  | unit u => exact pinned_map (pinned_argUnit h) fun _ h => h
  | expansion e =>
    cases e with
    | collection us => exact pinned_map (pinned_items (fun _ => pinned_argUnit) h) fun _ h => h
    | _ => exact pinned_ok trivial

theorem pinned_argument {a} (h : InAstArg P a) : Pinned P (InProgArg P) (analyzeArgument a) := by
  unfold analyzeArgument
  split
  · exact pinned_fail
  · exact pinned_map (pinned_items (fun _ => pinned_argPart) h.2) fun _ h' => ⟨h.1, h'⟩

theorem pinned_redirection {r} (h : InAstRedir P r) : Pinned P (InProgRedir P) (analyzeRedirection r) := by
  cases r with
  | illFormed => exact pinned_fail
  | output s t =>
    cases t with
    | fd n => exact pinned_ok trivial
    | overwrite a => exact pinned_map (pinned_argument h) fun _ h => h
    | append a => exact pinned_map (pinned_argument h) fun _ h => h
  | input l a => exact pinned_map (pinned_argument h) fun _ h => h

theorem pinned_envItem {e : ArgUnit × Ast.Argument} (h : InUnit P e.1 ∧ InAstArg P e.2) :
    Pinned P (fun e => InProgUnit P e.1 ∧ InProgArg P e.2) (analyzeEnvItem e) :=
  pinned_andThen (pinned_argUnit h.1) fun _ hk => pinned_map (pinned_argument h.2) fun _ hv => ⟨hk, hv⟩

theorem pinned_basic {c} (h : InAstBasic P c) : Pinned P (InProgBasic P) (analyzeBasicCommand c) := by
  obtain ⟨h1, h2, h3, h4, h5⟩ := h
  unfold analyzeBasicCommand
  split
  · exact pinned_report h1
  · exact pinned_map (pinned_zip (pinned_argument h2) (pinned_zip (pinned_items (fun _ => pinned_envItem) h3) (pinned_zip
      (pinned_items (fun _ => pinned_argument) h4) (pinned_items (fun _ => pinned_redirection) h5)))) fun _ h => ⟨h1, h⟩

theorem pinned_command {b c} (h : InAstCommand P c) : Pinned P (InProgCommand P) (analyzeCommand b c) := by
  obtain ⟨h1, h2⟩ := h
  unfold analyzeCommand
  split
  · split
    · exact pinned_report h1.1
    · exact pinned_map (pinned_items (fun _ => pinned_argument) h1.2.2.2.1) fun _ h => ⟨h1.1, h⟩
  · exact pinned_map (pinned_zip (pinned_basic h1) (pinned_items (fun _ => pinned_basic) h2)) fun _ h => h

theorem pinned_commandBlock {b} (h : InAstBlock P b) : Pinned P (InProgBlock P) (analyzeCommandBlock b) :=
  pinned_map (pinned_zip (pinned_command h.1) (pinned_items (fun _ => pinned_command) h.2)) fun _ h => h

mutual
theorem pinned_expr {fl} : ∀ {e}, InAstExpr P e → Pinned P (InExpr P) (analyzeExpr fl e)
  | .illFormed, _ => by unfold analyzeExpr; exact pinned_fail
  | .self_ p, h => by
    unfold analyzeExpr
    simp only [InAstExpr] at h
    split
    · exact pinned_map (pinned_resolveSelf (R := fun _ => True) fun _ => trivial) fun _ _ => by simp only [InExpr]; exact h
    · exact pinned_report h
  | .ident x p, h => by
    unfold analyzeExpr
    simp only [InAstExpr] at h
    exact pinned_map (pinned_resolveIdent (R := fun _ => True) (fun _ => trivial) h) fun _ _ => by simp only [InExpr]; exact h
  | .lit l p, h => by
    unfold analyzeExpr
    simp only [InAstExpr] at h
    exact pinned_map (pinned_lit h.2) fun _ h' => by simp only [InExpr]; exact ⟨h.1, h'⟩
  | .unary op e p, h => by
    unfold analyzeExpr
    simp only [InAstExpr] at h
    refine pinned_andThen (pinned_expr h.2) fun _ h' => ?_
    split
    · exact pinned_report h.1
    · exact pinned_ok (by simp only [InExpr]; exact ⟨h.1, h'⟩)
  | .binary l op r p, h => by
    unfold analyzeExpr
    simp only [InAstExpr] at h
    exact pinned_map (pinned_zip (pinned_expr h.2.1) (pinned_expr h.2.2)) fun _ h' => by simp only [InExpr]; exact ⟨h.1, h'⟩
  | .if_ c t e p, h => by
    unfold analyzeExpr
    simp only [InAstExpr] at h
    exact pinned_map (pinned_zip (pinned_expr h.2.1) (pinned_zip (pinned_inBlock (pinned_block h.2.2.1)) (pinned_inBlock (pinned_block h.2.2.2)))) fun _ h' => by
      simp only [InExpr]; exact ⟨h.1, h'⟩
  | .access o f p, h => by
    unfold analyzeExpr
    simp only [InAstExpr] at h
    exact pinned_map (pinned_zip (pinned_expr h.2.1) (pinned_expr h.2.2)) fun _ h' => by simp only [InExpr]; exact ⟨h.1, h'⟩
  | .call f as p, h => by
    unfold analyzeExpr
    simp only [InAstExpr] at h
    exact pinned_map (pinned_zip (pinned_expr h.2.1) (pinned_exprs h.2.2)) fun _ h' => by simp only [InExpr]; exact ⟨h.1, h'⟩
  | .command b p, h => by
    unfold analyzeExpr
    simp only [InAstExpr] at h
    exact pinned_map (pinned_commandBlock h.2) fun _ h' => by simp only [InExpr]; exact ⟨h.1, h'⟩
theorem pinned_exprs {fl} : ∀ {es}, InAstExprs P es → Pinned P (InExprs P) (analyzeExprs fl es)
  | [], _ => by unfold analyzeExprs; exact pinned_ok (by simp only [InExprs])
  | e :: es, h => by
    unfold analyzeExprs
    simp only [InAstExprs] at h
    exact pinned_map (pinned_zip (pinned_expr h.1) (pinned_exprs h.2)) fun _ h' => by simp only [InExprs]; exact h'
theorem pinned_lit {fl} : ∀ {l}, InAstLit P l → Pinned P (InLit P) (analyzeLit fl l)
  | .nil, _ => by unfold analyzeLit; exact pinned_ok (by simp only [InLit])
  | .bool b, _ => by unfold analyzeLit; exact pinned_ok (by simp only [InLit])
  | .int b, _ => by unfold analyzeLit; exact pinned_ok (by simp only [InLit])
  | .float b, _ => by unfold analyzeLit; exact pinned_ok (by simp only [InLit])
  | .byte b, _ => by unfold analyzeLit; exact pinned_ok (by simp only [InLit])
  | .string b, _ => by unfold analyzeLit; exact pinned_ok (by simp only [InLit])
  | .array es, h => by
    unfold analyzeLit
    simp only [InAstLit] at h
    exact pinned_map (pinned_exprs h) fun _ h' => by simp only [InLit]; exact h'
  | .dict is, h => by
    unfold analyzeLit
    simp only [InAstLit] at h
    intro st
    exact (pinned_map (pinned_itemsDict h) fun _ h' => by simp only [InLit]; exact h') { st with dictKeys := [] }
  | .function ps b, h => by
    unfold analyzeLit
    simp only [InAstLit] at h
    intro st
    have h1 := pinned_declareParams h.1 st.enterFrame
    have h2 := pinned_block (fl := ⟨true, false⟩) h.2 (declareParams ps st.enterFrame).2
    have h3 : ∀ e ∈ (analyzeBlock ⟨true, false⟩ b (declareParams ps st.enterFrame).2).2.exitFrame.2.errors, e ∈ st.errors ∨ P e.pos := by
      rw [exitFrame_errors]
      intro e he
      rcases h2.2 e he with h | h
      · exact h1.2 e h
      · exact .inr h
    dsimp only
    split
    · rename_i x body hx hb
      exact ⟨fun z hz => by cases hz; simp only [InLit]; exact h2.1 _ hb, h3⟩
    · exact ⟨fun z hz => (by cases hz), h3⟩
  | .ident x, _ => by
    unfold analyzeLit
    split
    · exact pinned_fail
    · exact pinned_ok (by simp only [InLit])
theorem pinned_itemsDict {fl} : ∀ {is}, InAstItems P is → Pinned P (InFields P) (analyzeItemsDict fl is)
  | [], _ => by unfold analyzeItemsDict; exact pinned_ok (by simp only [InFields])
  | ((x, p), e) :: is, h => by
    unfold analyzeItemsDict
    simp only [InAstItems] at h
    exact pinned_map (pinned_zip (pinned_zip (pinned_insertKey (R := fun _ => True) (fun _ => trivial) h.1) (pinned_expr h.2.1)) (pinned_itemsDict h.2.2))
      fun _ h' => by simp only [InFields]; exact ⟨h'.1.2, h'.2⟩
theorem pinned_lvalue {fl p} (hp : P p) : ∀ {e}, InAstExpr P e → Pinned P (InLvalue P) (analyzeLvalue fl p e)
  | .ident x q, h => by
    unfold analyzeLvalue
    simp only [InAstExpr] at h
    split
    · exact pinned_report hp
    · exact pinned_map (pinned_resolve (R := fun _ => True) (fun _ => trivial) h) fun _ _ => by simp only [InLvalue]; exact h
  | .access o f q, h => by
    unfold analyzeLvalue
    simp only [InAstExpr] at h
    exact pinned_map (pinned_zip (pinned_expr h.2.1) (pinned_expr h.2.2)) fun _ h' => by simp only [InLvalue]; exact ⟨h.1, h'⟩
  | .illFormed, _ => by unfold analyzeLvalue; exact pinned_report hp
  | .self_ _, _ => by unfold analyzeLvalue; exact pinned_report hp
  | .lit _ _, _ => by unfold analyzeLvalue; exact pinned_report hp
  | .unary _ _ _, _ => by unfold analyzeLvalue; exact pinned_report hp
  | .binary _ _ _ _, _ => by unfold analyzeLvalue; exact pinned_report hp
  | .if_ _ _ _ _, _ => by unfold analyzeLvalue; exact pinned_report hp
  | .call _ _ _, _ => by unfold analyzeLvalue; exact pinned_report hp
  | .command _ _, _ => by unfold analyzeLvalue; exact pinned_report hp
theorem pinned_stmt {fl} : ∀ {s}, InAstStmt P s → Pinned P (InStmt P) (analyzeStmt fl s)
  | .illFormed, _ => by unfold analyzeStmt; exact pinned_fail
  | .let_ x e p, h => by
    unfold analyzeStmt
    simp only [InAstStmt] at h
    exact pinned_map (pinned_zip (pinned_declare (R := fun _ => True) (fun _ => trivial) h.1) (pinned_expr h.2)) fun _ h' => by
      simp only [InStmt, InLvalue]; exact ⟨h.1, h'.2⟩
  | .assign l r p, h => by
    unfold analyzeStmt
    simp only [InAstStmt] at h
    exact pinned_map (pinned_zip (pinned_lvalue h.1 h.2.1) (pinned_expr h.2.2)) fun _ h' => by simp only [InStmt]; exact h'
  | .return_ e p, h => by
    unfold analyzeStmt
    simp only [InAstStmt] at h
    refine pinned_map (pinned_zip (R := fun _ => True) ?_ (pinned_expr h.2)) fun _ h' => by simp only [InStmt]; exact h'.2
    split
    · exact pinned_ok trivial
    · exact pinned_report h.1
  | .break_ p, h => by
    unfold analyzeStmt
    simp only [InAstStmt] at h
    split
    · exact pinned_ok (by simp only [InStmt])
    · exact pinned_report h
  | .while_ c b p, h => by
    unfold analyzeStmt
    simp only [InAstStmt] at h
    exact pinned_map (pinned_zip (pinned_expr h.2.1) (pinned_inBlock (pinned_block h.2.2))) fun _ h' => by simp only [InStmt]; exact h'
  | .for_ x e b p, h => by
    unfold analyzeStmt
    simp only [InAstStmt] at h
    refine pinned_map (pinned_zip (pinned_expr h.2.1) (pinned_inBlock (pinned_zip (R := fun _ => True) ?_ (pinned_block h.2.2)))) fun _ h' => by
      simp only [InStmt]; exact ⟨h'.1, h'.2.2⟩
    split
    · exact pinned_fail
    · exact pinned_declare (fun _ => trivial) h.1
  | .expr e, h => by
    unfold analyzeStmt
    simp only [InAstStmt] at h
    exact pinned_map (pinned_expr h) fun _ h' => by simp only [InStmt]; exact h'
theorem pinned_block {fl} : ∀ {b}, InAstStmts P b → Pinned P (InStmts P) (analyzeBlock fl b)
  | [], _ => by unfold analyzeBlock; exact pinned_ok (by simp only [InStmts])
  | s :: ss, h => by
    unfold analyzeBlock
    simp only [InAstStmts] at h
    exact pinned_map (pinned_zip (pinned_stmt h.1) (pinned_block h.2)) fun _ h' => by simp only [InStmts]; exact h'
end

/-- Analysis keeps positions, and reports only positions of the tree. -/
theorem analyze_places {b : Ast.Block} (h : InAstStmts P b) :
    (∀ p, analyze b = .ok p → InStmts P p.statements) ∧ ∀ es, analyze b = .errors es → ∀ e ∈ es, P e.pos := by
  have h1 := pinned_block (fl := ⟨false, false⟩) h AState.initial
  have h2 : ∀ e ∈ (analyzeBlock ⟨false, false⟩ b AState.initial).2.exitFrame.2.errors, P e.pos := by
    rw [exitFrame_errors]
    intro e he
    rcases h1.2 e he with h | h
    · cases h
    · exact h
  unfold analyze
  dsimp only
  split
  · exact ⟨fun _ h => (by cases h), fun _ h => (by cases h)⟩
  · split
    · rename_i ss hs
      split
      · exact ⟨fun _ h => (by cases h; exact h1.1 _ hs), fun _ h => (by cases h)⟩
      · exact ⟨fun _ h => (by cases h), fun _ h => (by cases h; exact h2)⟩
    · exact ⟨fun _ h => (by cases h), fun _ h => (by cases h; exact h2)⟩

theorem accepts_places {src : Bytes} {p : Program} (h : Accepts src p) : InStmts (Mark src) p.statements := by
  obtain ⟨a, h1, h2, h3⟩ := h
  exact (analyze_places (inAst_accepts h1 h2)).1 p h3

end Hush

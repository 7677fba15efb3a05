import Verif.Lemmas.InterpLib

/-!
Building commands depends only on the variables that occur in them.
-/

namespace Hush
open Spec

/-- The two environments agree on some slots and in everything else. -/
structure SeesSame (e e' : ArgEnv) (l : List Nat) : Prop where
  fetch : ∀ s ∈ l, e'.fetch s = e.fetch s
  array : e'.array = e.array
  home : e'.home = e.home
  floatText : e'.floatText = e.floatText

variable {e e' : ArgEnv}

theorem SeesSame.sub {l l'} (h : SeesSame e e' l) (hs : ∀ s ∈ l', s ∈ l) : SeesSame e e' l' :=
  ⟨fun s hm => h.fetch s (hs s hm), h.array, h.home, h.floatText⟩

theorem SeesSame.item {f : α → List Nat} {l : List α} (h : SeesSame e e' (l.flatMap f)) {x} (hx : x ∈ l) : SeesSame e e' (f x) :=
  h.sub (fun _ hs => List.mem_flatMap.mpr ⟨x, hx, hs⟩)

theorem collect_congr {f g : α → Except Stop β} {l : List α} (h : ∀ x ∈ l, g x = f x) : collect g l = collect f l := by
  induction l with
  | nil => rfl
  | cons a l ih => simp only [collect, h a (by simp), ih (fun x hx => h x (by simp [hx]))]

theorem basicValue_agree {l} (h : SeesSame e e' l) : buildBasicValue e' = buildBasicValue e := by
  funext v p; simp only [buildBasicValue, h.floatText]

theorem get_agree {s} (h : SeesSame e e' [s]) : e'.get s = e.get s := by simp only [ArgEnv.get, h.fetch s (by simp)]

theorem buildUnit_agree {u} (h : SeesSame e e' (unitSlots u)) : buildUnit e' u = buildUnit e u := by
  cases u with
  | literal l => rfl
  | dollar s p => simp only [buildUnit, get_agree h, basicValue_agree h]

theorem addPart_agree {p args} (h : SeesSame e e' (partSlots p)) : addPart e' args p = addPart e args p := by
  cases p with
  | unit u =>
    cases u with
    | literal l => rfl
    | dollar s p => simp only [addPart, get_agree h, basicValue_agree h, h.array]
  | collection items =>
    simp only [addPart, collect_congr (fun x hx => buildUnit_agree (h.item (f := unitSlots) hx))]
  | home => simp only [addPart, h.home]
  | range | star | percent | charClass => rfl

theorem buildArgument_agree {a} (h : SeesSame e e' (argSlots a)) : buildArgument e' a = buildArgument e a := by
  have key : ∀ (ps : List Prog.ArgPart) (args : Args), SeesSame e e' (ps.flatMap partSlots) → addParts e' args ps = addParts e args ps := by
    intro ps
    induction ps with
    | nil => intro args _; rfl
    | cons p ps ih =>
      intro args h
      simp only [addParts, addPart_agree (h.item (f := partSlots) (x := p) (by simp)),
        ih _ (h.sub (fun s hs => by simp only [List.flatMap_cons, List.mem_append]; exact .inr hs))]
  simp only [buildArgument, key _ _ h]

theorem buildSingle_agree {o a} (h : SeesSame e e' (argSlots a)) : buildSingle e' o a = buildSingle e o a := by
  simp only [buildSingle, buildArgument_agree h]

theorem buildArguments_agree {l} (h : SeesSame e e' (l.flatMap argSlots)) : buildArguments e' l = buildArguments e l := by
  simp only [buildArguments, collect_congr (fun x hx => buildArgument_agree (h.item (f := argSlots) hx))]

theorem buildRedirection_agree {r} (h : SeesSame e e' (redirSlots r)) : buildRedirection e' r = buildRedirection e r := by
  cases r with
  | output n t =>
    cases t with
    | fd m => rfl
    | overwrite a => simp only [buildRedirection, buildTarget, buildSingle_agree (a := a) h]
    | append a => simp only [buildRedirection, buildTarget, buildSingle_agree (a := a) h]
  | input l a => simp only [buildRedirection, buildSingle_agree (a := a) h]

theorem buildEnvItem_agree {i} (h : SeesSame e e' (unitSlots i.1 ++ argSlots i.2)) : buildEnvItem e' i = buildEnvItem e i := by
  simp only [buildEnvItem, buildUnit_agree (h.sub (fun s hs => List.mem_append.mpr (.inl hs))),
    buildSingle_agree (h.sub (fun s hs => List.mem_append.mpr (.inr hs)))]

theorem buildBasic_agree {c} (h : SeesSame e e' (basicSlots c)) : buildBasicCommand e' c = buildBasicCommand e c := by
  have h1 : SeesSame e e' (argSlots c.program) := h.sub (fun s hs => by simp only [basicSlots, List.mem_append]; exact .inl (.inl (.inl hs)))
  have h2 : SeesSame e e' (c.env.flatMap (fun e => unitSlots e.1 ++ argSlots e.2)) :=
    h.sub (fun s hs => by simp only [basicSlots, List.mem_append]; exact .inl (.inl (.inr hs)))
  have h3 : SeesSame e e' (c.arguments.flatMap argSlots) := h.sub (fun s hs => by simp only [basicSlots, List.mem_append]; exact .inl (.inr hs))
  have h4 : SeesSame e e' (c.redirections.flatMap redirSlots) := h.sub (fun s hs => by simp only [basicSlots, List.mem_append]; exact .inr hs)
  have c2 : collect (buildEnvItem e') c.env = collect (buildEnvItem e) c.env :=
    collect_congr (fun x hx => buildEnvItem_agree (h2.item (f := fun e => unitSlots e.1 ++ argSlots e.2) hx))
  have c4 : collect (buildRedirection e') c.redirections = collect (buildRedirection e) c.redirections :=
    collect_congr (fun x hx => buildRedirection_agree (h4.item (f := redirSlots) hx))
  simp only [buildBasicCommand, buildSingle_agree h1, buildArguments_agree h3, c2, c4]

theorem buildCommand_agree {c} (h : SeesSame e e' (commandSlots c)) : buildCommand e' c = buildCommand e c := by
  cases c with
  | builtin p as ab pos => simp only [buildCommand, buildArguments_agree (l := as) h]
  | external hd tl =>
    have h' : SeesSame e e' ((hd :: tl).flatMap basicSlots) := h
    simp only [buildCommand, buildBasic_agree (h'.item (f := basicSlots) (x := hd) (by simp)),
      collect_congr (l := tl) (fun x hx => buildBasic_agree (h'.item (f := basicSlots) (x := x) (by simp [hx])))]

theorem buildBlock_agree {b : Prog.CommandBlock} (h : SeesSame e e' (blockSlots b)) :
    buildBlock e' b.head b.tail = buildBlock e b.head b.tail := by
  have h' : SeesSame e e' ((b.head :: b.tail).flatMap commandSlots) := h
  simp only [buildBlock, buildCommand_agree (h'.item (f := commandSlots) (x := b.head) (by simp)),
    collect_congr (l := b.tail) (fun x hx => buildCommand_agree (h'.item (f := commandSlots) (x := x) (by simp [hx])))]

end Hush

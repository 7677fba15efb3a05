import Verif.Lemmas.Json

/-!
What is written as JSON is read back: the reader.
-/

namespace Hush
open Hush.Spec

/-- The bytes with which texts begin. -/
def startBytes : List UInt8 := [110, 116, 102, 34, 91, 123, 45, 48, 49, 50, 51, 52, 53, 54, 55, 56, 57]

theorem digit_start {b : UInt8} (h : isDigit b = true) : b ∈ startBytes := by
  have : ∀ b : UInt8, isDigit b = true → b ∈ startBytes := forall_byte (by decide +kernel)
  exact this b h

theorem intText_cases (i : Int) : ∃ ds, Numeral i.natAbs ds ∧ intText i = (if i < 0 then [45] else []) ++ ds := by
  refine ⟨natDigits i.natAbs, natDigits_numeral _, ?_⟩
  unfold intText
  split <;> rfl

theorem numeral_start {n : Nat} {ds : Bytes} (h : Numeral n ds) : ∃ c t, ds = c :: t ∧ isDigit c = true := by
  obtain ⟨hne, hd, -⟩ := h
  cases ds with
  | nil => exact absurd rfl hne
  | cons c t => exact ⟨c, t, rfl, hd c List.mem_cons_self⟩

theorem allDigits_start {ds : Bytes} (h : AllDigits ds) : ∃ c t, ds = c :: t ∧ isDigit c = true := by
  obtain ⟨hne, hd⟩ := h
  cases ds with
  | nil => exact absurd rfl hne
  | cons c t => exact ⟨c, t, rfl, (digit_iff c).2 (hd c List.mem_cons_self)⟩

theorem text_start {w : World} (d : Nat) (j : Data) (hp : Proper w j) : ∃ c t, dataText w d j = c :: t ∧ c ∈ startBytes := by
  match j, hp with
  | .nil, _ => exact ⟨110, _, rfl, by decide⟩
  | .bool true, _ => exact ⟨116, _, rfl, by decide⟩
  | .bool false, _ => exact ⟨102, _, rfl, by decide⟩
  | .int i, _ =>
    obtain ⟨ds, hn, he⟩ := intText_cases i
    obtain ⟨c, t, rfl, hc⟩ := numeral_start hn
    rw [dataText, he]
    by_cases hi : i < 0
    · rw [if_pos hi]
      exact ⟨45, _, rfl, by decide⟩
    · rw [if_neg hi]
      exact ⟨c, t, rfl, digit_start hc⟩
  | .float f, hp =>
    rw [Proper] at hp
    obtain ⟨-, ⟨sign, whole, frac, exp, he, hs, hw, -⟩, -⟩ := hp
    obtain ⟨c, t, rfl, hc⟩ := allDigits_start hw
    rw [dataText, he]
    rcases hs with rfl | rfl
    · exact ⟨c, _, rfl, digit_start hc⟩
    · exact ⟨45, _, rfl, by decide⟩
  | .text s, _ => exact ⟨34, _, rfl, by decide⟩
  | .list [], _ => exact ⟨91, _, rfl, by decide⟩
  | .list (j :: js), _ => exact ⟨91, _, rfl, by decide⟩
  | .record [], _ => exact ⟨123, _, rfl, by decide⟩
  | .record ((k, j) :: es), _ => exact ⟨123, _, rfl, by decide⟩

/-! ### White space -/

theorem skip_start {c : UInt8} (t : Bytes) (h : c ∈ startBytes) : Json.skip (c :: t) = c :: t := by
  have : ∀ c ∈ startBytes, Json.isSpace c = false := by decide +kernel
  rw [Json.skip, List.dropWhile_cons, this c h]
  rfl

theorem skip_newline (d : Nat) (s : Bytes) : Json.skip (Json.newline d ++ s) = Json.skip s := by
  show Json.skip (List.replicate (2 * d) 32 ++ s) = _
  generalize 2 * d = n
  induction n with
  | zero => rfl
  | succ n ih => exact ih

theorem value_space {w : World} {n d : Nat} {s s' : Bytes} (h : Json.skip s = Json.skip s') : Json.value w n d s = Json.value w n d s' := by
  cases n with
  | zero => rw [Json.value, Json.value]
  | succ n => rw [Json.value, Json.value, h]

theorem items_space {w : World} {n d : Nat} {s s' : Bytes} (h : Json.skip s = Json.skip s') : Json.items w n d s = Json.items w n d s' := by
  cases n with
  | zero => rw [Json.items, Json.items]
  | succ n => rw [Json.items, Json.items, value_space h]

theorem entries_space {w : World} {n d : Nat} {acc} {s s' : Bytes} (h : Json.skip s = Json.skip s') :
    Json.entries w n d acc s = Json.entries w n d acc s' := by
  cases n with
  | zero => rw [Json.entries, Json.entries]
  | succ n => rw [Json.entries, Json.entries, h]

/-! ### Values by their first byte -/

theorem value_digit {w : World} {n d : Nat} {b : UInt8} {s : Bytes} (h : isDigit b = true) :
    Json.value w (n + 1) d (b :: s) = Json.number w false (b :: s) := by
  have : ∀ b : UInt8, isDigit b = true → b ∈ [48, 49, 50, 51, 52, 53, 54, 55, 56, 57] := forall_byte (by decide +kernel)
  have := this b h
  simp only [List.mem_cons, List.not_mem_nil, or_false] at this
  rcases this with rfl | rfl | rfl | rfl | rfl | rfl | rfl | rfl | rfl | rfl <;> (rw [Json.value]; rfl)

theorem value_minus {w : World} {n d : Nat} {s : Bytes} : Json.value w (n + 1) d (45 :: s) = Json.number w true s := by
  rw [Json.value]
  rfl

theorem value_string {w : World} {n d : Nat} {s : Bytes} : Json.value w (n + 1) d (34 :: s) = (Json.string s).map (fun r => (.string r.1, r.2)) := by
  rw [Json.value]
  rfl

theorem value_items {w : World} {n d : Nat} {s t : Bytes} {c : UInt8} (hd : 1 < d) (hs : Json.skip s = c :: t) (hc : c ∈ startBytes) :
    Json.value w (n + 1) d (91 :: s) = (Json.items w n (d - 1) (c :: t)).map (fun r => (.array r.1, r.2)) := by
  rw [Json.value]
  show (if d ≤ 1 then none else match Json.skip s with
    | 93 :: s => some (.array [], s)
    | s => (Json.items w n (d - 1) s).map (fun r => (Tree.array r.1, r.2))) = _
  rw [if_neg (by omega), hs]
  simp only [startBytes, List.mem_cons, List.not_mem_nil, or_false] at hc
  rcases hc with rfl | rfl | rfl | rfl | rfl | rfl | rfl | rfl | rfl | rfl | rfl | rfl | rfl | rfl | rfl | rfl | rfl <;> rfl

theorem value_entries {w : World} {n d : Nat} {s t : Bytes} (hd : 1 < d) (hs : Json.skip s = 34 :: t) :
    Json.value w (n + 1) d (123 :: s) =
      (Json.entries w n (d - 1) [] (34 :: t)).map (fun r => (.dict (r.1.map (fun e => (.string e.1, e.2))), r.2)) := by
  rw [Json.value]
  show (if d ≤ 1 then none else match Json.skip s with
    | 125 :: s => some (.dict [], s)
    | s => (Json.entries w n (d - 1) [] s).map (fun r => (Tree.dict (r.1.map (fun e => (.string e.1, e.2))), r.2))) = _
  rw [if_neg (by omega), hs]
  rfl

theorem items_last {w : World} {n d : Nat} {s s1 r : Bytes} {t : Tree} (hv : Json.value w n d s = some (t, s1)) (hs : Json.skip s1 = 93 :: r) :
    Json.items w (n + 1) d s = some ([t], r) := by
  rw [Json.items, hv]
  show (match Json.skip s1 with
    | 44 :: s => (Json.items w n d s).map (fun r : List Tree × Bytes => (t :: r.1, r.2))
    | 93 :: s => some ([t], s)
    | _ => none) = _
  rw [hs]
  rfl

theorem items_more {w : World} {n d : Nat} {s s1 r : Bytes} {t : Tree} (hv : Json.value w n d s = some (t, s1)) (hs : Json.skip s1 = 44 :: r) :
    Json.items w (n + 1) d s = (Json.items w n d r).map (fun r => (t :: r.1, r.2)) := by
  rw [Json.items, hv]
  show (match Json.skip s1 with
    | 44 :: s => (Json.items w n d s).map (fun r : List Tree × Bytes => (t :: r.1, r.2))
    | 93 :: s => some ([t], s)
    | _ => none) = _
  rw [hs]
  rfl

theorem entries_step {w : World} {n d : Nat} {acc : List (Bytes × Tree)} {s s1 s2 s3 s4 k : Bytes} {t : Tree} (h1 : Json.skip s = 34 :: s1)
    (h2 : Json.string s1 = some (k, s2)) (h3 : Json.skip s2 = 58 :: s3) (h4 : Json.value w n d s3 = some (t, s4)) :
    Json.entries w (n + 1) d acc s = match Json.skip s4 with
      | 44 :: s => Json.entries w n d (Json.insertEntry k t acc) s
      | 125 :: s => some (Json.insertEntry k t acc, s)
      | _ => none := by
  rw [Json.entries, h1]
  show (match Json.string s1 with
    | none => none
    | some (k, s) =>
      match Json.skip s with
      | 58 :: s =>
        match Json.value w n d s with
        | none => none
        | some (t, s) =>
          match Json.skip s with
          | 44 :: s => Json.entries w n d (Json.insertEntry k t acc) s
          | 125 :: s => some (Json.insertEntry k t acc, s)
          | _ => none
      | _ => none) = _
  rw [h2]
  show (match Json.skip s2 with
      | 58 :: s =>
        match Json.value w n d s with
        | none => none
        | some (t, s) =>
          match Json.skip s with
          | 44 :: s => Json.entries w n d (Json.insertEntry k t acc) s
          | 125 :: s => some (Json.insertEntry k t acc, s)
          | _ => none
      | _ => none) = _
  rw [h3]
  show (match Json.value w n d s3 with
        | none => none
        | some (t, s) =>
          match Json.skip s with
          | 44 :: s => Json.entries w n d (Json.insertEntry k t acc) s
          | 125 :: s => some (Json.insertEntry k t acc, s)
          | _ => none) = _
  rw [h4]

theorem insert_new {k : Bytes} {t : Tree} : ∀ {acc : List (Bytes × Tree)}, k ∉ acc.map (·.1) → Json.insertEntry k t acc = acc ++ [(k, t)]
  | [], _ => rfl
  | e :: es, h => by
    simp only [List.map_cons, List.mem_cons, not_or] at h
    rw [Json.insertEntry, if_neg (fun he => h.1 he.symm), insert_new h.2]
    rfl

/-! ### The reader -/

mutual
/-- What is read. -/
def dataTree : Data → Tree
  | .nil => .nil
  | .bool b => .bool b
  | .int i => .int i
  | .float f => .float f
  | .text s => .string (utf8 s)
  | .list js => .array (dataTrees js)
  | .record es => .dict ((dataEntries es).map (fun e => (.string e.1, e.2)))
/-- All of them. -/
def dataTrees : List Data → List Tree
  | [] => []
  | j :: js => dataTree j :: dataTrees js
/-- All of them. -/
def dataEntries : List (List Char × Data) → List (Bytes × Tree)
  | [] => []
  | (k, j) :: es => (utf8 k, dataTree j) :: dataEntries es
end

mutual
/-- The budget of the reader. -/
def dataNeed : Data → Nat
  | .list js => itemsNeed js + 1
  | .record es => entriesNeed es + 1
  | _ => 1
/-- For the items. -/
def itemsNeed : List Data → Nat
  | [] => 0
  | j :: js => max (dataNeed j) (itemsNeed js) + 1
/-- For the entries. -/
def entriesNeed : List (List Char × Data) → Nat
  | [] => 0
  | (_, j) :: es => max (dataNeed j) (entriesNeed es) + 1
end

theorem need_pos (j : Data) : 0 < dataNeed j := by cases j <;> simp [dataNeed]

/-- What follows the first element. -/
def afterFirst (d : Nat) (closing : UInt8) (ps : List Bytes) (rest : Bytes) : Bytes :=
  ps.flatMap (fun p => 44 :: (Json.newline (d + 1) ++ p)) ++ (Json.newline d ++ closing :: rest)

theorem afterFirst_end (d : Nat) (closing : UInt8) (ps : List Bytes) (rest : Bytes) : NumberEnd (afterFirst d closing ps rest) := by
  intro c t h
  cases ps with
  | nil => cases h; decide
  | cons p ps => cases h; decide

theorem afterFirst_cons (d : Nat) (closing : UInt8) (p : Bytes) (ps : List Bytes) (rest : Bytes) :
    afterFirst d closing (p :: ps) rest = 44 :: (Json.newline (d + 1) ++ (p ++ afterFirst d closing ps rest)) := by
  simp [afterFirst]

theorem layout_cons (o c : UInt8) (d : Nat) (p : Bytes) (ps : List Bytes) (rest : Bytes) :
    Json.layout o c d (p :: ps) ++ rest = o :: (Json.newline (d + 1) ++ (p ++ afterFirst d c ps rest)) := by
  simp [afterFirst, Json.layout]

theorem quote_append (s t : Bytes) : Json.quote s ++ t = 34 :: (s.flatMap Json.escape ++ 34 :: t) := by simp [Json.quote]

theorem dataEntries_keys (es : List (List Char × Data)) : (dataEntries es).map (·.1) = es.map (fun e => utf8 e.1) := by
  induction es with
  | nil => rfl
  | cons e es ih => obtain ⟨k, j⟩ := e; rw [dataEntries, List.map_cons, List.map_cons, ih]

mutual
theorem value_read {w : World} : ∀ (j : Data) (n dep d : Nat) (rest : Bytes), Proper w j → dataNeed j ≤ n → j.depth < dep → NumberEnd rest →
    Json.value w n dep (dataText w d j ++ rest) = some (dataTree j, rest)
  | .nil, n + 1, dep, d, rest, _, _, _, _ => by rw [Json.value]; rfl
  | .bool true, n + 1, dep, d, rest, _, _, _, _ => by rw [Json.value]; rfl
  | .bool false, n + 1, dep, d, rest, _, _, _, _ => by rw [Json.value]; rfl
  | .int i, n + 1, dep, d, rest, hp, _, _, hr => by
    rw [Proper] at hp
    obtain ⟨ds, hn, he⟩ := intText_cases i
    have hrd := int_read w hp.1 hp.2 hn hr
    rw [dataText, he]
    by_cases hi : i < 0
    · rw [if_pos hi]
      rw [decide_eq_true hi] at hrd
      exact value_minus.trans hrd
    · rw [if_neg hi]
      rw [decide_eq_false hi] at hrd
      obtain ⟨c, t, rfl, hc⟩ := numeral_start hn
      exact (value_digit hc).trans hrd
  | .float f, n + 1, dep, d, rest, hp, _, _, hr => by
    rw [Proper] at hp
    obtain ⟨-, ⟨sign, whole, frac, exp, he, hs, hw, hz, hf, hx, hne⟩, hv⟩ := hp
    rw [he] at hv
    have hrd := float_read w hs hw hz hf hx hne hv hr
    rw [dataText, he]
    rw [show sign ++ whole ++ frac ++ exp ++ rest = sign ++ (whole ++ (frac ++ (exp ++ rest))) by simp]
    rcases hs with rfl | rfl
    · obtain ⟨c, t, rfl, hc⟩ := allDigits_start hw
      exact (value_digit hc).trans hrd
    · exact value_minus.trans hrd
  | .text s, n + 1, dep, d, rest, _, _, _, _ => by
    rw [dataText, quote_append, value_string, string_read]
    rfl
  | .list [], n + 1, dep, d, rest, _, _, hd, _ => by
    rw [Data.depth] at hd
    rw [Json.value]
    show (if dep ≤ 1 then none else some (Tree.array [], rest)) = _
    rw [if_neg (by omega)]
    rfl
  | .list (j :: js), n + 1, dep, d, rest, hp, hn, hd, _ => by
    rw [Proper, ProperItems] at hp
    rw [Data.depth, depthItems] at hd
    rw [dataNeed] at hn
    obtain ⟨c, t, he, hc⟩ := text_start (d + 1) j hp.1
    have hs : Json.skip (Json.newline (d + 1) ++ (dataText w (d + 1) j ++ afterFirst d 93 (itemTexts w d js) rest)) =
        c :: (t ++ afterFirst d 93 (itemTexts w d js) rest) := by
      rw [skip_newline, he]
      exact skip_start _ hc
    rw [dataText, itemTexts, layout_cons, value_items (by omega) hs hc, ← List.cons_append, ← he,
      items_read j js n (dep - 1) d rest hp.1 hp.2 (by omega) (by omega) (by omega)]
    rfl
  | .record [], n + 1, dep, d, rest, _, _, hd, _ => by
    rw [Data.depth] at hd
    rw [Json.value]
    show (if dep ≤ 1 then none else some (Tree.dict [], rest)) = _
    rw [if_neg (by omega)]
    rfl
  | .record ((k, j) :: es), n + 1, dep, d, rest, hp, hn, hd, _ => by
    rw [Proper] at hp
    rw [Data.depth] at hd
    rw [dataNeed] at hn
    have hs : Json.skip (Json.newline (d + 1) ++ (Json.quote (utf8 k) ++ [58, 32] ++ dataText w (d + 1) j ++ afterFirst d 125 (entryTexts w d es) rest)) =
        34 :: ((utf8 k).flatMap Json.escape ++ 34 :: ([58, 32] ++ (dataText w (d + 1) j ++ afterFirst d 125 (entryTexts w d es) rest))) := by
      rw [skip_newline, List.append_assoc, List.append_assoc, quote_append]
      rfl
    rw [dataText, entryTexts, layout_cons, value_entries (by omega) hs, ← quote_append, ← List.append_assoc, ← List.append_assoc,
      entries_read k j es [] n (dep - 1) d rest hp.2 hp.1 (by simp) (by omega) (by omega)]
    rfl
  | .nil, 0, _, _, _, _, hn, _, _ | .bool _, 0, _, _, _, _, hn, _, _ | .int _, 0, _, _, _, _, hn, _, _ | .float _, 0, _, _, _, _, hn, _, _
  | .text _, 0, _, _, _, _, hn, _, _ | .list _, 0, _, _, _, _, hn, _, _ | .record _, 0, _, _, _, _, hn, _, _ => absurd hn (Nat.not_le.2 (need_pos _))
termination_by _ n => n
theorem items_read {w : World} : ∀ (j : Data) (js : List Data) (n dep d : Nat) (rest : Bytes), Proper w j → ProperItems w js → itemsNeed (j :: js) ≤ n →
    j.depth < dep → depthItems js < dep →
    Json.items w n dep (dataText w (d + 1) j ++ afterFirst d 93 (itemTexts w d js) rest) = some (dataTrees (j :: js), rest)
  | j, js, 0, _, _, _, _, _, hn, _, _ => by rw [itemsNeed] at hn; omega
  | j, [], n + 1, dep, d, rest, hj, _, hn, hd, _ => by
    rw [itemsNeed] at hn
    have hs : Json.skip (afterFirst d 93 (itemTexts w d []) rest) = 93 :: rest := by
      show Json.skip (Json.newline d ++ 93 :: rest) = _
      rw [skip_newline]
      rfl
    exact items_last (value_read j n dep (d + 1) _ hj (by omega) hd (afterFirst_end _ _ _ _)) hs
  | j, j' :: js, n + 1, dep, d, rest, hj, hp, hn, hd, hds => by
    rw [itemsNeed] at hn
    rw [ProperItems] at hp
    rw [depthItems] at hds
    have hs : Json.skip (afterFirst d 93 (itemTexts w d (j' :: js)) rest) =
        44 :: (Json.newline (d + 1) ++ (dataText w (d + 1) j' ++ afterFirst d 93 (itemTexts w d js) rest)) := by
      rw [itemTexts, afterFirst_cons]
      rfl
    rw [items_more (value_read j n dep (d + 1) _ hj (by omega) hd (afterFirst_end _ _ _ _)) hs, items_space (skip_newline _ _),
      items_read j' js n dep d rest hp.1 hp.2 (by omega) (by omega) (by omega)]
    rfl
termination_by _ _ n => n
theorem entries_read {w : World} : ∀ (k : List Char) (j : Data) (es : List (List Char × Data)) (acc : List (Bytes × Tree)) (n dep d : Nat) (rest : Bytes),
    ProperEntries w ((k, j) :: es) → (((k, j) :: es).map (·.1)).Nodup → (∀ e ∈ (k, j) :: es, utf8 e.1 ∉ acc.map (·.1)) →
    entriesNeed ((k, j) :: es) ≤ n → depthEntries ((k, j) :: es) < dep →
    Json.entries w n dep acc (Json.quote (utf8 k) ++ [58, 32] ++ dataText w (d + 1) j ++ afterFirst d 125 (entryTexts w d es) rest) =
      some (acc ++ dataEntries ((k, j) :: es), rest)
  | k, j, es, acc, 0, _, _, _, _, _, _, hn, _ => by rw [entriesNeed] at hn; omega
  | k, j, es, acc, n + 1, dep, d, rest, hp, hnd, hacc, hn, hd => by
    rw [entriesNeed] at hn
    rw [ProperEntries] at hp
    rw [depthEntries] at hd
    have hs : Json.skip (Json.quote (utf8 k) ++ [58, 32] ++ dataText w (d + 1) j ++ afterFirst d 125 (entryTexts w d es) rest) =
        34 :: ((utf8 k).flatMap Json.escape ++ 34 :: ([58, 32] ++ (dataText w (d + 1) j ++ afterFirst d 125 (entryTexts w d es) rest))) := by
      rw [List.append_assoc, List.append_assoc, quote_append]
      rfl
    have hv : Json.value w n dep ([32] ++ (dataText w (d + 1) j ++ afterFirst d 125 (entryTexts w d es) rest)) =
        some (dataTree j, afterFirst d 125 (entryTexts w d es) rest) := by
      have hsp : Json.skip ([32] ++ (dataText w (d + 1) j ++ afterFirst d 125 (entryTexts w d es) rest)) =
          Json.skip (dataText w (d + 1) j ++ afterFirst d 125 (entryTexts w d es) rest) := rfl
      rw [value_space hsp, value_read j n dep (d + 1) _ hp.1 (by omega) (by omega) (afterFirst_end _ _ _ _)]
    have hs2 : Json.skip ([58, 32] ++ (dataText w (d + 1) j ++ afterFirst d 125 (entryTexts w d es) rest)) =
        58 :: ([32] ++ (dataText w (d + 1) j ++ afterFirst d 125 (entryTexts w d es) rest)) := rfl
    rw [entries_step hs (string_read k _) hs2 hv]
    clear hs hv hs2
    have hi : Json.insertEntry (utf8 k) (dataTree j) acc = acc ++ [(utf8 k, dataTree j)] := insert_new (hacc _ List.mem_cons_self)
    match es, hp, hnd, hacc, hn, hd with
    | [], hp, hnd, hacc, hn, hd =>
      have h3 : Json.skip (afterFirst d 125 (entryTexts w d []) rest) = 125 :: rest := by
        show Json.skip (Json.newline d ++ 125 :: rest) = _
        rw [skip_newline]
        rfl
      rw [h3]
      show some (Json.insertEntry (utf8 k) (dataTree j) acc, rest) = _
      rw [hi]
      rfl
    | (k', j') :: es, hp, hnd, hacc, hn, hd =>
      have h3 : Json.skip (afterFirst d 125 (entryTexts w d ((k', j') :: es)) rest) =
          44 :: (Json.newline (d + 1) ++
            (Json.quote (utf8 k') ++ [58, 32] ++ dataText w (d + 1) j' ++ afterFirst d 125 (entryTexts w d es) rest)) := by
        rw [entryTexts, afterFirst_cons]
        rfl
      rw [h3]
      show Json.entries w n dep (Json.insertEntry (utf8 k) (dataTree j) acc) _ = _
      rw [hi, entries_space (skip_newline _ _), entries_read k' j' es (acc ++ [(utf8 k, dataTree j)]) n dep d rest hp.2 (List.nodup_cons.1 hnd).2
        ?_ (by omega) (by omega)]
      · rw [dataEntries, List.append_assoc]
        rfl
      · intro e he
        rw [List.map_append, List.mem_append, not_or]
        refine ⟨hacc e (List.mem_cons_of_mem _ he), fun hm => ?_⟩
        have hm : utf8 e.1 = utf8 k := by simpa using hm
        exact (List.nodup_cons.1 hnd).1 (List.mem_map.2 ⟨e, he, utf8_inj hm⟩)
termination_by _ _ _ _ n => n
end

/-! ### The budget is enough -/

theorem flatMap_length_le (d : Nat) (ps : List Bytes) : ps.flatten.length ≤ (ps.flatMap (fun p => 44 :: (Json.newline (d + 1) ++ p))).length := by
  induction ps with
  | nil => exact Nat.le_refl _
  | cons p ps ih =>
    rw [List.flatten_cons, List.flatMap_cons]
    simp only [List.length_append, List.length_cons]
    omega

theorem layout_length (o c : UInt8) (d : Nat) (ps : List Bytes) : ps.flatten.length + 2 ≤ (Json.layout o c d ps).length := by
  cases ps with
  | nil => exact Nat.le_refl _
  | cons p ps =>
    have := flatMap_length_le d ps
    rw [Json.layout, List.flatten_cons]
    simp only [List.length_append, List.length_cons]
    omega

mutual
theorem need_length {w : World} : ∀ (j : Data) (d : Nat), Proper w j → dataNeed j + 1 ≤ 2 * (dataText w d j).length
  | .list js, d, hp => by
    rw [Proper] at hp
    have h1 := items_length js d hp
    have h2 := layout_length 91 93 d (itemTexts w d js)
    rw [dataNeed, dataText]
    omega
  | .record es, d, hp => by
    rw [Proper] at hp
    have h1 := entries_length es d hp.2
    have h2 := layout_length 123 125 d (entryTexts w d es)
    rw [dataNeed, dataText]
    omega
  | .nil, d, hp | .bool _, d, hp | .int _, d, hp | .float _, d, hp | .text _, d, hp => by
    obtain ⟨c, t, h, -⟩ := text_start d _ hp
    rw [h, List.length_cons]
    simp only [dataNeed]
    omega
theorem items_length {w : World} : ∀ (js : List Data) (d : Nat), ProperItems w js → itemsNeed js ≤ 2 * (itemTexts w d js).flatten.length
  | [], d, _ => Nat.zero_le _
  | j :: js, d, hp => by
    rw [ProperItems] at hp
    have h1 := need_length j (d + 1) hp.1
    have h2 := items_length js d hp.2
    rw [itemsNeed, itemTexts, List.flatten_cons, List.length_append]
    omega
theorem entries_length {w : World} : ∀ (es : List (List Char × Data)) (d : Nat), ProperEntries w es →
    entriesNeed es ≤ 2 * (entryTexts w d es).flatten.length
  | [], d, _ => Nat.zero_le _
  | (k, j) :: es, d, hp => by
    rw [ProperEntries] at hp
    have h1 := need_length j (d + 1) hp.1
    have h2 := entries_length es d hp.2
    rw [entriesNeed, entryTexts, List.flatten_cons, List.length_append, List.length_append]
    omega
end

theorem decode_text {w : World} {j : Data} (hp : Proper w j) (hd : j.depth ≤ 127) : Json.decode w (dataText w 0 j) = some (dataTree j) := by
  have h1 := need_length j 0 hp
  have h2 := value_read j (2 * (dataText w 0 j).length + 2) 128 0 [] hp (by omega) (by omega) nofun
  rw [List.append_nil] at h2
  rw [Json.decode, h2]
  rfl

/-! ### The values that are built -/

/-- The heap has grown: what was there is unchanged. -/
structure HeapKept (h h' : Heap) : Prop where
  arrays : ∀ (a : Nat) (vs : List Value), h.arrays[a]? = some vs → h'.arrays[a]? = some vs
  dicts : ∀ (a : Nat) (vs : List (Value × Value)), h.dicts[a]? = some vs → h'.dicts[a]? = some vs

theorem HeapKept.refl (h : Heap) : HeapKept h h := ⟨fun _ _ => id, fun _ _ => id⟩

theorem HeapKept.trans {a b c : Heap} (h1 : HeapKept a b) (h2 : HeapKept b c) : HeapKept a c :=
  ⟨fun x v h => h2.arrays x v (h1.arrays x v h), fun x v h => h2.dicts x v (h1.dicts x v h)⟩

theorem getElem?_grow {α} {l m : List α} {i : Nat} {x : α} (h : l[i]? = some x) : (l ++ m)[i]? = some x := by
  obtain ⟨hi, he⟩ := List.getElem?_eq_some_iff.1 h
  rw [List.getElem?_append_left hi, h]

theorem grown_array (h : Heap) (vs : List Value) : HeapKept h (h.newArray vs).2 := ⟨fun _ _ h => getElem?_grow h, fun _ _ => id⟩

theorem grown_dict (h : Heap) (es : List (Value × Value)) : HeapKept h (h.newDict es).2 := ⟨fun _ _ => id, fun _ _ h => getElem?_grow h⟩

mutual
theorem holds_grown {h h' : Heap} (g : HeapKept h h') : ∀ (j : Data) (v : Value), Holds h j v → Holds h' j v
  | .nil, v, hv | .bool _, v, hv | .int _, v, hv | .float _, v, hv | .text _, v, hv => by rw [Holds] at hv ⊢; exact hv
  | .list js, v, hv => by
    rw [Holds] at hv ⊢
    obtain ⟨a, vs, rfl, h1, h2⟩ := hv
    exact ⟨a, vs, rfl, g.arrays a vs h1, items_grown g js vs h2⟩
  | .record es, v, hv => by
    rw [Holds] at hv ⊢
    obtain ⟨a, vs, rfl, h1, h2⟩ := hv
    exact ⟨a, vs, rfl, g.dicts a vs h1, entries_grown g es vs h2⟩
theorem items_grown {h h' : Heap} (g : HeapKept h h') : ∀ (js : List Data) (vs : List Value), HoldItems h js vs → HoldItems h' js vs
  | [], vs, hv => by rw [HoldItems] at hv ⊢; exact hv
  | j :: js, vs, hv => by
    rw [HoldItems] at hv ⊢
    obtain ⟨v, rest, rfl, h1, h2⟩ := hv
    exact ⟨v, rest, rfl, holds_grown g j v h1, items_grown g js rest h2⟩
theorem entries_grown {h h' : Heap} (g : HeapKept h h') : ∀ (es : List (List Char × Data)) (vs : List (Value × Value)), HoldEntries h es vs → HoldEntries h' es vs
  | [], vs, hv => by rw [HoldEntries] at hv ⊢; exact hv
  | (k, j) :: js, vs, hv => by
    rw [HoldEntries] at hv ⊢
    obtain ⟨v, rest, rfl, h1, h2⟩ := hv
    exact ⟨v, rest, rfl, holds_grown g j v h1, entries_grown g js rest h2⟩
end

mutual
theorem build_holds (args : List Value) : ∀ (j : Data) (h : Heap),
    Holds ((dataTree j).build args h).2 j ((dataTree j).build args h).1 ∧ HeapKept h ((dataTree j).build args h).2
  | .nil, h | .bool _, h | .int _, h | .float _, h | .text _, h => by
    rw [dataTree, Tree.build, Holds]
    exact ⟨rfl, .refl h⟩
  | .list js, h => by
    obtain ⟨h1, h2⟩ := buildList_holds args js h
    rw [dataTree, Tree.build, Holds]
    have g := grown_array (Tree.buildList args h (dataTrees js)).2 (Tree.buildList args h (dataTrees js)).1
    refine ⟨⟨_, _, rfl, ?_, items_grown g js _ h1⟩, h2.trans g⟩
    simp [Heap.newArray]
  | .record es, h => by
    obtain ⟨h1, h2⟩ := buildEntries_holds args es h
    rw [dataTree, Tree.build, Holds]
    have g := grown_dict (Tree.buildEntries args h ((dataEntries es).map (fun e => (Tree.string e.1, e.2)))).2
      (Tree.buildEntries args h ((dataEntries es).map (fun e => (Tree.string e.1, e.2)))).1
    refine ⟨⟨_, _, rfl, ?_, entries_grown g es _ h1⟩, h2.trans g⟩
    simp [Heap.newDict]
theorem buildList_holds (args : List Value) : ∀ (js : List Data) (h : Heap),
    HoldItems (Tree.buildList args h (dataTrees js)).2 js (Tree.buildList args h (dataTrees js)).1 ∧ HeapKept h (Tree.buildList args h (dataTrees js)).2
  | [], h => by
    rw [dataTrees, Tree.buildList, HoldItems]
    exact ⟨rfl, .refl h⟩
  | j :: js, h => by
    obtain ⟨h1, g1⟩ := build_holds args j h
    obtain ⟨h2, g2⟩ := buildList_holds args js ((dataTree j).build args h).2
    rw [dataTrees, Tree.buildList, HoldItems]
    exact ⟨⟨_, _, rfl, holds_grown g2 j _ h1, h2⟩, g1.trans g2⟩
theorem buildEntries_holds (args : List Value) : ∀ (es : List (List Char × Data)) (h : Heap),
    HoldEntries (Tree.buildEntries args h ((dataEntries es).map (fun e => (Tree.string e.1, e.2)))).2 es
      (Tree.buildEntries args h ((dataEntries es).map (fun e => (Tree.string e.1, e.2)))).1 ∧
    HeapKept h (Tree.buildEntries args h ((dataEntries es).map (fun e => (Tree.string e.1, e.2)))).2
  | [], h => by
    rw [dataEntries, List.map_nil, Tree.buildEntries, HoldEntries]
    exact ⟨rfl, .refl h⟩
  | (k, j) :: es, h => by
    obtain ⟨h1, g1⟩ := build_holds args j h
    obtain ⟨h2, g2⟩ := buildEntries_holds args es ((dataTree j).build args h).2
    rw [dataEntries, List.map_cons, Tree.buildEntries, HoldEntries]
    exact ⟨⟨_, _, rfl, holds_grown g2 j _ h1, h2⟩, g1.trans g2⟩
end

end Hush

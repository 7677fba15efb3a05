import Verif.Lemmas.Loops
import Verif.Lemmas.Args
import Verif.Lemmas.LexTerm
import Verif.Lemmas.Order
import Verif.Spec.Library

/-!
Lemmas about the library functions.
-/

namespace Hush
open Hush.Spec

/-- A panic of a library function. -/
theorem run_libpanic {w : World} {n m obj name it start pos} {s : RState} (hname : ¬ Special name) (hstart : start ≤ s.args.length) {e}
    (hc : Lib.call w name ⟨n, it, s.args.drop start, pos, s.argv⟩ s.heap = some (.error e)) :
    run w (n + 1) (.call m obj (.native name it) start pos) s = (.error e, { s with args := s.args.take start }) := by
  simp only [Special, not_or] at hname
  show stepCall w n (run w n) m obj (.native name it) start pos s = _
  unfold stepCall
  rw [if_neg (take_length_le hstart)]
  simp only [Bind.bind, M.andThen, finally_, nativeCall, M.get]
  rw [if_neg hname.1, if_neg hname.2.1, if_neg hname.2.2.1, if_neg hname.2.2.2]
  simp only [callLib, hc]

theorem lib_call {w : World} {name : Bytes} {c : LibCall} {h : Heap} {f} (hf : Lib.table.lookup name = some f) : Lib.call w name c h = f w c h := by
  simp [Lib.call, hf]

theorem calls_ok {w : World} {name args h v h'} (n : Nat) (hname : ¬ Special name)
    (hc : ∀ addr pos argv, Lib.call w name ⟨n, addr, args, pos, argv⟩ h = some (.ok (v, h'))) : Calls w name args h (.ok v) h' := by
  rintro m obj addr start pos s hs rfl rfl
  exact ⟨nofun, n + 1, run_libcall hname hs (hc addr pos s.argv)⟩

theorem calls_panic {w : World} {name args h k} (hname : ¬ Special name)
    (hc : ∀ addr pos argv, Lib.call w name ⟨0, addr, args, pos, argv⟩ h = some (.error (.panic ⟨k, pos⟩))) :
    Calls w name args h (.error k) h := by
  rintro m obj addr start pos s hs rfl rfl
  exact ⟨nofun, 1, run_libpanic hname hs (hc addr pos s.argv)⟩

/-! ### Splitting -/

theorem joined_cons (p a : Bytes) {l : List Bytes} (h : l ≠ []) : joined p (a :: l) = a ++ p ++ joined p l := by
  cases l with
  | nil => exact absurd rfl h
  | cons b l => rfl

theorem joinWith_joined (p : Bytes) : ∀ l, Lib.joinWith p l = joined p l
  | [] => rfl
  | [_] => rfl
  | a :: b :: l => by
    show a ++ p ++ Lib.joinWith p (b :: l) = a ++ p ++ joined p (b :: l)
    rw [joinWith_joined p (b :: l)]

theorem splits_ne {p s parts} (h : Splits p s parts) : parts ≠ [] := by cases h <;> simp

theorem splits_joined {p s parts} (h : Splits p s parts) : joined p parts = s := by
  induction h with
  | last => rfl
  | part _ h ih => rw [joined_cons _ _ (splits_ne h), ih]

/-- Skipping the rest of an occurrence. -/
theorem splitOn_skip (p cur : Bytes) : ∀ (k : Nat) (s : Bytes), k ≤ s.length → Lib.splitOn p k cur s = Lib.splitOn p 0 cur (s.drop k)
  | 0, _, _ => rfl
  | _ + 1, [], h => by simp at h
  | k + 1, _ :: s, h => by
    rw [Lib.splitOn, splitOn_skip p cur k s (by simpa using h)]
    rfl

/-- An occurrence in `a ++ b` that is not in `a` begins in `a` or in `b`. -/
theorem infix_snoc {p a : Bytes} {b : UInt8} (h : p <:+: a ++ [b]) : p <:+: a ∨ p <:+ a ++ [b] := by
  obtain ⟨x, y, h⟩ := h
  rcases List.eq_nil_or_concat y with rfl | ⟨y', c, rfl⟩
  · right; exact ⟨x, by simpa using h⟩
  · left
    refine ⟨x, y', ?_⟩
    rw [List.concat_eq_append, ← List.append_assoc] at h
    exact (List.append_inj' h rfl).1

/-- No occurrence of `p` in the text begins in `cur`. -/
def NoStart (p cur s : Bytes) : Prop := ∀ x y z, cur = x ++ y → y ≠ [] → y ++ s ≠ p ++ z

theorem noStart_infix {p cur s : Bytes} (h : NoStart p cur s) {t : Bytes} (ht : t <+: s) (hl : t.length < p.length) :
    ¬ p <:+: cur ++ t := by
  rintro ⟨x, z, e⟩
  obtain ⟨u, rfl⟩ := ht
  rw [List.append_assoc] at e
  rcases List.append_eq_append_iff.1 e with ⟨y, e1, e2⟩ | ⟨y, e1, e2⟩
  · -- `cur = x ++ y`
    by_cases hy : y = []
    · subst hy
      have := congrArg List.length e2
      simp at this
      omega
    · exact h x y (z ++ u) e1 hy (by rw [← List.append_assoc p, e2, List.append_assoc])
  · -- the occurrence lies in `t`
    have := congrArg List.length e2
    simp at this
    omega

theorem splitOn_splits {p : Bytes} (hp : p ≠ []) : ∀ (n : Nat) (s cur : Bytes), s.length ≤ n → NoStart p cur s →
    Splits p (cur ++ s) (Lib.splitOn p 0 cur s) := by
  intro n
  induction n with
  | zero =>
    intro s cur hn hs
    obtain rfl : s = [] := List.length_eq_zero_iff.1 (by omega)
    rw [Lib.splitOn, List.append_nil]
    refine .last ?_
    have := noStart_infix hs (List.nil_prefix (l := [])) (by cases p <;> simp_all)
    rwa [List.append_nil] at this
  | succ n ih =>
    intro s cur hn hs
    cases s with
    | nil =>
      rw [Lib.splitOn, List.append_nil]
      refine .last ?_
      have := noStart_infix hs (List.nil_prefix (l := [])) (by cases p <;> simp_all)
      rwa [List.append_nil] at this
    | cons b s =>
      rw [Lib.splitOn]
      by_cases hpre : p.isPrefixOf (b :: s) = true
      · rw [if_pos hpre]
        obtain ⟨s', e⟩ := List.isPrefixOf_iff_prefix.1 hpre
        obtain ⟨c, p', rfl⟩ := List.exists_cons_of_ne_nil hp
        obtain ⟨rfl, rfl⟩ : c = b ∧ p' ++ s' = s := by simpa using e
        have h1 : Lib.splitOn (c :: p') ((c :: p').length - 1) [] (p' ++ s') = Lib.splitOn (c :: p') 0 [] s' := by
          rw [splitOn_skip _ _ _ _ (by simp)]
          simp
        rw [h1]
        have h2 := ih s' [] (by simp at hn; omega) (by rintro x y z hxy hy; simp at hxy; exact absurd hxy.2 hy)
        rw [show cur ++ c :: (p' ++ s') = cur ++ (c :: p') ++ ([] ++ s') by simp]
        refine .part (noStart_infix hs ⟨(c :: p').drop ((c :: p').length - 1) ++ s', ?_⟩ (by simp)) h2
        rw [List.dropLast_eq_take, ← List.append_assoc, List.take_append_drop]
        rfl
      · rw [if_neg hpre]
        rw [show cur ++ b :: s = (cur ++ [b]) ++ s by simp]
        refine ih s _ (by simpa using hn) ?_
        intro x y z hxy hy hz
        rcases List.eq_nil_or_concat y with rfl | ⟨y', c, rfl⟩
        · exact hy rfl
        rw [List.concat_eq_append] at hxy hz
        rw [← List.append_assoc] at hxy
        obtain ⟨rfl, hc⟩ := List.append_inj' hxy rfl
        obtain rfl : b = c := by simpa using hc
        by_cases hy' : y' = []
        · subst hy'
          exact hpre (List.isPrefixOf_iff_prefix.2 ⟨z, by simpa using hz.symm⟩)
        · exact hs x y' z rfl hy' (by simpa using hz)

theorem splitStr_splits {p : Bytes} (hp : p ≠ []) (s : Bytes) : Splits p s (Lib.splitStr p s) := by
  rw [Lib.splitStr, if_neg (by simpa using hp)]
  exact splitOn_splits hp s.length s [] (by omega) (by rintro x y z hxy hy; simp at hxy; exact absurd hxy.2 hy)

theorem joined_splitStr (p s : Bytes) : joined p (Lib.splitStr p s) = s := by
  by_cases hp : p = []
  · subst hp
    have : ∀ s : Bytes, joined [] (s.map (fun b => [b]) ++ [[]]) = s := by
      intro s
      induction s with
      | nil => rfl
      | cons b s ih =>
        rw [List.map_cons, List.cons_append, joined_cons _ _ (by simp), ih]
        rfl
    show joined [] ([] :: (s.map (fun b => [b]) ++ [[]])) = s
    rw [joined_cons _ _ (by simp), this]
    rfl
  · exact splits_joined (splitStr_splits hp s)

/-- The parts are determined. -/
theorem splits_unique {p : Bytes} (hp : p ≠ []) {s parts} (h : Splits p s parts) : ∀ {parts'}, Splits p s parts' → parts = parts' := by
  induction h with
  | last hn =>
    intro parts' h'
    cases h' with
    | last => rfl
    | part => exact absurd ⟨_, _, rfl⟩ hn
  | @part a s rest hn h ih =>
    intro parts' h'
    generalize ht : a ++ p ++ s = t at h'
    cases h' with
    | last hn' => exact absurd ⟨a, s, ht⟩ hn'
    | @part a' s' rest' hn' h' =>
      have key : ∀ {a a' s s' : Bytes}, ¬ p <:+: a' ++ p.dropLast → a ++ p ++ s = a' ++ p ++ s' → a'.length ≤ a.length := by
        intro a a' s s' hn' e
        by_contra hlt
        have hlt : a.length < a'.length := by omega
        refine hn' ⟨a, (a' ++ p.dropLast).drop (a.length + p.length), ?_⟩
        have e1 : (a' ++ p ++ s').take (a.length + p.length) = a ++ p := by
          rw [← e, List.take_append_of_le_length (by simp), List.take_of_length_le (by simp)]
        have e2 : (a' ++ p.dropLast).take (a.length + p.length) = a ++ p := by
          rw [← e1]
          have hp' : p.dropLast ++ [p.getLast hp] = p := List.dropLast_append_getLast hp
          have hl : p.length = p.dropLast.length + 1 := by rw [List.length_dropLast]; have := List.length_pos_iff.2 hp; omega
          have e3 : a' ++ p ++ s' = (a' ++ p.dropLast) ++ ([p.getLast hp] ++ s') := by
            conv_lhs => rw [← hp']
            simp
          rw [e3, List.take_append_of_le_length (l₁ := a' ++ p.dropLast)]
          rw [List.length_append]; omega
        rw [← e2, List.take_append_drop]
      have hl : a.length = a'.length := Nat.le_antisymm (key hn ht.symm) (key hn' ht)
      rw [List.append_assoc, List.append_assoc] at ht
      obtain ⟨rfl, e⟩ := List.append_inj ht hl
      obtain ⟨-, rfl⟩ := List.append_inj e rfl
      rw [ih h']

/-! ### Numbers -/

theorem foldl_decimal (ds : Bytes) : ds.foldl (fun n d => n * 10 + (d.toNat - 48)) 0 = decimal ds := by
  simp only [decimal]
  congr 1
  funext n d
  omega

theorem parse_intText {i : Int} (h : isI64 i = true) : Lib.parseI64 (intText i) = some i := by
  have h1 := natDigits_ne i.natAbs
  have h2 := natDigits_digits i.natAbs
  have h3 := natDigits_decimal i.natAbs
  obtain ⟨d, ds, e⟩ := List.exists_cons_of_ne_nil h1
  have hd := h2 d (by simp [e])
  have hall : (natDigits i.natAbs).all isDigit = true := List.all_eq_true.2 h2
  have hm : ¬ d = cMinus := by rintro rfl; exact absurd hd (by decide)
  have hp : ¬ d = cPlus := by rintro rfl; exact absurd hd (by decide)
  by_cases hi : i < 0
  · simp only [intText, if_pos hi, Lib.parseI64, if_true, foldl_decimal]
    rw [if_neg (by simp [h1, hall]), h3, Option.bind_some]
    rw [show -(i.natAbs : Int) = i by omega]
    simp [checked, h]
  · simp only [intText, if_neg hi, Lib.parseI64]
    rw [e]
    simp only [if_neg hm, if_neg hp, foldl_decimal]
    rw [← e, if_neg (by simp [h1, hall]), h3, Option.bind_some]
    rw [show (i.natAbs : Int) = i by omega]
    simp [checked, h]

/-! ### Hexadecimal and base 64 -/

theorem hex_roundtrip : ∀ s : Bytes, Lib.hexDecode (Lib.hexEncode s) = some s
  | [] => rfl
  | b :: s => by
    have h1 : Lib.hexValue (Lib.hexDigit (b.toNat / 16)) = some (b.toNat / 16) := forall_byte (P := fun b => Lib.hexValue (Lib.hexDigit (b.toNat / 16)) = some (b.toNat / 16)) (by decide +kernel) b
    have h2 : Lib.hexValue (Lib.hexDigit (b.toNat % 16)) = some (b.toNat % 16) := forall_byte (P := fun b => Lib.hexValue (Lib.hexDigit (b.toNat % 16)) = some (b.toNat % 16)) (by decide +kernel) b
    have h3 : UInt8.ofNat (16 * (b.toNat / 16) + b.toNat % 16) = b := by
      rw [Nat.div_add_mod]; simp
    have ih := hex_roundtrip s
    simp only [Lib.hexEncode, List.flatMap_cons, List.cons_append, List.nil_append] at ih ⊢
    simp only [Lib.hexDecode, h1, h2, ih, h3]

theorem b64_value {k : Nat} (h : k < 64) : Lib.b64Value (Lib.b64Digit k) = some k ∧ Lib.b64Digit k ≠ cEq := by
  have : ∀ k : Fin 64, Lib.b64Value (Lib.b64Digit k) = some k.1 ∧ Lib.b64Digit k ≠ cEq := by decide +kernel
  exact this ⟨k, h⟩

theorem ofNat_eq {b : UInt8} {n : Nat} (h : n = b.toNat) : UInt8.ofNat n = b := by subst h; simp

theorem b64_roundtrip (s : Bytes) : Lib.b64Decode (Lib.b64Encode s) = some s := by
  induction s using Lib.b64Encode.induct with
  | case1 => rfl
  | case2 a =>
    have ha := a.toNat_lt
    have h1 := (b64_value (k := a.toNat / 4) (by omega)).1
    have h2 := (b64_value (k := a.toNat % 4 * 16) (by omega)).1
    simp only [Lib.b64Encode, Lib.b64Decode, h1, h2, if_true]
    rw [if_pos ⟨trivial, trivial, by omega⟩]
    rw [ofNat_eq (b := a) (by omega)]
  | case3 a b =>
    have ha := a.toNat_lt
    have hb := b.toNat_lt
    have h1 := (b64_value (k := a.toNat / 4) (by omega)).1
    have h2 := (b64_value (k := a.toNat % 4 * 16 + b.toNat / 16) (by omega)).1
    have h3 := (b64_value (k := b.toNat % 16 * 4) (by omega))
    simp only [Lib.b64Encode, Lib.b64Decode, h1, h2, h3.1, if_neg h3.2, if_true]
    rw [if_pos ⟨trivial, by omega⟩]
    rw [ofNat_eq (b := a) (by omega), ofNat_eq (b := b) (by omega)]
  | case4 a b c rest ih =>
    have ha := a.toNat_lt
    have hb := b.toNat_lt
    have hc := c.toNat_lt
    have h1 := (b64_value (k := a.toNat / 4) (by omega)).1
    have h2 := (b64_value (k := a.toNat % 4 * 16 + b.toNat / 16) (by omega)).1
    have h3 := (b64_value (k := b.toNat % 16 * 4 + c.toNat / 64) (by omega))
    have h4 := (b64_value (k := c.toNat % 64) (by omega))
    simp only [Lib.b64Encode, Lib.b64Decode, h1, h2, h3.1, h4.1, if_neg h3.2, if_neg h4.2, ih]
    rw [ofNat_eq (b := a) (by omega), ofNat_eq (b := b) (by omega), ofNat_eq (b := c) (by omega)]

/-! ### Errors in values -/

theorem anyM_some {α : Type} {f : α → Option Bool} : ∀ {l : List α} {b : Bool}, anyM f l = some b →
    (b = true → ∃ x ∈ l, f x = some true) ∧ (b = false → ∀ x ∈ l, f x = some false) := by
  intro l
  induction l with
  | nil => intro b h; cases h; simp
  | cons x l ih =>
    intro b h
    rw [anyM] at h
    cases hx : f x with
    | none => simp [hx] at h
    | some c =>
      cases c with
      | true =>
        simp [hx] at h
        subst h
        exact ⟨fun _ => ⟨x, by simp, hx⟩, by simp⟩
      | false =>
        simp [hx] at h
        obtain ⟨h1, h2⟩ := ih h
        refine ⟨fun hb => ?_, fun hb y hy => ?_⟩
        · obtain ⟨y, hy, h3⟩ := h1 hb
          exact ⟨y, by simp [hy], h3⟩
        · rcases List.mem_cons.1 hy with rfl | hy
          · exact hx
          · exact h2 hb y hy

theorem findError_spec {h : Heap} : ∀ {n : Nat} {v : Value} {b : Bool}, Lib.findError h n v = some b → (b = true ↔ HasError h v) := by
  intro n
  induction n with
  | zero => intro v b hf; simp [Lib.findError] at hf
  | succ n ih =>
    intro v b hf
    have none : ∀ {v : Value} {b : Bool}, some false = some b → ¬ HasError h v → (b = true ↔ HasError h v) := by
      rintro v b ⟨⟩ hn; simp [hn]
    cases v with
    | error d c =>
      simp only [Lib.findError, Option.some.injEq] at hf
      subst hf
      simp [HasError.error]
    | array a =>
      obtain ⟨h1, h2⟩ := anyM_some hf
      constructor
      · intro hb
        obtain ⟨x, hx, h3⟩ := h1 hb
        exact .element hx ((ih h3).1 rfl)
      · intro he
        cases he with
        | element hx he =>
          cases b with
          | true => rfl
          | false => exact absurd ((ih (h2 rfl _ hx)).2 he) (by simp)
    | dict d =>
      obtain ⟨h1, h2⟩ := anyM_some hf
      constructor
      · intro hb
        obtain ⟨⟨k, v⟩, hx, h3⟩ := h1 hb
        dsimp only at h3
        cases hk : Lib.findError h n k with
        | none => simp [hk] at h3
        | some c =>
          cases c with
          | true => exact .key hx ((ih hk).1 rfl)
          | false => rw [hk] at h3; exact .value hx ((ih h3).1 rfl)
      · intro he
        cases b with
        | true => rfl
        | false =>
          exfalso
          cases he with
          | key hx he =>
            have h3 := h2 rfl _ hx
            dsimp only at h3
            cases hk : Lib.findError h n _ with
            | none => rw [hk] at h3; simp at h3
            | some c =>
              obtain rfl := (ih hk).2 he
              rw [hk] at h3; simp at h3
          | value hx he =>
            have h3 := h2 rfl _ hx
            dsimp only at h3
            split at h3
            · exact absurd ((ih h3).2 he) (by simp)
            · exact absurd h3 (by assumption)
    | _ => exact none hf (by rintro ⟨⟩)

theorem anyM_total {α : Type} {f : α → Option Bool} {l : List α} (h : ∀ x ∈ l, ∃ b, f x = some b) : ∃ b, anyM f l = some b := by
  induction l with
  | nil => exact ⟨_, rfl⟩
  | cons x l ih =>
    obtain ⟨b, hb⟩ := h x (by simp)
    obtain ⟨c, hc⟩ := ih fun y hy => h y (by simp [hy])
    cases b with
    | true => exact ⟨true, by simp [anyM, hb]⟩
    | false => exact ⟨c, by simp [anyM, hb, hc]⟩

theorem findError_total {h : Heap} {v : Value} (hv : Grounded h v) : ∃ n b, Lib.findError h n v = some b := by
  have up : ∀ (n : Nat) (v : Value), (∃ b, Lib.findError h n v = some b) → ∃ b, Lib.findError h (n + 1) v = some b :=
    fun n v ⟨b, hb⟩ => ⟨b, findError_succ h n v b hb⟩
  induction hv with
  | array _ ih =>
    obtain ⟨n, hn⟩ := bound_all (P := fun n v => ∃ b, Lib.findError h n v = some b) up _ ih
    obtain ⟨b, hb⟩ := anyM_total hn
    exact ⟨n + 1, b, hb⟩
  | @dict d _ _ ih1 ih2 =>
    obtain ⟨n, hn⟩ := bound_all (P := fun n (e : Value × Value) => ∃ b, Lib.findError h n e.1 = some b) (fun n e => up n e.1) _ ih1
    obtain ⟨m, hm⟩ := bound_all (P := fun n (e : Value × Value) => ∃ b, Lib.findError h n e.2 = some b) (fun n e => up n e.2) _ ih2
    have ups : ∀ {k n : Nat} {v}, n ≤ k → (∃ b, Lib.findError h n v = some b) → ∃ b, Lib.findError h k v = some b := by
      intro k n v hk hv
      induction hk with
      | refl => exact hv
      | step _ ih => exact up _ _ ih
    have : ∃ b, anyM (fun e : Value × Value => match Lib.findError h (max n m) e.1 with
        | some false => Lib.findError h (max n m) e.2
        | r => r) (h.dict d) = some b := by
      refine anyM_total fun e he => ?_
      obtain ⟨b, hb⟩ := ups (Nat.le_max_left n m) (hn e he)
      obtain ⟨c, hc⟩ := ups (Nat.le_max_right n m) (hm e he)
      cases b with
      | true => exact ⟨true, by simp [hb]⟩
      | false => exact ⟨c, by simp [hb, hc]⟩
    obtain ⟨b, hb⟩ := this
    exact ⟨max n m + 1, b, hb⟩
  | @other v h1 h2 =>
    refine ⟨1, ?_⟩
    cases v with
    | array a => exact absurd rfl (h1 a)
    | dict d => exact absurd rfl (h2 d)
    | error => exact ⟨true, rfl⟩
    | _ => exact ⟨false, rfl⟩

end Hush

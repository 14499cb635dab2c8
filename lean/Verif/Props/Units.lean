import Verif.Props.Leaf

/-!
# C31: units

`Spec.units` is written again here, next to the statements: the suffixes and their factors.
-/

namespace Mapl.Spec

/-- The units. -/
def units : List (Str × Rat) :=
  [(gs"%", 1/100), (gs"m", 1/1000),
   (gs"K", 1000), (gs"M", 1000000), (gs"G", 1000000000), (gs"T", 1000000000000), (gs"P", 1000000000000000), (gs"E", 1000000000000000000),
   (gs"e3", 1000), (gs"e6", 1000000), (gs"e9", 1000000000), (gs"e12", 1000000000000), (gs"e15", 1000000000000000),
   (gs"e18", 1000000000000000000),
   (gs"Ki", 2^10), (gs"Mi", 2^20), (gs"Gi", 2^30), (gs"Ti", 2^40), (gs"Pi", 2^50), (gs"Ei", 2^60)]

/-- A number written with digits, a decimal point and a sign. -/
def Decimal (t : Str) : Prop := ∀ c ∈ t, c.isDigit = true ∨ c = '.' ∨ c = '+' ∨ c = '-'

/-- The text contains the unit. -/
def Has (t u : Str) : Prop := ∃ a b, t = a ++ u ++ b

end Mapl.Spec

namespace Mapl

open Spec

theorem prefix_append {c : Char} {cs : Str} (hc : c ∉ cs) {y : Str} (hy : y ≠ []) :
    (c :: cs).isPrefixOf (y ++ (c :: cs)) = (c :: cs).isPrefixOf y := by
  rw [Bool.eq_iff_iff, List.isPrefixOf_iff_prefix, List.isPrefixOf_iff_prefix]
  constructor
  · intro h
    rcases List.prefix_or_prefix_of_prefix h (List.prefix_append y (c :: cs)) with h' | h'
    · exact h'
    · obtain ⟨z, hz⟩ := h'
      cases z with
      | nil => rw [List.append_nil] at hz; rw [hz]; exact List.prefix_rfl
      | cons d z =>
        exfalso
        rw [← hz] at h
        rw [List.prefix_append_right_inj] at h
        have hd : d = c := by
          obtain ⟨r, hr⟩ := h
          rw [hz] at hr
          simp only [List.cons_append, List.cons.injEq] at hr
          exact hr.1
        subst hd
        cases y with
        | nil => exact hy rfl
        | cons e y =>
          simp only [List.cons_append, List.cons.injEq] at hz
          rw [← hz.2] at hc
          simp at hc
  · intro h
    exact h.trans (List.prefix_append _ _)

theorem count_append {c : Char} {cs : Str} (hc : c ∉ cs) : ∀ (t : Str) (k : Nat), k ≤ t.length →
    countAux (c :: cs) (t ++ (c :: cs)) k = countAux (c :: cs) t k + 1 ∧
    replaceAux (c :: cs) [] (t ++ (c :: cs)) k = replaceAux (c :: cs) [] t k
  | [], k, hk => by
    have : k = 0 := by simpa using hk
    subst this
    have e : ∀ (l : Str) (n : Nat), l.length ≤ n → countAux (c :: cs) l n = 0 ∧ replaceAux (c :: cs) [] l n = [] := by
      intro l
      induction l with
      | nil => intro n _; simp [countAux, replaceAux]
      | cons x l ih =>
        intro n hn
        cases n with
        | zero => simp at hn
        | succ n => simpa [countAux, replaceAux] using ih n (by simpa using hn)
    have e' := e cs cs.length (Nat.le_refl _)
    have hp : (c :: cs).isPrefixOf (c :: cs) = true := by rw [List.isPrefixOf_iff_prefix]; exact List.prefix_rfl
    simp only [List.nil_append, countAux, replaceAux, hp, if_true, List.length_cons, Nat.add_sub_cancel, e'.1, e'.2]
    simp
  | x :: t, 0, _ => by
    have hp := prefix_append hc (y := x :: t) (by simp)
    rw [List.cons_append] at hp ⊢
    simp only [countAux, replaceAux, hp]
    split
    · next h =>
      rw [List.isPrefixOf_iff_prefix] at h
      have hl : cs.length ≤ t.length := by simpa using h.length_le
      have ih := count_append hc t cs.length hl
      simp only [List.length_cons, Nat.add_sub_cancel, ih]
      exact ⟨by omega, trivial⟩
    · have ih := count_append hc t 0 (by simp)
      rw [ih.1, ih.2]
      exact ⟨rfl, rfl⟩
  | x :: t, k + 1, hk => by
    rw [List.cons_append]
    simpa only [countAux, replaceAux] using count_append hc t k (by simpa using hk)

theorem count_zero {c : Char} {cs : Str} : ∀ t : Str, (¬ Has t (c :: cs) → countAux (c :: cs) t 0 = 0 ∧ replaceAux (c :: cs) [] t 0 = t) ∧
    (Has t (c :: cs) → countAux (c :: cs) t 0 ≠ 0)
  | [] => ⟨fun _ => ⟨rfl, rfl⟩, by rintro ⟨a, b, h⟩; simp at h⟩
  | x :: t => by
    have ih := count_zero (c := c) (cs := cs) t
    constructor
    · intro h
      have h1 : ¬ (c :: cs).isPrefixOf (x :: t) = true := by
        rw [List.isPrefixOf_iff_prefix]
        rintro ⟨r, hr⟩
        exact h ⟨[], r, by rw [← hr]; simp⟩
      have h2 : ¬ Has t (c :: cs) := by
        rintro ⟨a, b, rfl⟩
        exact h ⟨x :: a, b, by simp⟩
      simp only [countAux, replaceAux, if_neg h1, ih.1 h2]
      exact ⟨trivial, trivial⟩
    · rintro ⟨a, b, h⟩
      simp only [countAux]
      split
      · omega
      · next hp =>
        cases a with
        | nil =>
          exfalso
          apply hp
          rw [List.isPrefixOf_iff_prefix]
          exact ⟨b, by rw [h]; simp⟩
        | cons y a =>
          simp only [List.cons_append, List.cons.injEq] at h
          exact ih.2 ⟨a, b, h.2⟩

/-- What one unit of the table does. -/
theorem unit_step {c : Char} {cs t : Str} (hc : c ∉ cs) :
    (countSub (t ++ (c :: cs)) (c :: cs) = 1 ↔ ¬ Has t (c :: cs)) ∧ (¬ Has t (c :: cs) → replaceAll (t ++ (c :: cs)) (c :: cs) [] = t) := by
  have h := count_append hc t 0 (by simp)
  have h0 := count_zero (c := c) (cs := cs) t
  unfold countSub replaceAll
  rw [h.1, h.2]
  constructor
  · constructor
    · intro h1 h2
      exact h0.2 h2 (by omega)
    · intro h1
      rw [(h0.1 h1).1]
  · intro h1
    exact (h0.1 h1).2

theorem units_shape : ∀ u ∈ unitTable, ∃ c cs, u.1 = c :: cs ∧ c ∉ cs := by
  intro u hu
  simp only [unitTable, List.mem_cons, List.not_mem_nil, or_false] at hu
  rcases hu with rfl | rfl | rfl | rfl | rfl | rfl | rfl | rfl | rfl | rfl | rfl | rfl | rfl | rfl | rfl | rfl | rfl | rfl | rfl | rfl <;>
    exact ⟨_, _, rfl, by decide⟩

theorem units_apart : ∀ u ∈ unitTable, ∀ u' ∈ unitTable, u.1 <:+ u'.1 → u = u' := by
  have : ∀ u ∈ unitTable, ∀ u' ∈ unitTable, u.1.isSuffixOf u'.1 = true → u = u' := by decide +kernel
  intro u hu u' hu' h
  exact this u hu u' hu' (List.isSuffixOf_iff_suffix.2 h)

theorem units_same : ∀ u, u ∈ units ↔ u ∈ unitTable := by
  have h1 : ∀ u ∈ units, u ∈ unitTable := by decide +kernel
  have h2 : ∀ u ∈ unitTable, u ∈ units := by decide +kernel
  exact fun u => ⟨h1 u, h2 u⟩

theorem convertUnitsIn_none {s : Str} : ∀ {l : List (Str × Rat)}, (∀ u ∈ l, ¬ (hasSuffix s u.1 = true ∧ countSub s u.1 = 1)) → convertUnitsIn s l = (s, 1)
  | [], _ => rfl
  | (u, f) :: l, h => by
    rw [convertUnitsIn, if_neg (h (u, f) (by simp)), convertUnitsIn_none (fun x hx => h x (by simp [hx]))]

theorem convertUnitsIn_some {s : Str} {u : Str × Rat} : ∀ {l : List (Str × Rat)}, u ∈ l → hasSuffix s u.1 = true → countSub s u.1 = 1 →
    (∀ u' ∈ l, hasSuffix s u'.1 = true → u' = u) → convertUnitsIn s l = (replaceAll s u.1 [], u.2)
  | (x, f) :: l, hu, h1, h2, h3 => by
    rw [convertUnitsIn]
    by_cases hx : hasSuffix s x = true
    · have := h3 (x, f) (by simp) hx
      subst this
      rw [if_pos ⟨h1, h2⟩]
    · rw [if_neg (fun h => hx h.1)]
      rcases List.mem_cons.1 hu with rfl | hu
      · exact absurd h1 hx
      · exact convertUnitsIn_some hu h1 h2 (fun y hy => h3 y (by simp [hy]))

theorem suffix_unique {s : Str} {u u' : Str × Rat} (hu : u ∈ unitTable) (hu' : u' ∈ unitTable) (h : hasSuffix s u.1 = true)
    (h' : hasSuffix s u'.1 = true) : u' = u := by
  unfold hasSuffix at h h'
  rw [List.isSuffixOf_iff_suffix] at h h'
  rcases List.suffix_or_suffix_of_suffix h h' with h'' | h''
  · exact (units_apart u hu u' hu' h'').symm
  · exact units_apart u' hu' u hu h''

end Mapl

namespace Mapl.Props

open Spec

variable {env : Ext} {t u s : Str} {f : Rat}

/-- **C31**, the part in front does not contain the unit (as in every decimal number, see `C31_decimal`). The full statement
also has `1E5E`; that is not read (`C31_repeated_partial`). -/
theorem C31_unit_partial (hu : (u, f) ∈ units) (ht : ¬ Has t u) :
    parseNumber env (t ++ u) = (env.parseFloat t).map fun x => fmul env x (env.rnd f) := by
  rw [units_same] at hu
  obtain ⟨c, cs, hc, hn⟩ := units_shape _ hu
  dsimp only at hc
  subst hc
  have hs : hasSuffix (t ++ (c :: cs)) (c :: cs) = true := List.isSuffixOf_iff_suffix.2 (List.suffix_append _ _)
  unfold parseNumber convertStringWithUnits
  rw [convertUnitsIn_some hu hs ((unit_step hn).1.2 ht) (fun u' hu' h => suffix_unique hu hu' hs h), (unit_step hn).2 ht]

/-- **C31.** A decimal number followed by a unit. -/
theorem C31_decimal (hu : (u, f) ∈ units) (ht : Decimal t) :
    parseNumber env (t ++ u) = (env.parseFloat t).map fun x => fmul env x (env.rnd f) := by
  apply C31_unit_partial hu
  rintro ⟨a, b, rfl⟩
  have key : ∀ u ∈ units, ∃ c ∈ u.1, c.isDigit = false ∧ c ≠ '.' ∧ c ≠ '+' ∧ c ≠ '-' := by decide +kernel
  obtain ⟨c, hc, h1, h2, h3, h4⟩ := key _ hu
  rcases ht c (by simp [hc]) with h | h | h | h
  · rw [h] at h1; exact absurd h1 (by simp)
  · exact h2 h
  · exact h3 h
  · exact h4 h

/-- **C31.** A text that does not end in a unit is read as it is. -/
theorem C31_plain (h : ∀ u ∈ units, ¬ u.1 <:+ s) : parseNumber env s = (env.parseFloat s).map fun x => fmul env x (env.rnd 1) := by
  unfold parseNumber convertStringWithUnits
  rw [convertUnitsIn_none (fun u hu hs => h u ((units_same u).2 hu) (List.isSuffixOf_iff_suffix.1 hs.1))]

/-- **C31.** With an exact 1, reading a text that does not end in a unit is `ParseFloat`. -/
theorem C31_plain_exact (h : ∀ u ∈ units, ¬ u.1 <:+ s) (h1 : env.rnd 1 = .fin 1) (hr : ∀ q, env.parseFloat s = some (.fin q) → env.rnd q = .fin q) :
    parseNumber env s = env.parseFloat s := by
  rw [C31_plain h, h1]
  cases hx : env.parseFloat s with
  | none => rfl
  | some x =>
    cases x with
    | fin q => simp [fmul, hr q hx]
    | nan => rfl
    | posInf => simp [fmul]
    | negInf => simp [fmul]

/-- **C31.** If the part in front contains the unit, the whole text is taken as a number without unit. -/
theorem C31_repeated_partial (hu : (u, f) ∈ units) (ht : Has t u) :
    parseNumber env (t ++ u) = (env.parseFloat (t ++ u)).map fun x => fmul env x (env.rnd 1) := by
  rw [units_same] at hu
  obtain ⟨c, cs, hc, hn⟩ := units_shape _ hu
  dsimp only at hc
  subst hc
  have hs : hasSuffix (t ++ (c :: cs)) (c :: cs) = true := List.isSuffixOf_iff_suffix.2 (List.suffix_append _ _)
  unfold parseNumber convertStringWithUnits
  rw [convertUnitsIn_none]
  intro u' hu' h
  have := suffix_unique hu hu' hs h.1
  subst this
  exact (unit_step hn).1.1 h.2 ht

/-- **C31** is violated: `1E5` is a number and `E` is a unit, but `1E5E` is not read. -/
theorem C31_violated : ∃ (env : Ext) (x : F64), (gs"E", (1000000000000000000 : Rat)) ∈ units ∧ env.parseFloat gs"1E5" = some x ∧
    env.parseFloat gs"1E5E" = none ∧ parseNumber env (gs"1E5" ++ gs"E") = none := by
  refine ⟨{ Demo.ext with parseFloat := fun s => if s = gs"1E5" then some (.fin 100000) else none }, .fin 100000, by decide +kernel, rfl, rfl, ?_⟩
  rw [C31_repeated_partial (t := gs"1E5") (u := gs"E") (f := 1000000000000000000) (by decide +kernel) ⟨gs"1", gs"5", rfl⟩]
  rfl

/-- At most one unit is a suffix of a text, so the order of the table does not matter. -/
theorem C31_one_unit {u u' : Str × Rat} (hu : u ∈ units) (hu' : u' ∈ units) (h : u.1 <:+ s) (h' : u'.1 <:+ s) : u = u' :=
  suffix_unique ((units_same _).1 hu') ((units_same _).1 hu) (List.isSuffixOf_iff_suffix.2 h') (List.isSuffixOf_iff_suffix.2 h)

example : parseNumber Demo.ext gs"2Ki" = some (.fin 2048) ∧ Decimal gs"2" ∧ (gs"Ki", (2^10 : Rat)) ∈ units ∧
    parseNumber Demo.ext gs"7" = some (.fin 7) ∧ (∀ u ∈ units, ¬ u.1 <:+ gs"7") :=
  ⟨by decide +kernel, by simp [Decimal], by decide +kernel, by decide +kernel, by decide +kernel⟩

end Mapl.Props

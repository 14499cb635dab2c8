import Verif.Spec.JsonGrammar
import Verif.Lemmas.JsonPrefix

/-!
# The decoder of JSON reads the grammar of JSON
-/

namespace Mapl

open Spec

/-! ## Strings -/

theorem hexVal_iff {c : Char} {n : Nat} : hexVal c = some n ↔ (c, n) ∈ hexDigits := by
  constructor
  · intro h
    unfold hexVal at h
    have key : ∀ k, c.toNat = k → c = Char.ofNat k := fun k hk => by rw [← hk, Char.ofNat_toNat]
    split_ifs at h with h1 h2 h3
    · obtain ⟨a, b⟩ := h1
      have a : 48 ≤ c.toNat := a
      have b : c.toNat ≤ 57 := b
      cases h
      generalize hk : c.toNat = k at a b
      have := key k hk
      subst this
      interval_cases k <;> decide
    · obtain ⟨a, b⟩ := h2
      have a : 97 ≤ c.toNat := a
      have b : c.toNat ≤ 102 := b
      cases h
      generalize hk : c.toNat = k at a b
      have := key k hk
      subst this
      interval_cases k <;> decide
    · obtain ⟨a, b⟩ := h3
      have a : 65 ≤ c.toNat := a
      have b : c.toNat ≤ 70 := b
      cases h
      generalize hk : c.toNat = k at a b
      have := key k hk
      subst this
      interval_cases k <;> decide
  · intro h
    have : ∀ x ∈ hexDigits, hexVal x.1 = some x.2 := by decide
    exact this _ h

theorem hex4_iff {a b c d : Char} {n : Nat} : hex4 a b c d = some n ↔ ∃ x y z w, (a, x) ∈ hexDigits ∧ (b, y) ∈ hexDigits ∧ (c, z) ∈ hexDigits ∧
    (d, w) ∈ hexDigits ∧ n = x * 4096 + y * 256 + z * 16 + w := by
  simp only [hex4, Option.bind_eq_bind, Option.bind_eq_some_iff, hexVal_iff, Option.pure_def, Option.some.injEq]
  constructor
  · rintro ⟨x, h1, y, h2, z, h3, w, h4, rfl⟩
    exact ⟨x, y, z, w, h1, h2, h3, h4, by omega⟩
  · rintro ⟨x, y, z, w, h1, h2, h3, h4, rfl⟩
    exact ⟨x, h1, y, h2, z, h3, w, h4, by omega⟩

theorem simpleEscape_iff {e c : Char} : simpleEscape e = some c ↔ (e, c) ∈ escapes := by
  constructor
  · intro h
    unfold simpleEscape at h
    split_ifs at h with h1 h2 h3 h4 h5 h6 h7 h8 <;> cases h <;> subst_vars <;> decide
  · intro h
    have : ∀ x ∈ escapes, simpleEscape x.1 = some x.2 := by decide
    exact this _ h

/-- What pieces stand for, with the first half of a pair before them. -/
def decodePieces : Option Nat → List Piece → Str
  | none, [] => []
  | some h, [] => [charOfU h]
  | none, .char c :: l => c :: decodePieces none l
  | some h, .char c :: l => charOfU h :: c :: decodePieces none l
  | none, .unit n :: l => if 0xD800 ≤ n ∧ n ≤ 0xDBFF then decodePieces (some n) l else charOfU n :: decodePieces none l
  | some h, .unit n :: l =>
    if 0xDC00 ≤ n ∧ n ≤ 0xDFFF then Char.ofNat (0x10000 + (h - 0xD800) * 0x400 + (n - 0xDC00)) :: decodePieces none l
    else if 0xD800 ≤ n ∧ n ≤ 0xDBFF then charOfU h :: decodePieces (some n) l
    else charOfU h :: charOfU n :: decodePieces none l

theorem strTail_pieces {s : Str} {l : List Piece} (h : Pieces s l) : ∀ hi t, parseStrTail hi (s ++ '"' :: t) = some (decodePieces hi l, t) := by
  induction h with
  | nil =>
    intro hi t
    rw [List.nil_append, parseStrTail.eq_def]
    split
    · simp_all
    · simp_all
    · simp_all
    · next _ _ h => obtain ⟨rfl, rfl⟩ := List.cons.inj h; cases hi <;> simp [decodePieces]
  | @plain c s l h1 h2 h3 h ih =>
    intro hi t
    rw [List.cons_append, parseStrTail.eq_def]
    split
    · simp_all
    · next h => exact absurd (List.cons.inj h).1 h2
    · next h => exact absurd (List.cons.inj h).1 h2
    · next _ _ h =>
      obtain ⟨rfl, rfl⟩ := List.cons.inj h
      rw [if_neg h1, if_neg h2, if_neg (by omega), ih]
      cases hi <;> rfl
  | @escape e c s l he h ih =>
    intro hi t
    have hu : e ≠ 'u' := by rintro rfl; simp [escapes] at he
    rw [List.cons_append, List.cons_append, parseStrTail.eq_def]
    split
    · simp_all
    · next h => exact absurd (List.cons.inj (List.cons.inj h).2).1 hu
    · next h =>
      obtain ⟨rfl, rfl⟩ := List.cons.inj (List.cons.inj h).2
      rw [simpleEscape_iff.2 he]
      simp only [ih]
      cases hi <;> rfl
    · next _ hn h => exact (hn _ _ (List.cons.inj h).1.symm (List.cons.inj h).2.symm).elim
  | @unit a b c d x y z w s l ha hb hc hd h ih =>
    intro hi t
    have : hex4 a b c d = some (x * 4096 + y * 256 + z * 16 + w) := hex4_iff.2 ⟨x, y, z, w, ha, hb, hc, hd, rfl⟩
    simp only [List.cons_append]
    rw [parseStrTail, this]
    generalize x * 4096 + y * 256 + z * 16 + w = n
    cases hi with
    | none =>
      simp only [decodePieces]
      split_ifs <;> simp [ih]
    | some h =>
      simp only [decodePieces]
      split_ifs <;> simp [ih]

theorem pieces_of_strTail (hi : Option Nat) (s : Str) : ∀ {x r : Str}, parseStrTail hi s = some (x, r) → ∃ t l, s = t ++ '"' :: r ∧ Pieces t l := by
  fun_induction parseStrTail hi s with
  | case1 => intro x r h; cases h
  | case2 => intro x r h; cases h
  | case3 a b c d cs n hn h hlt ih =>
    intro x r e
    simp only [Option.map_eq_some_iff] at e
    obtain ⟨y, hy, e⟩ := e
    cases e
    obtain ⟨t, l, rfl, ht⟩ := ih (x := y.1) (r := y.2) hy
    obtain ⟨x, y, z, w, ha, hb, hc, hd, -⟩ := hex4_iff.1 hn
    exact ⟨_, _, rfl, .unit ha hb hc hd ht⟩
  | case4 a b c d cs n hn h hlt hlt' ih =>
    intro x r e
    simp only [Option.map_eq_some_iff] at e
    obtain ⟨y, hy, e⟩ := e
    cases e
    obtain ⟨t, l, rfl, ht⟩ := ih (x := y.1) (r := y.2) hy
    obtain ⟨x, y, z, w, ha, hb, hc, hd, -⟩ := hex4_iff.1 hn
    exact ⟨_, _, rfl, .unit ha hb hc hd ht⟩
  | case5 a b c d cs n hn h hlt hlt' ih =>
    intro x r e
    simp only [Option.map_eq_some_iff] at e
    obtain ⟨y, hy, e⟩ := e
    cases e
    obtain ⟨t, l, rfl, ht⟩ := ih (x := y.1) (r := y.2) hy
    obtain ⟨x, y, z, w, ha, hb, hc, hd, -⟩ := hex4_iff.1 hn
    exact ⟨_, _, rfl, .unit ha hb hc hd ht⟩
  | case6 a b c d cs n hn hlt ih =>
    intro x r e
    obtain ⟨t, l, rfl, ht⟩ := ih e
    obtain ⟨x, y, z, w, ha, hb, hc, hd, -⟩ := hex4_iff.1 hn
    exact ⟨_, _, rfl, .unit ha hb hc hd ht⟩
  | case7 a b c d cs n hn hlt ih =>
    intro x r e
    simp only [Option.map_eq_some_iff] at e
    obtain ⟨y, hy, e⟩ := e
    cases e
    obtain ⟨t, l, rfl, ht⟩ := ih (x := y.1) (r := y.2) hy
    obtain ⟨x, y, z, w, ha, hb, hc, hd, -⟩ := hex4_iff.1 hn
    exact ⟨_, _, rfl, .unit ha hb hc hd ht⟩
  | case8 => intro x r h; cases h
  | case9 hi e cs hno ch hch ih =>
    intro x r h
    simp only [Option.map_eq_some_iff] at h
    obtain ⟨y, hy, h⟩ := h
    cases h
    obtain ⟨t, l, rfl, ht⟩ := ih (x := y.1) (r := y.2) hy
    exact ⟨_, _, rfl, .escape (simpleEscape_iff.1 hch) ht⟩
  | case10 hi c cs =>
    intro x r h
    cases h
    exact ⟨[], [], rfl, .nil⟩
  | case11 => intro x r h; cases h
  | case12 => intro x r h; cases h
  | case13 hi c cs hn1 hn2 h1 h2 h3 ih =>
    intro x r h
    simp only [Option.map_eq_some_iff] at h
    obtain ⟨y, hy, h⟩ := h
    cases h
    obtain ⟨t, l, rfl, ht⟩ := ih (x := y.1) (r := y.2) hy
    exact ⟨_, _, rfl, .plain h1 h2 (by omega) ht⟩

theorem charOfU_surrogate {n : Nat} (h : 0xD800 ≤ n ∧ n ≤ 0xDFFF) : charOfU n = Char.ofNat 0xFFFD := by rw [charOfU, if_pos h]

theorem decodePieces_lone {a : Nat} {l : List Piece} (h1 : High a) (h2 : ∀ b l', l = .unit b :: l' → ¬ Low b) :
    decodePieces (some a) l = Char.ofNat 0xFFFD :: decodePieces none l := by
  have e := charOfU_surrogate (n := a) (by unfold High at h1; omega)
  match l with
  | [] => simp [decodePieces, e]
  | .char c :: l => simp [decodePieces, e]
  | .unit n :: l =>
    have := h2 n l rfl
    unfold Low at this
    have hn : ¬ (0xDC00 ≤ n ∧ n ≤ 0xDFFF) := by omega
    conv_lhs => rw [decodePieces, if_neg hn]
    conv_rhs => rw [decodePieces]
    by_cases h : 0xD800 ≤ n ∧ n ≤ 0xDBFF
    · rw [if_pos h, if_pos h, e]
    · rw [if_neg h, if_neg h, e]

theorem decoded_iff {l : List Piece} {x : Str} : Decoded l x ↔ x = decodePieces none l := by
  constructor
  · intro h
    induction h with
    | nil => rfl
    | char _ ih => rw [decodePieces, ih]
    | @unit n l s h1 h2 _ ih =>
      unfold High at h1
      unfold Low at h2
      rw [decodePieces, if_neg (by omega), ih, charOfU, if_neg (by omega)]
    | @pair a b l s h1 h2 _ ih =>
      unfold High at h1
      unfold Low at h2
      rw [decodePieces, if_pos (by omega), decodePieces, if_pos (by omega), ih]
    | @high a l s h1 h2 _ ih =>
      rw [decodePieces, if_pos (by unfold High at h1; omega), decodePieces_lone h1 h2, ih]
    | @low b l s h1 _ ih =>
      unfold Low at h1
      rw [decodePieces, if_neg (by omega), ih, charOfU_surrogate (by omega)]
  · rintro rfl
    suffices ∀ l : List Piece, Decoded l (decodePieces none l) ∧ ∀ h, High h → Decoded (.unit h :: l) (decodePieces (some h) l) from (this l).1
    intro l
    induction l with
    | nil =>
      refine ⟨.nil, fun h hh => ?_⟩
      rw [decodePieces_lone hh (by simp)]
      exact .high hh (by simp) .nil
    | cons x l ih =>
      have first : Decoded (x :: l) (decodePieces none (x :: l)) := by
        cases x with
        | char c => exact .char ih.1
        | unit n =>
          rw [decodePieces]
          split_ifs with h
          · exact ih.2 n ⟨h.1, by omega⟩
          · by_cases hl : Low n
            · rw [charOfU_surrogate (by unfold Low at hl; omega)]
              exact .low hl ih.1
            · have : ¬ (0xD800 ≤ n ∧ n ≤ 0xDFFF) := by unfold Low at hl; omega
              rw [charOfU, if_neg this]
              exact .unit (by unfold High; omega) hl ih.1
      refine ⟨first, fun h hh => ?_⟩
      by_cases hl : ∃ b, x = .unit b ∧ Low b
      · obtain ⟨b, rfl, hl⟩ := hl
        rw [decodePieces, if_pos (by unfold Low at hl; omega)]
        exact .pair hh hl ih.1
      · have : ∀ b l', x :: l = .unit b :: l' → ¬ Low b := fun b l' e hb => hl ⟨b, (List.cons.inj e).1, hb⟩
        rw [decodePieces_lone hh this]
        exact .high hh this first

theorem strTail_literal {s x : Str} (h : Literal s x) (t : Str) : parseStrTail none (s ++ '"' :: t) = some (x, t) := by
  obtain ⟨l, h1, h2⟩ := h
  rw [strTail_pieces h1, ← decoded_iff.1 h2]

theorem literal_of_strTail {s x r : Str} (h : parseStrTail none s = some (x, r)) : ∃ t, s = t ++ '"' :: r ∧ Literal t x := by
  obtain ⟨t, l, rfl, ht⟩ := pieces_of_strTail _ _ h
  rw [strTail_pieces ht] at h
  cases h
  exact ⟨t, rfl, l, ht, decoded_iff.2 rfl⟩

/-! ## Numbers -/

theorem digitVal_iff {c : Char} : (digitVal c).isSome = true ↔ c ∈ gs"0123456789" := by
  constructor
  · intro h
    unfold digitVal at h
    split_ifs at h with h1
    swap
    · cases h
    obtain ⟨a, b⟩ := h1
    have a : 48 ≤ c.toNat := a
    have b : c.toNat ≤ 57 := b
    have key : c = Char.ofNat c.toNat := by rw [Char.ofNat_toNat]
    generalize c.toNat = k at a b key
    subst key
    interval_cases k <;> decide
  · intro h
    have : ∀ x ∈ gs"0123456789", (digitVal x).isSome = true := by decide
    exact this _ h

/-- The text does not begin with a digit. -/
def NoDigit (s : Str) : Prop := ∀ c t, s = c :: t → c ∉ gs"0123456789"

theorem digits1_append {d t : Str} (h : DigitText d) (ht : NoDigit t) : digits1 (d ++ t) = some t := by
  have e : (d ++ t).dropWhile (fun c => (digitVal c).isSome) = t := by
    rw [List.dropWhile_append_of_pos fun c hc => digitVal_iff.2 (h.2 c hc)]
    cases t with
    | nil => rfl
    | cons c t =>
      rw [List.dropWhile_cons_of_neg]
      intro hc
      exact ht c t rfl (digitVal_iff.1 hc)
  unfold digits1
  rw [e]
  have : 0 < d.length := List.length_pos_iff.2 h.1
  exact if_pos (by rw [List.length_append]; omega)

theorem digits1_iff {s t : Str} : digits1 s = some t ↔ ∃ d, s = d ++ t ∧ DigitText d ∧ NoDigit t := by
  constructor
  · intro h
    unfold digits1 at h
    simp only at h
    split_ifs at h with hl
    cases h
    refine ⟨s.takeWhile (fun c => (digitVal c).isSome), (List.takeWhile_append_dropWhile).symm, ⟨?_, fun c hc => digitVal_iff.1 (List.all_takeWhile (p := fun c => (digitVal c).isSome) (l := s) |> List.all_eq_true.1 |> (· c hc))⟩, ?_⟩
    · intro h0
      have := congrArg List.length (List.takeWhile_append_dropWhile (p := fun c => (digitVal c).isSome) (l := s))
      rw [h0, List.nil_append] at this
      omega
    · intro c t' e hc
      have := List.head?_dropWhile_not (fun c => (digitVal c).isSome) s
      rw [e] at this
      simp only [List.head?_cons] at this
      rw [digitVal_iff.2 hc] at this
      cases this
  · rintro ⟨d, rfl, h1, h2⟩
    exact digits1_append h1 h2

theorem noDigit_nil : NoDigit [] := fun _ _ h => by cases h

theorem noDigit_cons {c : Char} {s : Str} (h : c ∉ gs"0123456789") : NoDigit (c :: s) := fun _ _ e => by
  obtain ⟨rfl, -⟩ := List.cons.inj e; exact h

/-- The part of a number after the digits before the point. -/
def fracOk (t : Str) : Bool :=
  let afterFrac : Option Str := match t with
      | '.' :: u => digits1 u
      | u => some u
  match afterFrac with
  | none => false
  | some u =>
    match u with
    | [] => true
    | e :: v =>
      if e = 'e' ∨ e = 'E' then
        let v := match v with | '+' :: w => w | '-' :: w => w | w => w
        digits1 v = some []
      else false

/-- The exponent of a number. -/
def expOk (u : Str) : Bool :=
  match u with
  | [] => true
  | e :: v =>
    if e = 'e' ∨ e = 'E' then
      let v := match v with | '+' :: w => w | '-' :: w => w | w => w
      digits1 v = some []
    else false

def Exponent (ex : Str) : Prop := ex = [] ∨ ∃ e sg t, ex = e :: (sg ++ t) ∧ e ∈ ['e', 'E'] ∧ sg ∈ [[], gs"+", gs"-"] ∧ DigitText t

def Fraction (frac : Str) : Prop := frac = [] ∨ ∃ t, frac = '.' :: t ∧ DigitText t

theorem digit_ne {t : Str} (h : DigitText t) : ∃ c u, t = c :: u ∧ c ∈ gs"0123456789" := by
  cases t with
  | nil => exact absurd rfl h.1
  | cons c u => exact ⟨c, u, rfl, h.2 c (List.mem_cons_self ..)⟩

theorem expOk_iff {u : Str} : expOk u = true ↔ Exponent u := by
  cases u with
  | nil => exact ⟨fun _ => .inl rfl, fun _ => rfl⟩
  | cons e v =>
    unfold expOk Exponent
    constructor
    · intro h
      simp only at h
      split_ifs at h with he
      refine .inr ?_
      simp only [decide_eq_true_eq] at h
      have key : ∀ w, digits1 w = some [] → DigitText w := fun w hw => by
        obtain ⟨d, rfl, hd, -⟩ := digits1_iff.1 hw
        simpa using hd
      split at h
      · exact ⟨e, gs"+", _, rfl, by simpa using he, by simp, key _ h⟩
      · exact ⟨e, gs"-", _, rfl, by simpa using he, by simp, key _ h⟩
      · exact ⟨e, [], _, rfl, by simpa using he, by simp, key _ h⟩
    · rintro (h | ⟨e', sg, t, h, he, hs, ht⟩)
      · cases h
      · obtain ⟨rfl, rfl⟩ := List.cons.inj h
        have hd : digits1 t = some [] := by simpa using digits1_append ht noDigit_nil
        simp only
        rw [if_pos (by simpa using he)]
        simp only [List.mem_cons, List.not_mem_nil, or_false] at hs
        rcases hs with rfl | rfl | rfl
        · obtain ⟨c, u, rfl, hc⟩ := digit_ne ht
          rw [List.nil_append]
          split
          · next h => rw [(List.cons.inj h).1] at hc; simp at hc
          · next h => rw [(List.cons.inj h).1] at hc; simp at hc
          · simpa using hd
        · simpa using hd
        · simpa using hd

theorem exponent_noDigit {u : Str} (h : Exponent u) : NoDigit u := by
  rcases h with rfl | ⟨e, sg, t, rfl, he, -⟩
  · exact noDigit_nil
  · refine noDigit_cons ?_
    simp only [List.mem_cons, List.not_mem_nil, or_false] at he
    rcases he with rfl | rfl <;> decide

theorem exponent_noPoint {u : Str} (h : Exponent u) : ∀ v, u ≠ '.' :: v := by
  rcases h with rfl | ⟨e, sg, t, rfl, he, -⟩
  · simp
  · intro v h
    rw [(List.cons.inj h).1] at he
    simp at he

theorem fracOk_iff {t : Str} : fracOk t = true ↔ ∃ frac ex, t = frac ++ ex ∧ Fraction frac ∧ Exponent ex := by
  have e : fracOk t = (match (match t with | '.' :: u => digits1 u | u => some u : Option Str) with | none => false | some u => expOk u) := rfl
  rw [e]
  constructor
  · intro h
    split at h
    · cases h
    · next u hu =>
      have hx := expOk_iff.1 h
      split at hu
      · next t' =>
        obtain ⟨d, rfl, hd, -⟩ := digits1_iff.1 hu
        exact ⟨'.' :: d, u, rfl, .inr ⟨d, rfl, hd⟩, hx⟩
      · cases hu; exact ⟨[], t, rfl, .inl rfl, hx⟩
  · rintro ⟨frac, ex, rfl, hf, hx⟩
    rcases hf with rfl | ⟨d, rfl, hd⟩
    · rw [List.nil_append]
      split
      · next h =>
        split at h
        · exact absurd rfl (exponent_noPoint hx _)
        · cases h
      · next u h =>
        split at h
        · exact absurd rfl (exponent_noPoint hx _)
        · cases h; exact expOk_iff.2 hx
    · rw [List.cons_append]
      simp only [digits1_append hd (exponent_noDigit hx)]
      exact expOk_iff.2 hx

theorem frac_noDigit {t : Str} (h : ∃ frac ex, t = frac ++ ex ∧ Fraction frac ∧ Exponent ex) : NoDigit t := by
  obtain ⟨frac, ex, rfl, hf, hx⟩ := h
  rcases hf with rfl | ⟨d, rfl, hd⟩
  · exact exponent_noDigit hx
  · exact noDigit_cons (by decide)

/-- The part of a number after the sign. -/
def intOk (s : Str) : Bool :=
  match (match s with | '0' :: t => some t | t => digits1 t : Option Str) with
  | none => false
  | some t => fracOk t

theorem isJsonNumber_eq (s : Str) : isJsonNumber s = intOk (match s with | '-' :: t => t | t => t) := rfl

theorem intOk_iff {s : Str} : intOk s = true ↔ ∃ int t, s = int ++ t ∧ (int = gs"0" ∨ (DigitText int ∧ int.head? ≠ some '0')) ∧
    ∃ frac ex, t = frac ++ ex ∧ Fraction frac ∧ Exponent ex := by
  unfold intOk
  constructor
  · intro h
    split at h
    · cases h
    · next t ht =>
      have hf := fracOk_iff.1 h
      split at ht
      · next t' => cases ht; exact ⟨gs"0", t, rfl, .inl rfl, hf⟩
      · next hno =>
        obtain ⟨d, rfl, hd, -⟩ := digits1_iff.1 ht
        refine ⟨d, t, rfl, .inr ⟨hd, fun h0 => ?_⟩, hf⟩
        cases d with
        | nil => cases h0
        | cons c d => simp only [List.head?_cons, Option.some.injEq] at h0; subst h0; exact hno _ rfl
  · rintro ⟨int, t, rfl, hi, hf⟩
    rcases hi with rfl | ⟨hd, h0⟩
    · exact fracOk_iff.2 hf
    · have e := digits1_append hd (frac_noDigit hf)
      have : ∀ u, int ++ t ≠ '0' :: u := by
        obtain ⟨c, v, rfl, -⟩ := digit_ne hd
        intro u h
        rw [List.cons_append] at h
        exact h0 (by rw [(List.cons.inj h).1]; rfl)
      split
      · next h =>
        split at h
        · next h' => exact absurd h' (this _)
        · rw [e] at h; cases h
      · next u h =>
        split at h
        · next h' => exact absurd h' (this _)
        · rw [e] at h; cases h; exact fracOk_iff.2 hf

theorem isJsonNumber_iff {s : Str} : isJsonNumber s = true ↔ NumberText s := by
  rw [isJsonNumber_eq, intOk_iff]
  constructor
  · rintro ⟨int, t, hs, hi, frac, ex, rfl, hf, hx⟩
    split at hs
    · subst hs; exact ⟨gs"-", int, frac, ex, by simp, .inr rfl, hi, hf, hx⟩
    · subst hs; exact ⟨[], int, frac, ex, by simp, .inl rfl, hi, hf, hx⟩
  · rintro ⟨sign, int, frac, ex, rfl, hs, hi, hf, hx⟩
    refine ⟨int, frac ++ ex, ?_, hi, frac, ex, rfl, hf, hx⟩
    rcases hs with rfl | rfl
    · have : ∀ t, int ++ frac ++ ex ≠ '-' :: t := by
        intro t h
        have : ∃ c v, int = c :: v ∧ c ∈ gs"0123456789" := by
          rcases hi with rfl | ⟨hd, -⟩
          · exact ⟨'0', [], rfl, by decide⟩
          · exact digit_ne hd
        obtain ⟨c, v, rfl, hc⟩ := this
        rw [List.cons_append, List.cons_append] at h
        rw [(List.cons.inj h).1] at hc
        simp at hc
      rw [List.nil_append]
      split
      · next h => exact absurd h (this _)
      · simp
    · simp

theorem numChar_digit {c : Char} (h : c ∈ gs"0123456789") : isNumChar c = true := by
  unfold isNumChar
  rw [digitVal_iff.2 h]; rfl

theorem numberText_chars {s : Str} (h : NumberText s) : ∀ c ∈ s, isNumChar c = true := by
  obtain ⟨sign, int, frac, ex, rfl, hs, hi, hf, hx⟩ := h
  intro c hc
  simp only [List.mem_append] at hc
  rcases hc with ((hc | hc) | hc) | hc
  · rcases hs with rfl | rfl
    · cases hc
    · simp only [List.mem_singleton] at hc; subst hc; decide
  · rcases hi with rfl | ⟨hd, -⟩
    · simp only [List.mem_singleton] at hc; subst hc; decide
    · exact numChar_digit (hd.2 c hc)
  · rcases hf with rfl | ⟨t, rfl, hd⟩
    · cases hc
    · rcases List.mem_cons.1 hc with rfl | hc
      · decide
      · exact numChar_digit (hd.2 c hc)
  · rcases hx with rfl | ⟨e, sg, t, rfl, he, hsg, hd⟩
    · cases hc
    · rcases List.mem_cons.1 hc with rfl | hc
      · simp only [List.mem_cons, List.not_mem_nil, or_false] at he
        rcases he with rfl | rfl <;> decide
      · rcases List.mem_append.1 hc with hc | hc
        · simp only [List.mem_cons, List.not_mem_nil, or_false] at hsg
          rcases hsg with rfl | rfl | rfl
          · cases hc
          · simp only [List.mem_singleton] at hc; subst hc; decide
          · simp only [List.mem_singleton] at hc; subst hc; decide
        · exact numChar_digit (hd.2 c hc)

theorem numberText_ne {s : Str} (h : NumberText s) : s ≠ [] := by
  rintro rfl
  rw [← isJsonNumber_iff] at h
  revert h; decide

/-! ## Objects -/

theorem mem_firsts {k : Str} : ∀ {ks : List Str}, k ∈ firsts ks ↔ k ∈ ks
  | [] => by simp [firsts]
  | a :: ks => by
    simp only [firsts, List.mem_cons, List.mem_filter, decide_eq_true_eq, mem_firsts (ks := ks)]
    by_cases h : k = a <;> simp [h]

theorem firsts_nodup : ∀ (ks : List Str), (firsts ks).Nodup
  | [] => by simp [firsts]
  | a :: ks => by
    rw [firsts, List.nodup_cons]
    exact ⟨by simp, (firsts_nodup ks).filter _⟩

theorem firsts_snoc (k : Str) : ∀ (ks : List Str), firsts (ks ++ [k]) = if k ∈ ks then firsts ks else firsts ks ++ [k]
  | [] => by simp [firsts]
  | a :: ks => by
    rw [List.cons_append, firsts, firsts_snoc k ks, firsts]
    by_cases h1 : k = a
    · subst h1
      split_ifs with h
      · rfl
      · simp_all
      · simp
      · simp_all
    · by_cases h2 : k ∈ ks
      · simp [h2]
      · simp [h2, h1, List.filter_append]

theorem setKey_keys {α : Type} {k : Str} {v : α} : ∀ {l : List (Str × α)},
    (setKey k v l).map (·.1) = if k ∈ l.map (·.1) then l.map (·.1) else l.map (·.1) ++ [k]
  | [] => by simp [setKey]
  | (k', v') :: l => by
    rw [setKey]
    by_cases h : k = k'
    · subst h; simp
    · rw [if_neg h, List.map_cons, setKey_keys (l := l)]
      simp only [List.map_cons, List.mem_cons, h, false_or]
      split_ifs <;> rfl

theorem setKey_lookup {α : Type} {k : Str} {v : α} {x : Str × α} : ∀ {l : List (Str × α)}, (l.map (·.1)).Nodup → x ∈ setKey k v l → x = (k, v) ∨ (x ∈ l ∧ x.1 ≠ k)
  | [], _, h => by simpa [setKey] using h
  | (k', v') :: l, hn, h => by
    rw [List.map_cons, List.nodup_cons] at hn
    rw [setKey] at h
    split_ifs at h with e
    · subst e
      rcases List.mem_cons.1 h with rfl | h
      · exact .inl rfl
      · exact .inr ⟨List.mem_cons_of_mem _ h, fun e => hn.1 (e ▸ List.mem_map_of_mem (f := (·.1)) h)⟩
    · rcases List.mem_cons.1 h with rfl | h
      · exact .inr ⟨List.mem_cons_self .., fun e' => e e'.symm⟩
      · rcases setKey_lookup hn.2 h with h | h
        · exact .inl h
        · exact .inr ⟨List.mem_cons_of_mem _ h.1, h.2⟩

/-- The map that the decoder builds. -/
def buildMap (l : List (Str × Json)) : List (Str × Json) := l.foldl (fun a x => setKey x.1 x.2 a) []

theorem buildMap_snoc (l : List (Str × Json)) (x : Str × Json) : buildMap (l ++ [x]) = setKey x.1 x.2 (buildMap l) := by simp [buildMap]

theorem lastWins_buildMap (l : List (Str × Json)) : LastWins l (buildMap l) := by
  suffices ∀ r : List (Str × Json), LastWins r.reverse (buildMap r.reverse) by simpa using this l.reverse
  intro r
  induction r with
  | nil => exact ⟨rfl, by simp [buildMap]⟩
  | cons x r ih =>
    rw [List.reverse_cons]
    generalize r.reverse = l at ih
    obtain ⟨h1, h2⟩ := ih
    rw [LastWins, buildMap_snoc, setKey_keys, h1, List.map_append, List.map_singleton, firsts_snoc]
    refine ⟨by simp only [mem_firsts], fun y hy => ?_⟩
    rcases setKey_lookup (by rw [h1]; exact firsts_nodup _) hy with rfl | ⟨hy, hne⟩
    · exact ⟨l, [], rfl, by simp⟩
    · obtain ⟨a, b, rfl, hb⟩ := h2 y hy
      refine ⟨a, b ++ [x], by simp, ?_⟩
      rw [List.map_append, List.mem_append, not_or]
      exact ⟨hb, by simpa using hne⟩

theorem last_unique {l a b a' b' : List (Str × Json)} {x y : Str × Json} (h : l = a ++ x :: b) (hb : x.1 ∉ b.map (·.1)) (h' : l = a' ++ y :: b')
    (hb' : y.1 ∉ b'.map (·.1)) (he : x.1 = y.1) : x = y := by
  have := h.symm.trans h'
  rcases List.append_eq_append_iff.1 this with ⟨c, rfl, h2⟩ | ⟨c, rfl, h2⟩
  · cases c with
    | nil => simp only [List.nil_append, List.cons.injEq] at h2; exact h2.1
    | cons z c =>
      obtain ⟨rfl, rfl⟩ := List.cons.inj h2
      exact absurd (by rw [he]; simp) hb
  · cases c with
    | nil => simp only [List.nil_append, List.cons.injEq] at h2; exact h2.1.symm
    | cons z c =>
      obtain ⟨rfl, rfl⟩ := List.cons.inj h2
      exact absurd (by rw [← he]; simp) hb'

theorem eq_of_keys {α : Type} : ∀ {m m' : List (Str × α)}, m.map (·.1) = m'.map (·.1) → (∀ x ∈ m, ∀ y ∈ m', x.1 = y.1 → x = y) → m = m'
  | [], [], _, _ => rfl
  | [], _ :: _, h, _ => by simp at h
  | _ :: _, [], h, _ => by simp at h
  | x :: m, y :: m', h, hx => by
    simp only [List.map_cons, List.cons.injEq] at h
    rw [hx x (List.mem_cons_self ..) y (List.mem_cons_self ..) h.1,
      eq_of_keys h.2 fun a ha b hb => hx a (List.mem_cons_of_mem _ ha) b (List.mem_cons_of_mem _ hb)]

theorem lastWins_iff {l m : List (Str × Json)} : LastWins l m ↔ m = buildMap l := by
  constructor
  · rintro ⟨h1, h2⟩
    obtain ⟨h3, h4⟩ := lastWins_buildMap l
    refine eq_of_keys (h1.trans h3.symm) fun x hx y hy he => ?_
    obtain ⟨a, b, e, hb⟩ := h2 x hx
    obtain ⟨a', b', e', hb'⟩ := h4 y hy
    exact last_unique e hb e' hb' he
  · rintro rfl
    exact lastWins_buildMap l

/-! ## Values -/

variable {env : Ext}

theorem isJsonWs_iff {c : Char} : isJsonWs c = true ↔ c ∈ [' ', '\n', '\t', '\r'] := by simp [isJsonWs, or_assoc]

theorem skipWs_blank {w t : Str} (hw : Blank w) : skipWs (w ++ t) = skipWs t := by
  induction w with
  | nil => rfl
  | cons c w ih =>
    rw [List.cons_append, skipWs, if_pos (isJsonWs_iff.2 (hw c (List.mem_cons_self ..))), ih fun c hc => hw c (List.mem_cons_of_mem _ hc)]

theorem skipWs_solid {w t : Str} {c : Char} (hw : Blank w) (hc : c ∉ [' ', '\n', '\t', '\r']) : skipWs (w ++ c :: t) = c :: t := by
  rw [skipWs_blank hw, skipWs_cons]
  cases h : isJsonWs c with
  | false => rfl
  | true => exact absurd (isJsonWs_iff.1 h) hc

theorem skipWs_split (s : Str) : ∃ w, s = w ++ skipWs s ∧ Blank w := by
  induction s with
  | nil => exact ⟨[], rfl, by simp [Blank]⟩
  | cons c s ih =>
    rw [skipWs]
    split_ifs with h
    · obtain ⟨w, e, hw⟩ := ih
      refine ⟨c :: w, by rw [List.cons_append, ← e], ?_⟩
      intro d hd
      rcases List.mem_cons.1 hd with rfl | hd
      · exact isJsonWs_iff.1 h
      · exact hw d hd
    · exact ⟨[], rfl, by simp [Blank]⟩

theorem blank_append {a b : Str} (ha : Blank a) (hb : Blank b) : Blank (a ++ b) := fun c hc => (List.mem_append.1 hc).elim (ha c) (hb c)

theorem blank_nil : Blank [] := by simp [Blank]

theorem membersOf_blank {w t : Str} {l : List (Str × Json)} (hw : Blank w) (h : MembersOf env t l) : MembersOf env (w ++ t) l := by
  cases h with
  | oneMember h0 hk h1 h2 hv h3 => rw [← List.append_assoc]; exact .oneMember (blank_append hw h0) hk h1 h2 hv h3
  | moreMembers h0 hk h1 h2 hv h3 h => rw [← List.append_assoc]; exact .moreMembers (blank_append hw h0) hk h1 h2 hv h3 h

theorem elementsOf_blank {w t : Str} {l : List Json} (hw : Blank w) (h : ElementsOf env t l) : ElementsOf env (w ++ t) l := by
  cases h with
  | one h0 hv h3 => rw [← List.append_assoc]; exact .one (blank_append hw h0) hv h3
  | more h0 hv h3 h => rw [← List.append_assoc]; exact .more (blank_append hw h0) hv h3 h

theorem parse_sound : ∀ f,
    (∀ s j r, parseValue env f s = some (j, r) → ∃ w t, s = w ++ (t ++ r) ∧ Blank w ∧ ValueOf env t j) ∧
    (∀ acc s m r, parseMembers env f acc s = some (m, r) → ∃ t l, s = t ++ '}' :: r ∧ MembersOf env t l ∧ m = acc ++ l) ∧
    (∀ s l r, parseElems env f s = some (l, r) → ∃ t, s = t ++ ']' :: r ∧ ElementsOf env t l) := by
  intro f
  induction f with
  | zero => exact ⟨fun s j r h => by simp [parseValue] at h, fun acc s j r h => by simp [parseMembers] at h, fun s j r h => by simp [parseElems] at h⟩
  | succ f ih =>
    obtain ⟨ihv, ihm, ihe⟩ := ih
    refine ⟨?_, ?_, ?_⟩
    · intro s j r h
      obtain ⟨w, e, hw⟩ := skipWs_split s
      unfold parseValue at h
      split at h
      · cases h
      · next c cs hs =>
        rw [hs] at e
        suffices ∃ t, c :: cs = t ++ r ∧ ValueOf env t j by
          obtain ⟨t, e', ht⟩ := this
          exact ⟨w, t, by rw [e, e'], hw, ht⟩
        clear e hs hw
        obtain ⟨w, e, hw⟩ := skipWs_split cs
        split at h
        · next hc =>
          subst hc
          split at h
          · next r' hr =>
            cases h
            rw [hr] at e
            exact ⟨'{' :: (w ++ gs"}"), by rw [e]; simp, .noMembers hw⟩
          · simp only [Option.map_eq_some_iff] at h
            obtain ⟨y, hy, h⟩ := h
            cases h
            obtain ⟨t, l, e', h1, h2⟩ := ihm _ _ y.1 y.2 hy
            exact ⟨'{' :: ((w ++ t) ++ gs"}"), by rw [e, e']; simp, .obj (by rw [h2]; exact membersOf_blank hw h1)⟩
        · split at h
          · next hc =>
            subst hc
            split at h
            · next r' hr =>
              cases h
              rw [hr] at e
              exact ⟨'[' :: (w ++ gs"]"), by rw [e]; simp, .noElements hw⟩
            · simp only [Option.map_eq_some_iff] at h
              obtain ⟨y, hy, h⟩ := h
              cases h
              obtain ⟨t, e', h1⟩ := ihe _ y.1 y.2 hy
              exact ⟨'[' :: ((w ++ t) ++ gs"]"), by rw [e, e']; simp, .arr (elementsOf_blank hw h1)⟩
          · split at h
            · next hc =>
              subst hc
              simp only [Option.map_eq_some_iff] at h
              obtain ⟨y, hy, h⟩ := h
              cases h
              obtain ⟨t, rfl, ht⟩ := literal_of_strTail (x := y.1) (r := y.2) hy
              exact ⟨'"' :: (t ++ gs"\""), by simp, .str ht⟩
            · split at h
              · next hc => subst hc; split at h <;> cases h; exact ⟨gs"true", rfl, .true⟩
              · split at h
                · next hc => subst hc; split at h <;> cases h; exact ⟨gs"false", rfl, .false⟩
                · split at h
                  · next hc => subst hc; split at h <;> cases h; exact ⟨gs"null", rfl, .null⟩
                  · simp only at h
                    split at h
                    · next hn =>
                      simp only [Option.map_eq_some_iff] at h
                      obtain ⟨x, hx, h⟩ := h
                      cases h
                      exact ⟨_, (List.takeWhile_append_dropWhile).symm, .num (isJsonNumber_iff.1 hn) hx⟩
                    · cases h
    · intro acc s m r h
      obtain ⟨w0, e0, hw0⟩ := skipWs_split s
      unfold parseMembers at h
      split at h
      · next cs hs =>
        rw [hs] at e0
        split at h
        · cases h
        · next k r1 hk =>
          obtain ⟨ks, e1, hk⟩ := literal_of_strTail hk
          obtain ⟨w1, e2, hw1⟩ := skipWs_split r1
          split at h
          · next r2 hr2 =>
            rw [hr2] at e2
            split at h
            · cases h
            · next v r3 hv =>
              obtain ⟨w2, vs, e3, hw2, hv⟩ := ihv _ _ _ hv
              obtain ⟨w3, e4, hw3⟩ := skipWs_split r3
              split at h
              · next r4 hr4 =>
                rw [hr4] at e4
                obtain ⟨t, l, e5, h1, h2⟩ := ihm _ _ _ _ h
                refine ⟨_, _, ?_, .moreMembers hw0 hk hw1 hw2 hv hw3 h1, by rw [h2]; simp⟩
                rw [e0, e1, e2, e3, e4, e5]; simp
              · next r4 hr4 =>
                cases h
                rw [hr4] at e4
                refine ⟨_, _, ?_, .oneMember hw0 hk hw1 hw2 hv hw3, rfl⟩
                rw [e0, e1, e2, e3, e4]; simp
              · cases h
          · cases h
      · cases h
    · intro s l r h
      unfold parseElems at h
      split at h
      · cases h
      · next v r1 hv =>
        obtain ⟨w, vs, e1, hw, hv⟩ := ihv _ _ _ hv
        obtain ⟨w', e2, hw'⟩ := skipWs_split r1
        split at h
        · next r2 hr2 =>
          rw [hr2] at e2
          simp only [Option.map_eq_some_iff] at h
          obtain ⟨y, hy, h⟩ := h
          cases h
          obtain ⟨t, e3, h1⟩ := ihe _ y.1 y.2 hy
          refine ⟨_, ?_, .more hw hv hw' h1⟩
          rw [e1, e2, e3]; simp
        · next r2 hr2 =>
          cases h
          rw [hr2] at e2
          refine ⟨_, ?_, .one hw hv hw'⟩
          rw [e1, e2]; simp
        · cases h

/-- Where a number can end. -/
def NumberEnd (t : Str) : Prop := ∀ c t', t = c :: t' → isNumChar c = false

theorem numberEnd_cons {c : Char} {t : Str} (h : isNumChar c = false) : NumberEnd (c :: t) := fun _ _ e => by
  obtain ⟨rfl, -⟩ := List.cons.inj e; exact h

theorem numberEnd_blank {w : Str} {c : Char} {t : Str} (hw : Blank w) (h : isNumChar c = false) : NumberEnd (w ++ c :: t) := by
  cases w with
  | nil => exact numberEnd_cons h
  | cons a w =>
    refine numberEnd_cons ?_
    have : ∀ a ∈ [' ', '\n', '\t', '\r'], isNumChar a = false := by decide
    exact this a (hw a (List.mem_cons_self ..))

theorem numberEnd_end {w : Str} (hw : Blank w) : NumberEnd w := by
  cases w with
  | nil => exact fun _ _ e => by cases e
  | cons a w => exact numberEnd_blank (w := []) blank_nil (by
      have : ∀ a ∈ [' ', '\n', '\t', '\r'], isNumChar a = false := by decide
      exact this a (hw a (List.mem_cons_self ..)))

theorem numChar_solid {c : Char} (h : isNumChar c = true) : c ∉ [' ', '\n', '\t', '\r'] ∧ c ∉ ['{', '[', '"', 't', 'f', 'n', '}', ']'] := by
  have : ∀ a ∈ [' ', '\n', '\t', '\r'] ++ ['{', '[', '"', 't', 'f', 'n', '}', ']'], isNumChar a = false := by decide
  constructor
  · intro hc; rw [this c (List.mem_append_left _ hc)] at h; cases h
  · intro hc; rw [this c (List.mem_append_right _ hc)] at h; cases h

theorem valueOf_head {s : Str} {j : Json} (h : ValueOf env s j) : ∃ c u, s = c :: u ∧ c ∉ [' ', '\n', '\t', '\r'] ∧ c ≠ '}' ∧ c ≠ ']' := by
  cases h with
  | null => exact ⟨_, _, rfl, by decide, by decide, by decide⟩
  | true => exact ⟨_, _, rfl, by decide, by decide, by decide⟩
  | false => exact ⟨_, _, rfl, by decide, by decide, by decide⟩
  | num h hx =>
    cases s with
    | nil => exact absurd rfl (numberText_ne h)
    | cons c u =>
      obtain ⟨h1, h2⟩ := numChar_solid (numberText_chars h c (List.mem_cons_self ..))
      exact ⟨c, u, rfl, h1, by rintro rfl; simp at h2, by rintro rfl; simp at h2⟩
  | str h => exact ⟨_, _, rfl, by decide, by decide, by decide⟩
  | noElements h => exact ⟨_, _, rfl, by decide, by decide, by decide⟩
  | arr h => exact ⟨_, _, rfl, by decide, by decide, by decide⟩
  | noMembers h => exact ⟨_, _, rfl, by decide, by decide, by decide⟩
  | obj h => exact ⟨_, _, rfl, by decide, by decide, by decide⟩

theorem elementsOf_head {s : Str} {l : List Json} (h : ElementsOf env s l) (t : Str) : ∃ c u, skipWs (s ++ t) = c :: u ∧ c ≠ ']' := by
  cases h with
  | one hw hv hw' =>
    obtain ⟨c, u, rfl, h1, -, h2⟩ := valueOf_head hv
    rw [List.append_assoc, List.cons_append, List.cons_append, skipWs_solid hw h1]
    exact ⟨_, _, rfl, h2⟩
  | more hw hv hw' h =>
    obtain ⟨c, u, rfl, h1, -, h2⟩ := valueOf_head hv
    rw [List.append_assoc, List.cons_append, List.cons_append, skipWs_solid hw h1]
    exact ⟨_, _, rfl, h2⟩

theorem membersOf_head {s : Str} {l : List (Str × Json)} (h : MembersOf env s l) (t : Str) : ∃ u, skipWs (s ++ t) = '"' :: u := by
  cases h with
  | oneMember hw =>
    rw [List.append_assoc, List.cons_append, skipWs_solid hw (by decide)]
    exact ⟨_, rfl⟩
  | moreMembers hw =>
    rw [List.append_assoc, List.cons_append, skipWs_solid hw (by decide)]
    exact ⟨_, rfl⟩

theorem skipWs_idem (s : Str) : skipWs (skipWs s) = skipWs s := by
  induction s with
  | nil => rfl
  | cons c s ih =>
    rw [skipWs]
    split_ifs with h
    · exact ih
    · rw [skipWs, if_neg h]

theorem parseValue_skip (f : Nat) (s : Str) : parseValue env f (skipWs s) = parseValue env f s := by
  cases f with
  | zero => rfl
  | succ f => rw [parseValue, parseValue, skipWs_idem]

theorem parseElems_skip (f : Nat) (s : Str) : parseElems env f (skipWs s) = parseElems env f s := by
  cases f with
  | zero => rfl
  | succ f => rw [parseElems, parseElems, parseValue_skip]

theorem parseMembers_skip (f : Nat) (acc : List (Str × Json)) (s : Str) : parseMembers env f acc (skipWs s) = parseMembers env f acc s := by
  cases f with
  | zero => rfl
  | succ f => rw [parseMembers, parseMembers, skipWs_idem]

theorem parse_complete {s : Str} {j : Json} (h : ValueOf env s j) :
    ∀ f w t, s.length ≤ f → Blank w → NumberEnd t → parseValue env f (w ++ (s ++ t)) = some (j, t) := by
  induction h using ValueOf.rec
    (motive_2 := fun s l _ => ∀ f t, s.length < f → parseElems env f (s ++ ']' :: t) = some (l, t))
    (motive_3 := fun s l _ => ∀ f acc t, s.length < f → parseMembers env f acc (s ++ '}' :: t) = some (acc ++ l, t)) with
  | null =>
    intro f w t hf hw ht
    cases f with
    | zero => simp at hf
    | succ f => rw [parseValue, List.cons_append, skipWs_solid hw (by decide)]; rfl
  | true =>
    intro f w t hf hw ht
    cases f with
    | zero => simp at hf
    | succ f => rw [parseValue, List.cons_append, skipWs_solid hw (by decide)]; rfl
  | false =>
    intro f w t hf hw ht
    cases f with
    | zero => simp at hf
    | succ f => rw [parseValue, List.cons_append, skipWs_solid hw (by decide)]; rfl
  | @num s x h hx =>
    intro f w t hf hw ht
    cases s with
    | nil => exact absurd rfl (numberText_ne h)
    | cons c u =>
    cases f with
    | zero => simp at hf
    | succ f =>
      have hc := numberText_chars h
      obtain ⟨h1, h2⟩ := numChar_solid (hc c (List.mem_cons_self ..))
      simp only [List.mem_cons, List.not_mem_nil, or_false, not_or] at h2
      obtain ⟨n1, n2, n3, n4, n5, n6, -⟩ := h2
      have e1 : (c :: (u ++ t)).takeWhile isNumChar = c :: u := by
        rw [← List.cons_append, List.takeWhile_append_of_pos hc]
        cases t with
        | nil => simp
        | cons d t => rw [List.takeWhile_cons_of_neg (by simp [ht d t rfl])]; simp
      have e2 : (c :: (u ++ t)).dropWhile isNumChar = t := by
        rw [← List.cons_append, List.dropWhile_append_of_pos hc]
        cases t with
        | nil => simp
        | cons d t => rw [List.dropWhile_cons_of_neg (by simp [ht d t rfl])]
      rw [parseValue, List.cons_append, skipWs_solid hw h1]
      simp only [if_neg n1, if_neg n2, if_neg n3, if_neg n4, if_neg n5, if_neg n6, e1, e2, isJsonNumber_iff.2 h, if_true, hx, Option.map_some]
  | @str s x h =>
    intro f w t hf hw ht
    cases f with
    | zero => simp at hf
    | succ f =>
      rw [parseValue, List.cons_append, skipWs_solid hw (by decide)]
      simp only [Char.reduceEq, if_false, if_true, List.append_assoc, List.cons_append, List.nil_append, strTail_literal h t, Option.map_some]
  | @noElements w' h =>
    intro f w t hf hw ht
    cases f with
    | zero => simp at hf
    | succ f =>
      rw [parseValue, List.cons_append, skipWs_solid hw (by decide)]
      simp only [Char.reduceEq, if_false, if_true, List.append_assoc, List.cons_append, List.nil_append]
      rw [skipWs_solid h (by decide)]; rfl
  | @arr s l h ih =>
    intro f w t hf hw ht
    cases f with
    | zero => simp at hf
    | succ f =>
      rw [parseValue, List.cons_append, skipWs_solid hw (by decide)]
      simp only [Char.reduceEq, if_false, if_true, List.append_assoc, List.cons_append, List.nil_append]
      obtain ⟨c, u, e, hc⟩ := elementsOf_head h (']' :: t)
      have := ih f t (by simp at hf; omega)
      rw [← parseElems_skip, e] at this
      rw [e]
      split
      · next h => exact absurd (List.cons.inj h).1 hc
      · rw [this]; rfl
  | @noMembers w' h =>
    intro f w t hf hw ht
    cases f with
    | zero => simp at hf
    | succ f =>
      rw [parseValue, List.cons_append, skipWs_solid hw (by decide)]
      simp only [if_true, List.append_assoc, List.cons_append, List.nil_append]
      rw [skipWs_solid h (by decide)]; rfl
  | @obj s l h ih =>
    intro f w t hf hw ht
    cases f with
    | zero => simp at hf
    | succ f =>
      rw [parseValue, List.cons_append, skipWs_solid hw (by decide)]
      simp only [if_true, List.append_assoc, List.cons_append, List.nil_append]
      obtain ⟨u, e⟩ := membersOf_head h ('}' :: t)
      have := ih f [] t (by simp at hf; omega)
      rw [← parseMembers_skip, e] at this
      rw [e]
      split
      · next h => exact absurd (List.cons.inj h).1 (by decide)
      · rw [this]; rfl
  | @one w s w' v h1 hv h2 ih =>
    rename_i f t hf
    cases f with
    | zero => simp at hf
    | succ f =>
      rw [parseElems, List.append_assoc, List.append_assoc, ih f w _ (by simp at hf; omega) h1 (numberEnd_blank h2 (by decide))]
      simp only
      rw [skipWs_solid h2 (by decide)]; rfl
  | @more w s w' v t l h1 hv h2 h ihv ih =>
    rename_i f r hf
    cases f with
    | zero => simp at hf
    | succ f =>
      simp only [List.append_assoc, List.cons_append]
      rw [parseElems, ihv f w _ (by simp at hf; omega) h1 (numberEnd_blank h2 (by decide))]
      simp only
      rw [skipWs_solid h2 (by decide)]
      simp only
      rw [ih f r (by simp at hf; omega)]; rfl
  | @oneMember w0 ks k w1 w2 s v w3 h0 hk h1 h2 hv h3 ih =>
    rename_i f acc t hf
    cases f with
    | zero => simp at hf
    | succ f =>
      simp only [List.append_assoc, List.cons_append]
      rw [parseMembers, skipWs_solid h0 (by decide)]
      simp only [strTail_literal hk]
      rw [skipWs_solid h1 (by decide)]
      simp only
      rw [ih f w2 _ (by simp at hf; omega) h2 (numberEnd_blank h3 (by decide))]
      simp only
      rw [skipWs_solid h3 (by decide)]; rfl
  | @moreMembers w0 ks k w1 w2 s v w3 t l h0 hk h1 h2 hv h3 h ihv ih =>
    rename_i f acc r hf
    cases f with
    | zero => simp at hf
    | succ f =>
      simp only [List.append_assoc, List.cons_append]
      rw [parseMembers, skipWs_solid h0 (by decide)]
      simp only [strTail_literal hk]
      rw [skipWs_solid h1 (by decide)]
      simp only
      rw [ihv f w2 _ (by simp at hf; omega) h2 (numberEnd_blank h3 (by decide))]
      simp only
      rw [skipWs_solid h3 (by decide)]
      simp only
      rw [ih f _ r (by simp at hf; omega)]; simp

/-- The decoder reads exactly the documents of the grammar. -/
theorem jsonScan_iff {s : Str} {j : Json} : jsonScan env s = some j ↔ JsonDoc env s j := by
  constructor
  · intro h
    unfold jsonScan at h
    split at h
    · next j' r hp =>
      split_ifs at h with hr
      cases h
      obtain ⟨w, t, rfl, hw, ht⟩ := (parse_sound _).1 _ _ _ hp
      refine ⟨w, t, r, hw, ht, ?_, rfl⟩
      obtain ⟨w', e, hw'⟩ := skipWs_split r
      rw [hr, List.append_nil] at e
      exact e ▸ hw'
    · cases h
  · rintro ⟨w, t, w', hw, ht, hw', rfl⟩
    unfold jsonScan
    rw [parse_complete ht _ w w' (by simp; omega) hw (numberEnd_end hw')]
    have : skipWs w' = [] := by simpa [skipWs] using skipWs_blank (t := []) hw'
    simp only [this, if_true]

/-! ## Repeated names -/

mutual
theorem reduced_once : ∀ j : Json, Reduced j j.once
  | .null => .null
  | .bool b => .bool b
  | .num x => .num x
  | .str s => .str s
  | .arr l => by rw [Json.once]; exact .arr (reducedAll_once l)
  | .obj l => by rw [Json.once]; exact .obj (reducedKeys_once l) (lastWins_iff.2 rfl)

theorem reducedAll_once : ∀ l : List Json, ReducedAll l (onceElements l)
  | [] => .nil
  | j :: l => .cons (reduced_once j) (reducedAll_once l)

theorem reducedKeys_once : ∀ l : List (Str × Json), ReducedKeys l (onceMembers l)
  | [] => .nil
  | (_, j) :: l => .cons (reduced_once j) (reducedKeys_once l)
end

mutual
theorem once_of_reduced : ∀ {j j' : Json}, Reduced j j' → j.once = j'
  | _, _, .null => rfl
  | _, _, .bool _ => rfl
  | _, _, .num _ => rfl
  | _, _, .str _ => rfl
  | _, _, .arr h => by rw [Json.once, onceAll_of_reduced h]
  | _, _, .obj h hm => by rw [Json.once, onceKeys_of_reduced h, lastWins_iff.1 hm]; rfl

theorem onceAll_of_reduced : ∀ {l l' : List Json}, ReducedAll l l' → onceElements l = l'
  | _, _, .nil => rfl
  | _, _, .cons h hs => by rw [onceElements, once_of_reduced h, onceAll_of_reduced hs]

theorem onceKeys_of_reduced : ∀ {l l' : List (Str × Json)}, ReducedKeys l l' → onceMembers l = l'
  | _, _, .nil => rfl
  | _, _, .cons h hs => by rw [onceMembers, once_of_reduced h, onceKeys_of_reduced hs]
end

theorem lastWins_refl {l m : List (Str × Json)} (h : LastWins l m) : LastWins m m := by
  have hn : (m.map (·.1)).Nodup := h.1 ▸ firsts_nodup _
  rw [lastWins_iff, buildMap, foldl_setKey m [] (by simpa using hn)]; rfl

theorem lastWins_mem {l m : List (Str × Json)} (h : LastWins l m) : ∀ x ∈ m, x ∈ l := fun x hx => by
  obtain ⟨a, b, rfl, -⟩ := h.2 x hx
  simp

theorem reducedKeys_self : ∀ {m : List (Str × Json)}, (∀ x ∈ m, Reduced x.2 x.2) → ReducedKeys m m
  | [], _ => .nil
  | x :: _, h => .cons (h x (List.mem_cons_self ..)) (reducedKeys_self fun y hy => h y (List.mem_cons_of_mem _ hy))

mutual
theorem reduced_reduced : ∀ {j j' : Json}, Reduced j j' → Reduced j' j'
  | _, _, .null => .null
  | _, _, .bool _ => .bool _
  | _, _, .num _ => .num _
  | _, _, .str _ => .str _
  | _, _, .arr h => .arr (reducedAll_reduced h)
  | _, _, .obj h hm => .obj (reducedKeys_self fun x hx => reducedKeys_reduced h x (lastWins_mem hm x hx)) (lastWins_refl hm)

theorem reducedAll_reduced : ∀ {l l' : List Json}, ReducedAll l l' → ReducedAll l' l'
  | _, _, .nil => .nil
  | _, _, .cons h hs => .cons (reduced_reduced h) (reducedAll_reduced hs)

theorem reducedKeys_reduced : ∀ {l l' : List (Str × Json)}, ReducedKeys l l' → ∀ x ∈ l', Reduced x.2 x.2
  | _, _, .nil, x, hx => by simp at hx
  | _, _, .cons h hs, x, hx => by
    rcases List.mem_cons.1 hx with rfl | hx
    · exact reduced_reduced h
    · exact reducedKeys_reduced hs x hx
end

/-- What a decoder into `interface{}` gives. -/
theorem jsonParse_iff {s : Str} {j : Json} : jsonParse env s = some j ↔ ∃ j', JsonDoc env s j' ∧ Reduced j' j := by
  rw [jsonParse, Option.map_eq_some_iff]
  constructor
  · rintro ⟨j', h, rfl⟩; exact ⟨j', jsonScan_iff.1 h, reduced_once j'⟩
  · rintro ⟨j', h, h'⟩; exact ⟨j', jsonScan_iff.2 h, once_of_reduced h'⟩

end Mapl

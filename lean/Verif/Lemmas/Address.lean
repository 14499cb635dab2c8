import Verif.Lemmas.Net
import Mathlib.Data.List.Induction

/-! # Addresses and subnets as they are written -/

namespace Mapl

open Spec

/-! ## Numbers -/

/-- `dtoi` and `xtoi` together. -/
def numAux (dig : Char → Option Nat) (base n i : Nat) : Str → Option (Nat × Nat)
  | [] => if i = 0 then none else some (n, i)
  | c :: cs => match dig c with
    | none => if i = 0 then none else some (n, i)
    | some d => if n * base + d ≥ 0xFFFFFF then none else numAux dig base (n * base + d) (i + 1) cs

theorem dtoi_num (n i : Nat) (s : Str) : dtoiAux n i s = numAux digitVal 10 n i s := by
  induction s generalizing n i with
  | nil => rfl
  | cons c s ih =>
    simp only [dtoiAux, numAux, ih]
    cases digitVal c <;> rfl

theorem xtoi_num (n i : Nat) (s : Str) : xtoiAux n i s = numAux xDigit 16 n i s := by
  induction s generalizing n i with
  | nil => rfl
  | cons c s ih =>
    simp only [xtoiAux, numAux, ih]
    cases xDigit c <;> rfl

/-- Value of digits after a number. -/
def numVal (dig : Char → Option Nat) (base : Nat) : Nat → Str → Option Nat
  | n, [] => some n
  | n, c :: cs => match dig c with
    | none => none
    | some d => numVal dig base (n * base + d) cs

theorem numVal_append {dig : Char → Option Nat} {base : Nat} {t : Str} : ∀ {s : Str} {n : Nat},
    numVal dig base n (s ++ t) = (numVal dig base n s).bind fun m => numVal dig base m t
  | [], n => rfl
  | c :: s, n => by
    simp only [List.cons_append, numVal]
    cases dig c with
    | none => rfl
    | some d => exact numVal_append

theorem numVal_le {dig : Char → Option Nat} {base : Nat} (hb : 1 ≤ base) : ∀ {s : Str} {n v : Nat}, numVal dig base n s = some v → n ≤ v
  | [], n, v, h => by simp only [numVal, Option.some.injEq] at h; omega
  | c :: s, n, v, h => by
    simp only [numVal] at h
    cases hd : dig c with
    | none => rw [hd] at h; simp at h
    | some d =>
      rw [hd] at h
      have := numVal_le hb h
      have h2 : n * 1 ≤ n * base := Nat.mul_le_mul_left n hb
      omega

theorem numVal_digits {dig : Char → Option Nat} {base : Nat} : ∀ {s : Str} {n v : Nat}, numVal dig base n s = some v → ∀ c ∈ s, ∃ d, dig c = some d
  | [], _, _, _, c, hc => by simp at hc
  | x :: s, n, v, h, c, hc => by
    simp only [numVal] at h
    cases hd : dig x with
    | none => rw [hd] at h; simp at h
    | some d =>
      rw [hd] at h
      rcases List.mem_cons.1 hc with rfl | hc
      · exact ⟨d, hd⟩
      · exact numVal_digits h c hc

theorem numAux_sound {dig : Char → Option Nat} {base : Nat} : ∀ {s : Str} {n i v k : Nat}, numAux dig base n i s = some (v, k) →
    ∃ ds r, s = ds ++ r ∧ k = i + ds.length ∧ (i = 0 → ds ≠ []) ∧ (∀ c ∈ r.head?, dig c = none) ∧ numVal dig base n ds = some v
  | [], n, i, v, k, h => by
    simp only [numAux] at h
    by_cases hi : i = 0
    · simp [hi] at h
    · simp only [if_neg hi, Option.some.injEq, Prod.mk.injEq] at h
      exact ⟨[], [], rfl, by simp [h.2], fun h => absurd h hi, by simp, by simp [numVal, h.1]⟩
  | c :: s, n, i, v, k, h => by
    simp only [numAux] at h
    cases hd : dig c with
    | none =>
      rw [hd] at h
      by_cases hi : i = 0
      · simp [hi] at h
      · simp only [if_neg hi, Option.some.injEq, Prod.mk.injEq] at h
        exact ⟨[], c :: s, rfl, by simp [h.2], fun h => absurd h hi, by simp [hd], by simp [numVal, h.1]⟩
    | some d =>
      rw [hd] at h
      simp only at h
      split at h
      · simp at h
      · obtain ⟨ds, r, h1, h2, _, h4, h5⟩ := numAux_sound h
        refine ⟨c :: ds, r, by rw [h1]; rfl, by simp only [List.length_cons]; omega, by simp, h4, ?_⟩
        simp only [numVal, hd, h5]

theorem numAux_complete {dig : Char → Option Nat} {base : Nat} (hb : 1 ≤ base) {r : Str} (hr : ∀ c ∈ r.head?, dig c = none) :
    ∀ {ds : Str} {n i v : Nat}, numVal dig base n ds = some v → v < 0xFFFFFF → (i = 0 → ds ≠ []) →
      numAux dig base n i (ds ++ r) = some (v, i + ds.length)
  | [], n, i, v, h, _, hi => by
    have hi : i ≠ 0 := fun h => hi h rfl
    simp only [numVal, Option.some.injEq] at h
    cases r with
    | nil => simp [numAux, hi, h]
    | cons c r => simp [numAux, hi, h, hr c (by simp)]
  | c :: ds, n, i, v, h, hv, _ => by
    simp only [numVal] at h
    cases hd : dig c with
    | none => rw [hd] at h; simp at h
    | some d =>
      rw [hd] at h
      simp only at h
      have hle := numVal_le hb h
      simp only [List.cons_append, numAux, hd]
      rw [if_neg (by omega), numAux_complete hb hr h hv (by omega)]
      simp only [List.length_cons, Option.some.injEq, Prod.mk.injEq, true_and]
      omega

theorem writtenIn_iff {dig : Char → Option Nat} {base : Nat} {digit : Char → Nat → Prop} (hd : ∀ c d, digit c d ↔ dig c = some d) {s : Str} {v : Nat} :
    WrittenIn base digit s v ↔ s ≠ [] ∧ numVal dig base 0 s = some v := by
  constructor
  · intro h
    induction h with
    | one h => exact ⟨by simp, by simp [numVal, (hd _ _).1 h]⟩
    | more h h' ih => exact ⟨by simp, by rw [numVal_append, ih.2]; simp [numVal, (hd _ _).1 h']⟩
  · rintro ⟨hs, h⟩
    induction s using List.reverseRecOn generalizing v with
    | nil => exact absurd rfl hs
    | append_singleton s c ih =>
      rw [numVal_append] at h
      cases hn : numVal dig base 0 s with
      | none => rw [hn] at h; simp at h
      | some n =>
        rw [hn] at h
        cases hc : dig c with
        | none => simp [numVal, hc] at h
        | some d =>
          simp only [Option.bind_some, numVal, hc, Option.some.injEq] at h
          subst h
          by_cases he : s = []
          · subst he
            simp only [numVal, Option.some.injEq] at hn
            subst hn
            rw [Nat.zero_mul, Nat.zero_add]
            exact .one ((hd _ _).2 hc)
          · exact .more (ih he hn) ((hd _ _).2 hc)

theorem charRange {a b c : Char} (h : a ≤ c ∧ c ≤ b) : ∃ n, a.toNat ≤ n ∧ n ≤ b.toNat ∧ c = Char.ofNat n :=
  ⟨c.toNat, h.1, h.2, (Char.ofNat_toNat c).symm⟩

theorem xDigit_iff {c : Char} {d : Nat} : Digit16 c d ↔ xDigit c = some d := by
  unfold Digit16
  constructor
  · have hl : ∀ d < 16, ∀ c, gs"0123456789abcdef"[d]? = some c → xDigit c = some d := by
      intro d hd c h; interval_cases d <;> (simp at h; subst h; rfl)
    have hu : ∀ d < 16, ∀ c, gs"0123456789ABCDEF"[d]? = some c → xDigit c = some d := by
      intro d hd c h; interval_cases d <;> (simp at h; subst h; rfl)
    rintro (h | h)
    · exact hl d (List.getElem?_eq_some_iff.1 h).1 c h
    · exact hu d (List.getElem?_eq_some_iff.1 h).1 c h
  · intro h
    unfold xDigit at h
    split at h
    · next hr =>
      obtain ⟨n, h1, h2, rfl⟩ := charRange hr
      simp only [Option.some.injEq] at h
      subst h
      have e1 : '0'.toNat = 48 := rfl
      have e2 : '9'.toNat = 57 := rfl
      rw [e1] at h1; rw [e2] at h2
      interval_cases n <;> exact .inl rfl
    split at h
    · next hr =>
      obtain ⟨n, h1, h2, rfl⟩ := charRange hr
      simp only [Option.some.injEq] at h
      subst h
      have e1 : 'a'.toNat = 97 := rfl
      have e2 : 'f'.toNat = 102 := rfl
      rw [e1] at h1; rw [e2] at h2
      interval_cases n <;> exact .inl rfl
    split at h
    · next hr =>
      obtain ⟨n, h1, h2, rfl⟩ := charRange hr
      simp only [Option.some.injEq] at h
      subst h
      have e1 : 'A'.toNat = 65 := rfl
      have e2 : 'F'.toNat = 70 := rfl
      rw [e1] at h1; rw [e2] at h2
      interval_cases n <;> exact .inr rfl
    · simp at h

theorem decDigit_iff {c : Char} {d : Nat} : Digit10 c d ↔ digitVal c = some d := by
  unfold Digit10
  constructor
  · have hl : ∀ d < 10, ∀ c, gs"0123456789"[d]? = some c → digitVal c = some d := by
      intro d hd c h; interval_cases d <;> (simp at h; subst h; rfl)
    intro h
    exact hl d (List.getElem?_eq_some_iff.1 h).1 c h
  · intro h
    unfold digitVal at h
    split at h
    · next hr =>
      obtain ⟨n, h1, h2, rfl⟩ := charRange hr
      simp only [Option.some.injEq] at h
      subst h
      have e1 : '0'.toNat = 48 := rfl
      have e2 : '9'.toNat = 57 := rfl
      rw [e1] at h1; rw [e2] at h2
      interval_cases n <;> rfl
    · simp at h

theorem xtoi_sound {s : Str} {v k : Nat} (h : xtoi s = some (v, k)) :
    ∃ ds r, s = ds ++ r ∧ k = ds.length ∧ WrittenIn 16 Digit16 ds v ∧ ∀ c ∈ r.head?, xDigit c = none := by
  unfold xtoi at h
  rw [xtoi_num] at h
  obtain ⟨ds, r, h1, h2, h3, h4, h5⟩ := numAux_sound h
  exact ⟨ds, r, h1, by omega, (writtenIn_iff (digit := Digit16) fun c d => xDigit_iff (c := c) (d := d)).2 ⟨h3 rfl, h5⟩, h4⟩

theorem xtoi_complete {ds r : Str} {v : Nat} (h : WrittenIn 16 Digit16 ds v) (hv : v < 0xFFFFFF) (hr : ∀ c ∈ r.head?, xDigit c = none) :
    xtoi (ds ++ r) = some (v, ds.length) := by
  obtain ⟨h1, h2⟩ := (writtenIn_iff (digit := Digit16) fun c d => xDigit_iff (c := c) (d := d)).1 h
  unfold xtoi
  rw [xtoi_num, numAux_complete (by decide) hr h2 hv fun _ => h1, Nat.zero_add]

theorem dtoi_sound {s : Str} {v k : Nat} (h : dtoi s = some (v, k)) :
    ∃ ds r, s = ds ++ r ∧ k = ds.length ∧ WrittenIn 10 Digit10 ds v ∧ ∀ c ∈ r.head?, digitVal c = none := by
  unfold dtoi at h
  rw [dtoi_num] at h
  obtain ⟨ds, r, h1, h2, h3, h4, h5⟩ := numAux_sound h
  exact ⟨ds, r, h1, by omega, (writtenIn_iff (digit := Digit10) fun c d => decDigit_iff (c := c) (d := d)).2 ⟨h3 rfl, h5⟩, h4⟩

theorem dtoi_complete {ds r : Str} {v : Nat} (h : WrittenIn 10 Digit10 ds v) (hv : v < 0xFFFFFF) (hr : ∀ c ∈ r.head?, digitVal c = none) :
    dtoi (ds ++ r) = some (v, ds.length) := by
  obtain ⟨h1, h2⟩ := (writtenIn_iff (digit := Digit10) fun c d => decDigit_iff (c := c) (d := d)).1 h
  unfold dtoi
  rw [dtoi_num, numAux_complete (by decide) hr h2 hv fun _ => h1, Nat.zero_add]

theorem writtenIn_digits {base : Nat} {digit : Char → Nat → Prop} {s : Str} {v : Nat} (h : WrittenIn base digit s v) : ∀ c ∈ s, ∃ d, digit c d := by
  induction h with
  | one h => intro c hc; simp at hc; subst hc; exact ⟨_, h⟩
  | more h hd ih =>
    intro c hc
    rcases List.mem_append.1 hc with hc | hc
    · exact ih c hc
    · simp at hc; subst hc; exact ⟨_, hd⟩

theorem writtenIn_ne {base : Nat} {digit : Char → Nat → Prop} {s : Str} {v : Nat} (h : WrittenIn base digit s v) : s ≠ [] := by
  cases h <;> simp

/-- Digits without a leading zero are the usual ones. -/
theorem writtenIn_decimal {s : Str} {v : Nat} (h : WrittenIn 10 Digit10 s v) (hz : ¬ (s.length > 1 ∧ s.head? = some '0')) : s = decimal v := by
  have hc : ∀ d < 10, ∀ c, Digit10 c d → c = Nat.digitChar d := by
    intro d hd c h; unfold Digit10 at h; interval_cases d <;> (simp at h; subst h; rfl)
  have hlt : ∀ {c d}, Digit10 c d → d < 10 := fun h => (List.getElem?_eq_some_iff.1 h).1
  unfold decimal
  induction h with
  | one h => rw [Nat.toDigits_of_lt_base (hlt h), hc _ (hlt h) _ h]
  | @more s n c d h hd ih =>
    have hne := writtenIn_ne h
    cases s with
    | nil => exact absurd rfl hne
    | cons x s =>
      have hx : x ≠ '0' := by
        intro hx; apply hz; subst hx; simp
      have hn : s = [] ∨ s ≠ [] := em _
      have hs := ih (by simp [hx])
      have hpos : 0 < n := by
        rcases Nat.eq_zero_or_pos n with rfl | h
        · exfalso
          have hz : Nat.toDigits 10 0 = ['0'] := Nat.toDigits_zero 10
          rw [hz] at hs
          simp at hs
          exact hx hs.1
        · exact h
      have hd' := hlt hd
      rw [Nat.toDigits_of_base_le (by decide) (by omega), show (n * 10 + d) / 10 = n by omega, show (n * 10 + d) % 10 = d by omega, ← hs,
        hc d hd' c hd]

theorem parseOctet_sound {s r : Str} {n : Nat} (h : parseOctet s = some (n, r)) : ∃ a : Fin 256, s = decimal a ++ r ∧ n = a.val := by
  unfold parseOctet at h
  cases hd : dtoi s with
  | none => simp [hd] at h
  | some x =>
    obtain ⟨v, k⟩ := x
    simp only [hd] at h
    split at h
    · simp at h
    split at h
    · simp at h
    next hv hz =>
    simp only [Option.some.injEq, Prod.mk.injEq] at h
    obtain ⟨rfl, rfl⟩ := h
    obtain ⟨ds, r, rfl, rfl, h1, _⟩ := dtoi_sound hd
    refine ⟨⟨v, by omega⟩, ?_, rfl⟩
    rw [List.drop_left]
    congr 1
    refine writtenIn_decimal h1 fun ⟨h2, h3⟩ => hz ⟨h2, ?_⟩
    cases ds with
    | nil => simp at h2
    | cons c ds => simpa using h3

/-- The IPv4 part of the parser. -/
theorem parseIPv4_iff {s : Str} {b : List Nat} : parseIPv4 s = some b ↔ ∃ y : V4, s = y.text ∧ b = [y.a.val, y.b.val, y.c.val, y.d.val] := by
  constructor
  · intro h
    have hdot : ∀ (s : Str) {α : Type} (f : Str → Option α) (x : α), (match s with | '.' :: t => (some t).bind f | _ => (none : Option Str).bind f) = some x →
        ∃ t, s = '.' :: t ∧ f t = some x := by
      intro s α f x h
      split at h
      · exact ⟨_, rfl, h⟩
      · simp at h
    simp only [parseIPv4, Option.bind_eq_bind] at h
    obtain ⟨⟨a, s1⟩, h1, h⟩ := Option.bind_eq_some_iff.1 h
    obtain ⟨s2, h2, h⟩ := hdot s1 _ _ h
    obtain ⟨⟨b', s3⟩, h3, h⟩ := Option.bind_eq_some_iff.1 h
    obtain ⟨s4, h4, h⟩ := hdot s3 _ _ h
    obtain ⟨⟨c, s5⟩, h5, h⟩ := Option.bind_eq_some_iff.1 h
    obtain ⟨s6, h6, h⟩ := hdot s5 _ _ h
    obtain ⟨⟨d, s7⟩, h7, h8⟩ := Option.bind_eq_some_iff.1 h
    obtain ⟨a, rfl, rfl⟩ := parseOctet_sound h1
    subst h2
    obtain ⟨b', rfl, rfl⟩ := parseOctet_sound h3
    subst h4
    obtain ⟨c, rfl, rfl⟩ := parseOctet_sound h5
    subst h6
    obtain ⟨d, rfl, rfl⟩ := parseOctet_sound h7
    split at h8
    · next he =>
      subst he
      simp only [Option.some.injEq] at h8
      exact ⟨⟨a, b', c, d⟩, by simp [V4.text], h8.symm⟩
    · simp at h8
  · rintro ⟨y, rfl, rfl⟩
    exact parseIPv4_text y

/-! ## Groups -/

/-- The bytes of groups. -/
def gbytes (ns : List Nat) : List Nat := ns.flatMap fun n => [n / 256, n % 256]

theorem gbytes_nil : gbytes [] = [] := rfl

theorem gbytes_cons (n : Nat) (ns : List Nat) : gbytes (n :: ns) = [n / 256, n % 256] ++ gbytes ns := rfl

theorem gbytes_append (a b : List Nat) : gbytes (a ++ b) = gbytes a ++ gbytes b := by simp [gbytes]

theorem gbytes_length (a : List Nat) : (gbytes a).length = 2 * a.length := by
  induction a with
  | nil => rfl
  | cons n a ih => rw [gbytes_cons, List.length_append, ih]; simp only [List.length_cons, List.length_nil]; omega

theorem gbytes_zero (k : Nat) : gbytes (List.replicate k 0) = List.replicate (2 * k) 0 := by
  induction k with
  | zero => rfl
  | succ k ih => rw [List.replicate_succ, gbytes_cons, ih, show 2 * (k + 1) = (2 * k + 1) + 1 by omega]; rfl

theorem gbytes_dotted (y : V4) : gbytes [y.a * 256 + y.b, y.c * 256 + y.d] = [y.a.val, y.b.val, y.c.val, y.d.val] := by
  have := y.b.isLt
  have := y.d.isLt
  simp only [gbytes, List.flatMap_cons, List.flatMap_nil, List.append_nil, List.cons_append, List.nil_append, List.cons.injEq, and_true]
  omega

theorem hex_colon : xDigit ':' = none := rfl
theorem hex_dot : xDigit '.' = none := rfl

theorem group_head {s : Str} {n : Nat} (h : Group s n) : ∃ c t, s = c :: t ∧ c ≠ ':' := by
  cases s with
  | nil => exact absurd rfl (writtenIn_ne h.1)
  | cons c t =>
    refine ⟨c, t, rfl, ?_⟩
    rintro rfl
    obtain ⟨d, hd⟩ := writtenIn_digits h.1 ':' (by simp)
    have := xDigit_iff.1 hd
    rw [hex_colon] at this
    simp at this

theorem v4_head (y : V4) : ∃ c t, y.text = c :: t ∧ c ≠ ':' := by
  cases h : y.text with
  | nil =>
    have := find_dot y
    rw [h] at this
    simp at this
  | cons c t => exact ⟨c, t, rfl, (text_chars y c (by rw [h]; simp)).2.1⟩

theorem ending_head {s : Str} {ns : List Nat} (h : Ending s ns) : ∃ c t, s = c :: t ∧ c ≠ ':' := by
  cases h with
  | one h => exact group_head h
  | dotted y => exact v4_head y
  | more h ht => obtain ⟨c, t, rfl, h2⟩ := group_head h; exact ⟨c, _, rfl, h2⟩

theorem groups_ending {s : Str} {ns : List Nat} (h : Groups s ns) : Ending s ns := by
  induction h with
  | one h => exact .one h
  | more h _ ih => exact .more h ih

theorem group_small {s : Str} {n : Nat} (h : Group s n) {r : Str} (hr : ∀ c ∈ r.head?, xDigit c = none) : xtoi (s ++ r) = some (n, s.length) :=
  xtoi_complete h.1 (by have := h.2; omega) hr

/-- The first number of an IPv4 address, read as a hexadecimal one. -/
theorem octet_hex : ∀ a : Fin 256, ∃ v ∈ numVal xDigit 16 0 (decimal a), v ≤ 0xFFFF ∧ decimal a ≠ [] := by decide +kernel

theorem v4_xtoi (y : V4) : ∃ v k t, xtoi y.text = some (v, k) ∧ ¬ v > 0xFFFF ∧ y.text.drop k = '.' :: t := by
  obtain ⟨v, h1, h2, h3⟩ := octet_hex y.a
  have h1 := Option.mem_def.1 h1
  have he : y.text = decimal y.a ++ '.' :: (decimal y.b ++ gs"." ++ decimal y.c ++ gs"." ++ decimal y.d) := by simp [V4.text]
  refine ⟨v, (decimal y.a).length, decimal y.b ++ gs"." ++ decimal y.c ++ gs"." ++ decimal y.d, ?_, by omega, ?_⟩
  · rw [he]
    exact xtoi_complete ((writtenIn_iff (digit := Digit16) fun c d => xDigit_iff (c := c) (d := d)).2 ⟨h3, h1⟩) (by omega) (by simp [hex_dot])
  · rw [he, List.drop_left]

/-- One round of the loop for a group that is the last. -/
theorem round_last {room : Nat} {acc : List Nat} {ell : Option Nat} {s : Str} {n : Nat} (h : Group s n) :
    parseGroups (room + 1) acc ell s = some (acc ++ [n / 256, n % 256], ell) := by
  have hx := group_small h (r := []) (by simp)
  rw [List.append_nil] at hx
  have := h.2
  rw [parseGroups, hx]
  simp only
  rw [if_neg (by omega), List.drop_length]

/-- One round of the loop for a group before others. -/
theorem round_colon {room : Nat} {acc : List Nat} {ell : Option Nat} {s t : Str} {n : Nat} (h : Group s n) (ht : ∃ c r, t = c :: r ∧ c ≠ ':') :
    parseGroups (room + 1) acc ell (s ++ ':' :: t) = parseGroups room (acc ++ [n / 256, n % 256]) ell t := by
  have hx := group_small h (r := ':' :: t) (by simp [hex_colon])
  have := h.2
  obtain ⟨c, r, rfl, hc⟩ := ht
  rw [parseGroups, hx]
  simp only
  rw [if_neg (by omega), List.drop_left]
  split
  · next h => simp at h
  · next h => simp at h
  · next h => simp at h; exact absurd h.1 hc
  · next h => simp at h
  · next h => simp only [List.cons.injEq, true_and] at h; rw [h]
  · next h1 h2 h3 h4 h5 => exact absurd rfl (h5 _)

/-- One round of the loop for a group before `::`. -/
theorem round_gap {room : Nat} {acc : List Nat} {s t : Str} {n : Nat} (h : Group s n) :
    parseGroups (room + 1) acc none (s ++ gs"::" ++ t) = if t = [] then some (acc ++ [n / 256, n % 256], some (acc.length + 2))
      else parseGroups room (acc ++ [n / 256, n % 256]) (some (acc.length + 2)) t := by
  have he : s ++ gs"::" ++ t = s ++ ':' :: ':' :: t := by simp
  have hx := group_small h (r := ':' :: ':' :: t) (by simp [hex_colon])
  have := h.2
  rw [he, parseGroups, hx]
  simp only
  rw [if_neg (by omega), List.drop_left]
  simp

/-- One round of the loop for an IPv4 address. -/
theorem round_dotted {room : Nat} {acc : List Nat} {ell : Option Nat} (y : V4) (hp : ell = none → acc.length = 12) (hl : acc.length + 4 ≤ 16) :
    parseGroups (room + 1) acc ell y.text = some (acc ++ gbytes [y.a * 256 + y.b, y.c * 256 + y.d], ell) := by
  obtain ⟨v, k, t, h1, h2, h3⟩ := v4_xtoi y
  rw [parseGroups, h1]
  simp only
  rw [if_neg h2, h3]
  simp only
  rw [if_neg (by tauto), if_neg (by omega), parseIPv4_text, gbytes_dotted]
  rfl

/-- The loop reads all the groups. -/
theorem loop_ending {s : Str} {ns : List Nat} (h : Ending s ns) : ∀ {room : Nat} {acc : List Nat} {ell : Option Nat},
    acc.length + 2 * room = 16 → ns.length ≤ room → (ell = none → ns.length = room) →
    parseGroups room acc ell s = some (acc ++ gbytes ns, ell) := by
  induction h with
  | one h =>
    intro room acc ell hr hl he
    obtain ⟨room, rfl⟩ : ∃ k, room = k + 1 := ⟨room - 1, by simp at hl; omega⟩
    exact round_last h
  | dotted y =>
    intro room acc ell hr hl he
    simp only [List.length_cons, List.length_nil] at hl he
    obtain ⟨room, rfl⟩ : ∃ k, room = k + 1 := ⟨room - 1, by omega⟩
    exact round_dotted y (fun h => by have := he h; omega) (by omega)
  | @more s t n ns h ht ih =>
    intro room acc ell hr hl he
    simp only [List.length_cons] at hl he
    obtain ⟨room, rfl⟩ : ∃ k, room = k + 1 := ⟨room - 1, by omega⟩
    rw [round_colon h (ending_head ht), ih (by simp only [List.length_append, List.length_cons, List.length_nil]; omega) (by omega) (fun h => by have := he h; omega),
      gbytes_cons, List.append_assoc]

/-- The loop reads groups up to `::` and those after it. -/
theorem loop_gap {s t : Str} {a b : List Nat} (ha : Groups s a) (hb : t = [] ∧ b = [] ∨ Ending t b) : ∀ {room : Nat} {acc : List Nat},
    acc.length + 2 * room = 16 → a.length + b.length ≤ room →
    parseGroups room acc none (s ++ gs"::" ++ t) = some (acc ++ gbytes a ++ gbytes b, some (acc.length + 2 * a.length)) := by
  induction ha with
  | @one s n h =>
    intro room acc hr hl
    simp only [List.length_cons, List.length_nil] at hl ⊢
    obtain ⟨room, rfl⟩ : ∃ k, room = k + 1 := ⟨room - 1, by omega⟩
    rw [round_gap h]
    rcases hb with ⟨rfl, rfl⟩ | hb
    · simp [gbytes]
    · obtain ⟨c, r, hc, _⟩ := ending_head hb
      rw [if_neg (by simp [hc]), loop_ending hb (by simp only [List.length_append, List.length_cons, List.length_nil]; omega) (by omega) (by simp)]
      rfl
  | @more s' t' n ns h ht ih =>
    intro room acc hr hl
    simp only [List.length_cons] at hl ⊢
    obtain ⟨room, rfl⟩ : ∃ k, room = k + 1 := ⟨room - 1, by omega⟩
    have he : s' ++ ':' :: t' ++ gs"::" ++ t = s' ++ ':' :: (t' ++ gs"::" ++ t) := by simp
    have hh : ∃ c r, t' ++ gs"::" ++ t = c :: r ∧ c ≠ ':' := by
      obtain ⟨c, r, rfl, hc⟩ := ending_head (groups_ending ht)
      exact ⟨c, _, rfl, hc⟩
    rw [he, round_colon h hh, ih (by simp only [List.length_append, List.length_cons, List.length_nil]; omega) (by omega), gbytes_cons]
    simp only [List.length_append, List.length_cons, List.length_nil, List.append_assoc, Option.some.injEq, Prod.mk.injEq, true_and]
    omega

/-- What one round of the loop has read. -/
theorem round_sound {room : Nat} {acc acc' : List Nat} {ell ell' : Option Nat} {s : Str} (h : parseGroups (room + 1) acc ell s = some (acc', ell')) :
    (∃ n, Group s n ∧ acc' = acc ++ gbytes [n] ∧ ell' = ell) ∨
    (∃ y : V4, s = y.text ∧ acc' = acc ++ gbytes [y.a * 256 + y.b, y.c * 256 + y.d] ∧ ell' = ell ∧ acc.length + 4 ≤ 16) ∨
    (∃ s' n t, s = s' ++ ':' :: t ∧ Group s' n ∧ t ≠ [] ∧ parseGroups room (acc ++ gbytes [n]) ell t = some (acc', ell')) ∨
    (∃ s' n, s = s' ++ gs"::" ∧ Group s' n ∧ ell = none ∧ acc' = acc ++ gbytes [n] ∧ ell' = some (acc.length + 2)) ∨
    (∃ s' n t, s = s' ++ gs"::" ++ t ∧ Group s' n ∧ ell = none ∧ t ≠ [] ∧
      parseGroups room (acc ++ gbytes [n]) (some (acc.length + 2)) t = some (acc', ell')) := by
  rw [parseGroups] at h
  cases hx : xtoi s with
  | none => simp [hx] at h
  | some x =>
    obtain ⟨n, k⟩ := x
    simp only [hx] at h
    split at h
    · simp at h
    next hn =>
    obtain ⟨ds, r, rfl, rfl, hg, hr⟩ := xtoi_sound hx
    have hg : Group ds n := ⟨hg, by omega⟩
    rw [List.drop_left] at h
    split at h
    · simp only [Option.some.injEq, Prod.mk.injEq] at h
      exact .inl ⟨n, by rw [List.append_nil]; exact hg, h.1.symm, h.2.symm⟩
    · split at h
      · simp at h
      split at h
      · simp at h
      next hl =>
      simp only [Option.map_eq_some_iff, Prod.mk.injEq] at h
      obtain ⟨b, h1, rfl, rfl⟩ := h
      obtain ⟨y, h2, rfl⟩ := parseIPv4_iff.1 h1
      exact .inr (.inl ⟨y, h2, by rw [gbytes_dotted], rfl, by omega⟩)
    · split at h
      · simp at h
      next hell =>
      simp only [ne_eq, not_not] at hell
      split at h
      · next ht =>
        subst ht
        simp only [Option.some.injEq, Prod.mk.injEq] at h
        exact .inr (.inr (.inr (.inl ⟨ds, n, rfl, hg, hell, h.1.symm, h.2.symm⟩)))
      · next t ht => exact .inr (.inr (.inr (.inr ⟨ds, n, t, by simp, hg, hell, ht, h⟩)))
    · simp at h
    · next t h1 h2 => exact .inr (.inr (.inl ⟨ds, n, t, rfl, hg, fun h => h2 h, h⟩))
    · simp at h

theorem loop_some_sound : ∀ {room : Nat} {acc acc' : List Nat} {e : Nat} {ell' : Option Nat} {s : Str}, s ≠ [] →
    parseGroups room acc (some e) s = some (acc', ell') → ∃ ns, Ending s ns ∧ acc' = acc ++ gbytes ns ∧ ell' = some e
  | 0, acc, acc', e, ell', s, hs, h => by
    rw [parseGroups, if_neg hs] at h
    simp at h
  | room + 1, acc, acc', e, ell', s, hs, h => by
    rcases round_sound h with ⟨n, h1, h2, h3⟩ | ⟨y, rfl, h2, h3, _⟩ | ⟨s', n, t, rfl, h1, h2, h3⟩ | ⟨_, _, _, _, h3, _⟩ | ⟨_, _, _, _, _, h3, _⟩
    · exact ⟨_, .one h1, h2, h3⟩
    · exact ⟨_, .dotted y, h2, h3⟩
    · obtain ⟨ns, h4, h5, h6⟩ := loop_some_sound h2 h3
      exact ⟨n :: ns, .more h1 h4, by rw [h5, List.append_assoc]; rfl, h6⟩
    · simp at h3
    · simp at h3

theorem loop_none_sound : ∀ {room : Nat} {acc acc' : List Nat} {ell' : Option Nat} {s : Str}, s ≠ [] →
    parseGroups room acc none s = some (acc', ell') → (∃ ns, Ending s ns ∧ acc' = acc ++ gbytes ns ∧ ell' = none) ∨
      ∃ s' a t b, s = s' ++ gs"::" ++ t ∧ Groups s' a ∧ (t = [] ∧ b = [] ∨ Ending t b) ∧ acc' = acc ++ gbytes a ++ gbytes b ∧ ell' = some (acc.length + 2 * a.length)
  | 0, acc, acc', ell', s, hs, h => by
    rw [parseGroups, if_neg hs] at h
    simp at h
  | room + 1, acc, acc', ell', s, hs, h => by
    rcases round_sound h with ⟨n, h1, h2, h3⟩ | ⟨y, rfl, h2, h3, _⟩ | ⟨s', n, t, rfl, h1, h2, h3⟩ | ⟨s', n, rfl, h1, _, h2, h3⟩ | ⟨s', n, t, rfl, h1, _, h2, h3⟩
    · exact .inl ⟨_, .one h1, h2, h3⟩
    · exact .inl ⟨_, .dotted y, h2, h3⟩
    · rcases loop_none_sound h2 h3 with ⟨ns, h4, h5, h6⟩ | ⟨s2, a, t2, b, rfl, h5, h6, h7, h8⟩
      · exact .inl ⟨n :: ns, .more h1 h4, by rw [h5, List.append_assoc]; rfl, h6⟩
      · refine .inr ⟨s' ++ ':' :: s2, n :: a, t2, b, by simp, .more h1 h5, h6, ?_, ?_⟩
        · rw [h7, gbytes_cons]; simp [gbytes]
        · rw [h8, List.length_append, gbytes_length]; simp only [List.length_cons, List.length_nil, Option.some.injEq]; omega
    · exact .inr ⟨s', [n], [], [], by simp, .one h1, .inl ⟨rfl, rfl⟩, by rw [h2]; simp [gbytes], h3⟩
    · obtain ⟨ns, h4, h5, h6⟩ := loop_some_sound h2 h3
      exact .inr ⟨s', [n], t, ns, rfl, .one h1, .inr h4, h5, h6⟩

theorem loop_length : ∀ {room : Nat} {acc acc' : List Nat} {ell ell' : Option Nat} {s : Str}, parseGroups room acc ell s = some (acc', ell') →
    acc.length + 2 * room ≤ 16 → acc'.length ≤ 16
  | 0, acc, acc', ell, ell', s, h, hl => by
    rw [parseGroups] at h
    split at h
    · simp only [Option.some.injEq, Prod.mk.injEq] at h
      rw [← h.1]; omega
    · simp at h
  | room + 1, acc, acc', ell, ell', s, h, hl => by
    rcases round_sound h with ⟨n, _, rfl, _⟩ | ⟨y, _, rfl, _, h3⟩ | ⟨_, n, t, _, _, _, h3⟩ | ⟨_, n, _, _, _, rfl, _⟩ | ⟨_, n, t, _, _, _, _, h3⟩
    · simp only [List.length_append, gbytes_length, List.length_cons, List.length_nil]; omega
    · simp only [List.length_append, gbytes_length, List.length_cons, List.length_nil]; omega
    · exact loop_length h3 (by simp only [List.length_append, gbytes_length, List.length_cons, List.length_nil]; omega)
    · simp only [List.length_append, gbytes_length, List.length_cons, List.length_nil]; omega
    · exact loop_length h3 (by simp only [List.length_append, gbytes_length, List.length_cons, List.length_nil]; omega)

theorem gap_bytes {a b : List Nat} (h : a.length + b.length < 8) :
    expandGroups (gbytes a ++ gbytes b) (some (2 * a.length)) = some (gbytes (a ++ List.replicate (8 - (a.length + b.length)) 0 ++ b)) := by
  have hl : (gbytes a ++ gbytes b).length = 2 * (a.length + b.length) := by rw [List.length_append, gbytes_length, gbytes_length]; omega
  simp only [expandGroups, hl]
  rw [if_pos (by omega), gbytes_append, gbytes_append, gbytes_zero, ← gbytes_length a, List.take_left, List.drop_left,
    show 2 * (8 - (a.length + b.length)) = 16 - 2 * (a.length + b.length) by omega]

theorem gap_none {a b : List Nat} (h : ¬ a.length + b.length < 8) (e : Nat) : expandGroups (gbytes a ++ gbytes b) (some e) = none := by
  have hl : (gbytes a ++ gbytes b).length = 2 * (a.length + b.length) := by rw [List.length_append, gbytes_length, gbytes_length]; omega
  simp only [expandGroups, hl]
  rw [if_neg (by omega)]

/-- The parser of IPv6 addresses. -/
theorem parseIPv6_iff {s : Str} {b : List Nat} : parseIPv6 s = some b ↔ ∃ ns, V6Text s ns ∧ b = gbytes ns := by
  constructor
  · intro h
    unfold parseIPv6 at h
    split at h
    · next rest =>
      split at h
      · next hr =>
        subst hr
        simp only [Option.some.injEq] at h
        exact ⟨_, .short (s := []) (t := []) (.inl ⟨rfl, rfl⟩) (.inl ⟨rfl, rfl⟩) (by decide), h.symm⟩
      · next hr =>
        obtain ⟨⟨acc, ell⟩, h1, h2⟩ := Option.bind_eq_some_iff.1 h
        obtain ⟨ns, h3, h4, h5⟩ := loop_some_sound hr h1
        subst h4 h5
        by_cases hl : 0 + ns.length < 8
        · refine ⟨_, .short (s := []) (a := []) (.inl ⟨rfl, rfl⟩) (.inr h3) hl, ?_⟩
          have := gap_bytes (a := []) hl
          rw [gbytes_nil] at this
          exact Option.some.inj (h2.symm.trans this)
        · have := gap_none (a := []) hl 0
          rw [gbytes_nil] at this
          exact absurd (h2.symm.trans this) (by simp)
    · next hs =>
      obtain ⟨⟨acc, ell⟩, h1, h2⟩ := Option.bind_eq_some_iff.1 h
      have hne : s ≠ [] := by
        rintro rfl
        rw [show parseGroups 8 [] none [] = none from rfl] at h1
        simp at h1
      rcases loop_none_sound hne h1 with ⟨ns, h3, rfl, rfl⟩ | ⟨s', a, t, b', rfl, h4, h5, rfl, rfl⟩
      · simp only [expandGroups, List.nil_append, gbytes_length] at h2
        split at h2
        · simp at h2
        next hl =>
        simp only [Option.some.injEq] at h2
        have hl2 := loop_length h1 (by decide)
        simp only [List.nil_append, gbytes_length] at hl2
        exact ⟨ns, .full h3 (by omega), h2.symm⟩
      · simp only [List.nil_append, List.length_nil, Nat.zero_add] at h2
        by_cases hl : a.length + b'.length < 8
        · rw [gap_bytes hl] at h2
          exact ⟨_, .short (.inr h4) h5 hl, (Option.some.inj h2).symm⟩
        · rw [gap_none hl] at h2
          simp at h2
  · rintro ⟨ns, h, rfl⟩
    cases h with
    | full h hl =>
      have h1 := loop_ending h (room := 8) (acc := []) (ell := none) rfl (by omega) (fun _ => hl)
      unfold parseIPv6
      obtain ⟨c, t, rfl, hc⟩ := ending_head h
      split
      · next h => simp at h; exact absurd h.1 hc
      · rw [h1]
        simp only [Option.bind_some, List.nil_append, expandGroups, gbytes_length]
        rw [if_neg (by omega)]
    | @short s t a b ha hb hl =>
      rcases ha with ⟨rfl, rfl⟩ | ha
      · simp only [List.nil_append, List.cons_append, parseIPv6]
        rcases hb with ⟨rfl, rfl⟩ | hb
        · rfl
        · obtain ⟨c, r, rfl, hc⟩ := ending_head hb
          simp only [List.length_nil] at hl
          rw [if_neg (by simp), loop_ending hb (room := 8) (acc := []) rfl (by omega) (by simp)]
          have := gap_bytes (a := []) hl
          rw [gbytes_nil] at this
          exact this
      · have h1 := loop_gap ha hb (room := 8) (acc := []) rfl (by omega)
        obtain ⟨c, r, rfl, hc⟩ := ending_head (groups_ending ha)
        unfold parseIPv6
        split
        · next h => simp at h; exact absurd h.1 hc
        · rw [h1]
          simp only [Option.bind_some, List.nil_append, List.length_nil, Nat.zero_add]
          exact gap_bytes hl

end Mapl

import Verif.Spec.Ints
import Mathlib.Data.List.Induction

/-! # `parseInt` reads the texts of integers -/

namespace Mapl

open Mapl.Spec

theorem digit_iff {c : Char} {d : Nat} : gs"0123456789"[d]? = some c ↔ digitVal c = some d := by
  constructor
  · intro h
    match d, h with
    | 0, h | 1, h | 2, h | 3, h | 4, h | 5, h | 6, h | 7, h | 8, h | 9, h => simp at h; subst h; rfl
    | d + 10, h => simp at h
  · intro h
    unfold digitVal at h
    split at h
    · next hc =>
      obtain ⟨h1, h2⟩ := hc
      simp only [Option.some.injEq] at h
      have h1 : 48 ≤ c.toNat := h1
      have h2 : c.toNat ≤ 57 := h2
      have h : c.toNat - 48 = d := h
      have hc : c = Char.ofNat (d + 48) := by rw [show d + 48 = c.toNat from by omega, Char.ofNat_toNat]
      have hd : d < 10 := by omega
      subst hc
      clear h h1 h2
      revert d
      decide
    · simp at h

theorem digitsVal_append {s : Str} {c : Char} : ∀ {acc : Nat}, digitsVal acc (s ++ [c]) =
    (digitsVal acc s).bind fun n => (digitVal c).map fun d => n * 10 + d := by
  induction s with
  | nil =>
    intro acc
    simp only [List.nil_append, digitsVal]
    cases digitVal c <;> rfl
  | cons x s ih =>
    intro acc
    simp only [List.cons_append, digitsVal]
    cases digitVal x with
    | none => rfl
    | some d => exact ih

theorem parseNat_append {s : Str} {c : Char} (hs : s ≠ []) : parseNat (s ++ [c]) = (parseNat s).bind fun n => (digitVal c).map fun d => n * 10 + d := by
  cases s with
  | nil => exact absurd rfl hs
  | cons x s => exact digitsVal_append

theorem numeral_iff {s : Str} {n : Nat} : Numeral s n ↔ parseNat s = some n := by
  constructor
  · intro h
    induction h with
    | digit h =>
      simp only [parseNat, digitsVal, digit_iff.1 h]
      simp
    | more hs h ih =>
      rw [parseNat_append (by rintro rfl; simp [parseNat] at ih), ih, digit_iff.1 h]
      simp [Nat.mul_comm]
  · induction s using List.reverseRecOn generalizing n with
    | nil => simp [parseNat]
    | append_singleton s c ih =>
      by_cases hs : s = []
      · subst hs
        intro h
        simp only [List.nil_append, parseNat, digitsVal] at h
        cases hd : digitVal c with
        | none => simp [hd] at h
        | some d =>
          simp [hd] at h
          subst h
          exact .digit (digit_iff.2 hd)
      · rw [parseNat_append hs]
        intro h
        simp only [Option.bind_eq_some_iff, Option.map_eq_some_iff] at h
        obtain ⟨m, hm, d, hd, rfl⟩ := h
        rw [Nat.mul_comm]
        exact .more (ih hm) (digit_iff.2 hd)

theorem parseNat_sign {c : Char} {t : Str} (hc : c = '+' ∨ c = '-') : parseNat (c :: t) = none := by
  rcases hc with rfl | rfl <;> rfl

theorem parseInt_plain {s : Str} (h1 : ∀ t, s ≠ '+' :: t) (h2 : ∀ t, s ≠ '-' :: t) :
    parseInt s = (parseNat s).bind fun n => if n < 2 ^ 63 then some (n : Int) else none := by
  unfold parseInt
  split
  · exact absurd rfl (h1 _)
  · exact absurd rfl (h2 _)
  · rfl

theorem intText_iff {s : Str} {n : Int} : IntText s n ↔ parseInt s = some n := by
  constructor
  · intro h
    cases h with
    | plain h hn =>
      rw [numeral_iff] at h
      rw [parseInt_plain, h]
      · simp [hn]
      · rintro t rfl; simp [parseNat_sign] at h
      · rintro t rfl; simp [parseNat_sign] at h
    | plus h hn => simp [parseInt, numeral_iff.1 h, hn]
    | minus h hn => simp [parseInt, numeral_iff.1 h, hn]
  · intro h
    unfold parseInt at h
    split at h <;> rw [Option.bind_eq_some_iff] at h <;> obtain ⟨k, hk, h⟩ := h <;> split at h <;> simp at h <;> subst h
    · next hn => exact .plus (numeral_iff.2 hk) hn
    · next hn => exact .minus (numeral_iff.2 hk) hn
    · next hn => exact .plain (numeral_iff.2 hk) hn

theorem intText_none {s : Str} : (∀ n, ¬ IntText s n) ↔ parseInt s = none := by
  simp only [intText_iff, Option.eq_none_iff_forall_ne_some, ne_eq]

end Mapl

import Verif.Spec.Address
import Mathlib.Tactic.IntervalCases

/-! # Subnets -/

namespace Mapl

open Spec

/-! ## Reading numbers -/

theorem dtoiAux_append {rest : Str} (hr : ∀ c ∈ rest.head?, digitVal c = none) :
    ∀ (ds : Str) (n i v k : Nat), (∀ c ∈ ds, digitVal c ≠ none) → dtoiAux n i ds = some (v, k) →
      dtoiAux n i (ds ++ rest) = some (v, k)
  | [], n, i, v, k, _, h => by
    rw [List.nil_append]
    cases rest with
    | nil => exact h
    | cons c rest =>
      have := hr c (by simp)
      simp only [dtoiAux, this] at h ⊢
      exact h
  | c :: ds, n, i, v, k, hd, h => by
    rw [List.cons_append]
    cases hc : digitVal c with
    | none => exact absurd hc (hd c (by simp))
    | some d =>
      simp only [dtoiAux, hc] at h ⊢
      split at h
      · simp at h
      · next hb =>
        rw [if_neg hb]
        exact dtoiAux_append hr ds _ _ _ _ (fun c hc => hd c (by simp [hc])) h

theorem byte_facts : ∀ a : Fin 256, dtoi (decimal a) = some (a.val, (decimal a).length) ∧
    (∀ c ∈ decimal a, digitVal c ≠ none ∧ c ≠ '.' ∧ c ≠ ':' ∧ c ≠ '/' ∧ c ≠ '*' ∧ c ≠ ',') ∧
    ¬ ((decimal a).length > 1 ∧ (decimal a).head? = some '0') ∧ decimal a ≠ [] := by decide +kernel

theorem bits_facts : ∀ n : Fin 33, dtoi (decimal n) = some (n.val, (decimal n).length) := by decide +kernel

theorem parseOctet_decimal (a : Fin 256) {rest : Str} (hr : ∀ c ∈ rest.head?, digitVal c = none) :
    parseOctet (decimal a ++ rest) = some (a.val, rest) := by
  obtain ⟨h1, h2, h3, h4⟩ := byte_facts a
  have := dtoiAux_append hr (decimal a) 0 0 a.val (decimal a).length (fun c hc => (h2 c hc).1) h1
  unfold parseOctet dtoi
  rw [this]
  have hh : (decimal a ++ rest).head? = (decimal a).head? := by
    cases hd : decimal a with
    | nil => exact absurd hd h4
    | cons _ _ => rfl
  simp only [hh]
  rw [if_neg (by omega), if_neg h3]
  simp

theorem parseIPv4_text (x : V4) : parseIPv4 x.text = some [x.a.val, x.b.val, x.c.val, x.d.val] := by
  have hdot : ∀ t : Str, ∀ c ∈ ('.' :: t).head?, digitVal c = none := by
    intro t c hc; simp at hc; subst hc; rfl
  have hd := parseOctet_decimal x.d (rest := []) (by simp)
  rw [List.append_nil] at hd
  simp only [parseIPv4, V4.text, List.append_assoc, List.cons_append, List.nil_append,
    parseOctet_decimal _ (hdot _), hd, bind, Option.bind, if_true]

theorem text_chars (x : V4) : ∀ c ∈ x.text, c ≠ '/' ∧ c ≠ ':' ∧ c ≠ '*' ∧ c ≠ ',' := by
  intro c hc
  simp only [V4.text, List.mem_append] at hc
  rcases hc with (((((h | h) | h) | h) | h) | h) | h
  all_goals first
    | (simp at h; subst h; decide)
    | (have := (byte_facts _).2.1 c h; tauto)

theorem find_dot (x : V4) : x.text.find? (fun c => c = '.' ∨ c = ':') = some '.' := by
  have : ∀ a : Fin 256, (decimal a).find? (fun c => decide (c = '.') || decide (c = ':')) = none := by
    intro a
    rw [List.find?_eq_none]
    intro c hc
    have := (byte_facts a).2.1 c hc
    simp [this.2.1, this.2.2.1]
  simp [V4.text, List.find?_append, this]

theorem parseIP_text (env : Ext) (x : V4) : parseIP env x.text = v4Prefix ++ [x.a.val, x.b.val, x.c.val, x.d.val] := by
  simp only [parseIP, find_dot, parseIPv4_text]

theorem index_absent {c : Char} : ∀ {s : Str}, c ∉ s → index [c] s = none
  | [], _ => by simp [index]
  | x :: s, h => by
    simp only [List.mem_cons, not_or] at h
    have hp : [c].isPrefixOf (x :: s) = false := by simp [List.isPrefixOf, h.1]
    simp [index, hp, index_absent h.2]

theorem index_append {c : Char} {t : Str} : ∀ {s : Str}, c ∉ s → index [c] (s ++ c :: t) = some s.length
  | [], _ => by simp [index]
  | x :: s, h => by
    simp only [List.mem_cons, not_or] at h
    have hp : [c].isPrefixOf (x :: (s ++ c :: t)) = false := by simp [List.isPrefixOf, h.1]
    rw [List.cons_append]
    simp only [index, hp, index_append h.2]
    simp

theorem parseCIDR_net (env : Ext) (x : V4) (n : Fin 33) : parseCIDR env (Subnet.net x n).text =
    some ⟨andBytes [x.a.val, x.b.val, x.c.val, x.d.val] (cidrMask n 4), cidrMask n 4⟩ := by
  have hx : '/' ∉ x.text := fun h => (text_chars x _ h).1 rfl
  have hi : index gs"/" (Subnet.net x n).text = some x.text.length := by
    simp only [Subnet.text, List.append_assoc, List.cons_append, List.nil_append]
    exact index_append hx
  have h1 : (Subnet.net x n).text.take x.text.length = x.text := by simp [Subnet.text]
  have h2 : (Subnet.net x n).text.drop (x.text.length + 1) = decimal n := by simp [Subnet.text]
  have hn : n.val ≤ 32 := by omega
  simp only [parseCIDR, hi, h1, h2, parseIPv4_text, bits_facts n, hn, and_self, if_true]

theorem parseCIDR_addr (env : Ext) (x : V4) : parseCIDR env x.text = none := by
  have hx : '/' ∉ x.text := fun h => (text_chars x _ h).1 rfl
  simp only [parseCIDR, index_absent hx]

/-! ## Masks -/

theorem mask_facts : ∀ a : Fin 256,
    a.val &&& 0 = 0 ∧ a.val &&& 128 = a.val / 128 * 128 ∧ a.val &&& 192 = a.val / 64 * 64 ∧ a.val &&& 224 = a.val / 32 * 32 ∧
    a.val &&& 240 = a.val / 16 * 16 ∧ a.val &&& 248 = a.val / 8 * 8 ∧ a.val &&& 252 = a.val / 4 * 4 ∧
    a.val &&& 254 = a.val / 2 * 2 ∧ a.val &&& 255 = a.val := by decide +kernel

theorem and_and (a m : Nat) : a &&& m &&& m = a &&& m := by rw [Nat.and_assoc, Nat.and_self]

theorem mask_length (n : Nat) : (cidrMask n 4).length = 4 := by
  simp only [cidrMask]
  repeat (first | rfl | (split <;> try rfl))

/-- Bytes. -/
theorem masked_bytes (xa xb xc xd ya yb yc yd n : Nat) (hn : n < 33)
    (xa' : xa < 256) (xb' : xb < 256) (xc' : xc < 256) (xd' : xd < 256)
    (ya' : ya < 256) (yb' : yb < 256) (yc' : yc < 256) (yd' : yd < 256) :
    andBytes [xa, xb, xc, xd] (cidrMask n 4) = andBytes [ya, yb, yc, yd] (cidrMask n 4) ↔
    (((xa * 256 + xb) * 256 + xc) * 256 + xd) / 2 ^ (32 - n) = (((ya * 256 + yb) * 256 + yc) * 256 + yd) / 2 ^ (32 - n) := by
  have m0 : ∀ a < 256, a &&& 0 = 0 := fun a h => (mask_facts ⟨a, h⟩).1
  have m1 : ∀ a < 256, a &&& 128 = a / 128 * 128 := fun a h => (mask_facts ⟨a, h⟩).2.1
  have m2 : ∀ a < 256, a &&& 192 = a / 64 * 64 := fun a h => (mask_facts ⟨a, h⟩).2.2.1
  have m3 : ∀ a < 256, a &&& 224 = a / 32 * 32 := fun a h => (mask_facts ⟨a, h⟩).2.2.2.1
  have m4 : ∀ a < 256, a &&& 240 = a / 16 * 16 := fun a h => (mask_facts ⟨a, h⟩).2.2.2.2.1
  have m5 : ∀ a < 256, a &&& 248 = a / 8 * 8 := fun a h => (mask_facts ⟨a, h⟩).2.2.2.2.2.1
  have m6 : ∀ a < 256, a &&& 252 = a / 4 * 4 := fun a h => (mask_facts ⟨a, h⟩).2.2.2.2.2.2.1
  have m7 : ∀ a < 256, a &&& 254 = a / 2 * 2 := fun a h => (mask_facts ⟨a, h⟩).2.2.2.2.2.2.2.1
  have m8 : ∀ a < 256, a &&& 255 = a := fun a h => (mask_facts ⟨a, h⟩).2.2.2.2.2.2.2.2
  have h80 : ¬ (8 ≤ 0) := by decide
  interval_cases n
  all_goals
    simp (disch := assumption) only [cidrMask, andBytes, Nat.reduceLeDiff, h80, if_true, if_false, Nat.reduceSub, Nat.reducePow,
      Nat.reduceAdd, List.cons.injEq, and_true, true_iff, m0, m1, m2, m3, m4, m5, m6, m7, m8]
    clear m0 m1 m2 m3 m4 m5 m6 m7 m8
    omega

theorem andBytes_idem : ∀ (a m : List Nat), andBytes (andBytes a m) m = andBytes a m
  | [], _ => rfl
  | _ :: _, [] => rfl
  | a :: as, m :: ms => by simp [andBytes, and_and, andBytes_idem as ms]

theorem masked_eq (x y : V4) (n : Fin 33) :
    andBytes (andBytes [x.a.val, x.b.val, x.c.val, x.d.val] (cidrMask n 4)) (cidrMask n 4) =
      andBytes [y.a.val, y.b.val, y.c.val, y.d.val] (cidrMask n 4) ↔
    x.val / 2 ^ (32 - n.val) = y.val / 2 ^ (32 - n.val) := by
  rw [andBytes_idem]
  exact masked_bytes _ _ _ _ _ _ _ _ _ n.isLt x.a.isLt x.b.isLt x.c.isLt x.d.isLt y.a.isLt y.b.isLt y.c.isLt y.d.isLt

theorem contains_net (x y : V4) (n : Fin 33) :
    IPNet.contains ⟨andBytes [x.a.val, x.b.val, x.c.val, x.d.val] (cidrMask n 4), cidrMask n 4⟩
      (v4Prefix ++ [y.a.val, y.b.val, y.c.val, y.d.val]) = true ↔ x.val / 2 ^ (32 - n.val) = y.val / 2 ^ (32 - n.val) := by
  rw [← masked_eq]
  have hm := mask_length n
  match hc : cidrMask n 4, hm with
  | [m1, m2, m3, m4], _ => simp [IPNet.contains, networkNumberAndMask, to4, andBytes, v4Prefix]

end Mapl

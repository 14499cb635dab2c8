import Verif.Lemmas.Address

/-! # Which addresses a subnet covers -/

namespace Mapl

open Spec

/-! ## Masks -/

/-- Bytes as a number. -/
def bval (b : List Nat) : Nat := b.foldl (fun x n => x * 256 + n) 0

theorem foldl_bytes (b : List Nat) : ∀ x, b.foldl (fun x n => x * 256 + n) x = x * 2 ^ (8 * b.length) + bval b := by
  unfold bval
  induction b with
  | nil => intro x; simp
  | cons n b ih =>
    intro x
    have e : 2 ^ (8 * (b.length + 1)) = 256 * 2 ^ (8 * b.length) := by
      rw [show 8 * (b.length + 1) = 8 + 8 * b.length by omega, Nat.pow_add]
    simp only [List.foldl_cons, List.length_cons]
    rw [ih, ih (0 * 256 + n), e, Nat.zero_mul, Nat.zero_add, Nat.add_mul, Nat.mul_assoc, Nat.add_assoc]

theorem bval_cons (n : Nat) (b : List Nat) : bval (n :: b) = n * 2 ^ (8 * b.length) + bval b := by
  show (n :: b).foldl _ 0 = _
  rw [List.foldl_cons, foldl_bytes, Nat.zero_mul, Nat.zero_add]

theorem bval_append (a b : List Nat) : bval (a ++ b) = bval a * 2 ^ (8 * b.length) + bval b := by
  show (a ++ b).foldl _ 0 = _
  rw [List.foldl_append, foldl_bytes]
  rfl

def Bytes (b : List Nat) : Prop := ∀ n ∈ b, n < 256

theorem bval_lt {b : List Nat} (h : Bytes b) : bval b < 2 ^ (8 * b.length) := by
  induction b with
  | nil => simp [bval]
  | cons n b ih =>
    have h1 := ih fun n hn => h n (by simp [hn])
    have h2 := h n (by simp)
    rw [bval_cons, List.length_cons, show 8 * (b.length + 1) = 8 * b.length + 8 by omega, Nat.pow_add]
    have h3 : n * 2 ^ (8 * b.length) ≤ 255 * 2 ^ (8 * b.length) := Nat.mul_le_mul_right _ (by omega)
    omega

/-- Quotients of numbers in two parts. -/
theorem div_parts {a A b B p r : Nat} (hA : A < 2 ^ p) (hB : B < 2 ^ p) (hr : r ≤ p) :
    (a * 2 ^ p + A) / 2 ^ r = (b * 2 ^ p + B) / 2 ^ r ↔ a = b ∧ A / 2 ^ r = B / 2 ^ r := by
  have hp : 2 ^ p = 2 ^ (p - r) * 2 ^ r := by rw [← Nat.pow_add]; congr 1; omega
  have e : ∀ a A, (a * 2 ^ p + A) / 2 ^ r = a * 2 ^ (p - r) + A / 2 ^ r := by
    intro a A
    rw [hp, ← Nat.mul_assoc, Nat.add_comm, Nat.add_mul_div_right _ _ (Nat.pow_pos (by decide)), Nat.add_comm]
  have hA' : A / 2 ^ r < 2 ^ (p - r) := (Nat.div_lt_iff_lt_mul (Nat.pow_pos (by decide))).2 (by rw [← hp]; exact hA)
  have hB' : B / 2 ^ r < 2 ^ (p - r) := (Nat.div_lt_iff_lt_mul (Nat.pow_pos (by decide))).2 (by rw [← hp]; exact hB)
  rw [e, e]
  constructor
  · intro h
    have h1 : a = b := by
      have := congrArg (· / 2 ^ (p - r)) h
      rw [Nat.add_comm, Nat.add_mul_div_right _ _ (Nat.pow_pos (by decide)), Nat.div_eq_of_lt hA', Nat.add_comm (b * _),
        Nat.add_mul_div_right _ _ (Nat.pow_pos (by decide)), Nat.div_eq_of_lt hB'] at this
      omega
    subst h1
    exact ⟨rfl, by omega⟩
  · rintro ⟨rfl, h⟩
    rw [h]

theorem div_high {a A p r : Nat} (hA : A < 2 ^ p) (hr : p ≤ r) : (a * 2 ^ p + A) / 2 ^ r = a / 2 ^ (r - p) := by
  rw [show 2 ^ r = 2 ^ p * 2 ^ (r - p) by rw [← Nat.pow_add]; congr 1; omega, ← Nat.div_div_eq_div_mul, Nat.add_comm,
    Nat.add_mul_div_right _ _ (Nat.pow_pos (by decide)), Nat.div_eq_of_lt hA, Nat.zero_add]

theorem cidrMask_length (n k : Nat) : (cidrMask n k).length = k := by
  induction k generalizing n with
  | zero => rfl
  | succ k ih => rw [cidrMask]; split <;> simp [ih]

theorem andBytes_length : ∀ {a m : List Nat}, a.length = m.length → (andBytes a m).length = a.length
  | [], _, _ => rfl
  | _ :: _, [], h => by simp at h
  | a :: as, m :: ms, h => by simp only [andBytes, List.length_cons] at h ⊢; rw [andBytes_length (by omega)]

theorem andBytes_zero : ∀ (a : List Nat), andBytes a (cidrMask 0 a.length) = List.replicate a.length 0
  | [] => rfl
  | a :: as => by simp [cidrMask, andBytes, andBytes_zero as, List.replicate_succ]

theorem and_high : ∀ (a : Fin 256) (j : Fin 9), a.val &&& (255 - (2 ^ j.val - 1)) = a.val / 2 ^ j.val * 2 ^ j.val := by decide +kernel

theorem and_255 : ∀ a : Fin 256, a.val &&& 255 = a.val := by decide +kernel

/-- Equal after masking: equal leading bits. -/
theorem masked_iff : ∀ {x y : List Nat} {n : Nat}, Bytes x → Bytes y → x.length = y.length → n ≤ 8 * x.length →
    (andBytes x (cidrMask n x.length) = andBytes y (cidrMask n x.length) ↔ bval x / 2 ^ (8 * x.length - n) = bval y / 2 ^ (8 * x.length - n))
  | [], [], n, _, _, _, _ => by simp [andBytes, bval]
  | [], _ :: _, _, _, _, h, _ => by simp at h
  | _ :: _, [], _, _, _, h, _ => by simp at h
  | a :: x, b :: y, n, hx, hy, hl, hn => by
    simp only [List.length_cons] at hl hn ⊢
    have hx' : Bytes x := fun n hn => hx n (by simp [hn])
    have hy' : Bytes y := fun n hn => hy n (by simp [hn])
    have ha := hx a (by simp)
    have hb := hy b (by simp)
    have hxl := bval_lt hx'
    have hyl := bval_lt hy'
    have hl' : y.length = x.length := by omega
    rw [hl'] at hyl
    rw [bval_cons, bval_cons, hl', cidrMask]
    by_cases h8 : 8 ≤ n
    · rw [if_pos h8, show 8 * (x.length + 1) - n = 8 * x.length - (n - 8) by omega, div_parts hxl hyl (by omega),
        ← masked_iff hx' hy' (by omega) (by omega)]
      simp only [andBytes, List.cons.injEq, and_255 ⟨a, ha⟩, and_255 ⟨b, hb⟩]
    · have hj : 8 - n < 9 := by omega
      rw [if_neg h8, div_high hxl (by omega), div_high hyl (by omega), show 8 * (x.length + 1) - n - 8 * x.length = 8 - n by omega]
      have e1 := andBytes_zero x
      have e2 := andBytes_zero y
      rw [hl'] at e2
      simp only [andBytes, e1, e2, List.cons.injEq, and_true, and_high ⟨a, ha⟩ ⟨8 - n, hj⟩, and_high ⟨b, hb⟩ ⟨8 - n, hj⟩]
      exact Nat.mul_left_inj (by have : 0 < 2 ^ (8 - n) := Nat.pow_pos (by decide); omega)

theorem bval_injective : ∀ {x y : List Nat}, Bytes x → Bytes y → x.length = y.length → bval x = bval y → x = y
  | [], [], _, _, _, _ => rfl
  | [], _ :: _, _, _, h, _ => by simp at h
  | _ :: _, [], _, _, h, _ => by simp at h
  | a :: x, b :: y, hx, hy, hl, h => by
    simp only [List.length_cons] at hl
    have hx' : Bytes x := fun n hn => hx n (by simp [hn])
    have hy' : Bytes y := fun n hn => hy n (by simp [hn])
    have hxl := bval_lt hx'
    have hyl := bval_lt hy'
    have hl' : y.length = x.length := by omega
    rw [bval_cons, bval_cons, hl'] at h
    rw [hl'] at hyl
    have := (div_parts (r := 0) hxl hyl (Nat.zero_le _)).1 (by rw [h])
    simp only [Nat.pow_zero, Nat.div_one] at this
    rw [this.1, bval_injective hx' hy' (by omega) this.2]

/-! ## IPv4 in IPv6 -/

/-- Sixteen bytes. -/
structure Wide (b : List Nat) : Prop where
  length : b.length = 16
  bytes : Bytes b

theorem bytes_take {b : List Nat} (h : Bytes b) (k : Nat) : Bytes (b.take k) := fun n hn => h n (List.mem_of_mem_take hn)

theorem bytes_drop {b : List Nat} (h : Bytes b) (k : Nat) : Bytes (b.drop k) := fun n hn => h n (List.mem_of_mem_drop hn)

theorem wide_parts {b : List Nat} (h : Wide b) : bval b = bval (b.take 12) * 2 ^ 32 + bval (b.drop 12) ∧ bval (b.drop 12) < 2 ^ 32 := by
  have hl : (b.drop 12).length = 4 := by rw [List.length_drop, h.length]
  constructor
  · conv => lhs; rw [← List.take_append_drop 12 b]
    rw [bval_append, hl]
  · have := bval_lt (bytes_drop h.bytes 12)
    rw [hl] at this
    exact this

theorem wide_v4 {b : List Nat} (h : Wide b) : b.take 12 = v4Prefix ↔ IsV4 (bval b) := by
  obtain ⟨h1, h2⟩ := wide_parts h
  have e : bval b / 2 ^ 32 = bval (b.take 12) := by rw [h1]; omega
  unfold IsV4
  rw [e]
  constructor
  · intro h; rw [h]; rfl
  · intro he
    refine bval_injective (bytes_take h.bytes _) (by unfold Bytes; decide) ?_ (he.trans rfl)
    rw [List.length_take, h.length]; rfl

theorem to4_v4 {b : List Nat} (h : Wide b) (hv : IsV4 (bval b)) : to4 b = some (b.drop 12) := by
  simp [to4, h.length, (wide_v4 h).2 hv]

theorem to4_not {b : List Nat} (h : Wide b) (hv : ¬ IsV4 (bval b)) : to4 b = none := by
  rw [← wide_v4 h] at hv
  simp [to4, h.length, hv]

theorem v4_leading {x y r : Nat} (hr : r ≤ 32) (h : x / 2 ^ r = y / 2 ^ r) : IsV4 x ↔ IsV4 y := by
  unfold IsV4
  have e : 2 ^ 32 = 2 ^ r * 2 ^ (32 - r) := by rw [← Nat.pow_add]; congr 1; omega
  rw [e, ← Nat.div_div_eq_div_mul, ← Nat.div_div_eq_div_mul, h]

/-! ## Subnets of IPv4 addresses -/

theorem contains_v4 {b y : List Nat} {n : Nat} (hb : Bytes b) (hl : b.length = 4) (hn : n ≤ 32) (hy : Wide y) :
    IPNet.contains ⟨andBytes b (cidrMask n 4), cidrMask n 4⟩ y = true ↔ (65535 * 2 ^ 32 + bval b) / 2 ^ (32 - n) = bval y / 2 ^ (32 - n) := by
  have hm := cidrMask_length n 4
  have hal : (andBytes b (cidrMask n 4)).length = 4 := by rw [andBytes_length (by rw [hl, hm]), hl]
  have hnn : networkNumberAndMask ⟨andBytes b (cidrMask n 4), cidrMask n 4⟩ = some (andBytes b (cidrMask n 4), cidrMask n 4) := by
    simp [networkNumberAndMask, to4, hal, hm]
  simp only [IPNet.contains, hnn]
  have hbl := bval_lt hb
  rw [hl] at hbl
  by_cases hv : IsV4 (bval y)
  · obtain ⟨h1, h2⟩ := wide_parts hy
    have hyl : (y.drop 12).length = 4 := by rw [List.length_drop, hy.length]
    have e : bval (y.take 12) = 65535 := by rw [(wide_v4 hy).2 hv]; rfl
    rw [to4_v4 hy hv, h1, e, div_parts hbl h2 (by omega)]
    simp only [Option.getD_some, hyl, hal, ne_eq, not_true, if_false, andBytes_idem, decide_eq_true_eq, true_and]
    have := masked_iff hb (bytes_drop hy.bytes 12) (by rw [hl, hyl]) (n := n) (by omega)
    rw [hl] at this
    exact this
  · rw [to4_not hy hv]
    simp only [Option.getD_none, hy.length, hal, ne_eq]
    simp only [Nat.reduceEqDiff, not_false_eq_true, if_true, Bool.false_eq_true, false_iff]
    intro h
    apply hv
    rw [← v4_leading (by omega) h]
    unfold IsV4
    omega

/-! ## Subnets of IPv6 addresses -/

theorem andBytes_append : ∀ {a c b d : List Nat}, a.length = c.length → andBytes (a ++ b) (c ++ d) = andBytes a c ++ andBytes b d
  | [], [], _, _, _ => rfl
  | [], _ :: _, _, _, h => by simp at h
  | _ :: _, [], _, _, h => by simp at h
  | a :: as, c :: cs, b, d, h => by simp only [List.cons_append, andBytes]; rw [andBytes_append (by simpa using h)]

theorem cidrMask_split : ∀ (j : Nat) {n k : Nat}, 8 * j ≤ n → cidrMask n (j + k) = List.replicate j 255 ++ cidrMask (n - 8 * j) k
  | 0, n, k, _ => by simp
  | j + 1, n, k, h => by
    rw [show j + 1 + k = (j + k) + 1 by omega, cidrMask, if_pos (by omega), cidrMask_split j (by omega), List.replicate_succ,
      show n - 8 - 8 * j = n - 8 * (j + 1) by omega]
    rfl

theorem andBytes_255 : ∀ {a : List Nat}, Bytes a → andBytes a (List.replicate a.length 255) = a
  | [], _ => rfl
  | a :: as, h => by
    rw [List.length_cons, List.replicate_succ, andBytes, and_255 ⟨a, h a (by simp)⟩, andBytes_255 fun n hn => h n (by simp [hn])]

theorem and_odd {a m : Nat} (hm : m % 2 = 0) : (a &&& m) % 2 = 0 := by
  have := Nat.testBit_and a m 0
  simp only [Nat.testBit_zero, hm] at this
  simp only [Nat.zero_ne_one, decide_false, Bool.and_false, decide_eq_false_iff_not] at this
  omega

/-- The last bits before the bytes that a mask leaves alone. -/
theorem masked_even : ∀ {a : List Nat} {n i k : Nat}, n < 8 * (i + 1) → a.length = k → i < k → ∃ v, (andBytes a (cidrMask n k))[i]? = some v ∧ v % 2 = 0
  | [], n, i, k, _, hk, hi => by simp at hk; omega
  | a :: as, n, i, 0, _, hk, hi => by omega
  | a :: as, n, 0, k + 1, hn, hk, hi => by
    rw [cidrMask, if_neg (by omega)]
    refine ⟨_, rfl, and_odd ?_⟩
    have : ∀ j : Fin 8, (255 - (2 ^ (8 - j.val) - 1)) % 2 = 0 := by decide
    exact this ⟨n, by omega⟩
  | a :: as, n, i + 1, k + 1, hn, hk, hi => by
    simp only [List.length_cons] at hk
    rw [cidrMask]
    split
    · simp only [andBytes, List.getElem?_cons_succ]
      exact masked_even (by omega) (by omega) (by omega)
    · simp only [andBytes, List.getElem?_cons_succ]
      exact masked_even (by omega) (by omega) (by omega)

theorem bytes_and : ∀ {a m : List Nat}, Bytes a → Bytes (andBytes a m)
  | [], _, _ => by simp [andBytes, Bytes]
  | _ :: _, [], _ => by simp [andBytes, Bytes]
  | a :: as, m :: ms, h => by
    intro n hn
    simp only [andBytes, List.mem_cons] at hn
    rcases hn with rfl | hn
    · exact Nat.lt_of_le_of_lt Nat.and_le_left (h a (by simp))
    · exact bytes_and (fun n hn => h n (by simp [hn])) n hn

theorem contains_v6 {x y : List Nat} {n : Nat} (hx : Wide x) (hn : n ≤ 128) (hy : Wide y) :
    IPNet.contains ⟨andBytes x (cidrMask n 16), cidrMask n 16⟩ y = true ↔
      bval x / 2 ^ (128 - n) = bval y / 2 ^ (128 - n) ∧ (IsV4 (bval y) → 96 ≤ n) := by
  have hm := cidrMask_length n 16
  have hal : (andBytes x (cidrMask n 16)).length = 16 := by rw [andBytes_length (by rw [hx.length, hm]), hx.length]
  have hw : Wide (andBytes x (cidrMask n 16)) := ⟨hal, bytes_and hx.bytes⟩
  have hmask := masked_iff hx.bytes hy.bytes (by rw [hx.length, hy.length]) (n := n) (by rw [hx.length]; omega)
  rw [hx.length] at hmask
  simp only [Nat.reduceMul] at hmask
  have hv : IsV4 (bval (andBytes x (cidrMask n 16))) ↔ IsV4 (bval x) ∧ 96 ≤ n := by
    rw [← wide_v4 hw, ← wide_v4 hx]
    by_cases h96 : 96 ≤ n
    · have hc := cidrMask_split 12 (n := n) (k := 4) (by omega)
      have ht : (x.take 12).length = 12 := by rw [List.length_take, hx.length]; rfl
      have hxs : x = x.take 12 ++ x.drop 12 := (List.take_append_drop 12 x).symm
      have : (andBytes x (cidrMask n 16)).take 12 = x.take 12 := by
        rw [show cidrMask n 16 = _ from hc]
        conv => lhs; rw [hxs]
        rw [andBytes_append (by simp [hx.length])]
        have h255 := andBytes_255 (bytes_take hx.bytes 12)
        rw [ht] at h255
        rw [h255, List.take_append_of_le_length (by omega), List.take_of_length_le (by omega)]
      rw [this]
      simp [h96]
    · simp only [h96, and_false, iff_false]
      obtain ⟨v, h1, h2⟩ := masked_even (a := x) (n := n) (i := 11) (k := 16) (by omega) hx.length (by omega)
      intro hc
      have : (andBytes x (cidrMask n 16))[11]? = some 255 := by
        have h3 : ((andBytes x (cidrMask n 16)).take 12)[11]? = some 255 := by rw [hc]; rfl
        rw [List.getElem?_take] at h3
        simpa using h3
      rw [this] at h1
      simp only [Option.some.injEq] at h1
      omega
  by_cases hxv : IsV4 (bval (andBytes x (cidrMask n 16)))
  · obtain ⟨hx4, h96⟩ := hv.1 hxv
    have hd4 : ((andBytes x (cidrMask n 16)).drop 12).length = 4 := by rw [List.length_drop, hal]
    have hnn : networkNumberAndMask ⟨andBytes x (cidrMask n 16), cidrMask n 16⟩ = some ((andBytes x (cidrMask n 16)).drop 12, (cidrMask n 16).drop 12) := by
      simp only [networkNumberAndMask, to4_v4 hw hxv, hm, hd4, if_true, Nat.reduceEqDiff, if_false]
    simp only [IPNet.contains, hnn]
    by_cases hyv : IsV4 (bval y)
    · have hyl : (y.drop 12).length = 4 := by rw [List.length_drop, hy.length]
      simp only [to4_v4 hy hyv, Option.getD_some, hyl, hd4, ne_eq, not_true, if_false, decide_eq_true_eq, h96, implies_true, and_true]
      have hm2 : andBytes (andBytes x (cidrMask n 16)) (cidrMask n 16) = andBytes y (cidrMask n 16) ↔ bval x / 2 ^ (128 - n) = bval y / 2 ^ (128 - n) := by rw [andBytes_idem]; exact hmask
      rw [← hm2]
      have hsplit : ∀ z : List Nat, Wide z → IsV4 (bval z) → andBytes z (cidrMask n 16) = andBytes v4Prefix ((cidrMask n 16).take 12) ++ andBytes (z.drop 12) ((cidrMask n 16).drop 12) := by
        intro z hz hzv
        conv => lhs; rw [← List.take_append_drop 12 z, ← List.take_append_drop 12 (cidrMask n 16)]
        rw [andBytes_append (by simp [hz.length, hm]), (wide_v4 hz).2 hzv]
      rw [hsplit _ hw hxv, hsplit y hy hyv, List.append_cancel_left_eq]
    · simp only [to4_not hy hyv, Option.getD_none, hy.length, hd4, ne_eq]
      simp only [Nat.reduceEqDiff, not_false_eq_true, if_true, Bool.false_eq_true, false_iff]
      rintro ⟨h, _⟩
      exact hyv ((v4_leading (by omega) h).1 hx4)
  · have hnn : networkNumberAndMask ⟨andBytes x (cidrMask n 16), cidrMask n 16⟩ = some (andBytes x (cidrMask n 16), cidrMask n 16) := by
      simp [networkNumberAndMask, to4_not hw hxv, hm, hal]
    simp only [IPNet.contains, hnn]
    by_cases hyv : IsV4 (bval y)
    · have hyl : (y.drop 12).length = 4 := by rw [List.length_drop, hy.length]
      simp only [to4_v4 hy hyv, Option.getD_some, hyl, hal, ne_eq]
      simp only [Nat.reduceEqDiff, not_false_eq_true, if_true, Bool.false_eq_true, false_iff]
      rintro ⟨h, h96⟩
      exact hxv (hv.2 ⟨(v4_leading (by have := h96 hyv; omega) h).2 hyv, h96 hyv⟩)
    · simp only [to4_not hy hyv, Option.getD_none, hy.length, hal, ne_eq, not_true, if_false, andBytes_idem, decide_eq_true_eq, hyv, false_implies, and_true]
      exact hmask

/-! ## The numbers of addresses -/

theorem foldl_groups (ns : List Nat) : ∀ x : Nat, (gbytes ns).foldl (fun x n => x * 256 + n) x = ns.foldl (fun x n => x * 65536 + n) x := by
  induction ns with
  | nil => intro x; simp [gbytes]
  | cons n ns ih =>
    intro x
    have e : (x * 256 + n / 256) * 256 + n % 256 = x * 65536 + n := by omega
    rw [gbytes_cons, List.foldl_append, List.foldl_cons, ih]
    simp only [List.foldl_cons, List.foldl_nil, e]

theorem bval_groups (ns : List Nat) : bval (gbytes ns) = groupsVal ns := foldl_groups ns 0

theorem ending_small {s : Str} {ns : List Nat} (h : Ending s ns) : ∀ n ∈ ns, n < 65536 := by
  induction h with
  | one h => intro n hn; simp at hn; subst hn; exact h.2
  | dotted y =>
    intro n hn
    have := y.a.isLt
    have := y.b.isLt
    have := y.c.isLt
    have := y.d.isLt
    simp only [List.mem_cons, List.not_mem_nil, or_false] at hn
    rcases hn with rfl | rfl <;> omega
  | more h _ ih =>
    intro n hn
    rcases List.mem_cons.1 hn with rfl | hn
    · exact h.2
    · exact ih n hn

theorem v6_small {s : Str} {ns : List Nat} (h : V6Text s ns) : ns.length = 8 ∧ ∀ n ∈ ns, n < 65536 := by
  cases h with
  | full h hl => exact ⟨hl, ending_small h⟩
  | @short s t a b ha hb hl =>
    refine ⟨by simp only [List.length_append, List.length_replicate]; omega, ?_⟩
    intro n hn
    simp only [List.mem_append, List.mem_replicate] at hn
    rcases hn with (hn | ⟨_, rfl⟩) | hn
    · rcases ha with ⟨_, rfl⟩ | ha
      · simp at hn
      · exact ending_small (groups_ending ha) n hn
    · decide
    · rcases hb with ⟨_, rfl⟩ | hb
      · simp at hn
      · exact ending_small hb n hn

theorem v6_wide {s : Str} {ns : List Nat} (h : V6Text s ns) : Wide (gbytes ns) := by
  obtain ⟨h1, h2⟩ := v6_small h
  refine ⟨by rw [gbytes_length, h1], ?_⟩
  intro n hn
  simp only [gbytes, List.mem_flatMap, List.mem_cons, List.not_mem_nil, or_false] at hn
  obtain ⟨m, hm, h⟩ := hn
  have := h2 m hm
  omega

/-- The bytes of an IPv4 address. -/
def vbytes (y : V4) : List Nat := [y.a.val, y.b.val, y.c.val, y.d.val]

theorem vbytes_val (y : V4) : bval (vbytes y) = y.val := by simp [bval, vbytes, V4.val]

theorem vbytes_bytes (y : V4) : Bytes (vbytes y) := by
  intro n hn
  simp only [vbytes, List.mem_cons, List.not_mem_nil, or_false] at hn
  rcases hn with rfl | rfl | rfl | rfl <;> exact Fin.isLt _

theorem v4_wide (y : V4) : Wide (v4Prefix ++ vbytes y) := by
  refine ⟨rfl, ?_⟩
  intro n hn
  rcases List.mem_append.1 hn with hn | hn
  · have : ∀ n ∈ v4Prefix, n < 256 := by decide
    exact this n hn
  · exact vbytes_bytes y n hn

theorem v4_wide_val (y : V4) : bval (v4Prefix ++ vbytes y) = y.wide := by
  rw [bval_append, vbytes_val]
  rfl

/-! ## Characters -/

theorem writtenIn_chars {s : Str} {n : Nat} (h : WrittenIn 16 Digit16 s n) : ∀ c ∈ s, c ∈ gs"0123456789abcdefABCDEF" := by
  intro c hc
  obtain ⟨d, h | h⟩ := writtenIn_digits h c hc
  · have : ∀ c ∈ gs"0123456789abcdef", c ∈ gs"0123456789abcdefABCDEF" := by decide
    exact this c (List.mem_of_getElem? h)
  · have : ∀ c ∈ gs"0123456789ABCDEF", c ∈ gs"0123456789abcdefABCDEF" := by decide
    exact this c (List.mem_of_getElem? h)

theorem decimal_chars {s : Str} {n : Nat} (h : WrittenIn 10 Digit10 s n) : ∀ c ∈ s, c ∈ gs"0123456789" := by
  intro c hc
  obtain ⟨d, h⟩ := writtenIn_digits h c hc
  exact List.mem_of_getElem? h

def addressChars : Str := gs"0123456789abcdefABCDEF.:"

theorem octet_chars : ∀ a : Fin 256, ∀ c ∈ decimal a, c ∈ gs"0123456789" := by decide +kernel

theorem v4_chars (y : V4) : ∀ c ∈ y.text, c ∈ gs"0123456789." := by
  intro c hc
  have sub : ∀ c ∈ gs"0123456789", c ∈ gs"0123456789." := by decide
  simp only [V4.text, List.mem_append] at hc
  rcases hc with (((((h | h) | h) | h) | h) | h) | h
  all_goals first
    | (simp at h; subst h; decide)
    | exact sub c (octet_chars _ c h)

theorem ending_chars {s : Str} {ns : List Nat} (h : Ending s ns) : ∀ c ∈ s, c ∈ addressChars := by
  have sub : ∀ c ∈ gs"0123456789abcdefABCDEF", c ∈ addressChars := by decide
  have sub2 : ∀ c ∈ gs"0123456789.", c ∈ addressChars := by decide
  induction h with
  | one h => exact fun c hc => sub c (writtenIn_chars h.1 c hc)
  | dotted y => exact fun c hc => sub2 c (v4_chars y c hc)
  | more h _ ih =>
    intro c hc
    rcases List.mem_append.1 hc with hc | hc
    · exact sub c (writtenIn_chars h.1 c hc)
    · rcases List.mem_cons.1 hc with rfl | hc
      · decide
      · exact ih c hc

theorem v6_chars {s : Str} {ns : List Nat} (h : V6Text s ns) : ∀ c ∈ s, c ∈ addressChars := by
  cases h with
  | full h _ => exact ending_chars h
  | short ha hb _ =>
    intro c hc
    simp only [List.mem_append] at hc
    rcases hc with (hc | hc) | hc
    · rcases ha with ⟨rfl, _⟩ | ha
      · simp at hc
      · exact ending_chars (groups_ending ha) c hc
    · simp at hc; subst hc; decide
    · rcases hb with ⟨rfl, _⟩ | hb
      · simp at hc
      · exact ending_chars hb c hc

theorem address_chars {s : Str} {y : Nat} (h : AddressText s y) : ∀ c ∈ s, c ∈ addressChars := by
  have sub2 : ∀ c ∈ gs"0123456789.", c ∈ addressChars := by decide
  cases h with
  | v4 y => exact fun c hc => sub2 c (v4_chars y c hc)
  | v6 h => exact v6_chars h

theorem address_no_slash {s : Str} {y : Nat} (h : AddressText s y) : '/' ∉ s := fun hc => absurd (address_chars h _ hc) (by decide)

/-! ## Reading addresses -/

/-- The first separator of an IPv6 address. -/
theorem find_colon {s : Str} {ns : List Nat} (h : V6Text s ns) : s.find? (fun c => c = '.' ∨ c = ':') = some ':' := by
  have hg : ∀ {s : Str} {n : Nat} (t : Str), Group s n → (s ++ ':' :: t).find? (fun c => c = '.' ∨ c = ':') = some ':' := by
    intro s n t hg
    have : s.find? (fun c => decide (c = '.' ∨ c = ':')) = none := by
      rw [List.find?_eq_none]
      intro c hc
      have := writtenIn_chars hg.1 c hc
      have sub : ∀ c ∈ gs"0123456789abcdefABCDEF", ¬ (c = '.' ∨ c = ':') := by decide
      simpa using sub c this
    rw [List.find?_append, this]
    rfl
  cases h with
  | full h hl =>
    cases h with
    | one h => simp at hl
    | dotted y => simp at hl
    | more h ht => exact hg _ h
  | @short s t a b ha hb hl =>
    rcases ha with ⟨rfl, _⟩ | ha
    · rfl
    · cases ha with
      | one h =>
        have := hg (':' :: t) h
        simpa using this
      | @more s t' _ _ h ht =>
        have := hg (t' ++ gs"::" ++ t) h
        simpa using this

theorem parseIPv4_v6 {s : Str} {ns : List Nat} (h : V6Text s ns) : parseIPv4 s = none := by
  cases hp : parseIPv4 s with
  | none => rfl
  | some b =>
    obtain ⟨y, rfl, _⟩ := parseIPv4_iff.1 hp
    have := find_colon h
    rw [find_dot] at this
    simp at this

/-- Reading an address. -/
theorem parseIP_complete (env : Ext) {s : Str} {y : Nat} (h : AddressText s y) : Wide (parseIP env s) ∧ bval (parseIP env s) = y := by
  cases h with
  | v4 y =>
    rw [parseIP_text]
    exact ⟨v4_wide y, v4_wide_val y⟩
  | @v6 _ ns h =>
    have : parseIP env s = gbytes ns := by
      simp only [parseIP, find_colon h, parseIPv6_iff.2 ⟨ns, h, rfl⟩, Option.getD_some]
    rw [this]
    exact ⟨v6_wide h, bval_groups ns⟩

theorem parseIP_sound {env : Ext} {s : Str} (h : parseIP env s ≠ []) : ∃ y, AddressText s y := by
  unfold parseIP at h
  split at h
  · cases hp : parseIPv4 s with
    | none => simp [hp] at h
    | some b =>
      obtain ⟨y, rfl, _⟩ := parseIPv4_iff.1 hp
      exact ⟨_, .v4 y⟩
  · cases hp : parseIPv6 s with
    | none => simp [hp] at h
    | some b =>
      obtain ⟨ns, h, _⟩ := parseIPv6_iff.1 hp
      exact ⟨_, .v6 h⟩
  · simp at h

theorem index_at {c : Char} : ∀ {s : Str} {i : Nat}, index [c] s = some i → s = s.take i ++ c :: s.drop (i + 1)
  | [], i, h => by simp [index] at h
  | x :: s, i, h => by
    by_cases hx : c = x
    · subst hx
      simp [index] at h
      subst h
      rfl
    · have hp : [c].isPrefixOf (x :: s) = false := by simp [List.isPrefixOf, hx]
      simp only [index, hp] at h
      simp only [Bool.false_eq_true, if_false, Option.map_eq_some_iff] at h
      obtain ⟨j, h1, rfl⟩ := h
      have := index_at h1
      simp only [List.take_succ_cons, List.drop_succ_cons, List.cons_append, List.cons.injEq, true_and]
      exact this

/-- Reading the number of bits. -/
theorem bits_iff {t : Str} {n : Nat} (hn : n < 0xFFFFFF) : dtoi t = some (n, t.length) ↔ WrittenIn 10 Digit10 t n := by
  constructor
  · intro h
    obtain ⟨ds, r, rfl, h2, h3, _⟩ := dtoi_sound h
    have : r = [] := by
      rw [List.length_append] at h2
      exact List.length_eq_zero_iff.1 (by omega)
    rw [this, List.append_nil]
    exact h3
  · intro h
    have := dtoi_complete h hn (r := []) (by simp)
    rwa [List.append_nil] at this

/-- Reading a subnet. -/
theorem parseCIDR_sound {env : Ext} {s : Str} {net : IPNet} (h : parseCIDR env s = some net) : ∃ x n, NetText s x n := by
  unfold parseCIDR at h
  cases hi : index gs"/" s with
  | none => simp [hi] at h
  | some i =>
    have hs := index_at hi
    simp only [hi] at h
    have hd : ∀ {n k : Nat}, dtoi (s.drop (i + 1)) = some (n, k) → k = (s.drop (i + 1)).length → n ≤ 128 → WrittenIn 10 Digit10 (s.drop (i + 1)) n := by
      intro n k h1 h2 h3
      subst h2
      exact (bits_iff (by omega)).1 h1
    have hs' : s = s.take i ++ gs"/" ++ s.drop (i + 1) := by
      rw [List.append_assoc]; exact hs
    cases h4 : parseIPv4 (s.take i) with
    | some b =>
      simp only [h4] at h
      obtain ⟨y, hy, _⟩ := parseIPv4_iff.1 h4
      cases hm : dtoi (s.drop (i + 1)) with
      | none => simp [hm] at h
      | some v =>
        obtain ⟨n, k⟩ := v
        simp only [hm] at h
        split at h
        · next hc =>
          have := NetText.v4 y (hd hm hc.1 (by omega)) hc.2
          rw [← hy, ← hs'] at this
          exact ⟨_, _, this⟩
        · simp at h
    | none =>
      simp only [h4] at h
      cases h6 : parseIPv6 (s.take i) with
      | none => simp [h6] at h
      | some b =>
        simp only [h6] at h
        obtain ⟨ns, hns, _⟩ := parseIPv6_iff.1 h6
        cases hm : dtoi (s.drop (i + 1)) with
        | none => simp [hm] at h
        | some v =>
          obtain ⟨n, k⟩ := v
          simp only [hm] at h
          split at h
          · next hc =>
            have := NetText.v6 hns (hd hm hc.1 hc.2) hc.2
            rw [← hs'] at this
            exact ⟨_, _, this⟩
          · simp at h

/-- A subnet as it is written, without `*`. -/
theorem parseCIDR_complete (env : Ext) {s : Str} {x n : Nat} (h : NetText s x n) (hs : s ≠ gs"*") : ∃ net, parseCIDR env s = some net ∧
    ∀ y, Wide y → (net.contains y = true ↔ x / 2 ^ (128 - n) = bval y / 2 ^ (128 - n) ∧ (IsV4 (bval y) → 96 ≤ n)) := by
  cases h with
  | all => exact absurd rfl hs
  | @v4 t n y h hn =>
    have hx : '/' ∉ y.text := fun h => (text_chars y _ h).1 rfl
    have e : y.text ++ gs"/" ++ t = y.text ++ '/' :: t := by simp
    refine ⟨⟨andBytes (vbytes y) (cidrMask n 4), cidrMask n 4⟩, ?_, ?_⟩
    · have hi := index_append (t := t) hx
      rw [e]
      simp only [parseCIDR, hi, List.take_left, List.drop_append, (bits_iff (by omega)).2 h, parseIPv4_text, show y.text.length + 1 - y.text.length = 1 by omega,
        List.drop_succ_cons, List.drop_zero, List.drop_of_length_le (Nat.le_succ _), List.nil_append, hn, and_self, if_true]
      rfl
    · intro z hz
      rw [contains_v4 (vbytes_bytes y) rfl hn hz, vbytes_val, show 128 - (96 + n) = 32 - n by omega]
      simp [V4.wide]
  | @v6 s t ns n hv h hn =>
    have hx : '/' ∉ s := address_no_slash (.v6 hv)
    have e : s ++ gs"/" ++ t = s ++ '/' :: t := by simp
    refine ⟨⟨andBytes (gbytes ns) (cidrMask n 16), cidrMask n 16⟩, ?_, ?_⟩
    · have hi := index_append (t := t) hx
      rw [e]
      simp only [parseCIDR, hi, List.take_left, List.drop_append, (bits_iff (by omega)).2 h, parseIPv4_v6 hv, parseIPv6_iff.2 ⟨ns, hv, rfl⟩,
        show s.length + 1 - s.length = 1 by omega,
        List.drop_succ_cons, List.drop_zero, List.drop_of_length_le (Nat.le_succ _), List.nil_append, hn, and_self, if_true]
    · intro z hz
      rw [contains_v6 (v6_wide hv) hn hz, bval_groups]

theorem parseCIDR_no_slash (env : Ext) {s : Str} (h : '/' ∉ s) : parseCIDR env s = none := by
  simp only [parseCIDR, index_absent h]

theorem contains_nil {ip m : List Nat} (h : ip.length = m.length) (hl : m.length = 4 ∨ m.length = 16) : IPNet.contains ⟨ip, m⟩ [] = false := by
  have ht : to4 [] = none := rfl
  have : ∃ nn k, networkNumberAndMask ⟨ip, m⟩ = some (nn, k) ∧ nn.length ≠ 0 := by
    rcases hl with hl | hl
    · exact ⟨ip, m, by simp [networkNumberAndMask, to4, h, hl], by omega⟩
    · by_cases hv : ip.take 12 = v4Prefix
      · exact ⟨ip.drop 12, m.drop 12, by simp [networkNumberAndMask, to4, h, hl, hv], by rw [List.length_drop]; omega⟩
      · exact ⟨ip, m, by simp [networkNumberAndMask, to4, h, hl, hv], by omega⟩
  obtain ⟨nn, k, h1, h2⟩ := this
  simp only [IPNet.contains, h1, ht, Option.getD_none, List.length_nil]
  rw [if_pos (Ne.symm h2)]

/-- A subnet covers addresses only. -/
theorem parseCIDR_nil {env : Ext} {s : Str} {net : IPNet} (h : parseCIDR env s = some net) : net.contains [] = false := by
  unfold parseCIDR at h
  cases hi : index gs"/" s with
  | none => simp [hi] at h
  | some i =>
    simp only [hi] at h
    cases h4 : parseIPv4 (s.take i) with
    | some b =>
      simp only [h4] at h
      obtain ⟨y, hy, hb⟩ := parseIPv4_iff.1 h4
      cases hm : dtoi (s.drop (i + 1)) with
      | none => simp [hm] at h
      | some v =>
        simp only [hm] at h
        split at h
        · simp only [Option.some.injEq] at h
          subst h
          have := cidrMask_length v.1 4
          exact contains_nil (by rw [andBytes_length (by rw [this, hb]; rfl), this, hb]; rfl) (.inl this)
        · simp at h
    | none =>
      simp only [h4] at h
      cases h6 : parseIPv6 (s.take i) with
      | none => simp [h6] at h
      | some b =>
        simp only [h6] at h
        obtain ⟨ns, hns, hb⟩ := parseIPv6_iff.1 h6
        have hb : b.length = 16 := hb ▸ (v6_wide hns).length
        cases hm : dtoi (s.drop (i + 1)) with
        | none => simp [hm] at h
        | some v =>
          simp only [hm] at h
          split at h
          · simp only [Option.some.injEq] at h
            subst h
            have := cidrMask_length v.1 16
            exact contains_nil (by rw [andBytes_length (by rw [this, hb]), this, hb]) (.inr this)
          · simp at h

theorem parseIP_cases (env : Ext) (s : Str) : parseIP env s = [] ∧ (¬ ∃ y, AddressText s y) ∨
    Wide (parseIP env s) ∧ AddressText s (bval (parseIP env s)) := by
  by_cases h : parseIP env s = []
  · refine .inl ⟨h, ?_⟩
    rintro ⟨y, hy⟩
    have := (parseIP_complete env hy).1.length
    rw [h] at this
    simp at this
  · obtain ⟨y, hy⟩ := parseIP_sound h
    obtain ⟨h1, h2⟩ := parseIP_complete env hy
    exact .inr ⟨h1, h2 ▸ hy⟩

/-- The number of an address is determined by its text. -/
theorem address_unique (env : Ext) {s : Str} {y y' : Nat} (h : AddressText s y) (h' : AddressText s y') : y = y' :=
  (parseIP_complete env h).2.symm.trans (parseIP_complete env h').2

theorem net_slash {s : Str} {x n : Nat} (h : NetText s x n) : '/' ∈ s ∨ s = gs"*" := by
  cases h with
  | v4 => exact .inl (by simp)
  | v6 => exact .inl (by simp)
  | all => exact .inr rfl

theorem star_not_address {y : Nat} : ¬ AddressText gs"*" y := by
  intro h
  exact absurd (address_chars h '*' (by simp)) (by decide)

theorem net_not_address {s : Str} {x n y : Nat} (h : NetText s x n) : ¬ AddressText s y := by
  intro ha
  rcases net_slash h with h | rfl
  · exact address_no_slash ha h
  · exact star_not_address ha

/-- What the compiled form of an entry says about it: `*` stands for all IPv4 addresses. -/
theorem zeros_text : NetText gs"0.0.0.0/0" (V4.wide ⟨0, 0, 0, 0⟩) 96 := .v4 ⟨0, 0, 0, 0⟩ (t := gs"0") (n := 0) (.one rfl) (by decide)

/-- Entries that are subnets. -/
theorem covers_net (env : Ext) {s : Str} {net : IPNet} (h : parseCIDR env (if s = gs"*" then gs"0.0.0.0/0" else s) = some net) (text : Str) :
    net.contains (parseIP env text) = true ↔ Covers s text := by
  obtain ⟨x, n, hn, hc⟩ : ∃ x n, NetText s x n ∧ ∀ y, Wide y → (net.contains y = true ↔ x / 2 ^ (128 - n) = bval y / 2 ^ (128 - n) ∧ (IsV4 (bval y) → 96 ≤ n)) := by
    by_cases hs : s = gs"*"
    · subst hs
      rw [if_pos rfl] at h
      obtain ⟨net', h1, h2⟩ := parseCIDR_complete env zeros_text (by decide)
      rw [h] at h1
      obtain rfl := Option.some.inj h1
      exact ⟨_, _, .all, h2⟩
    · rw [if_neg hs] at h
      obtain ⟨x, n, hn⟩ := parseCIDR_sound h
      obtain ⟨net', h1, h2⟩ := parseCIDR_complete env hn hs
      rw [h] at h1
      obtain rfl := Option.some.inj h1
      exact ⟨_, _, hn, h2⟩
  have huniq : ∀ {x' n'}, NetText s x' n' → ∀ y, Wide y → (net.contains y = true ↔ x' / 2 ^ (128 - n') = bval y / 2 ^ (128 - n') ∧ (IsV4 (bval y) → 96 ≤ n')) := by
    intro x' n' hn'
    by_cases hs : s = gs"*"
    · subst hs
      generalize hg : gs"*" = s at hn'
      cases hn' with
      | v4 y _ _ => exact absurd (show '/' ∈ gs"*" by rw [hg]; simp) (by decide)
      | v6 _ _ _ => exact absurd (show '/' ∈ gs"*" by rw [hg]; simp) (by decide)
      | all =>
        rw [if_pos rfl] at h
        obtain ⟨net', h1, h2⟩ := parseCIDR_complete env zeros_text (by decide)
        rw [h] at h1
        obtain rfl := Option.some.inj h1
        exact h2
    · rw [if_neg hs] at h
      obtain ⟨net', h1, h2⟩ := parseCIDR_complete env hn' hs
      rw [h] at h1
      obtain rfl := Option.some.inj h1
      exact h2
  rcases parseIP_cases env text with ⟨h1, h2⟩ | ⟨h1, h2⟩
  · rw [h1, parseCIDR_nil h]
    simp only [Bool.false_eq_true, false_iff]
    rintro (⟨_, _, y, _, hy, _⟩ | ⟨rfl, y, hy⟩) <;> exact h2 ⟨y, hy⟩
  · constructor
    · intro h
      exact .inl ⟨x, n, _, hn, h2, (hc _ h1).1 h⟩
    · rintro (⟨x', n', y, h3, h4, h5, h6⟩ | ⟨_, y, hy⟩)
      · obtain rfl := address_unique env h2 h4
        exact (huniq h3 _ h1).2 ⟨h5, h6⟩
      · exact absurd hy (net_not_address hn)

/-- Entries that are addresses. -/
theorem covers_address (env : Ext) {s : Str} (h : parseIP env s ≠ []) (text : Str) : s = text ↔ Covers s text := by
  obtain ⟨y, hy⟩ := parseIP_sound h
  constructor
  · rintro rfl; exact .inr ⟨rfl, y, hy⟩
  · rintro (⟨x, n, _, hn, _⟩ | ⟨h, _⟩)
    · exact absurd hy (net_not_address hn)
    · exact h

/-- Every subnet entry is written as a subnet or as an address. -/
theorem entry_iff (env : Ext) {s : Str} : (isIpCIDR env (if s = gs"*" then gs"0.0.0.0/0" else s)).1 = true ∨
    (isIpCIDR env (if s = gs"*" then gs"0.0.0.0/0" else s)).2.1 = true ↔ SubnetEntry s := by
  unfold SubnetEntry
  by_cases hs : s = gs"*"
  · subst hs
    rw [if_pos rfl]
    exact ⟨fun _ => .inl ⟨_, _, .all⟩, fun _ => .inr rfl⟩
  · rw [if_neg hs]
    unfold isIpCIDR
    cases hc : parseCIDR env s with
    | some net =>
      obtain ⟨x, n, hn⟩ := parseCIDR_sound hc
      exact ⟨fun _ => .inl ⟨x, n, hn⟩, fun _ => .inr rfl⟩
    | none =>
      by_cases hp : parseIP env s = []
      · simp only [hp]
        simp only [ne_eq, not_true_eq_false, if_false, Bool.false_eq_true, or_self, false_iff]
        rintro (⟨x, n, hn⟩ | ⟨y, hy⟩)
        · obtain ⟨net, h1, _⟩ := parseCIDR_complete env hn hs
          rw [hc] at h1
          simp at h1
        · have := (parseIP_complete env hy).1.length
          rw [hp] at this
          simp at this
      · obtain ⟨y, hy⟩ := parseIP_sound hp
        exact ⟨fun _ => .inr ⟨y, hy⟩, fun _ => .inl (by simp [hp])⟩

end Mapl

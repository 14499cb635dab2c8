import Verif.Lemmas.Leaf
import Verif.Lemmas.Ints
import Verif.Lemmas.Tree
import Verif.Spec.Documents

/-! # Numbers in the two representations -/

namespace Mapl

open Spec

theorem units_chars : ∀ u ∈ unitTable, ∃ a l, u.1 = a :: l ∧ a ≠ '#' ∧ a ≠ '$' ∧ a ≠ 'r' ∧ digitVal a = none ∧ a ≠ '+' ∧ a ≠ '-' := by
  intro u hu
  simp only [unitTable, List.mem_cons, List.not_mem_nil, or_false] at hu
  rcases hu with rfl | rfl | rfl | rfl | rfl | rfl | rfl | rfl | rfl | rfl | rfl | rfl | rfl | rfl | rfl | rfl | rfl | rfl | rfl | rfl <;>
    exact ⟨_, _, rfl, by decide, by decide, by decide, by decide, by decide, by decide⟩

theorem convertUnitsIn_start {c : Char} {s : Str} (hc : c = '#' ∨ c = '$' ∨ c = 'r') : ∀ l : List (Str × Rat), (∀ u ∈ l, u ∈ unitTable) →
    ∃ t, (convertUnitsIn (c :: s) l).1 = c :: t
  | [], _ => ⟨s, rfl⟩
  | (u, f) :: l, h => by
    unfold convertUnitsIn
    split
    · obtain ⟨a, l, he, h1, h2, h3, -⟩ := units_chars (u, f) (h _ (by simp))
      simp only at he
      subst he
      refine ⟨replaceAll s (a :: l) [], ?_⟩
      unfold replaceAll
      simp only [replaceAux]
      rw [if_neg]
      simp only [List.isPrefixOf, Bool.and_eq_true, beq_iff_eq, not_and]
      rintro rfl
      rcases hc with h | h | h <;> contradiction
    · exact convertUnitsIn_start hc l fun u hu => h u (by simp [hu])

theorem Spec.NumbersOk.not_number {env : Ext} (hn : NumbersOk env) {c : Char} {s : Str} (hc : c = '#' ∨ c = '$' ∨ c = 'r') :
    parseNumber env (c :: s) = none := by
  unfold parseNumber convertStringWithUnits
  obtain ⟨t, ht⟩ := convertUnitsIn_start (s := s) hc unitTable fun _ h => h
  generalize convertUnitsIn (c :: s) unitTable = r at *
  obtain ⟨r1, r2⟩ := r
  simp only at ht ⊢
  subst ht
  cases h : env.parseFloat (c :: t) with
  | none => rfl
  | some x =>
    obtain ⟨h1, h2, h3⟩ := hn.start _ _ _ h
    rcases hc with h | h | h <;> contradiction

theorem digitsVal_chars : ∀ {s : Str} {acc n : Nat}, digitsVal acc s = some n → ∀ c ∈ s, digitVal c ≠ none
  | [], _, _, _, c, hc => by simp at hc
  | d :: s, acc, n, h, c, hc => by
    unfold digitsVal at h
    cases hd : digitVal d with
    | none => rw [hd] at h; simp at h
    | some k =>
      rw [hd] at h
      rcases List.mem_cons.1 hc with rfl | hc
      · simp [hd]
      · exact digitsVal_chars h c hc

theorem parseNat_chars {s : Str} {n : Nat} (h : parseNat s = some n) : ∀ c ∈ s, digitVal c ≠ none := by
  cases s with
  | nil => simp [parseNat] at h
  | cons d s => exact digitsVal_chars h

theorem parseInt_chars {s : Str} {n : Int} (h : parseInt s = some n) : ∀ c ∈ s, digitVal c ≠ none ∨ c = '+' ∨ c = '-' := by
  unfold parseInt at h
  split at h
  · rw [Option.bind_eq_some_iff] at h
    obtain ⟨k, hk, -⟩ := h
    intro c hc
    rcases List.mem_cons.1 hc with rfl | hc
    · simp
    · exact .inl (parseNat_chars hk c hc)
  · rw [Option.bind_eq_some_iff] at h
    obtain ⟨k, hk, -⟩ := h
    intro c hc
    rcases List.mem_cons.1 hc with rfl | hc
    · simp
    · exact .inl (parseNat_chars hk c hc)
  · rw [Option.bind_eq_some_iff] at h
    obtain ⟨k, hk, -⟩ := h
    intro c hc
    exact .inl (parseNat_chars hk c hc)

theorem convertUnitsIn_plain {s : Str} : ∀ {l : List (Str × Rat)}, (∀ u ∈ l, ¬ u.1 <:+ s) → convertUnitsIn s l = (s, 1)
  | [], _ => rfl
  | (u, f) :: l, h => by
    unfold convertUnitsIn
    rw [if_neg]
    · exact convertUnitsIn_plain fun u hu => h u (by simp [hu])
    · rintro ⟨hs, -⟩
      exact h (u, f) (by simp) (List.isSuffixOf_iff_suffix.1 hs)

theorem Spec.NumbersOk.int_number {env : Ext} (hn : NumbersOk env) {s : Str} {n : Int} (h : parseInt s = some n) :
    ∃ x, parseNumber env s = some x := by
  obtain ⟨x, hx⟩ := hn.int s n (intText_iff.2 h)
  refine ⟨fmul env x (env.rnd 1), ?_⟩
  unfold parseNumber convertStringWithUnits
  rw [convertUnitsIn_plain]
  · simp [hx]
  · intro u hu hs
    obtain ⟨a, l, he, -, -, -, h1, h2, h3⟩ := units_chars u hu
    rw [he] at hs
    rcases parseInt_chars h a (hs.subset (by simp)) with h' | h' | h' <;> contradiction

theorem Spec.NumbersOk.value {env : Ext} (hn : NumbersOk env) {t : Predef} {m v w : Str} (hw : ValueResolves env t m v w)
    (h : parseNumber env w = none) : parseInt w = none ∧ parseInt v = none ∧ parseNumber env v = none := by
  have key : ∀ x, parseNumber env x = none → parseInt x = none := by
    intro x hx
    cases hi : parseInt x with
    | none => rfl
    | some n => obtain ⟨y, hy⟩ := hn.int_number hi; rw [hx] at hy; cases hy
  have hash : ∀ k, parseNumber env ('#' :: k) = none := fun k => hn.not_number (.inl rfl)
  cases hw with
  | plain _ => exact ⟨key _ h, key _ h, h⟩
  | list => exact ⟨key _ h, key _ (hash _), hash _⟩
  | alternatives => exact ⟨key _ h, key _ (hash _), hash _⟩
  | string => exact ⟨key _ h, key _ (hash _), hash _⟩

/-- On a scalar the two implementations agree, unless the scalar is a number and the value is not. -/
theorem compare_same {env : Ext} {t : Predef} {a m v w s : Str} {r : Option (List RetVal)} {c : Condition} (hn : NumbersOk env)
    (h : Leaf env a m v w r c) (hw : ValueResolves env t m v w) (hv : ¬ NumberAgainstText env m w s) :
    compareInterfaceText env c s = compareBytesText env c s := by
  by_cases hk : ∃ k : NumMethod, m ∈ k.spellings
  · obtain ⟨k, hk'⟩ := hk
    obtain ⟨f1, f2⟩ := spelling_final hk'
    have e1 := h.method
    have e2 := h.valueInt
    have e3 := h.valueFloat
    have e4 := h.value
    rw [f1] at e1
    rw [f2] at e2 e3 e4
    unfold compareInterfaceText compareBytesText
    rw [e1]
    cases hwn : parseNumber env w with
    | some x =>
      have e3' : c.valueFloat = some x := by rw [e3, hwn]; rfl
      cases hs : parseNumber env s with
      | some y => simp [e3']
      | none =>
        have hv1 : hasPrefix w gs"receiverLabel[" = false := by
          rw [Bool.eq_false_iff]
          intro hp
          obtain ⟨y, rfl⟩ := hasPrefix_iff.1 hp
          have := hn.not_number (c := 'r') (s := gs"eceiverLabel[" ++ y) (by simp)
          rw [show 'r' :: (gs"eceiverLabel[" ++ y) = gs"receiverLabel[" ++ y from rfl, hwn] at this
          cases this
        have hv2 : hasPrefix w gs"$receiver." = false := by
          rw [Bool.eq_false_iff]
          intro hp
          obtain ⟨y, rfl⟩ := hasPrefix_iff.1 hp
          have := hn.not_number (c := '$') (s := gs"receiver." ++ y) (by simp)
          rw [show '$' :: (gs"receiver." ++ y) = gs"$receiver." ++ y from rfl, hwn] at this
          cases this
        have e4' : c.value = w := by rw [e4, hv1, hv2]; rfl
        have hne : s ≠ w := by rintro rfl; rw [hs] at hwn; cases hwn
        rw [e4', e3']
        cases k <;> simp only [NumMethod.spellings, List.mem_cons, List.not_mem_nil, or_false] at hk' <;>
          rcases hk' with rfl | rfl | rfl | rfl <;> simp [toUpper, compareString, hne]
    | none =>
      obtain ⟨g1, g2, g3⟩ := hn.value hw hwn
      have e2' : c.valueInt = none := by rw [e2, g1, g2]; rfl
      have e3' : c.valueFloat = none := by rw [e3, hwn, g3]; rfl
      have hs : parseNumber env s = none := by
        cases hs : parseNumber env s with
        | none => rfl
        | some x => exact absurd ⟨⟨k, hk'⟩, hwn, x, hs⟩ hv
      rw [hs, e2', e3']
      simp
  · have hm := h.acceptable.method
    have e1 := h.method
    unfold compareInterfaceText compareBytesText
    rw [e1]
    have hnot : ∀ k : NumMethod, m ∉ k.spellings := fun k hc => hk ⟨k, hc⟩
    simp only [allMethods, orderMethods, patternMethods, List.cons_append, List.nil_append, List.mem_cons, List.not_mem_nil, or_false] at hm
    have h1 := hnot .eq
    have h2 := hnot .ne
    have h3 := hnot .lt
    have h4 := hnot .le
    have h5 := hnot .gt
    have h6 := hnot .ge
    simp only [NumMethod.spellings, List.mem_cons, List.not_mem_nil, or_false, not_or] at h1 h2 h3 h4 h5 h6
    have hred : m = gs"RE" ∨ m = gs"NRE" ∨ m = gs"re" ∨ m = gs"nre" ∨ m = gs"EX" ∨ m = gs"NEX" ∨ m = gs"IN" ∨ m = gs"NIN" ∨ m = gs"ex" ∨ m = gs"nex" ∨
        m = gs"in" ∨ m = gs"nin" ∨ m = gs"IS" := by
      tauto
    clear hm h1 h2 h3 h4 h5 h6
    rcases hred with rfl | rfl | rfl | rfl | rfl | rfl | rfl | rfl | rfl | rfl | rfl | rfl | rfl <;>
      simp [finalMethod, toUpper]

/-! ## Trees -/

section Trees

variable {env : Env} {R : Msg → Msg → Prop}

mutual
theorem holds_same : ∀ (n : Node), (∀ c ∈ leaves n, ∀ m m', R m m' → SameAnswer env c m m') →
    (∀ a ∈ quantifiers n, ∀ m m', R m m' → SameScopes env R a m m') → ∀ p p' m m', R m m' → (Holds env n p m ↔ Holds env n p' m')
  | .nil, _, _, _, _, _, _, _ => Iff.rfl
  | .and ns, hl, hq, p, p', m, m', hR => by
    rw [Holds, Holds]
    exact holdsAll_same ns (by rwa [leaves] at hl) (by rwa [quantifiers] at hq) p p' 1 1 m m' hR
  | .or ns, hl, hq, p, p', m, m', hR => by
    rw [Holds, Holds]
    exact holdsSome_same ns (by rwa [leaves] at hl) (by rwa [quantifiers] at hq) p p' 1 1 m m' hR
  | .not n, hl, hq, p, p', m, m', hR => by
    rw [Holds, Holds]
    exact not_congr (holds_same n (by rwa [leaves] at hl) (by rwa [quantifiers] at hq) _ _ m m' hR)
  | .any a n, hl, hq, p, p', m, m', hR => by
    rw [leaves] at hl
    rw [quantifiers] at hq
    have ih := holds_same n hl (fun a ha => hq a (by simp [ha]))
    obtain ⟨h1, h2⟩ := hq a (by simp) m m' hR p p'
    rw [Holds, Holds]
    constructor
    · rintro ⟨l, hs, i, x, hi, hx⟩
      obtain ⟨l', hs', hm, -⟩ := h1 l hs
      obtain ⟨y, hy, hxy⟩ := hm x (List.mem_of_getElem? hi)
      obtain ⟨j, hj⟩ := List.getElem?_of_mem hy
      exact ⟨l', hs', j, y, hj, (ih _ _ _ _ hxy).1 hx⟩
    · rintro ⟨l, hs, i, x, hi, hx⟩
      obtain ⟨l', hs', -, hm⟩ := h2 l hs
      obtain ⟨y, hy, hxy⟩ := hm x (List.mem_of_getElem? hi)
      obtain ⟨j, hj⟩ := List.getElem?_of_mem hy
      exact ⟨l', hs', j, y, hj, (ih _ _ _ _ hxy).2 hx⟩
  | .all a n, hl, hq, p, p', m, m', hR => by
    rw [leaves] at hl
    rw [quantifiers] at hq
    have ih := holds_same n hl (fun a ha => hq a (by simp [ha]))
    obtain ⟨h1, h2⟩ := hq a (by simp) m m' hR p p'
    rw [Holds, Holds]
    constructor
    · rintro ⟨l, hs, ha⟩
      obtain ⟨l', hs', -, hm⟩ := h1 l hs
      refine ⟨l', hs', fun i x hi => ?_⟩
      obtain ⟨y, hy, hxy⟩ := hm x (List.mem_of_getElem? hi)
      obtain ⟨j, hj⟩ := List.getElem?_of_mem hy
      exact (ih _ _ _ _ hxy).1 (ha j y hj)
    · rintro ⟨l, hs, ha⟩
      obtain ⟨l', hs', hm, -⟩ := h2 l hs
      refine ⟨l', hs', fun i x hi => ?_⟩
      obtain ⟨y, hy, hxy⟩ := hm x (List.mem_of_getElem? hi)
      obtain ⟨j, hj⟩ := List.getElem?_of_mem hy
      exact (ih _ _ _ _ hxy).2 (ha j y hj)
  | .tt, _, _, _, _, _, _, _ => Iff.rfl
  | .ff, _, _, _, _, _, _, _ => Iff.rfl
  | .cond c, hl, _, p, p', m, m', hR => by
    rw [Holds, Holds]
    exact hl c (by simp [leaves]) m m' hR _ _

theorem holdsAll_same : ∀ (ns : List Node), (∀ c ∈ leavesOf ns, ∀ m m', R m m' → SameAnswer env c m m') →
    (∀ a ∈ quantifiersOf ns, ∀ m m', R m m' → SameScopes env R a m m') → ∀ p p' i i' m m', R m m' →
    (HoldsAll env ns p i m ↔ HoldsAll env ns p' i' m')
  | [], _, _, _, _, _, _, _, _, _ => Iff.rfl
  | n :: ns, hl, hq, p, p', i, i', m, m', hR => by
    rw [leavesOf] at hl
    rw [quantifiersOf] at hq
    rw [HoldsAll, HoldsAll]
    exact and_congr (holds_same n (fun c hc => hl c (by simp [hc])) (fun a ha => hq a (by simp [ha])) _ _ m m' hR)
      (holdsAll_same ns (fun c hc => hl c (by simp [hc])) (fun a ha => hq a (by simp [ha])) _ _ _ _ m m' hR)

theorem holdsSome_same : ∀ (ns : List Node), (∀ c ∈ leavesOf ns, ∀ m m', R m m' → SameAnswer env c m m') →
    (∀ a ∈ quantifiersOf ns, ∀ m m', R m m' → SameScopes env R a m m') → ∀ p p' i i' m m', R m m' →
    (HoldsSome env ns p i m ↔ HoldsSome env ns p' i' m')
  | [], _, _, _, _, _, _, _, _, _ => Iff.rfl
  | n :: ns, hl, hq, p, p', i, i', m, m', hR => by
    rw [leavesOf] at hl
    rw [quantifiersOf] at hq
    rw [HoldsSome, HoldsSome]
    exact or_congr (holds_same n (fun c hc => hl c (by simp [hc])) (fun a ha => hq a (by simp [ha])) _ _ m m' hR)
      (holdsSome_same ns (fun c hc => hl c (by simp [hc])) (fun a ha => hq a (by simp [ha])) _ _ _ _ m m' hR)
end

end Trees

end Mapl

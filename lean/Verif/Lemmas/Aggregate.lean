import Verif.Lemmas.EvalMsg
import Verif.Lemmas.Reroot
import Verif.Spec.Check
import Mathlib.Data.List.Forall2
import Mathlib.Data.List.Perm.Basic

/-! # `Check` as a list of single verdicts and a summary -/

namespace Mapl

open Spec

variable {env env' : Env} {g : Predef} {m : Msg} {p : List Nat}

/-- Checking one rule gives a verdict of the four, and leaves the message and the rule's text alone. -/
theorem testConditions_msg {r : RuleObj} {o : EvalOut × RuleObj} (h : r.testConditions env g p m = .ok o) :
    o.1.msg = m := by
  simp only [RuleObj.testConditions, testPreparedConditions, Go.bind_eq_ok] at h
  obtain ⟨r1, _, o1, ⟨r2, _, h2⟩, h⟩ := h
  simp at h; subst h
  split at h2
  · exact eval_msg _ _ _ _ _ h2
  · simp at h2; subst h2; rfl

/-- What it means that checking one rule returned: the exits of check.go:101-172. -/
theorem ruleCheck_inv {r : RuleObj} {o : RuleOut} (h : r.check env g p m = .ok o) :
    ∃ r1 rule0, r.ensure env (0 :: p) g = .ok r1 ∧ r1.prepared = some rule0 ∧
      ∃ rule r2, rule = convertOnUse env rule0 ∧ r2 = { r1 with prepared := some rule } ∧
      ((o = ⟨DEFAULT, [], m, r2⟩ ∧
          (testSender env rule m = .ok false ∨
           testSender env rule m = .ok true ∧ testReceiver env rule m = .ok false ∨
           testSender env rule m = .ok true ∧ testReceiver env rule m = .ok true ∧
             matchPtr env rule.operationRegex m.requestMethod = .ok false ∨
           testSender env rule m = .ok true ∧ testReceiver env rule m = .ok true ∧
             matchPtr env rule.operationRegex m.requestMethod = .ok true ∧ testResource env rule m = .ok false)) ∨
       (testSender env rule m = .ok true ∧ testReceiver env rule m = .ok true ∧
        matchPtr env rule.operationRegex m.requestMethod = .ok true ∧ testResource env rule m = .ok true ∧
        (rule.conditions = none ∧ o = ⟨decisionCode rule.decision, [], m, r2⟩ ∨
         ∃ n e r3, rule.conditions = some n ∧ r2.testConditions env g (1 :: p) m = .ok (e, r3) ∧
          (e.flag = false ∧ o = ⟨DEFAULT, [], e.msg, r3⟩ ∨
           e.flag = true ∧ o = ⟨decisionCode rule.decision, if decisionCode rule.decision = DEFAULT then [] else e.extra,
              e.msg, r3⟩)))) := by
  simp only [RuleObj.check, Go.bind_eq_ok] at h
  obtain ⟨r1, he, r2, hp, b1, hb1, h⟩ := h
  refine ⟨r1, r2, he, deref_eq_ok.1 hp, _, _, rfl, rfl, ?_⟩
  split at h
  · simp at h; subst h; left; simp_all
  simp only [Go.bind_eq_ok] at h
  obtain ⟨b2, hb2, h⟩ := h
  split at h
  · simp at h; subst h; left; simp_all
  simp only [Go.bind_eq_ok] at h
  obtain ⟨b3, hb3, h⟩ := h
  split at h
  · simp at h; subst h; left; simp_all
  simp only [Go.bind_eq_ok] at h
  obtain ⟨b4, hb4, h⟩ := h
  split at h
  · simp at h; subst h; left; simp_all
  right
  refine ⟨by simp_all, by simp_all, by simp_all, by simp_all, ?_⟩
  split at h
  · next n hn =>
    right
    simp only [Go.bind_eq_ok] at h
    obtain ⟨⟨e, r3⟩, h1, h⟩ := h
    refine ⟨n, e, r3, hn, h1, ?_⟩
    split at h
    · next hf => simp at h hf; subst h; left; simp [hf]
    · next hf => simp at h hf; subst h; right; simp [hf]
  · next hn =>
    left
    simp at h; subst h
    exact ⟨hn, rfl⟩

theorem ruleCheck_msg {r : RuleObj} {o : RuleOut} (h : r.check env g p m = .ok o) : o.msg = m := by
  obtain ⟨r1, rule0, _, _, rule, r2, _, _, h⟩ := ruleCheck_inv h
  rcases h with ⟨rfl, _⟩ | ⟨_, _, _, _, ⟨_, rfl⟩ | ⟨n, e, r3, _, he, ⟨_, rfl⟩ | ⟨_, rfl⟩⟩⟩
  · rfl
  · rfl
  · exact testConditions_msg he
  · exact testConditions_msg he

theorem decisionCode_rank (s : Str) : ∃ d : Decision, decisionCode s = d.rank := by
  unfold decisionCode
  split
  · exact ⟨.allow, rfl⟩
  split
  · exact ⟨.alert, rfl⟩
  split
  · exact ⟨.block, rfl⟩
  · exact ⟨.default, rfl⟩

theorem ruleCheck_rank {r : RuleObj} {o : RuleOut} (h : r.check env g p m = .ok o) :
    ∃ d : Decision, o.result = d.rank := by
  obtain ⟨r1, rule0, _, _, rule, r2, _, _, h⟩ := ruleCheck_inv h
  rcases h with ⟨rfl, _⟩ | ⟨_, _, _, _, ⟨_, rfl⟩ | ⟨n, e, r3, _, he, ⟨_, rfl⟩ | ⟨_, rfl⟩⟩⟩
  · exact ⟨.default, rfl⟩
  · exact decisionCode_rank _
  · exact ⟨.default, rfl⟩
  · exact decisionCode_rank _

/-- The loop over the rules, rule by rule, every rule on the original message. -/
theorem checkRules_ok : ∀ (rs : List RuleObj) (i : Nat) (res : List (Nat × List Extra) × Msg),
    checkRules env g i m rs = .ok res ↔
      res.2 = m ∧ res.1.length = rs.length ∧
        ∀ (k : Nat) (r : RuleObj), rs[k]? = some r → ∃ o : RuleOut, r.check env g [i + k] m = .ok o ∧ res.1[k]? = some (o.result, o.extra)
  | [], i, res => by
    obtain ⟨l, m'⟩ := res
    simp only [checkRules]
    constructor
    · intro h; simp at h; simp [h]
    · rintro ⟨h1, h2, _⟩
      simp at h1 h2
      simp [h1, h2]
  | r :: rs, i, res => by
    obtain ⟨l, m'⟩ := res
    simp only [checkRules, Go.bind_eq_ok]
    constructor
    · rintro ⟨o, ho, rest, hr, h⟩
      rw [ruleCheck_msg ho, checkRules_ok rs] at hr
      obtain ⟨h1, h2, h3⟩ := hr
      simp only [Go.pure_eq, Except.ok.injEq, Prod.mk.injEq] at h
      obtain ⟨rfl, rfl⟩ := h
      refine ⟨h1, by simp [h2], ?_⟩
      intro k r' hk
      cases k with
      | zero =>
        simp at hk; subst hk
        exact ⟨o, ho, rfl⟩
      | succ k =>
        obtain ⟨o', ho', hx⟩ := h3 k r' (by simpa using hk)
        exact ⟨o', by rw [← ho']; congr 2; omega, by simpa using hx⟩
    · rintro ⟨h1, h2, h3⟩
      obtain ⟨o, ho, hx⟩ := h3 0 r rfl
      cases l with
      | nil => simp at h2
      | cons x l =>
        simp at hx h1 h2; subst hx
        refine ⟨o, ho, (l, m'), ?_, rfl⟩
        rw [ruleCheck_msg ho, checkRules_ok rs]
        refine ⟨h1, h2, ?_⟩
        intro k r' hk
        obtain ⟨o', ho', hx⟩ := h3 (k + 1) r' (by simpa using hk)
        exact ⟨o', by rw [← ho']; congr 2; omega, by simpa using hx⟩

/-- One oracle that behaves like `E i` at the positions of rule `i`. -/
def combine (env : Env) (E : Nat → Env) (q : Nat → List Nat) : Env :=
  { env with ord := fun p l =>
      match p.getLast? with
      | none => l
      | some i => (E i).ord (p.dropLast ++ q i) l }

theorem combine_reroot {E : Nat → Env} {q : Nat → List Nat} (i : Nat) (h : (E i).toExt = env.toExt) :
    Reroot (E i) (combine env E q) (q i) [i] where
  ext := h.symm
  ord p l := by simp [combine]

theorem combine_ordOk {E : Nat → Env} {q : Nat → List Nat} (h : ∀ i, (E i).OrdOk) : (combine env E q).OrdOk := by
  intro α p l
  simp only [combine]
  split
  · exact List.Perm.refl _
  · exact h _ _ _

/-! ## The summary -/

theorem aggregate_spec : ∀ (l : List (Nat × Str)) (i : Nat) (a : Agg),
    ((aggregate i a l).maxDecision = a.maxDecision ∧ (aggregate i a l).relevant = a.relevant ∧
      (aggregate i a l).description = a.description ∧ ∀ x ∈ l, x.1 ≤ a.maxDecision) ∨
    ∃ k res desc, l[k]? = some (res, desc) ∧ (aggregate i a l).maxDecision = res ∧ a.maxDecision < res ∧
      (aggregate i a l).relevant = ((i + k : Nat) : Int) ∧ (aggregate i a l).description = desc ∧
      (∀ x ∈ l, x.1 ≤ res) ∧ ∀ j x, j < k → l[j]? = some x → x.1 < res
  | [], i, a => by simp [aggregate]
  | (res, desc) :: l, i, a => by
    simp only [aggregate]
    by_cases h : res > a.maxDecision
    · have ha : (if res > (if res > DEFAULT then { a with applied := a.applied ++ [i] } else a).maxDecision
          then { (if res > DEFAULT then { a with applied := a.applied ++ [i] } else a) with
                  maxDecision := res, description := desc, relevant := (i : Int) }
          else (if res > DEFAULT then { a with applied := a.applied ++ [i] } else a)) =
          ({ applied := a.applied ++ [i], maxDecision := res, description := desc, relevant := (i : Int) } : Agg) := by
        have : res > DEFAULT := by simp only [DEFAULT]; omega
        simp [this, h]
      rw [ha]
      right
      rcases aggregate_spec l (i + 1) { applied := a.applied ++ [i], maxDecision := res, description := desc, relevant := (i : Int) } with
        ⟨h1, h2, h3, h4⟩ | ⟨k, r', d', hk, h1, h2, h3, h4, h5, h6⟩
      · refine ⟨0, res, desc, rfl, h1, h, by simpa using h2, h3, ?_, by omega⟩
        intro x hx
        rcases List.mem_cons.1 hx with rfl | hx
        · exact Nat.le_refl _
        · exact h4 x hx
      · simp only at h2
        refine ⟨k + 1, r', d', by simpa using hk, h1, by omega, by rw [h3]; congr 1; omega, h4, ?_, ?_⟩
        · intro x hx
          rcases List.mem_cons.1 hx with rfl | hx
          · simp; omega
          · exact h5 x hx
        · intro j x hj hx
          cases j with
          | zero => simp at hx; subst hx; exact h2
          | succ j => exact h6 j x (by omega) (by simpa using hx)
    · have key : ∀ b : Agg, b.maxDecision = a.maxDecision → b.relevant = a.relevant → b.description = a.description →
          (((aggregate (i + 1) b l).maxDecision = a.maxDecision ∧ (aggregate (i + 1) b l).relevant = a.relevant ∧
            (aggregate (i + 1) b l).description = a.description ∧ ∀ x ∈ (res, desc) :: l, x.1 ≤ a.maxDecision) ∨
          ∃ k r' d', ((res, desc) :: l)[k]? = some (r', d') ∧ (aggregate (i + 1) b l).maxDecision = r' ∧ a.maxDecision < r' ∧
            (aggregate (i + 1) b l).relevant = ((i + k : Nat) : Int) ∧ (aggregate (i + 1) b l).description = d' ∧
            (∀ x ∈ (res, desc) :: l, x.1 ≤ r') ∧ ∀ j x, j < k → ((res, desc) :: l)[j]? = some x → x.1 < r') := by
        intro b hb1 hb2 hb3
        rcases aggregate_spec l (i + 1) b with ⟨h1, h2, h3, h4⟩ | ⟨k, r', d', hk, h1, h2, h3, h4, h5, h6⟩
        · left
          refine ⟨by rw [h1, hb1], by rw [h2, hb2], by rw [h3, hb3], ?_⟩
          intro x hx
          rcases List.mem_cons.1 hx with rfl | hx
          · simp; omega
          · rw [← hb1]; exact h4 x hx
        · right
          refine ⟨k + 1, r', d', by simpa using hk, h1, by omega, by rw [h3]; congr 1; omega, h4, ?_, ?_⟩
          · intro x hx
            rcases List.mem_cons.1 hx with rfl | hx
            · simp; omega
            · exact h5 x hx
          · intro j x hj hx
            cases j with
            | zero => simp at hx; subst hx; simp; omega
            | succ j => exact h6 j x (by omega) (by simpa using hx)
      have e1 : (if res > DEFAULT then { a with applied := a.applied ++ [i] } else a).maxDecision = a.maxDecision := by
        split <;> rfl
      rw [if_neg (by rw [e1]; exact h)]
      apply key
      · exact e1
      · split <;> rfl
      · split <;> rfl

theorem aggregate_applied : ∀ (l : List (Nat × Str)) (i : Nat) (a : Agg),
    ∃ new, (aggregate i a l).applied = a.applied ++ new ∧ new.Pairwise (· < ·) ∧
      (∀ x ∈ new, i ≤ x) ∧ ∀ k, (i + k) ∈ new ↔ ∃ x, l[k]? = some x ∧ x.1 ≠ DEFAULT
  | [], i, a => ⟨[], by simp [aggregate]⟩
  | (res, desc) :: l, i, a => by
    simp only [aggregate]
    generalize hb : (if res > DEFAULT then { a with applied := a.applied ++ [i] } else a) = b
    have e1 : (if res > b.maxDecision then
        { b with maxDecision := res, description := desc, relevant := (i : Int) } else b).applied = b.applied := by
      split <;> rfl
    obtain ⟨new, h1, h2, h3, h4⟩ := aggregate_applied l (i + 1) (if res > b.maxDecision then
        { b with maxDecision := res, description := desc, relevant := (i : Int) } else b)
    rw [h1, e1]
    have hi : i ∉ new := fun hm => by have := h3 _ hm; omega
    have hk : ∀ k, (i + (k + 1)) ∈ new ↔ ∃ x, l[k]? = some x ∧ x.1 ≠ DEFAULT := by
      intro k
      have := h4 k
      rw [← this]
      have : i + (k + 1) = i + 1 + k := by omega
      rw [this]
    by_cases hr : res > DEFAULT
    · simp only [hr, if_true] at hb; subst hb
      refine ⟨i :: new, by simp, ?_, ?_, ?_⟩
      · simp only [List.pairwise_cons]; exact ⟨fun x hx => by have := h3 x hx; omega, h2⟩
      · intro x hx
        rcases List.mem_cons.1 hx with rfl | hx
        · exact Nat.le_refl _
        · have := h3 x hx; omega
      · intro k
        cases k with
        | zero => simp only [DEFAULT] at hr ⊢; simp; omega
        | succ k => simp only [List.mem_cons, List.getElem?_cons_succ, hk k]; constructor
                    · rintro (h | h)
                      · omega
                      · exact h
                    · exact Or.inr
    · simp only [hr, if_false] at hb; subst hb
      refine ⟨new, rfl, h2, fun x hx => by have := h3 x hx; omega, ?_⟩
      intro k
      cases k with
      | zero => simp only [DEFAULT] at hr ⊢; simp [hi]; omega
      | succ k => simpa using hk k

end Mapl

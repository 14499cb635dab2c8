import Verif.Props.Memory
import Verif.Props.Decision

/-! # C01, C04 and C05 for documents in memory: what `Check` makes of the results of the rules does not depend on documents -/

namespace Mapl.Props
open Spec

variable {env : MemEnv} {g : Predef} {mm : MMsg} {mem : Mem} {rs : List RuleObj} {o : CheckOutM}

theorem ruleM_rank {p : List Nat} {r : RuleObj} {o : RuleOutM} (h : r.checkM env g p mm mem = .ok o) : ∃ d : Decision, o.result = d.rank := by
  unfold RuleObj.checkM at h
  rw [Go.bind_eq_ok] at h
  obtain ⟨r1, -, h⟩ := h
  rw [Go.bind_eq_ok] at h
  obtain ⟨rule, -, h⟩ := h
  rw [Go.bind_eq_ok] at h
  obtain ⟨b1, -, h⟩ := h
  split at h
  · cases h; exact ⟨.default, rfl⟩
  rw [Go.bind_eq_ok] at h
  obtain ⟨b2, -, h⟩ := h
  split at h
  · cases h; exact ⟨.default, rfl⟩
  rw [Go.bind_eq_ok] at h
  obtain ⟨b3, -, h⟩ := h
  split at h
  · cases h; exact ⟨.default, rfl⟩
  rw [Go.bind_eq_ok] at h
  obtain ⟨b4, -, h⟩ := h
  split at h
  · cases h; exact ⟨.default, rfl⟩
  split at h
  all_goals
    rw [Go.bind_eq_ok] at h
    obtain ⟨x, -, h⟩ := h
    dsimp only at h
    split at h
    · cases h; exact ⟨.default, rfl⟩
    · cases h; exact decisionCode_rank _

theorem checkRulesM_ranks : ∀ (rs : List RuleObj) (i : Nat) (mm : MMsg) (mem : Mem) (x : List (Nat × List Extra) × MMsg × Mem), checkRulesM env g i mm mem rs = .ok x →
    ∃ ds : List Decision, x.1.map (·.1) = ds.map Decision.rank ∧ ds.length = rs.length
  | [], _, _, _, x, h => by rw [checkRulesM] at h; cases h; exact ⟨[], rfl, rfl⟩
  | r :: rs, i, mm, mem, x, h => by
    rw [checkRulesM, Go.bind_eq_ok] at h
    obtain ⟨o, h1, h⟩ := h
    rw [Go.bind_eq_ok] at h
    obtain ⟨y, h2, h⟩ := h
    cases h
    obtain ⟨d, hd⟩ := ruleM_rank h1
    obtain ⟨ds, e1, e2⟩ := checkRulesM_ranks rs _ _ _ _ h2
    exact ⟨d :: ds, by simp [hd, e1], by simp [e2]⟩

theorem checkM_inv (h : checkM env g mm mem rs = .ok o) :
    ∃ (outs : List (Nat × List Extra)) (ds : List Decision), outs.map (·.1) = ds.map Decision.rank ∧ ds.length = rs.length ∧ ∃ a, a = aggregate 0 {} ((outs.map (·.1)).zip (rs.map describe)) ∧
      decisionNames[a.maxDecision]? = some o.out.decisionString ∧ o.out.decision = a.maxDecision ∧
      o.out.relevantRuleIndex = a.relevant ∧ o.out.results = outs.map (·.1) ∧ o.out.appliedRulesIndices = a.applied ∧ o.out.ruleDescription = a.description := by
  simp only [checkM, Go.bind_eq_ok] at h
  obtain ⟨⟨outs, mm', mem'⟩, h1, h⟩ := h
  obtain ⟨ds, e1, e2⟩ := checkRulesM_ranks _ _ _ _ _ h1
  refine ⟨outs, ds, e1, e2, _, rfl, ?_⟩
  split at h
  · simp at h
  · next name hn =>
    simp at h; subst h
    exact ⟨hn, rfl, rfl, rfl, rfl, rfl⟩

/-- **C01**, documents in memory, without restrictions: the decision is the most severe of the results of the rules, in the order in which they were checked. -/
theorem C01_memory (h : checkM env g mm mem rs = .ok o) :
    ∃ ds : List Decision, o.out.results = ds.map Decision.rank ∧ ds.length = rs.length ∧
      ∃ d, o.out.decision = d.rank ∧ o.out.decisionString = d.text ∧ MostSevere ds d := by
  obtain ⟨outs, ds, hds, hlen, a, ha, hn, hd, _, hr, _, _⟩ := checkM_inv h
  rw [hds] at hr ha
  refine ⟨ds, hr, hlen, ?_⟩
  have hzip : ∀ x ∈ ds, ∃ y ∈ (ds.map Decision.rank).zip (rs.map describe), y.1 = x.rank := by
    intro x hx
    obtain ⟨k, hk', rfl⟩ := List.mem_iff_getElem.1 hx
    have : k < ((ds.map Decision.rank).zip (rs.map describe)).length := by simp; omega
    exact ⟨_, List.getElem_mem this, by simp⟩
  rcases aggregate_spec ((ds.map Decision.rank).zip (rs.map describe)) 0 {} with
    ⟨h1, h2, h3, h4⟩ | ⟨k, res, desc, hk, h1, h2, h3, h4, h5, h6⟩
  · rw [ha, h1] at hn hd
    refine ⟨.default, hd, ?_, Or.inl rfl, ?_⟩
    · simp [decisionNames] at hn; exact hn.symm
    · intro x hx
      obtain ⟨y, hy, hxy⟩ := hzip x hx
      rw [← hxy]; exact h4 y hy
  · rw [ha, h1] at hn hd
    have := (List.of_mem_zip (List.mem_of_getElem? hk)).1
    simp at this
    obtain ⟨d, hd', rfl⟩ := this
    refine ⟨d, hd, ?_, Or.inr hd', ?_⟩
    · cases d <;> simp [decisionNames, Decision.rank] at hn <;> exact hn.symm
    · intro x hx
      obtain ⟨y, hy, hxy⟩ := hzip x hx
      rw [← hxy]; exact h5 y hy

/-- **C04**, documents in memory, without restrictions. -/
theorem C04_memory (h : checkM env g mm mem rs = .ok o) :
    (o.out.decision = Decision.default.rank → o.out.relevantRuleIndex = -1 ∧ o.out.ruleDescription = []) ∧
    (o.out.decision ≠ Decision.default.rank → ∃ (i : Nat) (r : RuleObj), o.out.relevantRuleIndex = i ∧ rs[i]? = some r ∧
      o.out.results[i]? = some o.out.decision ∧ (∀ j < i, o.out.results[j]? ≠ some o.out.decision) ∧
      o.out.ruleDescription = (lookup gs"description" r.body.metadata).getD []) := by
  obtain ⟨outs, ds, hds, hlen, a, ha, hn, hd, hrel, hr, _, hdesc⟩ := checkM_inv h
  have hl : outs.length = rs.length := by have := congrArg List.length hds; simp at this; omega
  rw [hd, hrel, hdesc, hr, ha]
  rcases aggregate_spec ((outs.map (·.1)).zip (rs.map describe)) 0 {} with
    ⟨h1, h2, h3, h4⟩ | ⟨k, res, desc, hk, h1, h2, h3, h4, h5, h6⟩
  · rw [h1, h2, h3]
    exact ⟨fun _ => ⟨rfl, rfl⟩, fun hc => absurd rfl hc⟩
  · rw [h1, h3, h4]
    refine ⟨fun hc => ?_, fun _ => ?_⟩
    · exfalso; simp only [Decision.rank] at hc; omega
    · have hk' := List.getElem?_eq_some_iff.1 hk
      obtain ⟨hlt, hval⟩ := hk'
      simp only [List.length_zip, List.length_map] at hlt
      have hlt1 : k < outs.length := by omega
      have hlt2 : k < rs.length := by omega
      simp only [List.getElem_zip, List.getElem_map, Prod.mk.injEq] at hval
      refine ⟨k, rs[k], by simp, List.getElem?_eq_getElem hlt2, ?_, ?_, ?_⟩
      · simp [hlt1, hval.1]
      · intro j hj hc
        have hj1 : j < outs.length := by omega
        have hj2 : j < rs.length := by omega
        have := h6 j (outs[j].1, describe rs[j]) hj (by
          rw [List.getElem?_eq_getElem (by simp; omega)]; simp)
        simp [hj1] at hc
        simp only at this
        omega
      · rw [← hval.2]; rfl

/-- **C05**, documents in memory, without restrictions. -/
theorem C05_memory (h : checkM env g mm mem rs = .ok o) :
    o.out.results.length = rs.length ∧ (∀ x ∈ o.out.results, ∃ d : Decision, x = d.rank) ∧
    o.out.appliedRulesIndices.Pairwise (· < ·) ∧
    ∀ i, i ∈ o.out.appliedRulesIndices ↔ ∃ x, o.out.results[i]? = some x ∧ x ≠ Decision.default.rank := by
  obtain ⟨outs, ds, hds, hlen, a, ha, hn, hd, hrel, hr, happ, hdesc⟩ := checkM_inv h
  have hl : outs.length = rs.length := by have := congrArg List.length hds; simp at this; omega
  obtain ⟨new, n1, n2, n3, n4⟩ := aggregate_applied ((outs.map (·.1)).zip (rs.map describe)) 0 {}
  rw [happ, ha, n1]
  refine ⟨by rw [hr]; simpa using hl, ?_, by simpa using n2, ?_⟩
  · rw [hr, hds]; intro x hx
    simp only [List.mem_map] at hx
    obtain ⟨d, _, rfl⟩ := hx
    exact ⟨d, rfl⟩
  · intro i
    have := n4 i
    simp only [Nat.zero_add] at this
    simp only [List.nil_append, this, hr]
    constructor
    · rintro ⟨x, hx, hne⟩
      obtain ⟨hlt, hval⟩ := List.getElem?_eq_some_iff.1 hx
      simp only [List.length_zip, List.length_map] at hlt
      refine ⟨x.1, ?_, hne⟩
      rw [← hval]; simp
      exact ⟨_, List.getElem?_eq_getElem (by omega)⟩
    · rintro ⟨x, hx, hne⟩
      obtain ⟨hlt, hval⟩ := List.getElem?_eq_some_iff.1 hx
      simp only [List.length_map] at hlt
      refine ⟨(x, describe (rs[i]'(by omega))), ?_, hne⟩
      rw [List.getElem?_eq_getElem (by simp; omega)]
      simp [← hval]

/-- Non-vacuity: a check that overwrites its document. -/
example : ∃ o, checkM memEnv {} request bytes [blockX gs"9", blockC, blockX gs"2"] = .ok o ∧ o.out.results.length = 3 := by
  cases h : checkM memEnv {} request bytes [blockX gs"9", blockC, blockX gs"2"] with
  | ok o => exact ⟨o, rfl, (C05_memory h).1⟩
  | error e => exact absurd (congrArg summaryM h) (by show summaryM _ ≠ none; decide +kernel)

end Mapl.Props

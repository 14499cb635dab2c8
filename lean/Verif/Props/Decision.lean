import Verif.Lemmas.Decision
import Verif.Demo

/-!
# C01–C08: the decision of `Check`

`check env global m rules = .ok out` reads "`Check` returned `out`"; panics are the subject of C32.
`env` is one execution (one choice of map iteration orders); `Run env env'` says that `env'` is another one.
-/

namespace Mapl.Props

open Spec

variable {env : Env} {g : Predef} {m : Msg} {rs : List RuleObj} {out : CheckOut}

/-- **C01.** The decision is the most severe of the verdicts on the single rules, `default` exactly when all of them
are `default`; the decision string is its name. -/
theorem C01_most_severe_wins (ho : env.OrdOk) (h : check env g m rs = .ok out) :
    ∃ (vs : List (Decision × List Extra)) (d : Decision),
      List.Forall₂ (fun r v => Verdict env g m r v.1 v.2) rs vs ∧ out.results = vs.map (·.1.rank) ∧
      out.decision = d.rank ∧ out.decisionString = d.text ∧ MostSevere (vs.map (·.1)) d ∧
      (d = .default ↔ ∀ v ∈ vs, v.1 = .default) := by
  obtain ⟨vs, h1, _, h3⟩ := check_verdicts ho h
  obtain ⟨ds, h4, _, d, h5, h6, h7⟩ := check_summary h
  have : ds = vs.map (·.1) := map_rank_inj (by rw [← h4, h1]; simp [Function.comp_def])
  subst this
  refine ⟨vs, d, h3, h1, h5, h6, h7, ?_⟩
  obtain ⟨h8, h9⟩ := h7
  constructor
  · rintro rfl v hv
    have := h9 v.1 (List.mem_map_of_mem hv)
    apply rank_inj
    simp only [Decision.rank] at this ⊢
    omega
  · intro hall
    rcases h8 with h8 | h8
    · exact h8
    · simp only [List.mem_map] at h8
      obtain ⟨v, hv, rfl⟩ := h8
      exact hall v hv

/-- Three rules (allow, block under AND/ANY, alert under ALL): the results are 1, 3, 0 and the decision is 3. -/
example : Demo.env.OrdOk ∧ ∃ out, check Demo.env {} Demo.msgI Demo.rules = .ok out ∧ out.results = [1, 3, 0] ∧
    out.decision = 3 :=
  ⟨Demo.env_ordOk, by obtain ⟨o, h1, h2, h3⟩ := Demo.check_ok; exact ⟨o, h1, h3, h2⟩⟩

/-- **C02.** If rule `r` in the list blocks the message whenever it is checked alone, `Check` blocks the message. -/
theorem C02_block_overrides (ho : env.OrdOk) (h : check env g m rs = .ok out) {r : RuleObj} (hr : r ∈ rs)
    (hb : ∀ d e, Verdict env g m r d e → d = .block) : out.decision = Decision.block.rank ∧ out.decisionString = gs"block" := by
  obtain ⟨vs, d, h1, _, h2, h3, h4, _⟩ := C01_most_severe_wins ho h
  obtain ⟨k, hk, rfl⟩ := List.mem_iff_getElem.1 hr
  have hk' : k < vs.length := h1.length_eq ▸ hk
  have := hb _ _ (h1.get hk hk')
  have hb := h4.2 vs[k].1 (List.mem_map_of_mem (List.getElem_mem hk'))
  simp at this
  have hd : d = .block := by
    rw [this] at hb
    cases d <;> simp_all [Decision.rank]
  subst hd
  exact ⟨h2, h3⟩

/-- The rule that blocks everything satisfies the hypothesis. -/
example : ∀ d e, Verdict Demo.env {} Demo.msgI (Demo.rule gs"block") d e → d = .block := by
  rintro d e ⟨env', p, o, hr, h, hd, _⟩
  obtain ⟨ext', ord⟩ := env'
  have : ext' = Demo.ext := hr.ext
  subst this
  have hb := Demo.block_always ord p
  rw [h] at hb
  simp [Except.map] at hb
  rw [hb] at hd
  exact rank_inj hd.symm

/-- **C02** in terms of the reported results: one `block` among them makes the decision `block`. -/
theorem C02_block_result_overrides (h : check env g m rs = .ok out) (hb : Decision.block.rank ∈ out.results) :
    out.decision = Decision.block.rank ∧ out.decisionString = gs"block" := by
  obtain ⟨ds, h4, _, d, h5, h6, h7⟩ := check_summary h
  rw [h4] at hb
  simp only [List.mem_map] at hb
  obtain ⟨x, hx, hxb⟩ := hb
  have := h7.2 x hx
  rw [hxb] at this
  have hd : d = .block := by cases d <;> simp_all [Decision.rank]
  subst hd
  exact ⟨h5, h6⟩

example : ∃ out, check Demo.env {} Demo.msgI Demo.rules = .ok out ∧ Decision.block.rank ∈ out.results := by
  obtain ⟨o, h1, _, h3⟩ := Demo.check_ok; exact ⟨o, h1, by rw [h3]; decide⟩

/-- **C03.** For every execution on one order of the rules there is an execution on any other order with the same
decision and the same results up to that reordering: the order of the rules decides nothing. -/
theorem C03_rule_order (ho : env.OrdOk) {rs' : List RuleObj} (hp : rs.Perm rs') (h : check env g m rs = .ok out) :
    ∃ env' out', Run env env' ∧ check env' g m rs' = .ok out' ∧ out'.decision = out.decision ∧
      out'.decisionString = out.decisionString ∧ out'.results.Perm out.results := by
  obtain ⟨vs, h1, _, h3⟩ := check_verdicts ho h
  obtain ⟨vs', hv, hp'⟩ := List.perm_comp_forall₂ hp.symm h3
  obtain ⟨env', out', h5, h6, h7, _⟩ := check_of_verdicts ho hv
  obtain ⟨ds, e1, _, d, e2, e3, e4⟩ := check_summary h
  obtain ⟨ds', f1, _, d', f2, f3, f4⟩ := check_summary h6
  have hres : out'.results.Perm out.results := by rw [h1, h7]; exact hp'.map _
  have : ds = vs.map (·.1) := map_rank_inj (by rw [← e1, h1]; simp [Function.comp_def])
  subst this
  have : ds' = vs'.map (·.1) := map_rank_inj (by rw [← f1, h7]; simp [Function.comp_def])
  subst this
  have hd : d' = d := by
    apply mostSevere_unique f4
    have hperm := hp'.map (·.1)
    refine ⟨?_, fun x hx => e4.2 x (hperm.mem_iff.1 hx)⟩
    rcases e4.1 with h | h
    · exact Or.inl h
    · exact Or.inr (hperm.mem_iff.2 h)
  subst hd
  exact ⟨env', out', h5, h6, by rw [e2, f2], by rw [e3, f3], hres⟩

example : Demo.rules.Perm Demo.rules.reverse := (List.reverse_perm _).symm

/-- **C03**, executions compared one by one: if the verdict on every single rule is determined (see C24 for when it
is), any two executions on reordered lists decide alike. -/
theorem C03_rule_order_determined (ho : env.OrdOk) {env' : Env} (hrun : Run env env') {rs' : List RuleObj}
    (hp : rs.Perm rs') {out' : CheckOut} (hdet : ∀ r ∈ rs, Determined env g m r)
    (h : check env g m rs = .ok out) (h' : check env' g m rs' = .ok out') :
    out'.decision = out.decision ∧ out'.results.Perm out.results := by
  obtain ⟨env'', out'', _, h2, h3, _, h5⟩ := C03_rule_order ho hp h
  have hr'' : Run env env'' := by assumption
  have : out''.results = out'.results ∧ out''.decision = out'.decision := by
    obtain ⟨vs, e1, _, e3⟩ := check_verdicts hr''.ord h2
    obtain ⟨vs', f1, _, f3⟩ := check_verdicts hrun.ord h'
    have hds : vs.map (·.1) = vs'.map (·.1) := by
      have lift : ∀ {l : List RuleObj} {w : List (Decision × List Extra)},
          List.Forall₂ (fun r v => Verdict env g m r v.1 v.2) l w →
          List.Forall₂ (fun r d => ∃ e, Verdict env g m r d e) l (w.map (·.1)) := by
        intro l w hw
        rw [List.forall₂_map_right_iff]
        exact hw.imp fun r v hv => ⟨v.2, hv⟩
      apply forall₂_unique ?_ (lift (e3.imp fun _ _ => verdict_run hr'')) (lift (f3.imp fun _ _ => verdict_run hrun))
      rintro r hr y z ⟨e, hy⟩ ⟨e', hz⟩
      exact hdet r (hp.mem_iff.2 hr) _ _ _ _ hy hz
    have hres : out''.results = out'.results := by
      rw [e1, f1]
      have := congrArg (List.map Decision.rank) hds
      simpa [Function.comp_def] using this
    refine ⟨hres, ?_⟩
    obtain ⟨ds, e1, _, d, e2, _, e4⟩ := check_summary h2
    obtain ⟨ds', f1, _, d', f2, _, f4⟩ := check_summary h'
    rw [e1, f1] at hres
    have := map_rank_inj hres
    subst this
    rw [e2, f2, mostSevere_unique e4 f4]
  exact ⟨by rw [← this.2, h3], by rw [← this.1]; exact h5⟩

/-- A rule without conditions is determined. -/
example : Determined Demo.env {} Demo.msgI (Demo.rule gs"allow") := by
  have key : ∀ d e, Verdict Demo.env {} Demo.msgI (Demo.rule gs"allow") d e → d = .allow ∧ e = [] := by
    rintro d e ⟨env', p, o, hr, h, hd, he⟩
    obtain ⟨ext', ord⟩ := env'
    have : ext' = Demo.ext := hr.ext
    subst this
    have hb := Demo.allow_always ord p
    rw [h] at hb
    simp [Except.map] at hb
    rw [hb.1] at hd
    exact ⟨rank_inj hd.symm, by rw [← he, hb.2]⟩
  intro d e d' e' h h'
  obtain ⟨rfl, rfl⟩ := key _ _ h
  obtain ⟨rfl, rfl⟩ := key _ _ h'
  rfl

/-- **C04.** The reported rule is the first one whose result is the decision, together with its description. -/
theorem C04_relevant_rule (h : check env g m rs = .ok out) :
    (out.decision = Decision.default.rank → out.relevantRuleIndex = -1 ∧ out.ruleDescription = []) ∧
    (out.decision ≠ Decision.default.rank → ∃ (i : Nat) (r : RuleObj), out.relevantRuleIndex = i ∧ rs[i]? = some r ∧
      out.results[i]? = some out.decision ∧ (∀ j < i, out.results[j]? ≠ some out.decision) ∧
      out.ruleDescription = (lookup gs"description" r.body.metadata).getD []) := by
  obtain ⟨outs, h1, a, ha, hn, hd, hrel, hr, _, hdesc, _, _⟩ := check_inv h
  obtain ⟨_, hl, hk⟩ := (checkRules_ok rs 0 _).1 h1
  simp only at hl hk
  rw [hd, hrel, hdesc, hr, ha]
  rcases aggregate_spec ((outs.map (·.1)).zip (rs.map describe)) 0 {} with
    ⟨h1, h2, h3, h4⟩ | ⟨k, res, desc, hk, h1, h2, h3, h4, h5, h6⟩
  · rw [h1, h2, h3]
    exact ⟨fun _ => ⟨rfl, rfl⟩, fun hc => absurd rfl hc⟩
  · rw [h1, h3, h4]
    refine ⟨fun hc => ?_, fun _ => ?_⟩
    · exfalso; simp only [Decision.rank] at hc; omega
    · have hk' := List.getElem?_eq_some_iff.1 hk
      obtain ⟨hlt, hval⟩ := hk'
      simp only [List.length_zip, List.length_map] at hlt
      have hlt1 : k < outs.length := by omega
      have hlt2 : k < rs.length := by omega
      simp only [List.getElem_zip, List.getElem_map, Prod.mk.injEq] at hval
      refine ⟨k, rs[k], by simp, List.getElem?_eq_getElem hlt2, ?_, ?_, ?_⟩
      · simp [hlt1, hval.1]
      · intro j hj hc
        have hj1 : j < outs.length := by omega
        have hj2 : j < rs.length := by omega
        have := h6 j (outs[j].1, describe rs[j]) hj (by
          rw [List.getElem?_eq_getElem (by simp; omega)]; simp)
        simp [hj1] at hc
        simp only at this
        omega
      · rw [← hval.2]; rfl

/-- **C05.** One result per rule, each of them one of the four; the applied indices are exactly those of the non-default
results, in increasing order. -/
theorem C05_applied_rules (h : check env g m rs = .ok out) :
    out.results.length = rs.length ∧ (∀ x ∈ out.results, ∃ d : Decision, x = d.rank) ∧
    out.appliedRulesIndices.Pairwise (· < ·) ∧
    ∀ i, i ∈ out.appliedRulesIndices ↔ ∃ x, out.results[i]? = some x ∧ x ≠ Decision.default.rank := by
  obtain ⟨outs, h1, a, ha, hn, hd, hrel, hr, happ, hdesc, _, _⟩ := check_inv h
  obtain ⟨_, hl, hk⟩ := (checkRules_ok rs 0 _).1 h1
  obtain ⟨ds, e1, e2, _⟩ := check_summary h
  simp only at hl
  obtain ⟨new, n1, n2, n3, n4⟩ := aggregate_applied ((outs.map (·.1)).zip (rs.map describe)) 0 {}
  rw [happ, ha, n1]
  refine ⟨by rw [hr]; simpa using hl, ?_, by simpa using n2, ?_⟩
  · rw [e1]; intro x hx
    simp only [List.mem_map] at hx
    obtain ⟨d, _, rfl⟩ := hx
    exact ⟨d, rfl⟩
  · intro i
    have := n4 i
    simp only [Nat.zero_add] at this
    simp only [List.nil_append, this, hr]
    constructor
    · rintro ⟨x, hx, hne⟩
      obtain ⟨hlt, hval⟩ := List.getElem?_eq_some_iff.1 hx
      simp only [List.length_zip, List.length_map] at hlt
      refine ⟨x.1, ?_, hne⟩
      rw [← hval]; simp
      exact ⟨_, List.getElem?_eq_getElem (by omega)⟩
    · rintro ⟨x, hx, hne⟩
      obtain ⟨hlt, hval⟩ := List.getElem?_eq_some_iff.1 hx
      simp only [List.length_map] at hlt
      refine ⟨(x, describe (rs[i]'(by omega))), ?_, hne⟩
      rw [List.getElem?_eq_getElem (by simp; omega)]
      simp [← hval]

/-- **C06.** Every execution on a list is, apart from the inserted rule, an execution on the list without it whose
decision is not more severe (so removal never makes the decision more severe) … -/
theorem C06_removing_weakens (ho : env.OrdOk) {l1 l2 : List RuleObj} {r : RuleObj}
    (h : check env g m (l1 ++ r :: l2) = .ok out) :
    ∃ env' out', Run env env' ∧ check env' g m (l1 ++ l2) = .ok out' ∧ out'.decision ≤ out.decision ∧
      out.results = out'.results.take l1.length ++ (out.results[l1.length]?).toList ++ out'.results.drop l1.length := by
  obtain ⟨vs, h1, _, h3⟩ := check_verdicts ho h
  obtain ⟨v1, v2, h4, h5, rfl⟩ := forall₂_append_left h3
  cases h5 with
  | @cons _ v _ v2' hv h5 =>
  obtain ⟨env', out', g1, g2, g3, _⟩ := check_of_verdicts ho (List.rel_append h4 h5)
  refine ⟨env', out', g1, g2, ?_, ?_⟩
  · obtain ⟨ds, e1, _, d, e2, e3, e4⟩ := check_summary h
    obtain ⟨ds', f1, _, d', f2, f3, f4⟩ := check_summary g2
    have : ds = (v1 ++ v :: v2').map (·.1) := map_rank_inj (by rw [← e1, h1]; simp [Function.comp_def])
    subst this
    have : ds' = (v1 ++ v2').map (·.1) := map_rank_inj (by rw [← f1, g3]; simp [Function.comp_def])
    subst this
    rw [e2, f2]
    rcases f4.1 with rfl | hm
    · simp [Decision.rank]
    · apply e4.2
      simp only [List.map_append, List.mem_append, List.map_cons, List.mem_cons] at hm ⊢
      tauto
  · rw [h1, g3, h4.length_eq]
    simp

/-- **C06** … and every execution on a list extends, for any verdict the inserted rule can have, to an execution on the
longer list whose decision is at least as severe. -/
theorem C06_inserting_strengthens (ho : env.OrdOk) {l1 l2 : List RuleObj} {r : RuleObj}
    (h : check env g m (l1 ++ l2) = .ok out) {d : Decision} {e : List Extra} (hv : Verdict env g m r d e) :
    ∃ env' out', Run env env' ∧ check env' g m (l1 ++ r :: l2) = .ok out' ∧ out.decision ≤ out'.decision ∧
      d.rank ≤ out'.decision ∧
      out'.results = out.results.take l1.length ++ d.rank :: out.results.drop l1.length := by
  obtain ⟨vs, h1, _, h3⟩ := check_verdicts ho h
  obtain ⟨v1, v2, h4, h5, rfl⟩ := forall₂_append_left h3
  obtain ⟨env', out', g1, g2, g3, _⟩ := check_of_verdicts ho (List.rel_append h4 (.cons (b := (d, e)) hv h5))
  refine ⟨env', out', g1, g2, ?_, ?_, ?_⟩
  · obtain ⟨ds, e1, _, d1, e2, e3, e4⟩ := check_summary h
    obtain ⟨ds', f1, _, d', f2, f3, f4⟩ := check_summary g2
    have : ds = (v1 ++ v2).map (·.1) := map_rank_inj (by rw [← e1, h1]; simp [Function.comp_def])
    subst this
    have : ds' = (v1 ++ (d, e) :: v2).map (·.1) := map_rank_inj (by rw [← f1, g3]; simp [Function.comp_def])
    subst this
    rw [e2, f2]
    rcases e4.1 with rfl | hm
    · simp [Decision.rank]
    · apply f4.2
      simp only [List.map_append, List.mem_append, List.map_cons, List.mem_cons] at hm ⊢
      tauto
  · obtain ⟨ds', f1, _, d', f2, f3, f4⟩ := check_summary g2
    have : ds' = (v1 ++ (d, e) :: v2).map (·.1) := map_rank_inj (by rw [← f1, g3]; simp [Function.comp_def])
    subst this
    rw [f2]
    apply f4.2
    simp
  · rw [h1, g3, h4.length_eq]
    simp

example : Verdict Demo.env {} Demo.msgI (Demo.rule gs"allow") .allow [] :=
  ⟨Demo.env, [], _, ⟨rfl, Demo.env_ordOk⟩, rfl, rfl, rfl⟩

/-- **C06** for determined rules: any two executions, with and without the additional rule. -/
theorem C06_monotone_determined (ho : env.OrdOk) {env' : Env} (hrun : Run env env') {l1 l2 : List RuleObj} {r : RuleObj}
    {out' : CheckOut} (hdet : ∀ x ∈ l1 ++ l2, Determined env g m x)
    (h : check env g m (l1 ++ l2) = .ok out) (h' : check env' g m (l1 ++ r :: l2) = .ok out') :
    out.decision ≤ out'.decision := by
  obtain ⟨env'', out'', h1, h2, h3, _⟩ := C06_removing_weakens hrun.ord h'
  have hrun'' : Run env env'' := ⟨h1.ext.trans hrun.ext, h1.ord⟩
  have := C03_rule_order_determined ho hrun'' (List.Perm.refl _) hdet h h2
  rw [← this.1]; exact h3

/-- **C07.** The result and the extra data reported for rule number `i` are a verdict on that rule alone. -/
theorem C07_rules_independent (ho : env.OrdOk) (h : check env g m rs = .ok out) :
    out.results.length = rs.length ∧ out.extraData.length = rs.length ∧
    ∀ (i : Nat) (r : RuleObj), rs[i]? = some r → ∃ (d : Decision) (e : List Extra), out.results[i]? = some d.rank ∧ out.extraData[i]? = some e ∧
      Verdict env g m r d e := by
  obtain ⟨vs, h1, h2, h3⟩ := check_verdicts ho h
  have hl := h3.length_eq
  refine ⟨by rw [h1]; simp [hl], by rw [h2]; simp [hl], ?_⟩
  intro i r hi
  obtain ⟨hlt, rfl⟩ := List.getElem?_eq_some_iff.1 hi
  have hlt' : i < vs.length := hl ▸ hlt
  exact ⟨_, _, by rw [h1]; simp [hlt'], by rw [h2]; simp [hlt'], h3.get hlt hlt'⟩

/-- **C07**, the other direction: whatever the single rules can do alone they can do together. -/
theorem C07_verdicts_combine (ho : env.OrdOk) {vs : List (Decision × List Extra)}
    (h : List.Forall₂ (fun r v => Verdict env g m r v.1 v.2) rs vs) :
    ∃ env' out, Run env env' ∧ check env' g m rs = .ok out ∧ out.results = vs.map (·.1.rank) ∧
      out.extraData = vs.map (·.2) := check_of_verdicts ho h

/-- **C08.** `Check` returns with the message it was given. -/
theorem C08_message_unchanged (h : check env g m rs = .ok out) : out.msg = m :=
  (check_inv h).choose_spec.2.choose_spec.2.2.2.2.2.2.2.2

/-- **C08.** `rule.Check` returns with the message it was given and leaves everything written in the rule alone. -/
theorem C08_one_rule_unchanged {p : List Nat} {r : RuleObj} {o : RuleOut} (h : r.check env g p m = .ok o) :
    o.msg = m ∧ o.rule.body = r.body := ⟨ruleCheck_msg h, ruleCheck_body h⟩

/-- **C08.** Checking a rule that has been prepared changes nothing in it, cached fields included; this is what makes
it harmless that the copies of rules inside `Check` share the prepared rule with the caller. -/
theorem C08_prepared_rule_unchanged {p : List Nat} {r : RuleObj} {o : RuleOut} {rule : Rule} (hr : r.ready = true)
    (hp : r.prepared = some rule) (hc : rule.converted = true) (h : r.check env g p m = .ok o) : o.rule = r :=
  ruleCheck_ready_rule hr hp hc h

/-- Preparing the blocking rule of the examples gives such a rule. -/
example : ∃ r : RuleObj, ((Demo.rule gs"block").setPredefined Demo.env [] {}).map (·.1) = .ok r ∧ r.ready = true ∧
    (r.prepared.map (·.converted)) = some true := ⟨_, rfl, rfl, rfl⟩

end Mapl.Props

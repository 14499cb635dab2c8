import Verif.Lemmas.Aggregate
import Verif.Model.Mongo

/-! # Lemmas on the decision of `Check` -/

namespace Mapl

open Spec

variable {env : Env} {g : Predef} {m : Msg} {rs : List RuleObj} {out : CheckOut}

theorem check_inv (h : check env g m rs = .ok out) :
    ∃ outs : List (Nat × List Extra), checkRules env g 0 m rs = .ok (outs, m) ∧
      ∃ a, a = aggregate 0 {} ((outs.map (·.1)).zip (rs.map describe)) ∧
      decisionNames[a.maxDecision]? = some out.decisionString ∧ out.decision = a.maxDecision ∧
      out.relevantRuleIndex = a.relevant ∧ out.results = outs.map (·.1) ∧ out.appliedRulesIndices = a.applied ∧
      out.ruleDescription = a.description ∧ out.extraData = outs.map (·.2) ∧ out.msg = m := by
  simp only [check, Go.bind_eq_ok] at h
  obtain ⟨⟨outs, m'⟩, h1, h⟩ := h
  have hm : m' = m := (((checkRules_ok rs 0 _).1 h1)).1
  subst hm
  refine ⟨outs, h1, _, rfl, ?_⟩
  split at h
  · simp at h
  · next name hn =>
    simp at h; subst h
    exact ⟨hn, rfl, rfl, rfl, rfl, rfl, rfl, rfl⟩

/-- Every execution of `Check` is a list of executions of the single rules. -/
theorem check_verdicts (ho : env.OrdOk) (h : check env g m rs = .ok out) :
    ∃ vs : List (Decision × List Extra), out.results = vs.map (·.1.rank) ∧ out.extraData = vs.map (·.2) ∧
      List.Forall₂ (fun r v => Verdict env g m r v.1 v.2) rs vs := by
  obtain ⟨outs, h1, a, _, _, _, _, hr, _, _, he, _⟩ := check_inv h
  rw [hr, he]
  clear h hr he
  obtain ⟨_, hl, hk⟩ := (checkRules_ok rs 0 _).1 h1
  clear h1
  simp only at hl hk
  have gen : ∀ (rs : List RuleObj) (outs : List (Nat × List Extra)) (i : Nat), outs.length = rs.length →
      (∀ (k : Nat) (r : RuleObj), rs[k]? = some r → ∃ o : RuleOut, r.check env g [i + k] m = .ok o ∧
        outs[k]? = some (o.result, o.extra)) →
      ∃ vs : List (Decision × List Extra), outs.map (·.1) = vs.map (·.1.rank) ∧ outs.map (·.2) = vs.map (·.2) ∧
        List.Forall₂ (fun r v => Verdict env g m r v.1 v.2) rs vs := by
    intro rs
    induction rs with
    | nil => intro outs i hl _; simp at hl; subst hl; exact ⟨[], rfl, rfl, .nil⟩
    | cons r rs ih =>
      intro outs i hl hk
      cases outs with
      | nil => simp at hl
      | cons x outs =>
        obtain ⟨vs, h1, h2, h3⟩ := ih outs (i + 1) (by simpa using hl) (by
          intro k r' hr'
          obtain ⟨o, ho, hx⟩ := hk (k + 1) r' (by simpa using hr')
          exact ⟨o, by rw [← ho]; congr 2; omega, by simpa using hx⟩)
        obtain ⟨o, ho', hx⟩ := hk 0 r rfl
        simp at hx; subst hx
        obtain ⟨d, hd⟩ := ruleCheck_rank ho'
        exact ⟨(d, o.extra) :: vs, by simp [h1, hd], by simp [h2], .cons ⟨env, _, o, ⟨rfl, ho⟩, ho', hd, rfl⟩ h3⟩
  exact gen rs outs 0 hl hk

/-- Every list of executions of the single rules is an execution of `Check`. -/
theorem check_of_verdicts (ho : env.OrdOk) {vs : List (Decision × List Extra)}
    (h : List.Forall₂ (fun r v => Verdict env g m r v.1 v.2) rs vs) :
    ∃ env' out, Run env env' ∧ check env' g m rs = .ok out ∧ out.results = vs.map (·.1.rank) ∧
      out.extraData = vs.map (·.2) := by
  have hex : ∀ k : Nat, ∃ (E : Env) (q : List Nat), Run env E ∧ ∀ r v, rs[k]? = some r → vs[k]? = some v →
      ∃ o, r.check E g q m = .ok o ∧ o.result = v.1.rank ∧ o.extra = v.2 := by
    intro k
    by_cases hk : k < rs.length
    · have hk' : k < vs.length := h.length_eq ▸ hk
      obtain ⟨env', q, o, h1, h2⟩ := h.get hk hk'
      refine ⟨env', q, h1, ?_⟩
      intro r v hr hv
      rw [List.getElem?_eq_getElem hk] at hr
      rw [List.getElem?_eq_getElem hk'] at hv
      simp at hr hv; subst hr; subst hv
      exact ⟨o, h2⟩
    · refine ⟨env, [], ⟨rfl, ho⟩, ?_⟩
      intro r v hr _
      rw [List.getElem?_eq_none (by omega)] at hr
      simp at hr
  choose E q hE hq using hex
  let env' := combine env E q
  have hrun : Run env env' := ⟨rfl, combine_ordOk fun i => (hE i).ord⟩
  have hall : ∀ (k : Nat) (r : RuleObj) (v : Decision × List Extra), rs[k]? = some r → vs[k]? = some v →
      ∃ o : RuleOut, r.check env' g [k] m = .ok o ∧ o.result = v.1.rank ∧ o.extra = v.2 := by
    intro k r v hr hv
    obtain ⟨o, h1, h2⟩ := hq k r v hr hv
    exact ⟨o, by rw [ruleCheck_reroot (combine_reroot k (hE k).ext)]; exact h1, h2⟩
  have hc : checkRules env' g 0 m rs = .ok (vs.map (fun v => (v.1.rank, v.2)), m) := by
    rw [checkRules_ok]
    refine ⟨rfl, by simp [h.length_eq], ?_⟩
    intro k r hr
    have hk : k < vs.length := by rw [← h.length_eq]; exact (List.getElem?_eq_some_iff.1 hr).1
    obtain ⟨o, h1, h2, h3⟩ := hall k r vs[k] hr (List.getElem?_eq_getElem hk)
    exact ⟨o, by simpa using h1, by simp [h2, h3, hk]⟩
  have hmax : (aggregate 0 {} (((vs.map (fun v => (v.1.rank, v.2))).map (·.1)).zip (rs.map describe))).maxDecision ≤ 3 := by
    rcases aggregate_spec (((vs.map (fun v => (v.1.rank, v.2))).map (·.1)).zip (rs.map describe)) 0 {} with
      ⟨h1, _⟩ | ⟨k, res, desc, hk, h1, _⟩
    · rw [h1]; simp
    · rw [h1]
      have := List.mem_of_getElem? hk
      have := (List.of_mem_zip this).1
      simp at this
      obtain ⟨d, _, rfl⟩ := this
      cases d <;> simp [Decision.rank]
  obtain ⟨name, hn⟩ : ∃ name, decisionNames[(aggregate 0 {}
      (((vs.map (fun v => (v.1.rank, v.2))).map (·.1)).zip (rs.map describe))).maxDecision]? = some name := by
    have : (aggregate 0 {} (((vs.map (fun v => (v.1.rank, v.2))).map (·.1)).zip (rs.map describe))).maxDecision
        < decisionNames.length := Nat.lt_of_le_of_lt hmax (by decide)
    exact ⟨_, List.getElem?_eq_getElem this⟩
  obtain ⟨out, hout⟩ : ∃ out, check env' g m rs = .ok out := by
    simp only [check, hc, Go.ok_bind, hn, Go.pure_eq]
    exact ⟨_, rfl⟩
  obtain ⟨outs, h1, _, _, _, _, _, hr, _, _, he, _⟩ := check_inv hout
  rw [hc] at h1
  simp at h1
  refine ⟨env', out, hrun, hout, ?_, ?_⟩
  · rw [hr, ← h1]; simp
  · rw [he, ← h1]; simp

/-- What `Check` makes of the single results. -/
theorem check_summary (h : check env g m rs = .ok out) :
    ∃ ds : List Decision, out.results = ds.map Decision.rank ∧ ds.length = rs.length ∧
      ∃ d, out.decision = d.rank ∧ out.decisionString = d.text ∧ MostSevere ds d := by
  obtain ⟨outs, h1, a, ha, hn, hd, _, hr, _, _, he, _⟩ := check_inv h
  obtain ⟨_, hl, hk⟩ := (checkRules_ok rs 0 _).1 h1
  simp only at hl hk
  obtain ⟨ds, hds⟩ : ∃ ds : List Decision, outs.map (·.1) = ds.map Decision.rank := by
    have : ∀ x ∈ outs.map (·.1), ∃ d : Decision, d.rank = x := by
      intro x hx
      obtain ⟨k, hk', rfl⟩ := List.mem_iff_getElem.1 hx
      simp only [List.length_map] at hk'
      obtain ⟨o, ho, hx⟩ := hk k (rs[k]'(by omega)) (List.getElem?_eq_getElem _)
      obtain ⟨d, hd⟩ := ruleCheck_rank ho
      rw [List.getElem?_eq_getElem hk'] at hx
      simp at hx
      exact ⟨d, by simp [hx, hd]⟩
    generalize outs.map (·.1) = l at this
    clear hr hk hl h1 ha
    induction l with
    | nil => exact ⟨[], rfl⟩
    | cons x l ih =>
      obtain ⟨ds, hds⟩ := ih (fun y hy => this y (List.mem_cons_of_mem _ hy))
      obtain ⟨d, hd⟩ := this x (by simp)
      exact ⟨d :: ds, by simp [hds, hd]⟩
  have hlen : ds.length = rs.length := by
    have := congrArg List.length hds; simp at this; omega
  rw [hds] at hr ha
  refine ⟨ds, hr, hlen, ?_⟩
  have hzip : ∀ x ∈ ds, ∃ y ∈ (ds.map Decision.rank).zip (rs.map describe), y.1 = x.rank := by
    intro x hx
    obtain ⟨k, hk', rfl⟩ := List.mem_iff_getElem.1 hx
    have : k < ((ds.map Decision.rank).zip (rs.map describe)).length := by simp; omega
    exact ⟨_, List.getElem_mem this, by simp⟩
  rcases aggregate_spec ((ds.map Decision.rank).zip (rs.map describe)) 0 {} with
    ⟨h1, h2, h3, h4⟩ | ⟨k, res, desc, hk, h1, h2, h3, h4, h5, h6⟩
  · rw [ha, h1] at hn hd
    refine ⟨.default, hd, ?_, Or.inl rfl, ?_⟩
    · simp [decisionNames] at hn; exact hn.symm
    · intro x hx
      obtain ⟨y, hy, hxy⟩ := hzip x hx
      rw [← hxy]; exact h4 y hy
  · rw [ha, h1] at hn hd
    have := (List.of_mem_zip (List.mem_of_getElem? hk)).1
    simp at this
    obtain ⟨d, hd', rfl⟩ := this
    refine ⟨d, hd, ?_, Or.inr hd', ?_⟩
    · cases d <;> simp [decisionNames, Decision.rank] at hn <;> exact hn.symm
    · intro x hx
      obtain ⟨y, hy, hxy⟩ := hzip x hx
      rw [← hxy]; exact h5 y hy

theorem rank_inj {d d' : Decision} (h : d.rank = d'.rank) : d = d' := by
  cases d <;> cases d' <;> simp_all [Decision.rank]

theorem map_rank_inj {l l' : List Decision} (h : l.map Decision.rank = l'.map Decision.rank) : l = l' :=
  List.map_injective_iff.2 (fun _ _ => rank_inj) h

theorem mostSevere_unique {ds : List Decision} {d d' : Decision} (h : MostSevere ds d) (h' : MostSevere ds d') : d = d' := by
  apply rank_inj
  obtain ⟨h1, h2⟩ := h
  obtain ⟨h1', h2'⟩ := h'
  apply Nat.le_antisymm
  · rcases h1 with rfl | h1
    · simp [Decision.rank]
    · exact h2' _ h1
  · rcases h1' with rfl | h1'
    · simp [Decision.rank]
    · exact h2 _ h1'

theorem verdict_run {env' : Env} (hr : Run env env') {r : RuleObj} {d : Decision} {e : List Extra}
    (h : Verdict env' g m r d e) : Verdict env g m r d e := by
  obtain ⟨env'', p, o, h1, h2⟩ := h
  exact ⟨env'', p, o, ⟨h1.ext.trans hr.ext, h1.ord⟩, h2⟩

theorem forall₂_unique {α β : Type} {R : α → β → Prop} : ∀ {l : List α} {a b : List β},
    (∀ x ∈ l, ∀ y z, R x y → R x z → y = z) → List.Forall₂ R l a → List.Forall₂ R l b → a = b
  | [], _, _, _, .nil, .nil => rfl
  | x :: l, _, _, h, .cons h1 h2, .cons h3 h4 => by
    rw [h x (by simp) _ _ h1 h3, forall₂_unique (fun y hy => h y (List.mem_cons_of_mem _ hy)) h2 h4]

theorem forall₂_append_left {α β : Type} {R : α → β → Prop} : ∀ {l1 l2 : List α} {v : List β},
    List.Forall₂ R (l1 ++ l2) v → ∃ v1 v2, List.Forall₂ R l1 v1 ∧ List.Forall₂ R l2 v2 ∧ v = v1 ++ v2
  | [], _, v, h => ⟨[], v, .nil, h, rfl⟩
  | _ :: l1, l2, _, .cons (b := b) h1 h2 => by
    obtain ⟨v1, v2, h3, h4, rfl⟩ := forall₂_append_left h2
    exact ⟨b :: v1, v2, .cons h1 h3, h4, rfl⟩

theorem setPredefined_body {p : List Nat} {t : Predef} {r : RuleObj} {x : RuleObj × Option Err}
    (h : r.setPredefined env p t = .ok x) : x.1.body = r.body := by
  simp only [RuleObj.setPredefined] at h
  split at h
  · simp at h
  · simp at h; subst h; rfl
  · split at h
    · simp at h
    · simp at h; subst h; rfl
    · simp at h; subst h; rfl

theorem ensure_body {p : List Nat} {r x : RuleObj} (h : r.ensure env p g = .ok x) : x.body = r.body := by
  simp only [RuleObj.ensure] at h
  split at h
  · simp at h; subst h; rfl
  · rw [Go.map_eq_ok] at h
    obtain ⟨y, h, rfl⟩ := h
    exact setPredefined_body h

theorem ensure_ready {p : List Nat} {r x : RuleObj} (hr : r.ready = true) (h : r.ensure env p g = .ok x) : x = r := by
  simp [RuleObj.ensure, hr] at h
  exact h.symm

theorem testConditions_body {p : List Nat} {r x : RuleObj} {e : EvalOut} (h : r.testConditions env g p m = .ok (e, x)) :
    x.body = r.body := by
  simp only [RuleObj.testConditions, Go.bind_eq_ok] at h
  obtain ⟨r1, h1, o, _, h⟩ := h
  simp at h
  rw [← h.2]
  exact ensure_body h1

/-- The translation of a prepared rule, without the preparation. -/
def translation (env : Ext) (prepared : Option Rule) (base : Str) : Go (Go MResult) := do
  let rule ← deref prepared
  match rule.toMongo env base with
  | .error (.panic x) => .error (.panic x)
  | .error (.err e) => pure (.error (.err e))
  | .ok q => pure (.ok q)

theorem toMongoQuery_eq {p : List Nat} {r : RuleObj} {base : Str} : r.toMongoQuery env g p base =
    (r.ensure env p g >>= fun r1 => translation env.toExt r1.prepared base >>= fun q => pure (r1, q)) := by
  unfold RuleObj.toMongoQuery translation
  cases r.ensure env p g with
  | error e => rfl
  | ok r1 =>
    simp only [Go.ok_bind]
    cases deref r1.prepared with
    | error e => rfl
    | ok rule =>
      simp only [Go.ok_bind]
      rcases rule.toMongo env.toExt base with (e | e) | q <;> rfl

theorem toMongoQuery_inv {p : List Nat} {r x : RuleObj} {base : Str} {q : Go MResult} (h : r.toMongoQuery env g p base = .ok (x, q)) :
    ∃ r1 rule, r.ensure env p g = .ok r1 ∧ r1.prepared = some rule ∧ translation env.toExt (some rule) base = .ok q ∧ x = r1 := by
  rw [toMongoQuery_eq] at h
  simp only [Go.bind_eq_ok] at h
  obtain ⟨r1, h1, q', h2, h⟩ := h
  simp at h
  obtain ⟨rfl, rfl⟩ := h
  have h3 := h2
  simp only [translation, Go.bind_eq_ok] at h3
  obtain ⟨rule, hd, -⟩ := h3
  have hp := deref_eq_ok.1 hd
  exact ⟨_, rule, h1, hp, by rw [← hp]; exact h2, rfl⟩

theorem toMongoQuery_body {p : List Nat} {r x : RuleObj} {base : Str} {q : Go MResult} (h : r.toMongoQuery env g p base = .ok (x, q)) :
    x.body = r.body := by
  obtain ⟨r1, rule, h1, -, -, rfl⟩ := toMongoQuery_inv h
  exact ensure_body h1

theorem testConditions_ready {p : List Nat} {r x : RuleObj} {e : EvalOut} (hr : r.ready = true)
    (h : r.testConditions env g p m = .ok (e, x)) : x = r := by
  simp only [RuleObj.testConditions, Go.bind_eq_ok] at h
  obtain ⟨r1, h1, o, _, h⟩ := h
  simp at h
  rw [← h.2]
  exact ensure_ready hr h1

theorem ruleCheck_body {p : List Nat} {r : RuleObj} {o : RuleOut} (h : r.check env g p m = .ok o) :
    o.rule.body = r.body := by
  obtain ⟨r1, rule0, he, _, rule, r2, _, rfl, h⟩ := ruleCheck_inv h
  have hb := ensure_body he
  rcases h with ⟨rfl, _⟩ | ⟨_, _, _, _, ⟨_, rfl⟩ | ⟨n, e, r3, _, he, ⟨_, rfl⟩ | ⟨_, rfl⟩⟩⟩
  · exact hb
  · exact hb
  · exact (testConditions_body he).trans hb
  · exact (testConditions_body he).trans hb

theorem ruleCheck_ready_rule {p : List Nat} {r : RuleObj} {o : RuleOut} {rule : Rule} (hr : r.ready = true)
    (hp : r.prepared = some rule) (hc : rule.converted = true) (h : r.check env g p m = .ok o) : o.rule = r := by
  obtain ⟨r1, rule0, he, hp', rule', r2, rfl, rfl, h⟩ := ruleCheck_inv h
  have hb := ensure_ready hr he
  subst hb
  rw [hp] at hp'
  simp at hp'; subst hp'
  have hid : ({ r1 with prepared := some (convertOnUse env rule) } : RuleObj) = r1 := by
    simp [convertOnUse, hc, ← hp]
  rw [hid] at h
  rcases h with ⟨rfl, _⟩ | ⟨_, _, _, _, ⟨_, rfl⟩ | ⟨n, e, r3, _, he, ⟨_, rfl⟩ | ⟨_, rfl⟩⟩⟩
  · rfl
  · rfl
  · exact testConditions_ready hr he
  · exact testConditions_ready hr he

end Mapl

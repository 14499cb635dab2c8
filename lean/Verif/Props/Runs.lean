import Verif.Spec.Runs
import Verif.Props.Policy
import Verif.Props.Tree
import Verif.Props.Mongo
import Verif.Lemmas.Bare
import Verif.Lemmas.MemoryRules

/-!
# C24: the order of maps, for rules as they are written

`C24_prepared_rule_determined` is about prepared trees. Here the condition is one on the rule as it is written, prepared or not, and the runs are compared in all that `Check` reports.
-/

namespace Mapl.Props

open Spec

variable {env env' : Env} {g t : Predef} {msg : Msg}

/-- A condition that does not ask for an entry when written does not when prepared. -/
theorem entry_condition {a m v : Str} {r : Option (List RetVal)} {c : Condition} (h : (parsed env a m v r).prepare env t = .ok c)
    (ha : ∀ q, a = gs"jsonpath:" ++ q → ¬ EntryPath q) : Condition.asksEntry c = false := by
  obtain ⟨w, e, -, -, -, hp, hf⟩ := prepare_inv h
  have key : Condition.asksEntry e = false := by
    have hv := valuePart_flags (baseOf env a m v w r)
    have hr : (valuePart (baseOf env a m v w r)).attrIsJsonpathRelative = false := hv.2.1
    clear hv hf
    generalize valuePart (baseOf env a m v w r) = d at hp hr
    cases hp with
    | path hq =>
      obtain ⟨h1, h2⟩ := pathQuery_start hq (ha _ rfl)
      simp [Condition.asksEntry, h1, h2]
    | _ => simp [Condition.asksEntry, hr]
  cases hf with
  | plain => exact key
  | path => exact key

mutual
theorem entry_node : ∀ {n n' : Node}, ParsedLeaves env (leaves n) → NoEntries n → n.prepare env t = .ok n' → NoEntryLeaf n'
  | .nil, _, _, _, h => by simp [Node.prepare] at h
  | .and ns, _, hp, hn, h => by
    simp only [Node.prepare, Go.bind_eq_ok] at h
    obtain ⟨l, hl, h⟩ := h
    simp at h; subst h
    rw [NoEntryLeaf]
    unfold NoEntries at hn
    rw [leaves] at hp hn
    exact entry_nodes hp hn hl
  | .or ns, _, hp, hn, h => by
    simp only [Node.prepare, Go.bind_eq_ok] at h
    obtain ⟨l, hl, h⟩ := h
    simp at h; subst h
    rw [NoEntryLeaf]
    unfold NoEntries at hn
    rw [leaves] at hp hn
    exact entry_nodes hp hn hl
  | .not n, _, hp, hn, h => by
    simp only [Node.prepare, Go.bind_eq_ok] at h
    obtain ⟨l, hl, h⟩ := h
    simp at h; subst h
    rw [NoEntryLeaf]
    unfold NoEntries at hn
    rw [leaves] at hp hn
    exact entry_node hp hn hl
  | .any a n, _, hp, hn, h => by
    simp only [Node.prepare, Go.bind_eq_ok] at h
    obtain ⟨l, hl, _, _, h⟩ := h
    simp at h; subst h
    rw [NoEntryLeaf]
    unfold NoEntries at hn
    rw [leaves] at hp hn
    exact entry_node hp hn hl
  | .all a n, _, hp, hn, h => by
    simp only [Node.prepare, Go.bind_eq_ok] at h
    obtain ⟨l, hl, _, _, h⟩ := h
    simp at h; subst h
    rw [NoEntryLeaf]
    unfold NoEntries at hn
    rw [leaves] at hp hn
    exact entry_node hp hn hl
  | .tt, _, _, _, h => by simp [Node.prepare] at h; subst h; trivial
  | .ff, _, _, _, h => by simp [Node.prepare] at h; subst h; trivial
  | .cond c, _, hp, hn, h => by
    simp only [Node.prepare, Go.bind_eq_ok] at h
    obtain ⟨c', hc, h⟩ := h
    simp at h; subst h
    obtain ⟨a, m, v, r, rfl⟩ := hp c (by simp [leaves])
    rw [NoEntryLeaf]
    exact entry_condition hc fun q hq => hn (parsed env a m v r) (by simp [leaves]) q ((parsed_fields a m v r).1.trans hq)

theorem entry_nodes : ∀ {ns ns' : List Node}, ParsedLeaves env (leavesOf ns) → (∀ c ∈ leavesOf ns, ∀ q, c.attr = gs"jsonpath:" ++ q → ¬ EntryPath q) →
    prepareNodes env t ns = .ok ns' → NoEntryLeaves ns'
  | [], _, _, _, h => by simp [prepareNodes] at h; subst h; trivial
  | n :: ns, _, hp, hn, h => by
    simp only [prepareNodes, Go.bind_eq_ok] at h
    obtain ⟨x, hx, l, hl, h⟩ := h
    simp at h; subst h
    rw [leavesOf] at hp hn
    exact ⟨entry_node (fun c hc => hp c (by simp [hc])) (fun c hc => hn c (by simp [hc])) hx, entry_nodes (fun c hc => hp c (by simp [hc])) (fun c hc => hn c (by simp [hc])) hl⟩
end

theorem copyable_writable {e : Ext} {n : Node} (h : Copyable e n) : Writable e n := by
  induction h with
  | cond ok _ _ hr => exact .cond ok hr
  | and _ _ ih => exact .and ih
  | or _ _ ih => exact .or ih
  | not _ ih => exact .not ih
  | any hp _ hd hr _ ih => exact .any hp hd hr ih
  | all hp _ hd hr _ ih => exact .all hp hd hr ih

/-- **C24.** The decision on a rule that is written without `$KEY` and `$VALUE` is the same in all runs, whether the rule is prepared or not. -/
theorem C24_rule {r : RuleObj} {b : Rule} (ho : env.OrdOk) (hl : Loaded env g r b t) (hc : ∀ n, b.conditions = some n → Copyable env n ∧ NoEntries n) : Determined env g msg r := by
  -- the prepared rule is the same in all runs
  have same : ∀ {E : Env} {p : List Nat} {copy rule : Rule}, Run env E → copyRule E p b = .ok copy → prepareOneRule E t copy = .ok rule →
      prepareOneRule env t { b with senderList := b.senderList.map copySR, receiverList := b.receiverList.map copySR, resourceNameRegex := none, operationRegex := none } = .ok rule := by
    intro E p copy rule hr h1 h2
    rw [copyRule_copyable hr.ord (fun n hn => by rw [hr.ext]; exact (hc n hn).1)] at h1
    cases h1
    rw [hr.ext] at h2
    exact h2
  have safe : ∀ {rule : Rule}, prepareOneRule env t { b with senderList := b.senderList.map copySR, receiverList := b.receiverList.map copySR, resourceNameRegex := none, operationRegex := none } = .ok rule →
      RuleKeySafe env rule msg := by
    intro rule h n' hn'
    obtain ⟨n, h1, h2⟩ := prepareOneRule_tree h hn'
    obtain ⟨h3, h4⟩ := hc n h1
    exact noEntryLeaf_safe _ _ _ (entry_node (writable_leaves (copyable_writable h3)) h4 h2)
  have run : ∀ {E : Env} {p : List Nat} {o : RuleOut}, Run env E → r.check E g p msg = .ok o → ∃ (r1 : RuleObj) (rule : Rule), r1.ready = true ∧ r1.prepared = some rule ∧ Expanded rule ∧
      prepareOneRule env t { b with senderList := b.senderList.map copySR, receiverList := b.receiverList.map copySR, resourceNameRegex := none, operationRegex := none } = .ok rule ∧
      r1.check E g p msg = .ok o := by
    intro E p o hr h
    cases hl with
    | parsed hf =>
      obtain ⟨r1, rule, h1, h2, h3, h4, -, h5⟩ := fresh_prepared hf h
      obtain ⟨copy, rule', c1, c2, rfl⟩ := setPredefined_ok h1
      simp at h3; subst h3
      exact ⟨_, _, h2, rfl, h4, same hr c1 c2, h5⟩
    | @prepared r0 _ p0 _ hf hs =>
      obtain ⟨copy, rule, c1, c2, rfl⟩ := setPredefined_ok hs
      obtain ⟨c, c3, rfl⟩ := copyRule_ok c1
      exact ⟨_, rule, rfl, rfl, prepareOneRule_expanded (by simpa using hf.converted) c2, same ⟨rfl, ho⟩ c1 c2, h⟩
  rintro d e d' e' ⟨env1, p1, o1, hr1, h1, hd1, -⟩ ⟨env2, p2, o2, hr2, h2, hd2, -⟩
  obtain ⟨r1, rule, a1, a2, a3, a4, a5⟩ := run hr1 h1
  obtain ⟨r2, rule', b1, b2, b3, b4, b5⟩ := run hr2 h2
  obtain rfl : rule = rule' := by rw [a4] at b4; cases b4; rfl
  have hk := safe a4
  have c1 := C09_rule_applies hr1.ord a1 a2 a3 (by rw [hr1.ext]; exact hk) a5
  have c2 := C09_rule_applies hr2.ord b1 b2 b3 (by rw [hr2.ext]; exact hk) b5
  rw [hr1.ext] at c1
  rw [hr2.ext] at c2
  apply rank_inj
  rw [← hd1, ← hd2]
  by_cases ha : Applies env rule msg
  · rw [c1.1 ha, c2.1 ha]
  · rw [(c1.2 ha).1, (c2.2 ha).1]

/-- **C24.** If the single rules are determined then any two runs of `Check` report the same, but for the order of the extra data. -/
theorem C24_runs {rs : List RuleObj} {out out' : CheckOut} (ho : env.OrdOk) (hrun : Run env env') (hdet : ∀ r ∈ rs, Determined env g msg r)
    (h : check env g msg rs = .ok out) (h' : check env' g msg rs = .ok out') : SameRun out out' := by
  have hres : out'.results = out.results := by
    obtain ⟨vs, e1, -, e3⟩ := check_verdicts ho h
    obtain ⟨vs', f1, -, f3⟩ := check_verdicts hrun.ord h'
    have hds : vs'.map (·.1) = vs.map (·.1) := by
      have lift : ∀ {l : List RuleObj} {w : List (Decision × List Extra)}, List.Forall₂ (fun r v => Verdict env g msg r v.1 v.2) l w →
          List.Forall₂ (fun r d => ∃ e, Verdict env g msg r d e) l (w.map (·.1)) := by
        intro l w hw
        rw [List.forall₂_map_right_iff]
        exact hw.imp fun r v hv => ⟨v.2, hv⟩
      apply forall₂_unique ?_ (lift (f3.imp fun _ _ => verdict_run hrun)) (lift e3)
      rintro r hr y z ⟨e, hy⟩ ⟨e', hz⟩
      exact hdet r hr _ _ _ _ hy hz
    rw [e1, f1]
    have := congrArg (List.map Decision.rank) hds
    simpa [Function.comp_def] using this
  obtain ⟨ds, e1, _, d, e2, e3, e4⟩ := check_summary h
  obtain ⟨ds', f1, _, d', f2, f3, f4⟩ := check_summary h'
  have : ds' = ds := map_rank_inj (by rw [← e1, ← f1, hres])
  subst this
  obtain rfl := mostSevere_unique e4 f4
  have hdec : out'.decision = out.decision := by rw [e2, f2]
  have happ : out'.appliedRulesIndices = out.appliedRulesIndices := by
    obtain ⟨-, -, p1, p2⟩ := C05_applied_rules h
    obtain ⟨-, -, q1, q2⟩ := C05_applied_rules h'
    refine List.Perm.eq_of_pairwise (le := (· < ·)) (fun a b _ _ h1 h2 => absurd (Nat.lt_trans h1 h2) (Nat.lt_irrefl _)) q1 p1 ?_
    refine (List.perm_ext_iff_of_nodup (q1.imp Nat.ne_of_lt) (p1.imp Nat.ne_of_lt)).2 fun i => ?_
    rw [p2, q2, hres]
  have hrel : out'.relevantRuleIndex = out.relevantRuleIndex ∧ out'.ruleDescription = out.ruleDescription := by
    obtain ⟨p1, p2⟩ := C04_relevant_rule h
    obtain ⟨q1, q2⟩ := C04_relevant_rule h'
    by_cases hd : out.decision = Decision.default.rank
    · rw [(p1 hd).1, (p1 hd).2, (q1 (hdec ▸ hd)).1, (q1 (hdec ▸ hd)).2]
      exact ⟨rfl, rfl⟩
    · obtain ⟨i, r, i1, i2, i3, i4, i5⟩ := p2 hd
      obtain ⟨j, r', j1, j2, j3, j4, j5⟩ := q2 (hdec ▸ hd)
      rw [hres, hdec] at j3 j4
      have hij : i = j := by
        rcases Nat.lt_trichotomy i j with hlt | e | hlt
        · exact absurd i3 (j4 i hlt)
        · exact e
        · exact absurd j3 (i4 j hlt)
      subst hij
      rw [i2] at j2; cases j2
      exact ⟨by rw [i1, j1], by rw [i5, j5]⟩
  exact ⟨hdec, by rw [e3, f3], hrel.1, hres, happ, hrel.2⟩

/-- **C24**, partial: a policy whose rules are written without `$KEY` and `$VALUE` has the same answer in all runs, for every message. (The full statement has these attributes as well: `C24_violated`.) -/
theorem C24_policy_partial {rs : List RuleObj} {out out' : CheckOut} (ho : env.OrdOk) (hrun : Run env env')
    (hl : ∀ r ∈ rs, ∃ b t, Loaded env g r b t ∧ ∀ n, b.conditions = some n → Copyable env n ∧ NoEntries n)
    (h : check env g msg rs = .ok out) (h' : check env' g msg rs = .ok out') : SameRun out out' :=
  C24_runs ho hrun (fun r hr => by obtain ⟨b, t, h1, h2⟩ := hl r hr; exact C24_rule ho h1 h2) h h'

/-- A run that goes through maps in the reverse order. -/
noncomputable def policyEnvRev : Env := { regexExt with ord := fun _ l => l.reverse }

theorem policy_runs : Run policyEnv policyEnvRev := ⟨rfl, fun _ l => l.reverse_perm⟩

/-- The hypotheses hold for the policy of C74, with an ANY over a list of the document: one run goes through maps in the given order, one in the reverse order. -/
example {out out' : CheckOut} {m : Msg} (h : check policyEnv policyTables m (policyRules.map parsedRule) = .ok out)
    (h' : check policyEnvRev policyTables m (policyRules.map parsedRule) = .ok out') : SameRun out out' := by
  refine C24_policy_partial policyEnv_ok.order policy_runs (fun r hr => ?_) h h'
  simp only [policyRules, List.map_cons, List.map_nil, List.mem_cons, List.not_mem_nil, or_false] at hr
  rcases hr with rfl | rfl
  · refine ⟨_, _, .parsed ⟨rfl, rfl, rfl⟩, fun n hn => ?_⟩
    obtain rfl : policyStatement.tree policyEnv = n := by simpa [parsedRule] using hn
    refine ⟨sound_copyable _ policy_sound, ?_⟩
    intro c hc q hq
    have : c.attr = gs"payloadSize" ∨ c.attr = gs"jsonpath:$RELATIVE.image" := by
      simp only [policyStatement, Statement.tree, Statement.trees, leaves, leavesOf, List.mem_append, List.mem_cons, List.not_mem_nil, or_false, condNode] at hc
      rcases hc with rfl | rfl
      · exact .inl (parsed_fields _ _ _ _).1
      · exact .inr (parsed_fields _ _ _ _).1
    rcases this with e | e
    · rw [e] at hq
      simp at hq
    · rw [e] at hq
      simp at hq
      subst hq
      rintro (⟨x, hx⟩ | ⟨x, hx⟩) <;> simp at hx
  · exact ⟨_, _, .parsed ⟨rfl, rfl, rfl⟩, fun n hn => by simp [parsedRule, Demo.rule] at hn⟩

end Mapl.Props

import Verif.Lemmas.Match
import Verif.Demo

/-!
# C09, C14, C15, C16, C23: when a rule applies

`r.check env g p m = .ok o` reads "`rule.Check(message)` returned `o`", with `g` the global table in force.
-/

namespace Mapl.Props

open Spec

variable {env : Env} {g t : Predef} {m : Msg} {p : List Nat} {r : RuleObj} {rule : Rule} {o : RuleOut}

/-- A rule as parsed is prepared by its first use; what is prepared has the written types, protocol, resource,
operation and decision. -/
theorem fresh_prepared (hf : Fresh r) (h : r.check env g p m = .ok o) :
    ∃ r1 rule, r.setPredefined env (0 :: p) g = .ok (r1, none) ∧ r1.ready = true ∧ r1.prepared = some rule ∧
      Expanded rule ∧ PreparedFrom r.body rule ∧ r1.check env g p m = .ok o := by
  obtain ⟨r1, rule, h1, h2, h3, h4, h5⟩ := fresh_check hf h
  refine ⟨r1, rule, h1, h2, h3, h4, ?_, h5⟩
  obtain ⟨copy, rule', c1, c2, rfl⟩ := setPredefined_ok h1
  simp at h3; subst h3
  obtain ⟨c, c3, rfl⟩ := copyRule_ok c1
  obtain ⟨s, v, sl, rl, op, re, _, _, _, _, _, _, hcond, h8⟩ := prepareOneRule_ok (by simpa using hf.converted) c2
  have hc : r.body.conditions = none → rule'.conditions = none := by
    intro hn
    rw [hn, copyConditions_none] at c3
    simp at c3; subst c3
    rcases hcond with ⟨_, h⟩ | ⟨n, n', h, _⟩
    · exact h
    · simp at h
  constructor
  case noConditions => exact hc
  all_goals rw [h8]

/-- **C09.** In one execution: a prepared rule yields its decision when every part and its conditions agree with the
message, and `default` without extra data otherwise. -/
theorem C09_rule_applies_execution (hr : r.ready = true) (hp : r.prepared = some rule) (hx : Expanded rule)
    (h : r.check env g p m = .ok o) :
    (PartsMatch env rule m ∧ (∀ n, rule.conditions = some n → Holds env n (1 :: 1 :: p) m) →
      o.result = (decisionOf rule.decision).rank) ∧
    (¬ (PartsMatch env rule m ∧ (∀ n, rule.conditions = some n → Holds env n (1 :: 1 :: p) m)) →
      o.result = Decision.default.rank ∧ o.extra = []) :=
  ⟨(ruleCheck_prepared hr hp hx h).1, (ruleCheck_prepared hr hp hx h).2.1⟩

/-- **C09.** A prepared rule yields its decision when every part and its conditions agree with the message, and
`default` without extra data otherwise. -/
theorem C09_rule_applies (ho : env.OrdOk) (hr : r.ready = true) (hp : r.prepared = some rule) (hx : Expanded rule)
    (hk : RuleKeySafe env rule m) (h : r.check env g p m = .ok o) :
    (Applies env rule m → o.result = (decisionOf rule.decision).rank) ∧
    (¬ Applies env rule m → o.result = Decision.default.rank ∧ o.extra = []) := by
  have key : Applies env rule m ↔
      PartsMatch env rule m ∧ (∀ n, rule.conditions = some n → Holds env n (1 :: 1 :: p) m) := by
    unfold Applies ConditionsSat
    constructor
    · rintro ⟨h1, h2⟩
      exact ⟨h1, fun n hn => (holds_sat env ho n _ m (hk n hn)).2 (h2 n hn)⟩
    · rintro ⟨h1, h2⟩
      exact ⟨h1, fun n hn => (holds_sat env ho n _ m (hk n hn)).1 (h2 n hn)⟩
  rw [key]
  exact C09_rule_applies_execution hr hp hx h

/-- **C09** for a rule as parsed: its preparation succeeded, and the prepared rule decides. -/
theorem C09_fresh_rule_applies (ho : env.OrdOk) (hf : Fresh r) (h : r.check env g p m = .ok o) :
    ∃ r1 rule, r.setPredefined env (0 :: p) g = .ok (r1, none) ∧ r1.prepared = some rule ∧ PreparedFrom r.body rule ∧
      (RuleKeySafe env rule m →
        (Applies env rule m → o.result = (decisionOf r.body.decision).rank) ∧
        (¬ Applies env rule m → o.result = Decision.default.rank ∧ o.extra = [])) := by
  obtain ⟨r1, rule, h1, h2, h3, h4, h5, h6⟩ := fresh_prepared hf h
  refine ⟨r1, rule, h1, h3, h5, fun hk => ?_⟩
  rw [← h5.decision]
  exact C09_rule_applies ho h2 h3 h4 hk h6

/-- The hypotheses are those of every rule after a successful `SetPredefinedStringsAndLists`. -/
theorem C09_preparation_expands {r' : RuleObj} (hc : r.body.converted = false)
    (h : r.setPredefined env p t = .ok (r', none)) : r'.ready = true ∧ ∃ rule, r'.prepared = some rule ∧ Expanded rule := by
  obtain ⟨copy, rule, h1, h2, rfl⟩ := setPredefined_ok h
  exact ⟨rfl, rule, rfl, prepared_expanded hc h rfl⟩

example : Fresh (Demo.rule gs"block" (some (Demo.cond gs"jsonpath:$.kind" gs"EQ" gs"Pod"))) := ⟨rfl, rfl, rfl⟩

/-- The rule of the example is checked successfully, applies to the message and blocks; with another value it does not. -/
example : ((Demo.rule gs"block" (some (Demo.cond gs"jsonpath:$.kind" gs"EQ" gs"Pod"))).check Demo.env {} [] Demo.msgI).map (·.result) = .ok 3 ∧
    ((Demo.rule gs"block" (some (Demo.cond gs"jsonpath:$.kind" gs"EQ" gs"Job"))).check Demo.env {} [] Demo.msgI).map (·.result) = .ok 0 := by
  constructor <;> rfl

/-- **C14.** With protocol `tcp` the resource is compared with the destination port; the protocol of the message, its
path and its type play no role. -/
theorem C14_tcp (ho : env.OrdOk) (hr : r.ready = true) (hp : r.prepared = some rule) (hx : Expanded rule)
    (hk : RuleKeySafe env rule m) (h : r.check env g p m = .ok o) (htcp : rule.protocol = gs"tcp")
    (hs : ∃ e ∈ rule.senderList, SenderEntry env e m) (hv : ∃ e ∈ rule.receiverList, ReceiverEntry env e m)
    (hop : Accepts env rule.operationRegex m.requestMethod) (hc : ConditionsSat env rule m) :
    (Accepts env rule.resourceNameRegex m.destinationPort → o.result = (decisionOf rule.decision).rank) ∧
    (¬ Accepts env rule.resourceNameRegex m.destinationPort → o.result = Decision.default.rank) := by
  have := C09_rule_applies ho hr hp hx hk h
  have hres : ResourceMatches env rule m ↔ Accepts env rule.resourceNameRegex m.destinationPort := by
    simp [ResourceMatches, htcp]
  exact ⟨fun ha => this.1 ⟨⟨hs, hv, hop, hres.2 ha⟩, hc⟩, fun ha => (this.2 fun hap => ha (hres.1 hap.1.resource)).1⟩

/-- **C14.** With protocol `*` there is no test of the resource. -/
theorem C14_any_protocol (ho : env.OrdOk) (hr : r.ready = true) (hp : r.prepared = some rule) (hx : Expanded rule)
    (hk : RuleKeySafe env rule m) (h : r.check env g p m = .ok o) (hany : rule.protocol = gs"*")
    (hs : ∃ e ∈ rule.senderList, SenderEntry env e m) (hv : ∃ e ∈ rule.receiverList, ReceiverEntry env e m)
    (hop : Accepts env rule.operationRegex m.requestMethod) (hc : ConditionsSat env rule m) :
    o.result = (decisionOf rule.decision).rank := by
  have := C09_rule_applies ho hr hp hx hk h
  exact this.1 ⟨⟨hs, hv, hop, by simp [ResourceMatches, hany]⟩, hc⟩

/-- **C14.** With any other protocol, the protocols must agree up to case, the type must be `*` or equal, and the
resource pattern must match the path. -/
theorem C14_other_protocol (ho : env.OrdOk) (hr : r.ready = true) (hp : r.prepared = some rule) (hx : Expanded rule)
    (hk : RuleKeySafe env rule m) (h : r.check env g p m = .ok o) (h1 : rule.protocol ≠ gs"tcp") (h2 : rule.protocol ≠ gs"*")
    (hs : ∃ e ∈ rule.senderList, SenderEntry env e m) (hv : ∃ e ∈ rule.receiverList, ReceiverEntry env e m)
    (hop : Accepts env rule.operationRegex m.requestMethod) (hc : ConditionsSat env rule m) :
    (SameUpToCase m.contextProtocol rule.protocol ∧ (rule.resourceType = gs"*" ∨ rule.resourceType = m.contextType) ∧
        Accepts env rule.resourceNameRegex m.requestPath → o.result = (decisionOf rule.decision).rank) ∧
    (¬ (SameUpToCase m.contextProtocol rule.protocol ∧ (rule.resourceType = gs"*" ∨ rule.resourceType = m.contextType) ∧
        Accepts env rule.resourceNameRegex m.requestPath) → o.result = Decision.default.rank) := by
  have := C09_rule_applies ho hr hp hx hk h
  have hres : ResourceMatches env rule m ↔ (SameUpToCase m.contextProtocol rule.protocol ∧
      (rule.resourceType = gs"*" ∨ rule.resourceType = m.contextType) ∧ Accepts env rule.resourceNameRegex m.requestPath) := by
    simp [ResourceMatches, h1, h2]
  exact ⟨fun ha => this.1 ⟨⟨hs, hv, hop, hres.2 ha⟩, hc⟩, fun ha => (this.2 fun hap => ha (hres.1 hap.1.resource)).1⟩

/-- A tcp rule applies by port whatever the protocol and path of the message; an http rule looks at path and protocol. -/
example :
    let tcp : RuleObj := { body := { (Demo.rule gs"block").body with protocol := gs"tcp", resourceName := gs"80" } }
    let http : RuleObj := { body := { (Demo.rule gs"block").body with protocol := gs"http", resourceName := gs"/x" } }
    (tcp.check Demo.env {} [] { Demo.msgI with destinationPort := gs"80", contextProtocol := gs"udp" }).map (·.result) = .ok 3 ∧
    (tcp.check Demo.env {} [] { Demo.msgI with destinationPort := gs"81", contextProtocol := gs"tcp" }).map (·.result) = .ok 0 ∧
    ((Demo.rule gs"block").check Demo.env {} [] { Demo.msgI with contextProtocol := gs"udp" }).map (·.result) = .ok 3 ∧
    (http.check Demo.env {} [] { Demo.msgI with contextProtocol := gs"HTTP" }).map (·.result) = .ok 0 := by
  refine ⟨?_, ?_, ?_, ?_⟩ <;> rfl

/-- **C15.** A rule as parsed whose sender type is none of `subnet`, `*`, `workload`, or whose receiver type is none of
`subnet`, `hostname`, `*`, `workload`, never applies. -/
theorem C15_unsupported_types (hf : Fresh r) (h : r.check env g p m = .ok o)
    (hty : r.body.senderType ∉ [gs"subnet", gs"*", gs"workload"] ∨
      r.body.receiverType ∉ [gs"subnet", gs"hostname", gs"*", gs"workload"]) :
    o.result = Decision.default.rank ∧ o.extra = [] := by
  obtain ⟨r1, rule, h1, h2, h3, h4, h5, h6⟩ := fresh_prepared hf h
  refine (C09_rule_applies_execution h2 h3 h4 h6).2 ?_
  rintro ⟨⟨⟨e, he, hs⟩, ⟨f, hff, hv⟩, _, _⟩, _⟩
  simp only [List.mem_cons, List.not_mem_nil, or_false, not_or] at hty
  rcases hty with ⟨a, b, c⟩ | ⟨a, b, c, d⟩
  · rw [SenderEntry, h4.sender e he, h5.senderType] at hs
    rcases hs with ⟨x, _⟩ | ⟨x | x, _⟩ <;> contradiction
  · rw [ReceiverEntry, h4.receiver f hff, h5.receiverType] at hv
    rcases hv with ⟨x, _⟩ | ⟨x, _⟩ | ⟨x | x, _⟩ <;> contradiction

/-- **C15** for a rule that was prepared explicitly, with any table. -/
theorem C15_unsupported_types_prepared (hr : r.ready = true) (hp : r.prepared = some rule) (hx : Expanded rule)
    (h : r.check env g p m = .ok o)
    (hty : rule.senderType ∉ [gs"subnet", gs"*", gs"workload"] ∨
      rule.receiverType ∉ [gs"subnet", gs"hostname", gs"*", gs"workload"]) :
    o.result = Decision.default.rank ∧ o.extra = [] := by
  refine (C09_rule_applies_execution hr hp hx h).2 ?_
  rintro ⟨⟨⟨e, he, hs⟩, ⟨f, hff, hv⟩, _, _⟩, _⟩
  simp only [List.mem_cons, List.not_mem_nil, or_false, not_or] at hty
  rcases hty with ⟨a, b, c⟩ | ⟨a, b, c, d⟩
  · rw [SenderEntry, hx.sender e he] at hs
    rcases hs with ⟨x, _⟩ | ⟨x | x, _⟩ <;> contradiction
  · rw [ReceiverEntry, hx.receiver f hff] at hv
    rcases hv with ⟨x, _⟩ | ⟨x, _⟩ | ⟨x | x, _⟩ <;> contradiction

/-- Such rules can be checked: `service` is not a sender type. -/
example : (({ body := { (Demo.rule gs"block").body with senderType := gs"service" } } : RuleObj).check Demo.env {} []
    Demo.msgI).map (·.result) = .ok 0 := rfl

/-- **C16.** A result other than `default` is what the decision text of the rule says, and only the listed spellings
say something. -/
theorem C16_decision_keywords (hf : Fresh r) (h : r.check env g p m = .ok o) :
    (o.result = Decision.default.rank ∨ o.result = (decisionOf r.body.decision).rank) ∧
    (o.result = Decision.allow.rank → r.body.decision ∈ [gs"allow", gs"ALLOW", gs"Allow"]) ∧
    (o.result = Decision.alert.rank → r.body.decision ∈ [gs"alert", gs"ALERT", gs"Alert"]) ∧
    (o.result = Decision.block.rank → r.body.decision ∈ [gs"block", gs"BLOCK", gs"Block"]) := by
  obtain ⟨r1, rule, h1, h2, h3, h4, h5, h6⟩ := fresh_prepared hf h
  have h7 := C09_rule_applies_execution h2 h3 h4 h6
  rw [h5.decision] at h7
  have h8 : o.result = Decision.default.rank ∨ o.result = (decisionOf r.body.decision).rank := by
    by_cases hc : PartsMatch env rule m ∧ (∀ n, rule.conditions = some n → Holds env n (1 :: 1 :: p) m)
    · exact Or.inr (h7.1 hc)
    · exact Or.inl (h7.2 hc).1
  have h9 : ∀ d : Decision, o.result = d.rank → d ≠ .default → decisionOf r.body.decision = d := by
    intro d hd hne
    rcases h8 with h8 | h8 <;> rw [hd] at h8
    · exact absurd (rank_inj h8) hne
    · exact (rank_inj h8).symm
  refine ⟨h8, ?_, ?_, ?_⟩ <;> intro h10
  · refine ite_elim (h9 .allow h10 (by simp)) (fun h _ => h) fun _ h => ?_
    refine ite_elim h (fun _ h => by simp at h) fun _ h => ?_
    exact ite_elim h (fun _ h => by simp at h) fun _ h => by simp at h
  · refine ite_elim (h9 .alert h10 (by simp)) (fun _ h => by simp at h) fun _ h => ?_
    refine ite_elim h (fun h _ => h) fun _ h => ?_
    exact ite_elim h (fun _ h => by simp at h) fun _ h => by simp at h
  · refine ite_elim (h9 .block h10 (by simp)) (fun _ h => by simp at h) fun _ h => ?_
    refine ite_elim h (fun _ h => by simp at h) fun _ h => ?_
    exact ite_elim h (fun h _ => h) fun _ h => by simp at h

/-- **C16.** Conversely every listed spelling gives its decision when the rule applies, and any other text `default`. -/
theorem C16_decision_given (ho : env.OrdOk) (hr : r.ready = true) (hp : r.prepared = some rule) (hx : Expanded rule)
    (hk : RuleKeySafe env rule m) (h : r.check env g p m = .ok o) (ha : Applies env rule m) :
    (rule.decision ∈ [gs"allow", gs"ALLOW", gs"Allow"] → o.result = 1) ∧
    (rule.decision ∈ [gs"alert", gs"ALERT", gs"Alert"] → o.result = 2) ∧
    (rule.decision ∈ [gs"block", gs"BLOCK", gs"Block"] → o.result = 3) ∧
    (rule.decision ∉ [gs"allow", gs"ALLOW", gs"Allow", gs"alert", gs"ALERT", gs"Alert", gs"block", gs"BLOCK", gs"Block"] →
      o.result = 0 ∧ o.extra = []) := by
  have h1 := (C09_rule_applies ho hr hp hx hk h).1 ha
  refine ⟨?_, ?_, ?_, ?_⟩
  · intro hd; rw [h1]; simp [decisionOf, hd, Decision.rank]
  · intro hd; rw [h1]
    simp only [List.mem_cons, List.not_mem_nil, or_false] at hd
    rcases hd with hd | hd | hd <;> rw [hd] <;> rfl
  · intro hd; rw [h1]
    simp only [List.mem_cons, List.not_mem_nil, or_false] at hd
    rcases hd with hd | hd | hd <;> rw [hd] <;> rfl
  · intro hd
    have hz : o.result = Decision.default.rank := by
      rw [h1]
      simp only [List.mem_cons, List.not_mem_nil, or_false, not_or] at hd
      simp [decisionOf, hd]
    exact ⟨hz, (ruleCheck_prepared hr hp hx h).2.2 hz⟩

/-- Spellings outside the list: `bLOCK` yields default although the rule applies. -/
example : ((Demo.rule gs"Block").check Demo.env {} [] Demo.msgI).map (·.result) = .ok 3 ∧
    ((Demo.rule gs"bLOCK").check Demo.env {} [] Demo.msgI).map (·.result) = .ok 0 := ⟨rfl, rfl⟩

/-- **C23.** A rule without conditions applies to every message agreeing with its other parts, and only to those. -/
theorem C23_no_conditions (hf : Fresh r) (hn : r.body.conditions = none) (h : r.check env g p m = .ok o) :
    ∃ r1 rule, r.setPredefined env (0 :: p) g = .ok (r1, none) ∧ r1.prepared = some rule ∧ PreparedFrom r.body rule ∧
      (PartsMatch env rule m → o.result = (decisionOf r.body.decision).rank) ∧
      (¬ PartsMatch env rule m → o.result = Decision.default.rank) := by
  obtain ⟨r1, rule, h1, h2, h3, h4, h5, h6⟩ := fresh_prepared hf h
  refine ⟨r1, rule, h1, h3, h5, ?_, ?_⟩
  · intro hm
    rw [← h5.decision]
    refine (C09_rule_applies_execution h2 h3 h4 h6).1 ⟨hm, fun n hn' => ?_⟩
    rw [h5.noConditions hn] at hn'; simp at hn'
  · intro hm
    exact ((C09_rule_applies_execution h2 h3 h4 h6).2 fun hc => hm hc.1).1

example : Fresh (Demo.rule gs"block") ∧ (Demo.rule gs"block").body.conditions = none ∧
    ((Demo.rule gs"block").check Demo.env {} [] Demo.msgI).map (·.result) = .ok 3 := ⟨⟨rfl, rfl, rfl⟩, rfl, rfl⟩

end Mapl.Props

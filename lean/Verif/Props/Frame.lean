import Verif.Lemmas.Frame
import Verif.Props.Crash

/-! # C75: a decision depends only on what the rules mention -/

namespace Mapl.Props

open Spec

variable {env : Env} {g : Predef} {m m' : Msg} {rs : List RuleObj} {p : List Nat}

theorem readyAs_facts {r : RuleObj} {rule : Rule} (h : ReadyAs env r rule) : r.ready = true ∧ rule.converted = true := by
  obtain ⟨r0, p, t, hc, hr⟩ := h.made
  exact ⟨setPredefined_ready hr, (prepared_expanded hc hr h.prepared).converted⟩

/-- What a rule compares besides its conditions can be read off its text. -/
theorem readyAs_same {r : RuleObj} {rule : Rule} (h : ReadyAs env r rule) (hr : SameFor r.body m m') : Expanded rule ∧ SameFor rule m m' := by
  obtain ⟨r0, p, t, hc, hs⟩ := h.made
  refine ⟨prepared_expanded hc hs h.prepared, ?_⟩
  obtain ⟨copy, rule', h1, h2, rfl⟩ := setPredefined_ok hs
  have e := h.prepared
  simp at e; subst e
  obtain ⟨c, -, rfl⟩ := copyRule_ok h1
  obtain ⟨s, v, sl, rl, op, re, -, -, -, -, -, -, -, h8⟩ := prepareOneRule_ok (by simpa using hc) h2
  have a1 : rule'.senderType = r0.body.senderType := by rw [h8]
  have a2 : rule'.receiverType = r0.body.receiverType := by rw [h8]
  have a3 : rule'.protocol = r0.body.protocol := by rw [h8]
  constructor
  · rw [a1]; exact hr.sourceService
  · rw [a1]; exact hr.sourceAddress
  · rw [a2]; exact hr.destinationService
  · rw [a2]; exact hr.destinationAddress
  · rw [a2]; exact hr.requestHost
  · exact hr.requestMethod
  · rw [a3]; exact hr.port
  · rw [a3]; exact hr.path

theorem sameRequest_for {b : Rule} (h : SameRequest m m') : SameFor b m m' :=
  ⟨fun _ => h.sourceService, fun _ => ⟨h.sourceIp, h.sourceNetIp⟩, fun _ => h.destinationService, fun _ => ⟨h.destinationIp, h.destinationNetIp⟩,
    fun _ => h.requestHost, h.requestMethod, fun _ => h.destinationPort, fun _ _ => ⟨h.contextProtocol, h.contextType, h.requestPath⟩⟩

/-- Outcomes of one rule: same result and returned values, message unchanged, or the same failure. -/
inductive RuleAlike (m m' : Msg) : Go RuleOut → Go RuleOut → Prop
  | ok {d e r r'} : RuleAlike m m' (.ok ⟨d, e, m, r⟩) (.ok ⟨d, e, m', r'⟩)
  | error (x : Fail) : RuleAlike m m' (.error x) (.error x)

theorem ready_alike {r : RuleObj} {rule : Rule} (ho : env.OrdOk) (h : ReadyAs env r rule) (hr : SameFor r.body m m')
    (hf : ∀ n, rule.conditions = some n → ∀ f, TreeMentions n f → f.Same m m') :
    RuleAlike m m' (r.check env g p m) (r.check env g p m') := by
  obtain ⟨h1, h2⟩ := readyAs_facts h
  obtain ⟨hx, hr⟩ := readyAs_same h hr
  rw [check_judge h1 h.prepared h2, check_judge h1 h.prepared h2]
  have := judge_agree (env := env) (rule := rule) (q := 1 :: 1 :: p) hx hr fun n hn => ⟨ready_leaves ho h hn, hf n hn⟩
  generalize judge env rule (1 :: 1 :: p) m = x at *
  generalize judge env rule (1 :: 1 :: p) m' = y at *
  cases this with
  | ok => exact .ok
  | error x => exact .error x

theorem rule_alike {r : RuleObj} (ho : env.OrdOk) (hu : Usable env r) (hr : SameFor r.body m m')
    (hf : ∀ f, RuleMentions env g r f → f.Same m m') : RuleAlike m m' (r.check env g p m) (r.check env g p m') := by
  cases hu with
  | prepared h => exact ready_alike ho h hr fun n hn f ht => hf f ⟨_, n, .inl h, hn, ht⟩
  | fresh h =>
    cases hs : r.setPredefined env (0 :: p) g with
    | error e =>
      have he : r.ensure env (0 :: p) g = .error e := by simp [RuleObj.ensure, h.ready, hs, Except.map]
      unfold RuleObj.check
      rw [he]
      exact .error e
    | ok x =>
      obtain ⟨r', e⟩ := x
      cases e with
      | none =>
        have hrd := setPredefined_ready hs
        rw [check_unready h.ready hs hrd, check_unready h.ready hs hrd]
        obtain ⟨copy, rule, -, -, e⟩ := setPredefined_ok hs
        have hp : r'.prepared = some rule := by rw [e]
        have ha : ReadyAs env r' rule := ⟨hp, r, 0 :: p, g, h.converted, hs⟩
        have hb : r'.body = r.body := by rw [e]
        exact ready_alike ho ha (by rw [hb]; exact hr) fun n hn f ht => hf f ⟨rule, n, .inr ⟨_, r', hs, hp⟩, hn, ht⟩
      | some e =>
        have hn : r'.prepared = none := by
          simp only [RuleObj.setPredefined] at hs
          split at hs
          · simp at hs
          · simp at hs; rw [← hs.1]; exact h.prepared
          · split at hs
            · simp at hs
            · simp at hs; rw [← hs.1]; exact h.prepared
            · simp at hs
        have he : r.ensure env (0 :: p) g = .ok r' := by simp [RuleObj.ensure, h.ready, hs, Except.map]
        unfold RuleObj.check
        rw [he]
        simp only [Go.ok_bind, hn]
        exact .error _

theorem rules_alike (ho : env.OrdOk) : ∀ (rs : List RuleObj) (i : Nat), (∀ r ∈ rs, Usable env r) → (∀ r ∈ rs, SameFor r.body m m') →
    (∀ r ∈ rs, ∀ f, RuleMentions env g r f → f.Same m m') →
    (checkRules env g i m rs).map (·.1) = (checkRules env g i m' rs).map (·.1)
  | [], _, _, _, _ => rfl
  | r :: rs, i, hu, hr, hf => by
    have h1 := rule_alike (g := g) (p := [i]) ho (hu r (by simp)) (hr r (by simp)) (hf r (by simp))
    have h2 := rules_alike ho rs (i + 1) (fun r hm => hu r (by simp [hm])) (fun r hm => hr r (by simp [hm])) (fun r hm => hf r (by simp [hm]))
    simp only [checkRules]
    generalize r.check env g [i] m = x at *
    generalize r.check env g [i] m' = y at *
    cases h1 with
    | error x => rfl
    | ok =>
      simp only [Go.ok_bind]
      generalize checkRules env g (i + 1) m rs = x at *
      generalize checkRules env g (i + 1) m' rs = y at *
      cases x <;> cases y <;> simp_all [Except.map] <;> rfl

/-- **C75**. If two messages agree on what the types of sender and receiver and the protocol of each rule call for, on the operation, and on every part that the
conditions of some rule mention, then `Check` gives the same seven values for both, or fails in the same way. -/
theorem C75_parts (ho : env.OrdOk) (hu : ∀ r ∈ rs, Usable env r) (hr : ∀ r ∈ rs, SameFor r.body m m')
    (hf : ∀ r ∈ rs, ∀ f, RuleMentions env g r f → f.Same m m') :
    (check env g m rs).map CheckOut.answer = (check env g m' rs).map CheckOut.answer := by
  have := rules_alike (g := g) ho rs 0 hu hr hf
  unfold check
  generalize checkRules env g 0 m rs = x at *
  generalize checkRules env g 0 m' rs = y at *
  cases x with
  | error e =>
    cases y with
    | error e' => simp [Except.map] at this; subst this; rfl
    | ok b => simp [Except.map] at this
  | ok a =>
    cases y with
    | error e' => simp [Except.map] at this
    | ok b =>
      obtain ⟨a, am⟩ := a
      obtain ⟨b, bm⟩ := b
      simp [Except.map] at this
      subst this
      simp only [Go.ok_bind]
      split <;> rfl

/-- **C75**. If two messages agree on sender, receiver, operation and resource, and on every part that the conditions of some
rule mention, then `Check` gives the same seven values for both, or fails in the same way. -/
theorem C75_frame (ho : env.OrdOk) (hu : ∀ r ∈ rs, Usable env r) (hr : SameRequest m m')
    (hf : ∀ r ∈ rs, ∀ f, RuleMentions env g r f → f.Same m m') :
    (check env g m rs).map CheckOut.answer = (check env g m' rs).map CheckOut.answer := C75_parts ho hu (fun _ _ => sameRequest_for hr) hf

/-- **C75**, parts that no rule can mention: identifier and time of the request, the label texts, seconds and minutes. -/
theorem C75_never_read (ho : env.OrdOk) (hu : ∀ r ∈ rs, Usable env r) (id time sl dl : Str) (s mi : F64) :
    (check env g ({ m with
      messageID := id, requestTime := time, sourceLabelsJson := sl, destinationLabelsJson := dl, secondsFromMidnight := s
      minutesFromMidnight := mi }) rs).map CheckOut.answer = (check env g m rs).map CheckOut.answer := by
  refine C75_frame ho hu ⟨rfl, rfl, rfl, rfl, rfl, rfl, rfl, rfl, rfl, rfl, rfl, rfl⟩ fun r _ f _ => ?_
  cases f <;> first | rfl | exact ⟨rfl, rfl, rfl, rfl⟩

/-- **C75**, rules without conditions look at sender, receiver, operation and resource only. -/
theorem C75_no_conditions (ho : env.OrdOk) (hu : ∀ r ∈ rs, Fresh r ∧ r.body.conditions = none) (hr : SameRequest m m') :
    (check env g m rs).map CheckOut.answer = (check env g m' rs).map CheckOut.answer := by
  refine C75_frame ho (fun r hm => .fresh (hu r hm).1) hr fun r hm f hf => ?_
  obtain ⟨rule, n, h, hn, -⟩ := hf
  exfalso
  have key : ∀ p t r', r.setPredefined env p t = .ok (r', none) → r'.prepared = some rule → False := by
    intro p t r' h1 h2
    obtain ⟨copy, rule', h3, h4, rfl⟩ := setPredefined_ok h1
    simp at h2; subst h2
    obtain ⟨ct, hct, rfl⟩ := copyRule_ok h3
    rw [(hu r hm).2] at hct
    rw [copyConditions_none] at hct
    simp at hct
    subst hct
    obtain ⟨s, v, sl, rl, op, re, _, _, _, _, _, _, h7, h8⟩ := prepareOneRule_ok (by simpa using (hu r hm).1.converted) h4
    rcases h7 with ⟨_, h7⟩ | ⟨n0, n', e1, e2, e3⟩
    · rw [h7] at hn; simp at hn
    · simp at e1
  rcases h with h | ⟨p, r', h1, h2⟩
  · have := (readyAs_facts h).1
    rw [(hu r hm).1.ready] at this
    simp at this
  · exact key _ _ _ h1 h2

/-! ## A rule that mentions the size and the documents -/

theorem safeRule_mentions {f : Field} (h : RuleMentions Demo.env {} safeRule f) : f = .size ∨ f = .documents := by
  obtain ⟨rule, n, h, hn, ht⟩ := h
  have key : ∀ p r', safeRule.setPredefined Demo.env p {} = .ok (r', none) → r'.prepared = some rule → f = .size ∨ f = .documents := by
    intro p r' h1 h2
    obtain ⟨r'', rule', a, c1, c2, c3, e1, e2, e3, ⟨a1, -⟩, ⟨a2, -⟩, ⟨a3, -⟩, -⟩ := safeRule_prepared p
    rw [h1] at e1
    simp at e1; subst e1
    rw [h2] at e2
    simp at e2; subst e2
    rw [hn] at e3
    simp at e3; subst e3
    cases ht with
    | quantifier => exact .inr rfl
    | @leaf c _ hl hm =>
      generalize hw : c.origValue = w at hm
      clear hw
      simp [leaves, leavesOf] at hl
      rcases hl with rfl | rfl | rfl
      · rw [a1] at hm
        generalize hx : gs"payloadSize" = x at hm
        cases hm <;> simp_all
      · rw [a2] at hm
        generalize hx : gs"jsonpath:$.kind" = x at hm
        cases hm <;> simp_all
      · rw [a3] at hm
        generalize hx : gs"jsonpath:$RELATIVE.image" = x at hm
        cases hm <;> simp_all
  rcases h with h | ⟨p, r', h1, h2⟩
  · have := (readyAs_facts h).1
    cases this
  · exact key _ _ h1 h2

/-- For that rule the namespaces, labels, agent and domain do not matter, whatever they are. -/
example (ns : Str) (ls : List (Str × Str)) (agent domain : Str) :
    (check Demo.env {} ({ Demo.msgI with
      requestSize := 200, sourceNamespace := ns, sourceLabels := ls, requestUseragent := agent, domain := domain }) [safeRule]).map CheckOut.answer =
    (check Demo.env {} { Demo.msgI with requestSize := 200 } [safeRule]).map CheckOut.answer := by
  refine C75_frame Demo.env_ordOk (fun r hr => ?_) ⟨rfl, rfl, rfl, rfl, rfl, rfl, rfl, rfl, rfl, rfl, rfl, rfl⟩ fun r hr f hf => ?_
  · simp at hr; subst hr
    exact .fresh ⟨rfl, rfl, rfl⟩
  · simp at hr; subst hr
    rcases safeRule_mentions hf with rfl | rfl
    · rfl
    · exact ⟨rfl, rfl, rfl, rfl⟩

/-- Nor do the addresses, the host, the port and the path: the rule is for all types and all protocols. -/
example (ip host port path : Str) (net : IP) :
    (check Demo.env {} ({ Demo.msgI with
      requestSize := 200, sourceIp := ip, sourceNetIp := net, requestHost := host, destinationPort := port, requestPath := path }) [safeRule]).map CheckOut.answer =
    (check Demo.env {} { Demo.msgI with requestSize := 200 } [safeRule]).map CheckOut.answer := by
  refine C75_parts Demo.env_ordOk (fun r hr => ?_) (fun r hr => ?_) fun r hr f hf => ?_
  · simp at hr; subst hr
    exact .fresh ⟨rfl, rfl, rfl⟩
  · simp at hr; subst hr
    exact ⟨fun _ => rfl, fun h => absurd h (by decide), fun _ => rfl, fun h => absurd h (by decide), fun h => absurd h (by decide), rfl,
      fun h => absurd h (by decide), fun _ h => absurd rfl h⟩
  · simp at hr; subst hr
    rcases safeRule_mentions hf with rfl | rfl
    · rfl
    · exact ⟨rfl, rfl, rfl, rfl⟩

set_option maxRecDepth 100000 in
/-- The size does matter. -/
example : Demo.summary (check Demo.env {} { Demo.msgI with requestSize := 200 } [safeRule]) = some (3, [3], 0, [0]) ∧
    Demo.summary (check Demo.env {} { Demo.msgI with requestSize := 50 } [safeRule]) = some (0, [0], -1, []) := by
  constructor <;> decide +kernel

end Mapl.Props

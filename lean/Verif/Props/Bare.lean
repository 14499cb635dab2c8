import Verif.Lemmas.Bare
import Verif.Props.Policy
import Verif.Props.Returns

/-!
# C82: asking for values to be returned does not change the decision
-/

namespace Mapl
namespace Props

open Spec

variable {env : Env} {g : Predef} {msg : Msg}

/-- **C82** (without crashes). If the check of a policy returns then the check of the same policy without its return values returns too, with
the same decision, results, applied rules, relevant rule and description, and returns no values. Missing: with return values the check may
crash where it does not without them, see `C82_violated`. -/
theorem C82_partial (ho : env.OrdOk) {rs rs' : List RuleObj} {out : CheckOut} (h : List.Forall₂ (SameBut env g) rs rs') (hr : check env g msg rs = .ok out) :
    ∃ out', check env g msg rs' = .ok out' ∧ out'.decision = out.decision ∧ out'.decisionString = out.decisionString ∧ out'.results = out.results ∧
      out'.relevantRuleIndex = out.relevantRuleIndex ∧ out'.appliedRulesIndices = out.appliedRulesIndices ∧ out'.ruleDescription = out.ruleDescription ∧
      out'.msg = out.msg ∧ ∀ e ∈ out'.extraData, e = [] := by
  have hget : ∀ (k : Nat) r', rs'[k]? = some r' → ∃ r, rs[k]? = some r ∧ SameBut env g r r' := by
    intro k r' h1
    obtain ⟨l1, rfl⟩ := List.getElem?_eq_some_iff.1 h1
    have l2 : k < rs.length := h.length_eq ▸ l1
    exact ⟨rs[k], List.getElem?_eq_getElem _, h.get l2 l1⟩
  obtain ⟨outs, h1, a, ha, h2, h3, h4, h5, h6, h7, h8, h9⟩ := check_inv hr
  obtain ⟨-, c1, c2⟩ := (checkRules_ok rs 0 _).1 h1
  simp only at c1 c2
  have hrule : ∀ (k : Nat) r', rs'[k]? = some r' → ∃ o', r'.check env g [k] msg = .ok o' ∧ o'.extra = [] ∧ ∃ e, outs[k]? = some (o'.result, e) := by
    intro k r' hr'
    obtain ⟨r, e1, e2⟩ := hget k r' hr'
    obtain ⟨o, e3, e4⟩ := c2 k r e1
    rw [Nat.zero_add] at e3
    obtain ⟨o', e5, e6, e7⟩ := sameBut_check ho e2 e3
    exact ⟨o', e5, e7, o.extra, by rw [e4, e6]⟩
  obtain ⟨out', hout'⟩ := returns_check.2 fun k r' hr' => by
    obtain ⟨o', e, -⟩ := hrule k r' hr'
    exact ⟨o', e⟩
  obtain ⟨outs', h1', a', ha', h2', h3', h4', h5', h6', h7', h8', h9'⟩ := check_inv hout'
  obtain ⟨-, c1', c2'⟩ := (checkRules_ok rs' 0 _).1 h1'
  simp only at c1' c2'
  have hlen : outs'.length = outs.length := by rw [c1, c1', h.length_eq]
  have hk : ∀ k : Nat, k < outs'.length → ∃ d e, outs'[k]? = some (d, []) ∧ outs[k]? = some (d, e) := by
    intro k hk
    have hr' : rs'[k]? = some (rs'[k]'(c1' ▸ hk)) := List.getElem?_eq_getElem _
    obtain ⟨o', e1, e2, e, e3⟩ := hrule k _ hr'
    obtain ⟨o'', e4, e5⟩ := c2' k _ hr'
    rw [Nat.zero_add] at e4
    obtain rfl : o'' = o' := by rw [e1] at e4; exact (Except.ok.inj e4).symm
    rw [e2] at e5
    exact ⟨_, e, e5, e3⟩
  have hres : outs'.map (·.1) = outs.map (·.1) := by
    apply List.ext_getElem?
    intro k
    rw [List.getElem?_map, List.getElem?_map]
    by_cases hlt : k < outs'.length
    · obtain ⟨d, e, e1, e2⟩ := hk k hlt
      rw [e1, e2]; rfl
    · rw [List.getElem?_eq_none (by omega), List.getElem?_eq_none (by omega)]
  have hdesc : rs'.map describe = rs.map describe := by
    clear * - h
    induction h with
    | nil => rfl
    | cons h _ ih => rw [List.map_cons, List.map_cons, ih, sameBut_describe h]
  have haa : a' = a := by rw [ha, ha', hres, hdesc]
  subst haa
  refine ⟨out', hout', by rw [h3, h3'], ?_, by rw [h5, h5', hres], by rw [h4, h4'], by rw [h6, h6'], by rw [h7, h7'], by rw [h9, h9'], fun e he => ?_⟩
  · rw [h2] at h2'; exact (Option.some.inj h2').symm
  · rw [h8', List.mem_map] at he
    obtain ⟨x, hx, rfl⟩ := he
    obtain ⟨k, hx⟩ := List.mem_iff_getElem?.1 hx
    obtain ⟨lk, -⟩ := List.getElem?_eq_some_iff.1 hx
    obtain ⟨d, e, e1, -⟩ := hk k lk
    rw [hx] at e1
    obtain rfl := Option.some.inj e1
    rfl

/-- **C82.** Every rule object in a policy whose conditions are copied as they are has such a partner. -/
theorem C82_partner (ho : env.OrdOk) {r : RuleObj} {b : Rule} {t : Predef} (h : Loaded env g r b t) (hc : ∀ n, b.conditions = some n → Copyable env n) :
    ∃ r', SameBut env g r r' ∧ Loaded env g r' (bareRule b) t := by
  suffices ∃ r', Loaded env g r' (bareRule b) t by
    obtain ⟨r', h'⟩ := this
    exact ⟨r', ⟨b, t, h, h', hc⟩, h'⟩
  cases h with
  | @parsed r hf =>
    have : Fresh { r with body := bareRule r.body } := ⟨hf.ready, hf.prepared, hf.converted⟩
    exact ⟨_, .parsed this⟩
  | @prepared r0 r p t hf hs =>
    obtain ⟨copy, rule, h1, h2, rfl⟩ := setPredefined_ok hs
    have hf' : Fresh { r0 with body := bareRule r0.body } := ⟨hf.ready, hf.prepared, hf.converted⟩
    have h0 : ({ r0 with body := bareRule r0.body } : RuleObj).setPredefined env p t =
        .ok ({ r0 with body := bareRule r0.body, ready := true, predefined := t, prepared := some (bareRule rule) }, none) := by
      simp only [RuleObj.setPredefined, bare_copyRule ho hc h1 p, bare_prepareOne, h2, Except.map]
    exact ⟨_, .prepared hf' h0⟩

/-- If the check returns then its answer is that of the rules without their return values. -/
theorem C82_answer (he : Assumed env) (hm : MsgOk env msg) {rs : List RuleObj} {xs : List (Prop × Decision)} {out : CheckOut}
    (h : List.Forall₂ (fun r x => ∃ b t, Loaded env g r b t ∧ (∀ n, b.conditions = some n → Copyable env n) ∧ WrittenSays env t msg (bareRule b) x.1 x.2) rs xs)
    (hr : check env g msg rs = .ok out) : Decides xs out := by
  have : ∃ rs', List.Forall₂ (SameBut env g) rs rs' ∧ List.Forall₂ (fun r x => RuleSays env g msg r x.1 x.2) rs' xs := by
    clear hr
    induction h with
    | nil => exact ⟨[], .nil, .nil⟩
    | cons h _ ih =>
      obtain ⟨rs', i1, i2⟩ := ih
      obtain ⟨b, t, h1, h2, h3⟩ := h
      obtain ⟨r', k1, k2⟩ := C82_partner he.order h1 h2
      exact ⟨r' :: rs', .cons k1 i1, .cons ⟨_, t, k2, h3⟩ i2⟩
  obtain ⟨rs', h1, h2⟩ := this
  obtain ⟨out', h3, e1, e2, e3, -⟩ := C82_partial he.order h1 hr
  obtain ⟨out'', h4, d, d1, d2, d3, d4, d5, d6⟩ := C74_policy he hm h2
  obtain rfl : out'' = out' := by rw [h3] at h4; exact (Except.ok.inj h4).symm
  exact ⟨d, e1 ▸ d1, e2 ▸ d2, d3, d4, e3 ▸ d5, fun k x hx => e3 ▸ d6 k x hx⟩

/-- **C74** for rules with return values. A policy whose conditions are defined on the message, and which asks for values of the element in
scope only inside of ANY and ALL, is checked without a crash, and decides by what its rules say without their return values. -/
theorem C74_returns (he : Assumed env) (hm : MsgOk env msg) (hdoc : Documented false msg) {rs : List RuleObj} {xs : List (Prop × Decision)}
    (h : List.Forall₂ (fun r x => ∃ b t, Loaded env g r b t ∧ (∀ n, b.conditions = some n → Copyable env n ∧ Reported false n) ∧
      WrittenSays env t msg (bareRule b) x.1 x.2) rs xs) :
    ∃ out, check env g msg rs = .ok out ∧ Decides xs out := by
  have hlen : rs.length = xs.length := h.length_eq
  obtain ⟨out, hout⟩ := returns_check.2 fun k r hr => by
    obtain ⟨l1, rfl⟩ := List.getElem?_eq_some_iff.1 hr
    obtain ⟨b, t, h1, h2, h3⟩ := h.get l1 (hlen ▸ l1)
    exact returns_written he h1 (fun n hn => (h2 n hn).1) h3 (fun n hn => (h2 n hn).2) hdoc [k]
  exact ⟨out, hout, C82_answer he hm (h.imp fun _ _ ⟨b, t, h1, h2, h3⟩ => ⟨b, t, h1, fun n hn => (h2 n hn).1, h3⟩) hout⟩

/-! ## Examples -/

namespace BareDemo

/-- The rule with the conditions of the examples for return values. -/
def withConditions (n : Node) : RuleObj := { body := { (Demo.rule gs"block").body with conditions := some n } }

def bared (n : Node) : RuleObj := { body := bareRule (withConditions n).body }

theorem pair {n : Node} (h : Copyable ReturnsDemo.env n) : List.Forall₂ (SameBut ReturnsDemo.env {}) [withConditions n] [bared n] := by
  refine .cons ⟨(withConditions n).body, {}, .parsed ⟨rfl, rfl, rfl⟩, .parsed (r := bared n) ⟨rfl, rfl, rfl⟩, fun k hk => ?_⟩ .nil
  obtain rfl : n = k := Option.some.inj hk
  exact h

theorem copyable {r : List (Str × Str)} (h : (r.map (·.1)).Nodup) : Copyable ReturnsDemo.env (condNode ReturnsDemo.env gs"jsonpath:$.kind" gs"EQ" gs"Pod" (some r)) := by
  refine .cond ?_ (by unfold NoControl; decide) (by unfold NoControl; decide) (by simpa using h)
  obtain ⟨c', h'⟩ : ∃ c', validateOneCondition ReturnsDemo.env { attr := gs"jsonpath:$.kind", method := gs"EQ", value := gs"Pod" } = .ok c' := ⟨_, rfl⟩
  exact (validateOneCondition_iff.1 h').1

/-- What a check answers: the decision and the number of values for each rule. -/
def answer (m : Msg) (rs : List RuleObj) : Option (Str × List Nat × List Nat) :=
  match check ReturnsDemo.env {} m rs with
  | .ok o => some (o.decisionString, o.results, o.extraData.map List.length)
  | .error _ => none

/-- The check ends in a nil dereference. -/
def crashes (m : Msg) (rs : List RuleObj) : Bool :=
  match check ReturnsDemo.env {} m rs with
  | .error (.panic .nilDeref) => true
  | _ => false

end BareDemo

set_option maxRecDepth 20000 in
/-- The policy that returns the replicas of a pod blocks it, as does the one without return values. -/
example : BareDemo.answer Demo.msgI [BareDemo.withConditions ReturnsDemo.absolute] = some (gs"block", [3], [1]) ∧
    BareDemo.answer Demo.msgI [BareDemo.bared ReturnsDemo.absolute] = some (gs"block", [3], [0]) ∧
    List.Forall₂ (SameBut ReturnsDemo.env {}) [BareDemo.withConditions ReturnsDemo.absolute] [BareDemo.bared ReturnsDemo.absolute] :=
  ⟨by decide +kernel, by decide +kernel, BareDemo.pair (BareDemo.copyable (by decide))⟩

set_option maxRecDepth 20000 in
/-- **C82 is violated:** a policy that blocks a message crashes on it once its condition asks for a value of the element in scope. -/
theorem C82_violated : ∃ (env : Env) (msg : Msg) (rs rs' : List RuleObj) (out' : CheckOut), env.OrdOk ∧ List.Forall₂ (SameBut env {}) rs rs' ∧
    check env {} msg rs' = .ok out' ∧ out'.decisionString = gs"block" ∧ check env {} msg rs = .error (.panic .nilDeref) := by
  have h1 : BareDemo.answer Demo.msgB [BareDemo.bared ReturnsDemo.relative] = some (gs"block", [3], [0]) := by decide +kernel
  have h2 : BareDemo.crashes Demo.msgB [BareDemo.withConditions ReturnsDemo.relative] = true := by decide +kernel
  unfold BareDemo.answer at h1
  unfold BareDemo.crashes at h2
  split at h1
  · next o ho =>
    simp only [Option.some.injEq, Prod.mk.injEq] at h1
    split at h2
    · next hc => exact ⟨ReturnsDemo.env, Demo.msgB, _, _, o, Demo.env_ordOk, BareDemo.pair (BareDemo.copyable (by decide)), ho, h1.1, hc⟩
    · cases h2
  · cases h1

/-! ## A policy that returns values -/

/-- The first rule of the policy, returning the images of the containers that it finds. -/
noncomputable def policyReturns : Rule :=
  { (Demo.rule gs"block").body with conditions := some (.and [condNode policyEnv gs"payloadSize" gs"GT" gs"10" none,
      .any (anyFields policyEnv gs"jsonpath:$.containers" [(gs"img", gs"jsonpath:$RELATIVE.image")])
        (condNode policyEnv gs"jsonpath:$RELATIVE.image" gs"EQ" gs"#bad" (some [(gs"cpu", gs"jsonpath:$RELATIVE.cpu"), (gs"kind", gs"jsonpath:$.kind")]))]) }

theorem policyReturns_bare : bareRule policyReturns = policyRules[0] := by
  have : bare (.and [condNode policyEnv gs"payloadSize" gs"GT" gs"10" none,
      .any (anyFields policyEnv gs"jsonpath:$.containers" [(gs"img", gs"jsonpath:$RELATIVE.image")])
        (condNode policyEnv gs"jsonpath:$RELATIVE.image" gs"EQ" gs"#bad" (some [(gs"cpu", gs"jsonpath:$RELATIVE.cpu"), (gs"kind", gs"jsonpath:$.kind")]))]) =
      policyStatement.tree policyEnv := by
    rw [bare, bareAll, bareAll, bareAll, bare, bare_condNode, bare_condNode]; rfl
  rw [bareRule, policyReturns]
  simp only [Option.map_some]
  rw [this]; rfl

theorem policyReturns_ok : ∀ n, policyReturns.conditions = some n → Copyable policyEnv n ∧ Reported false n := by
  intro n hn
  obtain rfl := Option.some.inj hn
  have acc : ∀ {a m v}, (∃ c', validateOneCondition policyEnv { attr := a, method := m, value := v } = .ok c') → Acceptable policyEnv a m v := by
    rintro a m v ⟨c', h⟩
    exact (validateOneCondition_iff.1 h).1
  constructor
  · refine .and (by simp) ?_
    simp only [List.mem_cons, List.not_mem_nil, or_false]
    rintro n (rfl | rfl)
    · exact .cond (acc ⟨_, rfl⟩) (by unfold NoControl; decide) (by unfold NoControl; decide) (by simp)
    · refine .any (.inr (.inl ⟨gs"containers", rfl⟩)) (by unfold Verbatim; decide) (by simp) (by simp) ?_
      exact .cond (acc ⟨_, rfl⟩) (by unfold NoControl; decide) (by unfold NoControl; decide) (by simp)
  · rw [Reported, ReportedAll, ReportedAll, ReportedAll, Reported, condNode, condNode, Reported, Reported]
    refine ⟨?_, ?_, trivial⟩
    · intro ret hret
      exact absurd hret (by simp [show (parsed policyEnv gs"payloadSize" gs"GT" gs"10" none).ret = none from rfl])
    · intros; rfl

/-- The message is blocked, whatever the rule returns. -/
example : ∃ out, check policyEnv policyTables policyMsg [{ body := policyReturns }] = .ok out ∧ out.decisionString = gs"block" := by
  have hw := (List.forall₂_cons.1 policy_says).1
  rw [← policyReturns_bare] at hw
  obtain ⟨out, ho, d, e1, e2, e3, e4, e5, e6⟩ := C74_returns (g := policyTables) (rs := [{ body := policyReturns }]) policyEnv_ok policyMsg_ok ⟨.inl rfl, by simp⟩
    (.cons ⟨policyReturns, policyTables, .parsed ⟨rfl, rfl, rfl⟩, policyReturns_ok, hw⟩ .nil)
  refine ⟨out, ho, ?_⟩
  have := e4 _ (.head _) (by
    refine ⟨⟨?_, ?_, ?_, ?_⟩, by simp [policy_meaning]⟩
    · exact ⟨.inl rfl, gs"*", mem_split_iff.1 (by decide), by show Glob gs"*" gs"a"; simp [Glob]⟩
    · exact ⟨.inl rfl, gs"*", mem_split_iff.1 (by decide), by show Glob gs"*" gs"b"; simp [Glob]⟩
    · trivial
    · trivial)
  rw [e2]
  cases d with
  | block => rfl
  | _ => simp [Decision.rank] at this

end Props
end Mapl

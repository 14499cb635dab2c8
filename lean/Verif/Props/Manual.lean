import Verif.Spec.Manual
import Verif.Props.Policy
import Verif.Props.Names
import Verif.Lemmas.Bare

/-!
# C101: the rules of the manual
-/

namespace Mapl.Props

open Spec

variable {env : Env} {g t : Predef} {msg : Msg} {p : List Nat} {r : RuleObj} {rs : List RuleObj} {b : Rule} {out : CheckOut}

theorem star_name {e : Ext} (hok : RegexpOk e) {l : List ExpandedSR} {s : Str} (h : convertStringToExpandedSenderReceiver e gs"*" gs"*" = .ok l) :
    (∃ x ∈ l, Accepts e x.regexp s) ↔ OneLine s := by
  have hf := mapM_forall₂ h
  have hP : PlainPattern gs"*" := by unfold PlainPattern; decide
  obtain ⟨re, hr, hfi⟩ := readPattern_name hP
  have key : ∀ x, expandOne e gs"*" gs"*" = .ok x → (Accepts e x.regexp s ↔ OneLine s) := by
    intro x hx
    obtain ⟨_, _, h3, _⟩ := expandOne_ok hx
    rw [if_neg (by simp)] at h3
    have : noBlanks gs"*" = gs"*" := by decide
    rw [this] at h3
    rw [h3]
    have hm := (hok _ _ hr).2 s
    rw [hfi] at hm
    unfold OneLine
    constructor
    · rintro ⟨re', h1, h2⟩
      cases h1
      obtain ⟨x, y, rfl, h4, rfl⟩ := hm.1 h2
      simpa using h4
    · intro hs
      exact ⟨_, rfl, hm.2 ⟨s, [], by simp, hs, rfl⟩⟩
  have hsplit : split ',' gs"*" = [gs"*"] := by decide
  rw [hsplit] at hf
  cases hf with
  | cons h1 h2 =>
    cases h2
    simp only [List.mem_singleton, exists_eq_left]
    exact key _ h1

theorem allowsAll_texts (hb : AllowsAll b) : TextsOk b gs"*" gs"*" := by
  have hP : PlainPattern gs"*" := by unfold PlainPattern; decide
  refine ⟨?_, ?_, by rw [hb.operation]; exact hP, by rw [hb.resource]; exact hP⟩
  · rw [hb.senderType]; exact hP
  · rw [hb.receiverType]; exact hP

theorem star_resolves {t : Predef} : Resolves t gs"*" gs"*" := .plain (by intro k h; cases h)

/-- **C101.** The rule `default_allow` of the manual, parsed or prepared, is checked without a panic and applies to a message exactly if the names of the sender and the receiver have no
line break. -/
theorem C101_allow_all (he : Assumed env) (hl : Loaded env g r b t) (hb : AllowsAll b) :
    ∃ o, r.check env g p msg = .ok o ∧
      (OneLine msg.sourceService ∧ OneLine msg.destinationService → o.result = Decision.allow.rank) ∧
      (¬ (OneLine msg.sourceService ∧ OneLine msg.destinationService) → o.result = Decision.default.rank) := by
  have main : ∀ {r r' : RuleObj} {p0 : List Nat}, AllowsAll r.body → Fresh r → r.setPredefined env p0 t = .ok (r', none) →
      ∃ o, r'.check env g p msg = .ok o ∧
        (OneLine msg.sourceService ∧ OneLine msg.destinationService → o.result = Decision.allow.rank) ∧
        (¬ (OneLine msg.sourceService ∧ OneLine msg.destinationService) → o.result = Decision.default.rank) := by
    intro r r' p0 hb hf h0
    obtain ⟨copy, rule, h1, h2, rfl⟩ := setPredefined_ok h0
    have hx : Expanded rule := prepared_expanded hf.converted h0 rfl
    have hop := (C12_keywords he.regexp hf.converted h0 rfl msg.requestMethod).1 hb.operation
    obtain ⟨ct, hct, rfl⟩ := copyRule_ok h1
    rw [hb.conditions, copyConditions_none] at hct
    cases hct
    obtain ⟨s, v, sl, rl, op, re, k1, k2, k3, k4, _, _, k7, k8⟩ := prepareOneRule_ok (by simpa using hf.converted) h2
    have hs : s = gs"*" := by
      have := replaceName_iff.2 (star_resolves (t := t))
      simp only [hb.sender] at k1
      rw [this] at k1; cases k1; rfl
    have hv : v = gs"*" := by
      have := replaceName_iff.2 (star_resolves (t := t))
      simp only [hb.receiver] at k2
      rw [this] at k2; cases k2; rfl
    subst hs hv
    simp only [hb.senderType] at k3
    simp only [hb.receiverType] at k4
    have hnone : rule.conditions = none := by
      rcases k7 with ⟨-, k7⟩ | ⟨n, n', k7, -⟩
      · exact k7
      · cases k7
    have hsl : rule.senderList = sl := by rw [k8]
    have hrl : rule.receiverList = rl := by rw [k8]
    have hsend : (∃ e ∈ rule.senderList, SenderEntry env e msg) ↔ OneLine msg.sourceService := by
      rw [← star_name he.regexp k3, hsl]
      refine exists_congr fun e => and_congr_right fun hm => ?_
      have := mapM_expandOne k3 e hm
      simp [SenderEntry, this]
    have hrecv : (∃ e ∈ rule.receiverList, ReceiverEntry env e msg) ↔ OneLine msg.destinationService := by
      rw [← star_name he.regexp k4, hrl]
      refine exists_congr fun e => and_congr_right fun hm => ?_
      have := mapM_expandOne k4 e hm
      simp [ReceiverEntry, this]
    have hparts : PartsMatch env rule msg ↔ OneLine msg.sourceService ∧ OneLine msg.destinationService := by
      rw [← hsend, ← hrecv]
      refine ⟨fun h => ⟨h.sender, h.receiver⟩, fun h => ⟨h.1, h.2, hop, ?_⟩⟩
      have : rule.protocol = gs"*" := by rw [k8]; exact hb.protocol
      simp [ResourceMatches, this]
    obtain ⟨o, ho⟩ := returns_rule (g := g) (p := p) (msg := msg) he.order he.numbers (rule := rule) ⟨rfl, _, _, _, hf.converted, h0⟩ (by rw [hnone]; rintro _ ⟨⟩)
    obtain ⟨c1, c2, -⟩ := ruleCheck_prepared rfl rfl hx ho
    have hdec : decisionOf rule.decision = .allow := by rw [k8]; exact hb.decision
    rw [hdec] at c1
    rw [hnone] at c1 c2
    refine ⟨o, ho, fun h => c1 ⟨hparts.2 h, by rintro _ ⟨⟩⟩, fun h => (c2 fun hh => h (hparts.1 hh.1)).1⟩
  cases hl with
  | prepared hf hs => exact main hb hf hs
  | parsed hf =>
    obtain ⟨r', h0⟩ := written_sets (c := none) he hf (by rw [hb.conditions]; rfl) (by rw [hb.sender]; exact star_resolves) (by rw [hb.receiver]; exact star_resolves) (allowsAll_texts hb)
      (by rintro _ ⟨⟩) (0 :: p) (t := g)
    rw [check_unready hf.ready h0 (setPredefined_ready h0)]
    exact main hb hf h0

/-- **C101.** With this rule in it, wherever it stands, a policy is a blacklist: no message is left without a decision; it is blocked if one of the rules blocks it, else alerted if
one of the rules alerts, and allowed if none of them does either. -/
theorem C101_blacklist (he : Assumed env) (hr : r ∈ rs) (hl : Loaded env g r b t) (hb : AllowsAll b) (hm : OneLine msg.sourceService ∧ OneLine msg.destinationService)
    (h : check env g msg rs = .ok out) :
    (out.decision = Decision.block.rank ↔ Decision.block.rank ∈ out.results) ∧
    (out.decision = Decision.alert.rank ↔ Decision.alert.rank ∈ out.results ∧ Decision.block.rank ∉ out.results) ∧
    (out.decision = Decision.allow.rank ↔ Decision.alert.rank ∉ out.results ∧ Decision.block.rank ∉ out.results) := by
  obtain ⟨k, hk⟩ := List.mem_iff_getElem?.1 hr
  obtain ⟨ds, h1, h2, d, h3, h4, h5, h6⟩ := check_summary h
  obtain ⟨outs, c1, a, -, -, -, -, c2, -⟩ := check_inv h
  obtain ⟨-, c3, c4⟩ := (checkRules_ok rs 0 _).1 c1
  obtain ⟨o, ho, e3⟩ := c4 k _ hk
  obtain ⟨o', ho', e1, -⟩ := C101_allow_all (p := [0 + k]) (msg := msg) he hl hb
  obtain rfl : o' = o := by rw [ho] at ho'; exact (Except.ok.inj ho').symm
  have hmem : Decision.allow ∈ ds := by
    have : out.results[k]? = some Decision.allow.rank := by
      rw [c2, List.getElem?_map, e3]
      simp [e1 hm]
    rw [h1, List.getElem?_map] at this
    cases hd : ds[k]? with
    | none => rw [hd] at this; cases this
    | some y =>
      rw [hd] at this
      have : y = .allow := rank_inj (by simpa using this)
      exact this ▸ List.mem_of_getElem? hd
  have hrank : ∀ x : Decision, x.rank ∈ out.results ↔ x ∈ ds := by
    intro x
    rw [h1, List.mem_map]
    exact ⟨fun ⟨y, hy, e⟩ => rank_inj e ▸ hy, fun hx => ⟨x, hx, rfl⟩⟩
  have hle := h6 _ hmem
  rw [hrank, hrank, h3]
  have hd : d ∈ ds := by
    rcases h5 with rfl | h5
    · simp [Decision.rank] at hle
    · exact h5
  have hbl := fun h => h6 Decision.block h
  have hal := fun h => h6 Decision.alert h
  cases d <;> simp [Decision.rank] at hle hbl hal ⊢ <;> simp_all

/-! ## Services, lists and keywords -/

theorem glob_word {w s : Str} (h1 : '*' ∉ w) (h2 : '?' ∉ w) : Glob w s ↔ s = w := by
  induction w generalizing s with
  | nil => rw [Glob]
  | cons c w ih =>
    simp only [List.mem_cons, not_or] at h1 h2
    rw [Glob, if_neg (Ne.symm h1.1), if_neg (Ne.symm h2.1)]
    simp [ih h1.2 h2.2]

theorem glob_prefix {w s : Str} (h1 : '*' ∉ w) (h2 : '?' ∉ w) : Glob (w ++ gs"*") s ↔ ∃ x, s = w ++ x := by
  induction w generalizing s with
  | nil =>
    rw [List.nil_append, Glob, if_pos rfl]
    exact ⟨fun ⟨x, y, h, _⟩ => ⟨s, rfl⟩, fun _ => ⟨s, [], by simp, rfl⟩⟩
  | cons c w ih =>
    simp only [List.mem_cons, not_or] at h1 h2
    rw [List.cons_append, Glob, if_neg (Ne.symm h1.1), if_neg (Ne.symm h2.1)]
    simp only [ih h1.2 h2.2, List.cons_append]
    exact ⟨fun ⟨y, h, x, hx⟩ => ⟨x, by rw [h, hx]⟩, fun ⟨x, h⟩ => ⟨_, h, x, rfl⟩⟩

theorem glob_letter {w s : Str} {c : Char} (hc : c ∈ w) (h1 : c ≠ '*') (h2 : c ≠ '?') (h : Glob w s) : c ∈ s := by
  induction w generalizing s with
  | nil => cases hc
  | cons d w ih =>
    rw [Glob] at h
    rcases List.mem_cons.1 hc with rfl | hc
    · rw [if_neg h1, if_neg h2] at h
      obtain ⟨y, rfl, -⟩ := h
      simp
    · split at h
      · obtain ⟨x, y, rfl, h⟩ := h
        simp [ih hc h]
      · split at h
        · obtain ⟨x, y, rfl, h⟩ := h
          simp [ih hc h]
        · obtain ⟨y, rfl, h⟩ := h
          simp [ih hc h]

/-- **C101, partial.** The rule of the manual about `/books/*` with the type `workload`, without conditions and for the operation `read`, is checked without a panic and applies exactly if
A asks B, over HTTP, for something below `/books/`, with one of the methods GET, HEAD, OPTIONS and TRACE (or the words `read` and `READ`). The manual has the type `service` and lists
CONSUME among the methods: `C101_violated_service`, `C101_violated_read`. -/
theorem C101_books_partial (he : Assumed env) (hm : MsgOk env msg) (hl : Loaded env g r b t) (hb : BooksRule b gs"workload" gs"read") :
    ∃ o, r.check env g p msg = .ok o ∧
      (AsksForBooks [gs"GET", gs"HEAD", gs"OPTIONS", gs"TRACE", gs"read", gs"READ"] msg → o.result = Decision.allow.rank) ∧
      (¬ AsksForBooks [gs"GET", gs"HEAD", gs"OPTIONS", gs"TRACE", gs"read", gs"READ"] msg → o.result = Decision.default.rank) := by
  have hsays : WrittenSays env t msg b (WrittenParts b b.senderName b.receiverName msg ∧ ∀ f ∈ (none : Option Statement), Meaning env t f msg) (decisionOf b.decision) := by
    refine .mk (c := none) (by rw [hb.conditions]; rfl) (by rw [hb.sender]; exact .plain (by intro k h; cases h)) (by rw [hb.receiver]; exact .plain (by intro k h; cases h)) ?_
      (by rintro _ ⟨⟩) (by rintro _ ⟨⟩)
    refine ⟨?_, ?_, ?_, ?_⟩
    · rw [hb.senderType, hb.sender, NameOk, if_neg (by decide)]; unfold PlainPattern; decide
    · rw [hb.receiverType, hb.receiver, NameOk, if_neg (by decide)]; unfold PlainPattern; decide
    · rw [hb.operation]; unfold PlainPattern; decide
    · rw [hb.resource]; unfold PlainPattern; decide
  obtain ⟨o, ho, h1, h2⟩ := rule_says he hm ⟨b, t, hl, hsays⟩ p
  have name : ∀ {w s : Str}, ',' ∉ w → '*' ∉ w → '?' ∉ w → noBlanks w = w → (NameMatches w s ↔ s = w) := by
    intro w s k1 k2 k3 k4
    unfold NameMatches
    simp only [listed_last k1, exists_eq_left, k4]
    exact glob_word k2 k3
  have parts : WrittenParts b b.senderName b.receiverName msg ↔ AsksForBooks [gs"GET", gs"HEAD", gs"OPTIONS", gs"TRACE", gs"read", gs"READ"] msg := by
    have s1 : SenderText b.senderType b.senderName msg ↔ msg.sourceService = gs"A.my_namespace" := by
      rw [SenderText, hb.senderType, hb.sender, if_neg (by decide)]
      simp only [or_true, true_and]
      exact name (by decide) (by decide) (by decide) (by decide)
    have s2 : ReceiverText b.receiverType b.receiverName msg ↔ msg.destinationService = gs"B.my_namespace" := by
      rw [ReceiverText, hb.receiverType, hb.receiver, if_neg (by decide), if_neg (by decide)]
      simp only [or_true, true_and]
      exact name (by decide) (by decide) (by decide) (by decide)
    have s3 : OperationMatches b.operation msg.requestMethod ↔ msg.requestMethod ∈ [gs"GET", gs"HEAD", gs"OPTIONS", gs"TRACE", gs"read", gs"READ"] := by
      rw [OperationMatches, hb.operation, if_neg (by decide), if_pos (.inl rfl)]
    have s4 : ResourceText b msg ↔ SameUpToCase msg.contextProtocol gs"http" ∧ msg.contextType = gs"httpPath" ∧ ∃ x, msg.requestPath = gs"/books/" ++ x := by
      rw [ResourceText, hb.protocol, if_neg (by decide), if_neg (by decide), hb.resourceType, hb.resource]
      refine and_congr_right fun _ => and_congr ⟨fun h => ?_, fun h => .inr h.symm⟩ ?_
      · exact (h.resolve_left (by decide)).symm
      · unfold TextMatches
        simp only [listed_last (show ',' ∉ gs"/books/*" by decide), exists_and_left, exists_eq_left, trimmed_iff, show trimSpace gs"/books/*" = gs"/books/*" by decide]
        exact glob_prefix (w := gs"/books/") (by decide) (by decide)
    constructor
    · rintro ⟨k1, k2, k3, k4⟩
      obtain ⟨k4, k5, k6⟩ := s4.1 k4
      exact ⟨s1.1 k1, s2.1 k2, k4, k5, k6, s3.1 k3⟩
    · rintro ⟨k1, k2, k3, k4, k5, k6⟩
      exact ⟨s1.2 k1, s2.2 k2, s3.2 k6, s4.2 ⟨k3, k4, k5⟩⟩
  rw [hb.decision] at h1
  exact ⟨o, ho, fun h => h1 ⟨parts.2 h, by rintro _ ⟨⟩⟩, fun h => (h2 fun hh => h (parts.1 hh.1)).1⟩

/-- **C101** is violated for the types: a rule for a sender or a receiver of the type `service`, as all examples of the manual have it, applies to no message. -/
theorem C101_violated_service (hf : Fresh r) (hty : r.body.senderType = gs"service" ∨ r.body.receiverType = gs"service") {o : RuleOut}
    (h : r.check env g p msg = .ok o) : o.result = Decision.default.rank := by
  refine (C15_unsupported_types hf h ?_).1
  rcases hty with h | h
  · exact .inl (by rw [h]; decide)
  · exact .inr (by rw [h]; decide)

/-- **C101** is violated for lists: the manual separates names by semicolons. A text with a semicolon, and without a comma, is one pattern: it matches no name without a semicolon. -/
theorem C101_violated_lists {patterns name : Str} (h1 : ';' ∈ patterns) (h2 : ',' ∉ patterns) (h3 : ';' ∉ name) : ¬ NameMatches patterns name ∧ ¬ TextMatches patterns name := by
  constructor
  · rintro ⟨q, hq, hg⟩
    obtain rfl := (listed_last h2).1 hq
    exact h3 (glob_letter (List.mem_filter.2 ⟨h1, by decide⟩) (by decide) (by decide) hg)
  · rintro ⟨q, q', hq, ht, hg⟩
    obtain rfl := (listed_last h2).1 hq
    refine h3 (glob_letter ?_ (by decide) (by decide) hg)
    obtain ⟨⟨before, after, hs, hb, ha⟩, -⟩ := ht
    rw [hs] at h1
    simp only [List.mem_append] at h1
    rcases h1 with (h1 | h1) | h1
    · exact absurd (hb _ h1) (by decide)
    · exact h1
    · exact absurd (ha _ h1) (by decide)

/-- **C101** is violated for the keywords: `read` does not stand for CONSUME and `write` not for PRODUCE. -/
theorem C101_violated_read (hok : RegexpOk env) {r' : RuleObj} {rule : Rule} (hc : r.body.converted = false) (h : r.setPredefined env p t = .ok (r', none)) (hp : r'.prepared = some rule) :
    (r.body.operation ∈ [gs"read", gs"READ"] → ¬ Accepts env rule.operationRegex gs"CONSUME") ∧
    (r.body.operation ∈ [gs"write", gs"WRITE"] → ¬ Accepts env rule.operationRegex gs"PRODUCE") := by
  constructor
  · intro ho
    rw [(C12_keywords hok hc h hp _).2.1 ho]
    decide
  · intro ho
    rw [(C12_keywords hok hc h hp _).2.2 ho]
    decide

/-! ## Examples -/

/-- The rule `default_allow`, and the rule about books. -/
def manualAllow : Rule :=
  { senderName := gs"*", senderType := gs"*", receiverName := gs"*", receiverType := gs"*", protocol := gs"*", resourceType := gs"*", resourceName := gs"*", operation := gs"*",
    decision := gs"allow" }

def manualBooks : Rule :=
  { senderName := gs"A.my_namespace", senderType := gs"workload", receiverName := gs"B.my_namespace", receiverType := gs"workload", protocol := gs"http", resourceType := gs"httpPath",
    resourceName := gs"/books/*", operation := gs"read", decision := gs"allow" }

/-- The hypotheses of `C101_allow_all`, `C101_blacklist` and `C101_books_partial` are met. -/
example : Assumed policyEnv ∧ Loaded policyEnv {} { body := manualAllow } manualAllow {} ∧ AllowsAll manualAllow ∧
    Loaded policyEnv {} { body := manualBooks } manualBooks {} ∧ BooksRule manualBooks gs"workload" gs"read" ∧ MsgOk policyEnv policyMsg :=
  ⟨policyEnv_ok, .parsed (r := { body := manualAllow }) ⟨rfl, rfl, rfl⟩, ⟨rfl, rfl, rfl, rfl, rfl, rfl, rfl, rfl, by decide⟩, .parsed (r := { body := manualBooks }) ⟨rfl, rfl, rfl⟩,
    ⟨rfl, rfl, rfl, rfl, rfl, rfl, rfl, rfl, rfl, by decide⟩, policyMsg_ok⟩

/-- A check with `default_allow` alone allows the example message. -/
example : ∃ out, check policyEnv {} policyMsg [{ body := manualAllow }] = .ok out ∧ out.decision = Decision.allow.rank := by
  have hl : Loaded policyEnv {} { body := manualAllow } manualAllow {} := .parsed (r := { body := manualAllow }) ⟨rfl, rfl, rfl⟩
  have hb : AllowsAll manualAllow := ⟨rfl, rfl, rfl, rfl, rfl, rfl, rfl, rfl, by decide⟩
  have hm : OneLine policyMsg.sourceService ∧ OneLine policyMsg.destinationService := ⟨policyMsg_ok.sourceService, policyMsg_ok.destinationService⟩
  obtain ⟨o, ho, h1, -⟩ := C101_allow_all (p := [0]) (msg := policyMsg) policyEnv_ok hl hb
  obtain ⟨out, hout⟩ := (returns_check (env := policyEnv) (g := {}) (msg := policyMsg) (rs := [{ body := manualAllow }])).2 fun k r hr => by
    cases k with
    | zero => cases hr; exact ⟨o, ho⟩
    | succ k => cases hr
  refine ⟨out, hout, ((C101_blacklist policyEnv_ok (List.mem_singleton.2 rfl) hl hb hm hout).2.2).2 ?_⟩
  obtain ⟨outs, c1, a, -, -, -, -, c2, -⟩ := check_inv hout
  obtain ⟨-, c3, c4⟩ := (checkRules_ok _ 0 _).1 c1
  obtain ⟨o', ho', e3⟩ := c4 0 _ rfl
  obtain rfl : o' = o := by rw [show (0 + 0) = 0 from rfl, ho] at ho'; exact (Except.ok.inj ho').symm
  have hlen : outs.length = 1 := c3
  obtain ⟨x, rfl⟩ := List.length_eq_one_iff.1 hlen
  simp at e3
  subst e3
  rw [c2]
  simp [h1 hm, Decision.rank]

/-- The list of the manual, and one of its names. -/
example : ¬ NameMatches gs"A.my_namespace;A.my_other_namespace" gs"A.my_namespace" := (C101_violated_lists (by decide) (by decide) (by decide)).1

set_option maxRecDepth 100000 in
/-- A rule of the manual as it stands there is loaded and checked, and does not apply where it should. -/
example : ∃ o, RuleObj.check Demo.env {} [] { body := { manualAllow with senderType := gs"service" } }
    { Demo.msgI with sourceService := gs"A.my_namespace", destinationService := gs"B.my_namespace" } = .ok o ∧ o.result = Decision.default.rank := by
  refine ⟨?_, ?h, ?_⟩
  case h => with_unfolding_all rfl
  rfl

end Mapl.Props

import Verif.Lemmas.Decode
import Verif.Props.Policy
import Verif.Props.Crash

/-!
# C77: a rules document gives the rules that are written in it

`RulesDoc` says which rules a YAML document writes, key by key. The full statement, that a document is read as exactly the rules that it
writes, is false: see `C77_violated_dash` and `C77_violated_repeated`.
-/

namespace Mapl.Props

open Spec

variable {env : Env} {y : Yaml} {rs : List Rule}

/-- **C77**, partial: the rules of a document whose conditions lose nothing are read as they are written (no key is repeated, no rule, sender
or receiver has the key `-`). -/
theorem C77_reads_partial (ho : env.OrdOk) (hd : Distinct y) (hx : NoDash y) (h : RulesDoc (WritesTree env) y rs) : readRules env y = .ok (rs, none) := by
  rw [readRules, decodeRules_writes ho hd hx h]

/-- **C77**, partial: whatever is read without an error is written in the document. -/
theorem C77_rules_partial (ho : env.OrdOk) (hd : Distinct y) (hx : NoDash y) (h : readRules env y = .ok (rs, none)) :
    RulesDoc (ReadAsTree env) y rs := by
  unfold readRules at h
  split at h
  · cases h; exact decodeRules_reads ho hd hx (by assumption)
  · cases h
  · cases h
  · cases h

/-- **C77.** With an error there are no rules. -/
theorem C77_error {e : Err} (h : readRules env y = .ok (rs, some e)) : rs = [] := by
  unfold readRules at h
  split at h <;> first | (cases h; rfl) | cases h

/-- **C77.** From a file, a document is read as from a string if no key is repeated at any depth, and is refused if one is. -/
theorem C77_file : (Distinct y → readRulesFile env y = readRules env y) ∧ (¬ Distinct y → ∃ e, readRulesFile env y = .ok ([], some e)) := by
  unfold readRulesFile
  constructor
  · intro h; rw [if_pos ((testYaml_iff y).2 h)]
  · intro h; rw [if_neg (fun c => h ((testYaml_iff y).1 c))]; exact ⟨_, rfl⟩

/-- A text as a scalar. -/
def textYaml (s : Str) : Yaml := .scalar s .str

theorem textYaml_writes (s : Str) : WritesText (textYaml s) s := .text (by simp)

/-- The rules that can be written: nothing is set but the fields of the format. -/
structure Plain (env : Ext) (r : Rule) : Prop where
  rest : r.senderList = [] ∧ r.receiverList = [] ∧ r.resourceNameRegex = none ∧ r.operationRegex = none ∧ r.converted = false
  metadata : (r.metadata.map (·.1)).Nodup
  conditions : ∀ n, r.conditions = some n → Writable env n

/-- A document for a rule. -/
def ruleYaml (r : Rule) (c : Yaml) : Yaml :=
  .map [(gs"ruleID", textYaml r.ruleID),
    (gs"sender", .map [(gs"senderName", textYaml r.senderName), (gs"senderType", textYaml r.senderType)]),
    (gs"receiver", .map [(gs"receiverName", textYaml r.receiverName), (gs"receiverType", textYaml r.receiverType)]),
    (gs"protocol", textYaml r.protocol),
    (gs"resource", .map [(gs"resourceType", textYaml r.resourceType), (gs"resourceName", textYaml r.resourceName)]),
    (gs"operation", textYaml r.operation), (gs"conditions", c), (gs"decision", textYaml r.decision),
    (gs"metadata", .map (r.metadata.map fun x => (x.1, textYaml x.2))), (gs"hash", textYaml r.hash)]

theorem textUnder_of {kvs : List (Str × Yaml)} {k s : Str} (hn : (kvs.map (·.1)).Nodup) (h : (k, textYaml s) ∈ kvs) : TextUnder kvs k s := by
  refine ⟨fun y hy => ?_, fun hno => absurd ⟨_, h⟩ hno⟩
  have e1 := (lookup_mem_yaml hn).2 h
  have e2 := (lookup_mem_yaml hn).2 hy
  rw [e1] at e2
  cases e2
  exact textYaml_writes s

theorem distinct_pair {k k' : Str} (hk : k ≠ k') (s s' : Str) : Distinct (.map [(k, textYaml s), (k', textYaml s')]) :=
  .map (by simp [hk]) (by simp only [List.mem_cons, List.not_mem_nil, or_false]; rintro x (rfl | rfl) <;> exact .scalar _ _)

theorem ruleYaml_writes {e : Ext} {r : Rule} {c : Yaml} (h : Plain e r) (hc : Distinct c) (hw : WritesTree e c r.conditions) :
    RuleOf (WritesTree e) (ruleYaml r c) r ∧ Distinct (ruleYaml r c) ∧ DashFree (ruleYaml r c) := by
  have hn : ([gs"ruleID", gs"sender", gs"receiver", gs"protocol", gs"resource", gs"operation", gs"conditions", gs"decision", gs"metadata", gs"hash"]).Nodup := by
    decide
  refine ⟨.rule ?_, .map hn ?_, ?_⟩
  · constructor
    · exact textUnder_of hn (by simp)
    · exact ⟨_, .mapping (by simp; rfl), textUnder_of (by simp) (by simp), textUnder_of (by simp) (by simp)⟩
    · exact ⟨_, .mapping (by simp; rfl), textUnder_of (by simp) (by simp), textUnder_of (by simp) (by simp)⟩
    · exact textUnder_of hn (by simp)
    · exact ⟨_, .mapping (by simp; rfl), textUnder_of (by simp) (by simp), textUnder_of (by simp) (by simp)⟩
    · exact textUnder_of hn (by simp)
    · refine ⟨fun y hy => ?_, fun hno => absurd ⟨c, by simp⟩ hno⟩
      have : y = c := by simpa using hy
      rw [this]; exact hw
    · exact textUnder_of hn (by simp)
    · refine ⟨_, .mapping (by simp; rfl), ?_⟩
      rw [List.forall₂_map_left_iff, List.forall₂_same]
      exact fun x _ => ⟨rfl, textYaml_writes _⟩
    · exact textUnder_of hn (by simp)
    · intro y hy; simp at hy
    · exact h.rest
  · have meta_ : Distinct (.map (r.metadata.map fun x => (x.1, textYaml x.2))) := by
      refine .map ?_ ?_
      · rw [List.map_map]; exact h.metadata
      · intro x hx
        obtain ⟨z, -, rfl⟩ := List.mem_map.1 hx
        exact .scalar _ _
    simp only [List.mem_cons, List.not_mem_nil, or_false]
    rintro x (rfl | rfl | rfl | rfl | rfl | rfl | rfl | rfl | rfl | rfl)
    · exact .scalar _ _
    · exact distinct_pair (by decide) _ _
    · exact distinct_pair (by decide) _ _
    · exact .scalar _ _
    · exact distinct_pair (by decide) _ _
    · exact .scalar _ _
    · exact hc
    · exact .scalar _ _
    · exact meta_
    · exact .scalar _ _
  · rintro rule e
    cases e
    refine ⟨by rintro ⟨y, hy⟩; simp at hy, ?_⟩
    simp only [List.mem_cons, List.not_mem_nil, or_false]
    rintro k (rfl | rfl) part hp
    · simp at hp; subst hp; rintro ⟨y, hy⟩; simp at hy
    · simp at hp; subst hp; rintro ⟨y, hy⟩; simp at hy

/-- **C77.** Every list of rules can be written, and its document is read as these rules. -/
theorem C77_every (ho : env.OrdOk) (h : ∀ r ∈ rs, Plain env r) :
    ∃ y, Distinct y ∧ NoDash y ∧ RulesDoc (WritesTree env) y rs ∧ readRules env y = .ok (rs, none) := by
  have one : ∀ r ∈ rs, ∃ z, RuleOf (WritesTree env) z r ∧ Distinct z ∧ DashFree z := by
    intro r hr
    cases hc : r.conditions with
    | none => exact ⟨_, ruleYaml_writes (c := .scalar gs"null" .null) (h r hr) (.scalar _ _) (.inl ⟨⟨_, by simp, rfl⟩, hc⟩)⟩
    | some n =>
      obtain ⟨j, h1, h2, -⟩ := C46_every_tree ho ((h r hr).conditions n hc)
      obtain ⟨h3, h4⟩ := ofJson_denotes env j .plain h1
      exact ⟨_, ruleYaml_writes (h r hr) h3 (.inr ⟨j, n, h4, h2, hc⟩)⟩
  have all : ∀ {rs : List Rule}, (∀ r ∈ rs, ∃ z, RuleOf (WritesTree env) z r ∧ Distinct z ∧ DashFree z) →
      ∃ l, List.Forall₂ (RuleOf (WritesTree env)) l rs ∧ ∀ z ∈ l, Distinct z ∧ DashFree z := by
    intro rs
    induction rs with
    | nil => intro _; exact ⟨[], .nil, by simp⟩
    | cons r rs ih =>
      intro h
      obtain ⟨z, h1, h2⟩ := h r (by simp)
      obtain ⟨l, h3, h4⟩ := ih fun x hx => h x (by simp [hx])
      exact ⟨z :: l, .cons h1 h3, by simpa [h2] using h4⟩
  obtain ⟨l, h1, h2⟩ := all one
  have hd : Distinct (.map [(gs"rules", .seq l)]) := .map (by simp) (by simpa using .seq fun y hy => (h2 y hy).1)
  have hx : NoDash (.map [(gs"rules", .seq l)]) := by
    intro kvs l' rule e hl hr
    cases e
    simp at hl
    subst hl
    exact (h2 _ hr).2 rule rfl
  have hdoc : RulesDoc (WritesTree env) (.map [(gs"rules", .seq l)]) rs := .rules (by simp) h1
  exact ⟨_, hd, hx, hdoc, C77_reads_partial ho hd hx hdoc⟩

/-- **C77.** Other keys are ignored, wherever they stand among the keys of a rule. -/
theorem C77_unknown {k : Str} (hk : k ∉ [gs"ruleID", gs"sender", gs"receiver", gs"protocol", gs"resource", gs"operation", gs"conditions", gs"decision",
      gs"metadata", gs"hash", gs"operationRegex", gs"-"]) (v : Yaml) (a b : List Yaml) (kvs kvs' : List (Str × Yaml)) :
    readRules env (.map [(gs"rules", .seq (a ++ .map (kvs ++ (k, v) :: kvs') :: b))]) = readRules env (.map [(gs"rules", .seq (a ++ .map (kvs ++ kvs') :: b))]) := by
  have hc : k ≠ gs"conditions" := by rintro rfl; exact hk (by decide)
  have hr : k ∉ ruleKeys := by
    intro h; apply hk
    rcases ruleKeys_cases h with rfl | rfl | rfl | rfl | rfl | rfl | rfl | rfl | rfl | rfl | rfl <;> decide
  have entries : ∀ (kvs : List (Str × Yaml)) (p : List Nat) (r : Rule), decodeRuleEntries env p r (kvs ++ (k, v) :: kvs') = decodeRuleEntries env p r (kvs ++ kvs') := by
    intro kvs
    induction kvs with
    | nil =>
      intro p r
      rw [List.nil_append, List.nil_append, decodeRuleEntries, if_neg hc, ruleField_other hr]
      show (decodeRuleEntries env p r kvs' >>= _) = _
      cases decodeRuleEntries env p r kvs' with
      | error e => rfl
      | ok x => rfl
    | cons x xs ih =>
      intro p r
      obtain ⟨k', v'⟩ := x
      rw [List.cons_append, List.cons_append, decodeRuleEntries, decodeRuleEntries]
      simp only [ih]
  have list : ∀ (a : List Yaml) (p : List Nat) (i : Nat), decodeRuleList env p i (a ++ .map (kvs ++ (k, v) :: kvs') :: b) =
      decodeRuleList env p i (a ++ .map (kvs ++ kvs') :: b) := by
    intro a
    induction a with
    | nil => intro p i; simp only [List.nil_append, decodeRuleList, decodeRule, entries]
    | cons x xs ih => intro p i; simp only [List.cons_append, decodeRuleList, ih]
  simp only [readRules, decodeRules, decodeRulesEntries, if_true, decodeRulesKey, list]

/-- **C77.** From a document to the decisions: a policy that is written in a document, with its tables, is loaded, and then any check decides by
its written meaning. -/
theorem C77_policy (he : Assumed env) (hd : Distinct y) (hx : NoDash y) {bodies : List Rule} (h : RulesDoc (WritesTree env) y bodies) {t : Predef} {msg : Msg}
    {xs : List (Prop × Decision)} (hs : List.Forall₂ (fun b x => WrittenSays env t msg b x.1 x.2) bodies xs) :
    ∃ rules, readRulesWithTables env t y = .ok (rules, none) ∧ readRulesFileWithTables env t y = .ok (rules, none) ∧ rules.map (·.body) = bodies ∧
      (MsgOk env msg → ∀ g, ∃ out, check env g msg rules = .ok out ∧ Decides xs out) := by
  have hb : ∀ b ∈ bodies, b.converted = false := by
    have key : ∀ {l : List Yaml} {bs : List Rule}, List.Forall₂ (RuleOf (WritesTree env)) l bs → ∀ b ∈ bs, b.converted = false := by
      intro l bs h
      induction h with
      | nil => simp
      | cons h hs ih =>
        intro b hb
        rcases List.mem_cons.1 hb with rfl | hb
        · cases h with
          | null t => rfl
          | rule h => exact h.rest.2.2.2.2
        · exact ih b hb
    cases h with
    | empty => simp
    | missing => simp
    | null => simp
    | rules _ h => exact key h
  obtain ⟨rules, h1, h2, h3⟩ := C74_loaded he hb hs
  have e : readRulesWithTables env t y = .ok (rules, none) := by
    rw [readRulesWithTables, C77_reads_partial he.order hd hx h]
    exact h1
  refine ⟨rules, e, ?_, h2, h3⟩
  rw [readRulesFileWithTables, if_pos ((testYaml_iff y).2 hd), e]

/-! ## A document -/

/-- A rule with a number as its identifier, a key that is not known, and a condition with a number as its value. -/
def sizeRule : List (Str × Yaml) :=
  [(gs"ruleID", .scalar gs"0x7" (.int 7)), (gs"sender", .map [(gs"senderName", textYaml gs"*"), (gs"senderType", textYaml gs"*")]), (gs"colour", textYaml gs"red"),
   (gs"conditions", .map [(gs"attribute", textYaml gs"payloadSize"), (gs"method", textYaml gs"GT"), (gs"value", .scalar gs"1_000_000" (.int 1000000))]),
   (gs"decision", textYaml gs"block")]

def sizeDoc : Yaml := .map [(gs"version", .scalar gs"1" (.int 1)), (gs"rules", .seq [.map sizeRule, .scalar gs"~" .null])]

theorem sizeDoc_distinct : Distinct sizeDoc := (testYaml_iff _).1 (by decide +kernel)

theorem sizeDoc_noDash : NoDash sizeDoc := by
  intro kvs l rule e hl hr
  cases e
  simp at hl
  subst hl
  simp at hr
  subst hr
  simp [sizeRule, HasKey]

/-- The identifier is the text as it was written, the number of the condition is printed. -/
def sizeBody : Rule :=
  { ruleID := gs"0x7", senderName := gs"*", senderType := gs"*", decision := gs"block"
    conditions := some (condNode Demo.env gs"payloadSize" gs"GT" gs"1000000" none) }

theorem sizeDoc_writes : RulesDoc (WritesTree Demo.env) sizeDoc [sizeBody, {}] := by
  refine .rules (l := [.map sizeRule, .scalar gs"~" .null]) (by simp) (.cons (.rule ?_) (.cons (.null _) .nil))
  have hn : (sizeRule.map (·.1)).Nodup := by decide
  have no : ∀ {k}, k ∉ sizeRule.map (·.1) → ¬ HasKey sizeRule k := fun h ⟨y, hy⟩ => h (List.mem_map_of_mem (f := (·.1)) hy)
  have none_ : ∀ {k}, k ∉ sizeRule.map (·.1) → TextUnder sizeRule k [] := fun h => ⟨fun y hy => absurd ⟨y, hy⟩ (no h), fun _ => rfl⟩
  constructor
  · refine ⟨fun y hy => ?_, fun h => absurd ⟨_, .head _⟩ h⟩
    obtain rfl : y = .scalar gs"0x7" (.int 7) := by simpa [sizeRule] using hy
    exact .text (by simp)
  · exact ⟨_, .mapping (by simp [sizeRule]; rfl), textUnder_of (by simp) (by simp [sizeBody]), textUnder_of (by simp) (by simp [sizeBody])⟩
  · exact ⟨_, .missing (no (by decide)), ⟨by simp, fun _ => rfl⟩, ⟨by simp, fun _ => rfl⟩⟩
  · exact none_ (by decide)
  · exact ⟨_, .missing (no (by decide)), ⟨by simp, fun _ => rfl⟩, ⟨by simp, fun _ => rfl⟩⟩
  · exact none_ (by decide)
  · refine ⟨fun y hy => ?_, fun h => absurd ⟨_, by simp [sizeRule]; rfl⟩ h⟩
    obtain rfl : y = .map [(gs"attribute", textYaml gs"payloadSize"), (gs"method", textYaml gs"GT"), (gs"value", .scalar gs"1_000_000" (.int 1000000))] := by
      simpa [sizeRule] using hy
    refine .inr ⟨.obj [(gs"attribute", .str gs"payloadSize"), (gs"method", .str gs"GT"), (gs"value", .str gs"1000000")], _,
      .map (.cons (.str _ _) (.cons (.str _ _) (.cons ?_ (.nil _)))), .cond (a := gs"payloadSize") (m := gs"GT") (v := gs"1000000") (r := none) (by simp) ?_ ?_, rfl⟩
    · have : fmtInt 1000000 = gs"1000000" := by decide +kernel
      rw [← this]; exact .printed (prints_iff.2 rfl)
    · refine ⟨by simp, ⟨_, .valued (ka := gs"attribute") (km := gs"method") (kv := gs"value") (kr := []) (by simp [attrKeys]) (by simp [methodKeys]) (by simp [valueKeys])
        (.inl rfl), .refl _⟩, ?_, ?_, ?_, ?_, ?_, ?_⟩ <;> simp [attrKeys, methodKeys, valueKeys, returnKeys, fmtV, valueWritten_iff]
    · exact (C42_accepted_iff (env := Demo.env) { attr := _, method := _, value := _ }).1 ⟨_, rfl⟩
  · exact textUnder_of hn (by simp [sizeRule, sizeBody])
  · exact ⟨_, .missing (no (by decide)), .nil⟩
  · exact none_ (by decide)
  · intro y hy; simp [sizeRule] at hy
  · simp [sizeBody]

example : readRules Demo.env sizeDoc = .ok ([sizeBody, {}], none) := C77_reads_partial Demo.env_ordOk sizeDoc_distinct sizeDoc_noDash sizeDoc_writes

example : RulesDoc (ReadAsTree Demo.env) sizeDoc [sizeBody, {}] :=
  C77_rules_partial Demo.env_ordOk sizeDoc_distinct sizeDoc_noDash (C77_reads_partial Demo.env_ordOk sizeDoc_distinct sizeDoc_noDash sizeDoc_writes)

/-- Conditions without anything in them are an error. -/
example : ∃ e, readRules Demo.env (.map [(gs"rules", .seq [.map [(gs"conditions", .map [])]])]) = .ok ([], some e) := ⟨_, rfl⟩

/-- A misspelled key is ignored: the rule has no decision. -/
example : readRules Demo.env (.map [(gs"rules", .seq [.map [(gs"Decision", textYaml gs"block")]])]) = .ok ([{}], none) :=
  C77_unknown (env := Demo.env) (k := gs"Decision") (by decide) (textYaml gs"block") [] [] [] []

/-- The policy of C74 as a document. -/
example : ∃ y rules, readRulesWithTables policyEnv policyTables y = .ok (rules, none) ∧ rules.map (·.body) = policyRules ∧
    ∀ g, ∃ out, check policyEnv g policyMsg rules = .ok out := by
  have hp : ∀ r ∈ policyRules, Plain policyEnv.toExt r := by
    intro r hr
    simp only [policyRules, List.mem_cons, List.not_mem_nil, or_false] at hr
    rcases hr with rfl | rfl
    · refine ⟨⟨rfl, rfl, rfl, rfl, rfl⟩, by simp [Demo.rule], fun n hn => ?_⟩
      cases hn
      exact statement_writable _ policy_sound
    · exact ⟨⟨rfl, rfl, rfl, rfl, rfl⟩, by simp [Demo.rule], fun n hn => by simp [Demo.rule] at hn⟩
  obtain ⟨y, h1, h2, h3, -⟩ := C77_every policyEnv_ok.order hp
  obtain ⟨rules, e1, -, e2, e3⟩ := C77_policy policyEnv_ok h1 h2 h3 policy_says
  refine ⟨y, rules, e1, e2, fun g => ?_⟩
  obtain ⟨out, ho, -⟩ := e3 policyMsg_ok g
  exact ⟨out, ho⟩

/-! ## Where the code differs -/

/-- A rule that blocks everything, with more keys. -/
def blockAll (more : List (Str × Yaml)) : Yaml :=
  .map [(gs"rules", .seq [.map ([(gs"sender", .map [(gs"senderName", textYaml gs"*"), (gs"senderType", textYaml gs"*")]),
    (gs"receiver", .map [(gs"receiverName", textYaml gs"*"), (gs"receiverType", textYaml gs"*")]), (gs"protocol", textYaml gs"*"),
    (gs"resource", .map [(gs"resourceType", textYaml gs"*"), (gs"resourceName", textYaml gs"*")]), (gs"operation", textYaml gs"*"),
    (gs"decision", textYaml gs"block")] ++ more)])]

/-- The rule as it is read. -/
def allRule (d : Str) (c : Bool) : Rule :=
  { senderName := gs"*", senderType := gs"*", receiverName := gs"*", receiverType := gs"*", protocol := gs"*", resourceType := gs"*", resourceName := gs"*"
    operation := gs"*", decision := d, converted := c }

/-- The results of a check with the rules of a document. -/
def resultsOf (env : Env) (y : Yaml) (m : Msg) : Go (List Int) := do
  let rules ← readRules env y
  let out ← check env {} m (rules.1.map parsedRule)
  pure out.results

/-- **C77 fails** for the key `-`, which sets a flag that is for internal use: the rule is read without an error and never applies. -/
theorem C77_violated_dash : ∃ (env : Env) (y : Yaml) (rs : List Rule) (m : Msg), env.OrdOk ∧ Distinct y ∧ readRules env y = .ok (rs, none) ∧
    (∀ tree, ¬ RulesDoc tree y rs) ∧ resultsOf env y m = .ok [0] ∧ resultsOf env (blockAll []) m = .ok [3] ∧
    y = blockAll [(gs"-", .scalar gs"true" (.bool true))] := by
  refine ⟨Demo.env, _, [allRule gs"block" true], Demo.msgI, Demo.env_ordOk, (testYaml_iff _).1 (by decide +kernel), rfl, ?_,
    by decide +kernel, by decide +kernel, rfl⟩
  intro tree h
  cases h with
  | rules _ h =>
    cases h with
    | cons h _ => cases h with
      | rule h => exact absurd h.rest.2.2.2.2 (by simp [allRule])

/-- **C77 fails** for a key that is repeated: from a string the last one counts and there is no error; from a file there is one. -/
theorem C77_violated_repeated : ∃ (env : Env) (y : Yaml) (rs : List Rule) (m : Msg), env.OrdOk ∧ NoDash y ∧ readRules env y = .ok (rs, none) ∧
    (∀ tree rs', ¬ RulesDoc tree y rs') ∧ resultsOf env y m = .ok [1] ∧ y = blockAll [(gs"decision", textYaml gs"allow")] ∧
    ∃ e, readRulesFile env y = .ok ([], some e) := by
  refine ⟨Demo.env, _, [allRule gs"allow" false], Demo.msgI, Demo.env_ordOk, ?_, rfl, ?_, by decide +kernel, rfl, _, rfl⟩
  · intro kvs l rule e hl hr
    cases e
    simp at hl
    subst hl
    simp at hr
    subst hr
    simp [HasKey]
  · intro tree rs h
    cases h with
    | missing h => exact h ⟨_, .head _⟩
    | null h => simp at h
    | rules hl h =>
      simp at hl
      subst hl
      cases h with
      | cons h _ => cases h with
        | rule h =>
          have h1 := h.decision.1 (textYaml gs"block") (by simp)
          have h2 := h.decision.1 (textYaml gs"allow") (by simp)
          have key : ∀ {d}, WritesText (textYaml gs"block") d → WritesText (textYaml gs"allow") d → False := by
            intro d a b; cases a; cases b
          exact key h1 h2

end Mapl.Props

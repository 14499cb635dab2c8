import Verif.Lemmas.JsonGrammar
import Verif.Lemmas.JsonYaml
import Verif.Props.Decode
import Verif.Props.Copy
import Verif.Props.Numbers

/-!
# C83, C84: rules as JSON documents

C83: a rules document in JSON is read as the same document in YAML. C84: rules that are written to JSON and read again are the rules.

The full statements are false: see `C83_violated_empty`, `C83_violated_case`, `C83_violated_number`, `C83_violated_repeated` and `C84_violated`.
-/

namespace Mapl.Props

open Spec

variable {env : Env} {s : Str} {j : Json} {y : Yaml} {rs : List Rule}

/-- **C83**, partial: a document whose values are of the right types is read from JSON as from YAML: both give the same rules, or both an error, or both
crash. Missing: keys in other letter case, empty conditions, integer values of conditions, the key `-`, repeated keys. -/
theorem C83_same_partial (hp : JsonDoc env s j) (h : Same env .plain j y) (ht : TypedDoc j) (hs : SpelledDoc j) (hc : NoEmptyConditions j)
    (hd : Distinct y) (hx : NoDash y) :
    (∀ rs, unmarshalRules env s = .ok rs ↔ readRules env y = .ok (rs, none)) ∧
    (∀ e, unmarshalRules env s = .error (.err e) ↔ readRules env y = .ok ([], some e)) ∧
    ∀ x, unmarshalRules env s = .error (.panic x) ↔ readRules env y = .error (.panic x) := by
  have key := same_rules h ⟨ht, hs, hc, hx, hd⟩
  unfold unmarshalRules readRules
  rw [jsonScan_iff.2 hp, key]
  simp only [finish]
  cases hj : jsonRules env j with
  | error e => cases e <;> simp [Go.error_bind]
  | ok a =>
    obtain ⟨a, b⟩ := a
    cases b <;> simp [Go.ok_bind]

/-- **C83.** A document whose values are not of the right types is refused. -/
theorem C83_refused (hp : JsonDoc env s j) (h : ¬ TypedDoc j) : ∀ rs, unmarshalRules env s ≠ .ok rs := by
  intro rs hr
  unfold unmarshalRules at hr
  rw [jsonScan_iff.2 hp] at hr
  simp only [finish] at hr
  obtain ⟨⟨a, b⟩, h1, h2⟩ := Go.bind_eq_ok.1 hr
  cases b with
  | true => cases h2
  | false => exact h (rules_typed h1)

/-- **C83.** What is no JSON is refused. -/
theorem C83_text (hp : ¬ ∃ j, JsonDoc env s j) : ∀ rs, unmarshalRules env s ≠ .ok rs := by
  intro rs hr
  cases h : jsonScan env s with
  | none => rw [unmarshalRules, h] at hr; cases hr
  | some j => exact hp ⟨j, jsonScan_iff.1 h⟩

/-- **C83**, partial: so a document in JSON is read as the rules that are written in it, and whatever is read is written in it. -/
theorem C83_reads_partial (ho : env.OrdOk) (hp : JsonDoc env s j) (h : Same env .plain j y) (ht : TypedDoc j) (hs : SpelledDoc j)
    (hc : NoEmptyConditions j) (hd : Distinct y) (hx : NoDash y) :
    (RulesDoc (WritesTree env) y rs → unmarshalRules env s = .ok rs) ∧ (unmarshalRules env s = .ok rs → RulesDoc (ReadAsTree env) y rs) :=
  ⟨fun hw => ((C83_same_partial hp h ht hs hc hd hx).1 rs).2 (C77_reads_partial ho hd hx hw),
    fun hr => C77_rules_partial ho hd hx (((C83_same_partial hp h ht hs hc hd hx).1 rs).1 hr)⟩

mutual
theorem same_ofJson (env : Ext) : ∀ (j : Json) (c : Place), Same env c j (.ofJson j)
  | .null, c => by rw [Yaml.ofJson]; exact .null _ _
  | .bool b, c => by rw [Yaml.ofJson]; exact .bool _ _ _
  | .num x, c => by rw [Yaml.ofJson]; exact .float _ _ _
  | .str s, c => by rw [Yaml.ofJson]; exact .str _ _
  | .arr l, c => by rw [Yaml.ofJson]; exact .arr (sameAll_ofJson env l _)
  | .obj kvs, c => by rw [Yaml.ofJson]; exact .obj (sameKeys_ofJson env kvs _)

theorem sameAll_ofJson (env : Ext) : ∀ (l : List Json) (c : Place), SameAll env c l (ofJsonList l)
  | [], c => by rw [ofJsonList]; exact .nil _
  | j :: js, c => by rw [ofJsonList]; exact .cons (same_ofJson env j c) (sameAll_ofJson env js c)

theorem sameKeys_ofJson (env : Ext) : ∀ (l : List (Str × Json)) (c : Place), SameKeys env c l (ofJsonEntries l)
  | [], c => by rw [ofJsonEntries]; exact .nil _
  | (k, j) :: js, c => by rw [ofJsonEntries]; exact .cons (same_ofJson env j _) (sameKeys_ofJson env js c)
end

/-- **C83.** Every JSON document has a YAML document that says the same. -/
theorem C83_every (env : Ext) (j : Json) (hj : IsMap j) : ∃ y, Same env .plain j y ∧ Distinct y :=
  ⟨_, same_ofJson env j .plain, (ofJson_denotes env j .plain hj).1⟩

/-! ## A document -/

/-- A rule as a JSON document. -/
def blockJson (more : List (Str × Json)) : List (Str × Json) :=
  [(gs"ruleID", .str gs"r1"), (gs"sender", .obj [(gs"senderName", .str gs"*"), (gs"senderType", .str gs"*")]), (gs"protocol", .str gs"*")] ++ more

def docJson (more : List (Str × Json)) : Json := .obj [(gs"rules", .arr [.obj (blockJson more)])]

/-- The text of such a document. -/
def docText (more : Str) : Str :=
  gs"{\"rules\": [{\"ruleID\": \"r1\", \"sender\": {\"senderName\": \"*\", \"senderType\": \"*\"}, \"protocol\": \"*\"" ++ more ++ gs"}]}"

def blockRule : Rule := { ruleID := gs"r1", senderName := gs"*", senderType := gs"*", protocol := gs"*" }

theorem docJson_each {P : List (Str × Json) → Prop} {more : List (Str × Json)} (h : P (blockJson more)) : EachRule P (docJson more) := by
  intro kvs l rule e hl hr
  cases e
  simp at hl
  subst hl
  simp at hr
  subst hr
  exact h

theorem docJson_dash {more : List (Str × Json)} (h : ∀ x ∈ more, x.1 ≠ gs"-" ∧ x.1 ≠ gs"sender" ∧ x.1 ≠ gs"receiver") : NoDash (.ofJson (docJson more)) := by
  intro kvs l rule e hl hr
  simp only [docJson, Yaml.ofJson, ofJsonEntries, ofJsonList, Yaml.map.injEq] at e
  subst e
  simp at hl
  subst hl
  simp at hr
  subst hr
  have keys : ∀ k y, (k, y) ∈ ofJsonEntries more → ∃ v, (k, v) ∈ more := by
    intro k y hy
    have : k ∈ (ofJsonEntries more).map (·.1) := List.mem_map_of_mem (f := (·.1)) hy
    rw [ofJsonEntries_keys] at this
    obtain ⟨z, hz, rfl⟩ := List.mem_map.1 this
    exact ⟨z.2, hz⟩
  have split : ofJsonEntries (blockJson more) = [(gs"ruleID", .scalar gs"r1" .str),
      (gs"sender", .map [(gs"senderName", .scalar gs"*" .str), (gs"senderType", .scalar gs"*" .str)]), (gs"protocol", .scalar gs"*" .str)] ++ ofJsonEntries more := rfl
  rw [split]
  constructor
  · rintro ⟨y, hy⟩
    simp at hy
    obtain ⟨v, hv⟩ := keys _ _ hy
    exact (h _ hv).1 rfl
  · intro k hk part hp
    simp only [List.mem_cons, List.not_mem_nil, or_false] at hk
    rcases List.mem_append.1 hp with hp | hp
    · rcases hk with rfl | rfl
      · simp at hp
        subst hp
        rintro ⟨y, hy⟩
        simp at hy
      · simp at hp
    · obtain ⟨v, hv⟩ := keys _ _ hp
      rcases hk with rfl | rfl
      · exact absurd rfl (h _ hv).2.1
      · exact absurd rfl (h _ hv).2.2

/-- The conditions of the example. -/
def docConditions : Json := .obj [(gs"NOT", .obj [(gs"attribute", .str gs"domain"), (gs"method", .str gs"EQ"), (gs"value", .str gs"a.com")])]

def docMore : List (Str × Json) := [(gs"conditions", docConditions), (gs"decision", .str gs"block"), (gs"comment", .num (.fin 1))]

set_option maxRecDepth 20000 in
theorem docMore_text : jsonScan Demo.env (docText gs", \"conditions\": {\"NOT\": {\"attribute\": \"domain\", \"method\": \"EQ\", \"value\": \"a.com\"}},
  \"decision\": \"block\", \"comment\": 1") = some (docJson docMore) := by with_unfolding_all rfl

example : JsonDoc Demo.env (docText gs", \"conditions\": {\"NOT\": {\"attribute\": \"domain\", \"method\": \"EQ\", \"value\": \"a.com\"}},
  \"decision\": \"block\", \"comment\": 1") (docJson docMore) := jsonScan_iff.1 docMore_text

example : TypedDoc (docJson docMore) ∧ SpelledDoc (docJson docMore) ∧ NoEmptyConditions (docJson docMore) ∧ Distinct (.ofJson (docJson docMore)) ∧
    NoDash (.ofJson (docJson docMore)) ∧ Same Demo.env .plain (docJson docMore) (.ofJson (docJson docMore)) := by
  refine ⟨?_, ?_, ?_, (testYaml_iff _).1 (by decide +kernel), docJson_dash (by decide +kernel), same_ofJson _ _ _⟩
  · refine .obj ?_ (docJson_each (typed_all ?_))
    · intro j hj
      simp at hj
      subst hj
      exact .inr ⟨_, rfl, by simp [IsObject]⟩
    · have one : ∀ k j, (k ∈ [gs"ruleID", gs"protocol", gs"decision"] ∧ ∃ s, j = .str s) → TypedRule [(k, j)] := by
        rintro k j ⟨hk, s, rfl⟩
        have hc : k ≠ gs"conditions" := by rintro rfl; exact absurd hk (by decide)
        refine field_typed (r := {}) hc ?_
        simp only [List.mem_cons, List.not_mem_nil, or_false] at hk
        rcases hk with rfl | rfl | rfl <;> rfl
      intro x hx
      simp only [blockJson, docMore, List.cons_append, List.nil_append, List.mem_cons, List.not_mem_nil, or_false] at hx
      rcases hx with rfl | rfl | rfl | rfl | rfl | rfl
      · exact one _ _ ⟨by decide, _, rfl⟩
      · exact field_typed (r := {}) (by decide) rfl
      · exact one _ _ ⟨by decide, _, rfl⟩
      · exact typed_of (by decide) fun _ => .inr ⟨_, rfl⟩
      · exact one _ _ ⟨by decide, _, rfl⟩
      · exact typed_of (by decide) fun h => absurd h (by decide)
  · refine ⟨fun kvs e => ?_, docJson_each ⟨by unfold Spelled; decide +kernel, ?_⟩⟩
    · cases e; unfold Spelled; decide +kernel
    · intro q hq l hl
      simp only [parts, List.mem_cons, List.not_mem_nil, or_false] at hq
      rcases hq with rfl | rfl | rfl
      · simp [blockJson, docMore, docConditions] at hl
        subst hl
        unfold Spelled; decide +kernel
      · simp [blockJson, docMore] at hl
      · simp [blockJson, docMore] at hl
  · refine docJson_each fun c hc => ?_
    simp [blockJson, docMore] at hc
    subst hc
    simp [docConditions]

example : unmarshalRules Demo.env (docText gs", \"conditions\": {\"NOT\": {\"attribute\": \"domain\", \"method\": \"EQ\", \"value\": \"a.com\"}},
  \"decision\": \"block\", \"comment\": 1") =
    .ok [{ blockRule with conditions := some (.not (condNode Demo.env gs"domain" gs"EQ" gs"a.com" none)), decision := gs"block" }] := by
  rw [unmarshalRules, docMore_text]
  with_unfolding_all rfl

/-- A document that is refused, though the decoder goes on after the value of the wrong type. -/
example : JsonDoc Demo.env (docText gs", \"decision\": [\"block\"]") (docJson [(gs"decision", .arr [.str gs"block"])]) ∧
    ¬ TypedDoc (docJson [(gs"decision", .arr [.str gs"block"])]) := by
  refine ⟨jsonScan_iff.1 (by with_unfolding_all rfl), fun h => ?_⟩
  cases h with
  | obj _ h =>
    have := (h _ _ _ rfl (List.mem_cons_self ..) (List.mem_cons_self ..)).texts gs"decision" (by simp) (.arr [.str gs"block"]) (by simp [blockJson])
    simp [IsText] at this

/-! ## Where the two differ -/

/-- **C83 fails** for empty conditions: in JSON they are no conditions, and the rule applies to every message; in YAML they are an error. -/
theorem C83_violated_empty : ∃ (env : Env) (s : Str) (j : Json) (y : Yaml), env.OrdOk ∧ JsonDoc env s j ∧ Same env .plain j y ∧ Distinct y ∧ NoDash y ∧
    unmarshalRules env s = .ok [blockRule] ∧ ∃ e, readRules env y = .ok ([], some e) :=
  ⟨Demo.env, docText gs", \"conditions\": {}", docJson [(gs"conditions", .obj [])], _, Demo.env_ordOk, jsonScan_iff.1 (by with_unfolding_all rfl), same_ofJson _ _ _,
    (testYaml_iff _).1 (by decide +kernel), docJson_dash (by decide), by with_unfolding_all rfl, _, by with_unfolding_all rfl⟩

/-- **C83 fails** for keys in other letter case: in JSON they count, in YAML they are ignored. -/
theorem C83_violated_case : ∃ (env : Env) (s : Str) (j : Json) (y : Yaml), env.OrdOk ∧ JsonDoc env s j ∧ Same env .plain j y ∧ Distinct y ∧ NoDash y ∧
    unmarshalRules env s = .ok [{ blockRule with decision := gs"block" }] ∧ readRules env y = .ok ([blockRule], none) :=
  ⟨Demo.env, docText gs", \"Decision\": \"block\"", docJson [(gs"Decision", .str gs"block")], _, Demo.env_ordOk, jsonScan_iff.1 (by with_unfolding_all rfl), same_ofJson _ _ _,
    (testYaml_iff _).1 (by decide +kernel), docJson_dash (by decide), by with_unfolding_all rfl, by with_unfolding_all rfl⟩

/-- A document in which the list of rules is given twice. -/
def twiceJson : Json :=
  .obj [(gs"rules", .arr [.obj [(gs"ruleID", .str gs"r1"), (gs"decision", .str gs"allow")]]), (gs"rules", .arr [.obj [(gs"ruleID", .str gs"r2")]])]

theorem twice_dash : NoDash (.ofJson twiceJson) := by
  intro kvs l rule e hl hr
  simp only [twiceJson, Yaml.ofJson, ofJsonEntries, ofJsonList, Yaml.map.injEq] at e
  subst e
  simp at hl
  rcases hl with rfl | rfl <;> (simp at hr; subst hr; simp [HasKey])

set_option maxRecDepth 20000 in
/-- **C83 fails** for repeated keys: in JSON the rules of the second list take the fields that they do not have from the rules of the first list; in YAML they do not. -/
theorem C83_violated_repeated : ∃ (env : Env) (s : Str) (j : Json) (y : Yaml), env.OrdOk ∧ JsonDoc env s j ∧ Same env .plain j y ∧ NoDash y ∧
    unmarshalRules env s = .ok [{ ruleID := gs"r2", decision := gs"allow" }] ∧ readRules env y = .ok ([{ ruleID := gs"r2" }], none) :=
  ⟨Demo.env, gs"{\"rules\":[{\"ruleID\":\"r1\",\"decision\":\"allow\"}],\"rules\":[{\"ruleID\":\"r2\"}]}", twiceJson, .ofJson twiceJson,
    Demo.env_ordOk, jsonScan_iff.1 (by with_unfolding_all rfl), same_ofJson _ _ _, twice_dash, by with_unfolding_all rfl, by with_unfolding_all rfl⟩

/-- The condition with a number as its value, in YAML. -/
def numberYaml (n : Int) : Yaml :=
  .map [(gs"attribute", textYaml gs"payloadSize"), (gs"method", textYaml gs"GT"), (gs"value", .scalar (fmtInt n) (.int n))]

set_option maxRecDepth 20000 in
/-- **C83 fails** for the values of conditions that are large integers: JSON has no integers, so they are printed with an exponent, and the two
documents give different conditions (`1e+06` is then not accepted as a payload size: see `Numbers`). -/
theorem C83_violated_number : ∃ (env : Env) (s : Str) (c c' : Node), env.OrdOk ∧
    s = docText gs", \"conditions\": {\"attribute\": \"payloadSize\", \"method\": \"GT\", \"value\": 1000000}" ∧
    unmarshalRules env s = .ok [{ blockRule with conditions := some c }] ∧
    readRules env (.map [(gs"rules", .seq [.map ([(gs"ruleID", textYaml gs"r1"), (gs"sender", .map [(gs"senderName", textYaml gs"*"), (gs"senderType", textYaml gs"*")]),
      (gs"protocol", textYaml gs"*"), (gs"conditions", numberYaml 1000000)])])]) = .ok ([{ blockRule with conditions := some c' }], none) ∧
    c = condNode env gs"payloadSize" gs"GT" gs"1e+06" none ∧ c' = condNode env gs"payloadSize" gs"GT" gs"1000000" none :=
  ⟨expEnv, _, _, _, Demo.env_ordOk, rfl, by with_unfolding_all rfl, by with_unfolding_all rfl, by with_unfolding_all rfl, by with_unfolding_all rfl⟩

/-! ## Writing -/

/-- **C84.** To write a rule to JSON and to read it again is what copying does, errors and crashes included. So a rule is written and read without loss exactly if it is
copied without loss (C44). -/
theorem C84_copy {p : List Nat} {r : Rule} (hl : r.senderList = [] ∧ r.receiverList = []) (hm : (r.metadata.map (·.1)).Nodup) :
    (do let s ← marshalRule env r; unmarshalRule env p s) = copyRule env p r := unmarshal_marshal hl hm

/-- **C84**, partial: rules whose conditions can be copied are the same after they have been written to JSON and read again. Missing: other conditions, rules
that have been prepared. -/
theorem C84_partial (ho : env.OrdOk) (h : ∀ r ∈ rs, Storable env r) : ∃ s, marshalRules env rs = .ok s ∧ unmarshalRules env s = .ok rs := storable_rules ho h

/-- **C84**, partial: so the rules decide as before, also after they have been stored. -/
theorem C84_decisions_partial (ho : env.OrdOk) (h : ∀ r ∈ rs, Storable env r) (t : Predef) (msg : Msg) :
    ∃ s, marshalRules env rs = .ok s ∧
      (do let rs' ← unmarshalRules env s; check env t msg (rs'.map parsedRule)) = check env t msg (rs.map parsedRule) := by
  obtain ⟨s, h1, h2⟩ := storable_rules ho h
  exact ⟨s, h1, by rw [h2]; rfl⟩

example : ∀ r ∈ [{ blockRule with conditions := some (.not (condNode Demo.env gs"domain" gs"EQ" gs"a\"b" none)), decision := gs"block", metadata := [(gs"k", gs"v")] }, blockRule],
    Storable Demo.env r := by
  simp only [List.mem_cons, List.not_mem_nil, or_false]
  rintro r (rfl | rfl)
  · refine ⟨⟨rfl, rfl, rfl, rfl⟩, by simp, fun n hn => ?_⟩
    cases hn
    have : ∃ c', validateOneCondition Demo.env { attr := gs"domain", method := gs"EQ", value := gs"a\"b" } = .ok c' := ⟨_, rfl⟩
    obtain ⟨c', h⟩ := this
    exact .not (.cond (validateOneCondition_iff.1 h).1 (by unfold NoControl; decide) (by unfold NoControl; decide) (by simp))
  · exact ⟨⟨rfl, rfl, rfl, rfl⟩, by simp [blockRule], fun n hn => by simp [blockRule] at hn⟩

set_option maxRecDepth 20000 in
/-- What is written. -/
example : marshalRules Demo.env [{ blockRule with conditions := some (.not (condNode Demo.env gs"domain" gs"EQ" gs"a.com" none)), metadata := [(gs"k", gs"v")] }] =
    .ok gs"{\"rules\":[{\"ruleID\":\"r1\",\"sender\":{\"senderName\":\"*\",\"senderType\":\"*\"},\"receiver\":{},\"protocol\":\"*\",\"resource\":{},\"conditions\":{\"conditionsTree\":{\"NOT\":{\"condition\":{\"attribute\":\"domain\",\"method\":\"EQ\",\"value\":\"a.com\"}}}},\"metadata\":{\"k\":\"v\"}}]}" := by
  with_unfolding_all rfl

set_option maxRecDepth 20000 in
/-- **C84 fails**: a rule that the parser accepts is read back with a condition on another path, and another one cannot be read back at all. -/
theorem C84_violated : ∃ (env : Env) (c : Node) (r r' : Rule), env.OrdOk ∧ Plain env r ∧ Plain env r' ∧
    r = { blockRule with conditions := some (.any (anyFields env sneaky []) c) } ∧
    (do let s ← marshalRules env [r]; unmarshalRules env s) = .ok [{ blockRule with conditions := some (.any (anyFields env gs"jsonpath:$.b" []) c) }] ∧
    r' = { blockRule with conditions := some (.any (anyFields env gs"jsonpath:$.labels[\"app\"]" []) c) } ∧
    ∃ e, (do let s ← marshalRules env [r']; unmarshalRules env s) = .error (.err e) := by
  have hc : Writable Demo.env (condNode Demo.env gs"jsonpath:$RELATIVE.x" gs"EX" [] none) := by
    refine .cond ?_ (by simp)
    have : ∃ c', validateOneCondition Demo.env { attr := gs"jsonpath:$RELATIVE.x", method := gs"EX", value := [] } = .ok c' := ⟨_, rfl⟩
    obtain ⟨c', h⟩ := this
    exact (validateOneCondition_iff.1 h).1
  refine ⟨Demo.env, condNode Demo.env gs"jsonpath:$RELATIVE.x" gs"EX" [] none, _, _, Demo.env_ordOk, ?_, ?_, rfl, ?_, rfl, ?_⟩
  · exact ⟨⟨rfl, rfl, rfl, rfl, rfl⟩, by simp [blockRule], fun n hn => by cases hn; exact .any (.inr (.inl ⟨_, rfl⟩)) (by simp) (by simp) hc⟩
  · exact ⟨⟨rfl, rfl, rfl, rfl, rfl⟩, by simp [blockRule], fun n hn => by cases hn; exact .any (.inr (.inl ⟨_, rfl⟩)) (by simp) (by simp) hc⟩
  · with_unfolding_all rfl
  · exact ⟨_, by with_unfolding_all rfl⟩

end Mapl.Props

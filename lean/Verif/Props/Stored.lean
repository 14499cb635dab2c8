import Verif.Props.JsonRule
import Verif.Props.Bson
import Verif.Props.Decode

/-!
# C87: a policy decides by its written meaning however it is stored

As a JSON document, after it has been written to JSON and read again, and after it has been stored in a database.
-/

namespace Mapl.Props

open Spec

variable {env : Env} {s : Str} {j : Json} {y : Yaml} {g t : Predef} {msg : Msg} {bodies bodies' : List Rule} {xs : List (Prop × Decision)}

theorem says_parsed (hb : ∀ b ∈ bodies, b.converted = false) (hs : List.Forall₂ (fun b x => WrittenSays env g msg b x.1 x.2) bodies xs) :
    List.Forall₂ (fun r x => RuleSays env g msg r x.1 x.2) (bodies.map parsedRule) xs := by
  induction hs with
  | nil => exact .nil
  | cons h _ ih =>
    exact .cons ⟨_, g, .parsed ⟨rfl, rfl, hb _ (List.mem_cons_self ..)⟩, h⟩ (ih fun b h => hb b (List.mem_cons_of_mem _ h))

theorem rulesDoc_converted {P : Yaml → Option Node → Prop} (h : RulesDoc P y bodies) : ∀ b ∈ bodies, b.converted = false := by
  have key : ∀ {l : List Yaml} {bs : List Rule}, List.Forall₂ (RuleOf P) l bs → ∀ b ∈ bs, b.converted = false := by
    intro l bs h
    induction h with
    | nil => simp
    | cons h hs ih =>
      intro b hb
      rcases List.mem_cons.1 hb with rfl | hb
      · cases h with
        | null t => rfl
        | rule h => exact h.rest.2.2.2.2
      · exact ih b hb
  cases h with
  | empty => simp
  | missing => simp
  | null => simp
  | rules _ h => exact key h

/-- **C87.** A policy that is written in a JSON document is read, and every check decides by its written meaning, with the global tables, or with the tables that
the rules are loaded with. -/
theorem C87_json (he : Assumed env) (hp : JsonDoc env s j) (h : Same env .plain j y) (ht : TypedDoc j) (hsp : SpelledDoc j) (hc : NoEmptyConditions j)
    (hd : Distinct y) (hx : NoDash y) (hw : RulesDoc (WritesTree env) y bodies) (hs : List.Forall₂ (fun b x => WrittenSays env t msg b x.1 x.2) bodies xs) :
    unmarshalRules env s = .ok bodies ∧ (MsgOk env msg → ∃ out, check env t msg (bodies.map parsedRule) = .ok out ∧ Decides xs out) ∧
      ∃ rules, loadWithTables env t bodies = .ok (rules, none) ∧ (MsgOk env msg → ∀ g, ∃ out, check env g msg rules = .ok out ∧ Decides xs out) := by
  have hb := rulesDoc_converted hw
  obtain ⟨rules, h1, -, h3⟩ := C74_loaded he hb hs
  exact ⟨(C83_reads_partial he.order hp h ht hsp hc hd hx).1 hw, fun hm => C74_policy he hm (says_parsed hb hs), rules, h1, h3⟩

/-- Nothing is set but the fields of the format. -/
structure AsWritten (b : Rule) : Prop where
  rest : b.senderList = [] ∧ b.receiverList = [] ∧ b.resourceNameRegex = none ∧ b.operationRegex = none ∧ b.converted = false
  metadata : (b.metadata.map (·.1)).Nodup

theorem says_storable {b : Rule} {A : Prop} {d : Decision} (hb : AsWritten b) (h : WrittenSays env t msg b A d) : Storable env b := by
  refine ⟨⟨hb.rest.1, hb.rest.2.1, hb.rest.2.2.1, hb.rest.2.2.2.1⟩, hb.metadata, fun n hn => ?_⟩
  cases h with
  | @mk c s v hc _ _ _ hok _ =>
    rw [hc, Option.map_eq_some_iff] at hn
    obtain ⟨f, rfl, rfl⟩ := hn
    exact sound_copyable f (hok f rfl)

theorem forall₂_mem {α β : Type} {R : α → β → Prop} {l : List α} {l' : List β} (h : List.Forall₂ R l l') {P : α → Prop} (hP : ∀ a ∈ l, ∀ b, R a b → P a) :
    ∀ a ∈ l, P a := by
  induction h with
  | nil => simp
  | cons h _ ih =>
    intro a ha
    rcases List.mem_cons.1 ha with rfl | ha
    · exact hP _ (List.mem_cons_self ..) _ h
    · exact ih (fun a ha b hb => hP a (List.mem_cons_of_mem _ ha) b hb) a ha

/-- **C87.** A policy can be written to JSON; what is read from there decides by the written meaning of the policy. -/
theorem C87_rewritten (he : Assumed env) (hm : MsgOk env msg) (hb : ∀ b ∈ bodies, AsWritten b)
    (hs : List.Forall₂ (fun b x => WrittenSays env t msg b x.1 x.2) bodies xs) :
    ∃ s bodies', marshalRules env bodies = .ok s ∧ unmarshalRules env s = .ok bodies' ∧
      ∃ out, check env t msg (bodies'.map parsedRule) = .ok out ∧ Decides xs out := by
  obtain ⟨s, h1, h2⟩ := C84_partial he.order (forall₂_mem hs fun b hb' x hx => says_storable (hb b hb') hx)
  exact ⟨s, bodies, h1, h2, C74_policy he hm (says_parsed (fun b h => (hb b h).rest.2.2.2.2) hs)⟩

mutual
theorem tree_names : ∀ f : Statement, NamesOk (f.tree env)
  | .cond a m v => by rw [Statement.tree, condNode, NamesOk]; intro ret hr; cases h1 : parseNumber env.toExt v <;> cases h2 : parseInt v <;> simp [parsed, setNumbers, h1, h2] at hr
  | .and fs => by rw [Statement.tree, NamesOk]; exact trees_names fs
  | .or fs => by rw [Statement.tree, NamesOk]; exact trees_names fs
  | .not f => by rw [Statement.tree, NamesOk]; exact tree_names f
  | .any q f => by rw [Statement.tree, NamesOk]; exact ⟨by simp [anyFields], tree_names f⟩
  | .all q f => by rw [Statement.tree, NamesOk]; exact ⟨by simp [anyFields], tree_names f⟩

theorem trees_names : ∀ fs : List Statement, NamesOkAll (Statement.trees env fs)
  | [] => by rw [Statement.trees, NamesOkAll]; trivial
  | f :: fs => by rw [Statement.trees, NamesOkAll]; exact ⟨tree_names f, trees_names fs⟩
end

/-- **C87.** A policy can be stored in a database, if the names of its metadata have no character NUL; what is read from there decides by the written meaning of the policy. -/
theorem C87_database (he : Assumed env) (hm : MsgOk env msg) (hb : ∀ b ∈ bodies, AsWritten b ∧ ∀ x ∈ b.metadata, NoNul x.1)
    (hs : List.Forall₂ (fun b x => WrittenSays env t msg b x.1 x.2) bodies xs) :
    (∀ b ∈ bodies, ∀ p, ∃ doc, bsonMarshalRule env p b = .ok doc ∧ ∀ q, ∃ b', bsonUnmarshalRule env q doc = .ok b') ∧
    ∀ bodies', List.Forall₂ (Reread env) bodies bodies' → ∃ out, check env t msg (bodies'.map parsedRule) = .ok out ∧ Decides xs out := by
  have hst : ∀ b ∈ bodies, BsonStorable env b := forall₂_mem hs fun b hb' x hx => by
    refine { toStorable := says_storable (hb b hb').1 hx, converted := (hb b hb').1.rest.2.2.2.2, keys := (hb b hb').2, names := fun n hn => ?_ }
    generalize x.1 = A, x.2 = d at hx
    cases hx with
    | @mk c s v hc _ _ _ hok _ =>
      rw [hc, Option.map_eq_some_iff] at hn
      obtain ⟨f, rfl, rfl⟩ := hn
      exact tree_names f
  refine ⟨fun b hb' p => ?_, fun bodies' hr => ?_⟩
  · obtain ⟨doc, h1, h2⟩ := C85_partial he.order (hst b hb') p
    exact ⟨doc, h1, fun q => by obtain ⟨r', h, -⟩ := h2 q; exact ⟨r', h⟩⟩
  · obtain ⟨out, h1, d, d1, d2, d3, d4, d5, d6⟩ := C74_policy he hm (says_parsed (fun b h => (hb b h).1.rest.2.2.2.2) hs)
    have := C85_decisions_partial he.order hst hr t msg
    rw [h1] at this
    generalize hc : check env t msg (bodies'.map parsedRule) = o at this
    cases this with
    | ok h => exact ⟨_, rfl, d, h.decision ▸ d1, h.decisionString ▸ d2, d3, d4, h.results ▸ d5, fun k x hx => h.results ▸ d6 k x hx⟩

/-! ## A policy -/

/-- The policy of C74 is written to JSON and stored in a database; what is read back decides by its meaning. -/
example : (∃ s bodies', marshalRules policyEnv policyRules = .ok s ∧ unmarshalRules policyEnv s = .ok bodies' ∧
      ∃ out, check policyEnv policyTables policyMsg (bodies'.map parsedRule) = .ok out) ∧
    ∀ bodies', List.Forall₂ (Reread policyEnv) policyRules bodies' → ∃ out, check policyEnv policyTables policyMsg (bodies'.map parsedRule) = .ok out := by
  have hb : ∀ b ∈ policyRules, AsWritten b ∧ ∀ x ∈ b.metadata, NoNul x.1 := by
    intro b hb
    simp only [policyRules, List.mem_cons, List.not_mem_nil, or_false] at hb
    rcases hb with rfl | rfl <;> exact ⟨⟨⟨rfl, rfl, rfl, rfl, rfl⟩, by simp [Demo.rule]⟩, by simp [Demo.rule, NoNul]⟩
  obtain ⟨s, bodies', h1, h2, out, ho, -⟩ := C87_rewritten policyEnv_ok policyMsg_ok (fun b h => (hb b h).1) policy_says
  refine ⟨⟨s, bodies', h1, h2, out, ho⟩, fun b' h => ?_⟩
  · obtain ⟨out, ho, -⟩ := (C87_database policyEnv_ok policyMsg_ok hb policy_says).2 b' h
    exact ⟨out, ho⟩

/-- A rule that blocks large payloads, as a JSON document. -/
def largeMore : List (Str × Json) :=
  [(gs"conditions", .obj [(gs"attribute", .str gs"payloadSize"), (gs"method", .str gs"GT"), (gs"value", .str gs"10")]), (gs"decision", .str gs"block")]

def largeText : Str := docText gs", \"conditions\": {\"attribute\": \"payloadSize\", \"method\": \"GT\", \"value\": \"10\"}, \"decision\": \"block\""

noncomputable def largeBody : Rule :=
  { blockRule with conditions := some (Statement.tree policyEnv (.cond gs"payloadSize" gs"GT" gs"10")), decision := gs"block" }

theorem large_writes : RulesDoc (WritesTree policyEnv) (.ofJson (docJson largeMore)) [largeBody] := by
  have e : Yaml.ofJson (docJson largeMore) = .map [(gs"rules", .seq [.map (ofJsonEntries (blockJson largeMore))])] := rfl
  rw [e]
  refine .rules (l := [.map (ofJsonEntries (blockJson largeMore))]) (by simp) (.cons (.rule ?_) .nil)
  have keys : (ofJsonEntries (blockJson largeMore)).map (·.1) = [gs"ruleID", gs"sender", gs"protocol", gs"conditions", gs"decision"] := rfl
  have hn : ((ofJsonEntries (blockJson largeMore)).map (·.1)).Nodup := by rw [keys]; decide
  have no : ∀ {k}, k ∉ [gs"ruleID", gs"sender", gs"protocol", gs"conditions", gs"decision"] → ¬ HasKey (ofJsonEntries (blockJson largeMore)) k := fun h ⟨y, hy⟩ =>
    h (keys ▸ List.mem_map_of_mem (f := (·.1)) hy)
  have none_ : ∀ {k}, k ∉ [gs"ruleID", gs"sender", gs"protocol", gs"conditions", gs"decision"] → TextUnder (ofJsonEntries (blockJson largeMore)) k [] :=
    fun h => ⟨fun y hy => absurd ⟨y, hy⟩ (no h), fun _ => rfl⟩
  have list : ofJsonEntries (blockJson largeMore) = [(gs"ruleID", textYaml gs"r1"),
      (gs"sender", .map [(gs"senderName", textYaml gs"*"), (gs"senderType", textYaml gs"*")]), (gs"protocol", textYaml gs"*"),
      (gs"conditions", .map [(gs"attribute", textYaml gs"payloadSize"), (gs"method", textYaml gs"GT"), (gs"value", textYaml gs"10")]), (gs"decision", textYaml gs"block")] := rfl
  constructor
  · exact textUnder_of hn (by rw [list]; simp [largeBody, blockRule])
  · exact ⟨_, .mapping (by rw [list]; simp; rfl), textUnder_of (by simp) (by simp [largeBody, blockRule]), textUnder_of (by simp) (by simp [largeBody, blockRule])⟩
  · exact ⟨_, .missing (no (by decide)), ⟨by simp, fun _ => rfl⟩, ⟨by simp, fun _ => rfl⟩⟩
  · exact textUnder_of hn (by rw [list]; simp [largeBody, blockRule])
  · exact ⟨_, .missing (no (by decide)), ⟨by simp, fun _ => rfl⟩, ⟨by simp, fun _ => rfl⟩⟩
  · exact none_ (by decide)
  · refine ⟨fun y hy => ?_, fun h => absurd ⟨_, by rw [list]; simp; rfl⟩ h⟩
    obtain rfl : y = .map [(gs"attribute", textYaml gs"payloadSize"), (gs"method", textYaml gs"GT"), (gs"value", textYaml gs"10")] := by
      simpa [list] using hy
    refine .inr ⟨.obj [(gs"attribute", .str gs"payloadSize"), (gs"method", .str gs"GT"), (gs"value", .str gs"10")], _,
      .map (.cons (.str _ _) (.cons (.str _ _) (.cons (.str _ _) (.nil _)))), .cond (a := gs"payloadSize") (m := gs"GT") (v := gs"10") (r := none) (by simp) ?_ ?_, rfl⟩
    · refine ⟨by simp, ⟨_, .valued (ka := gs"attribute") (km := gs"method") (kv := gs"value") (kr := []) (by simp [attrKeys]) (by simp [methodKeys]) (by simp [valueKeys])
        (.inl rfl), .refl _⟩, ?_, ?_, ?_, ?_, ?_, ?_⟩ <;> simp [attrKeys, methodKeys, valueKeys, returnKeys, fmtV, valueWritten_iff]
    · exact (C42_accepted_iff { attr := _, method := _, value := _ }).1 ⟨_, rfl⟩
  · exact textUnder_of hn (by rw [list]; simp [largeBody])
  · exact ⟨_, .missing (no (by decide)), .nil⟩
  · exact none_ (by decide)
  · intro y hy; simp [list] at hy
  · simp [largeBody, blockRule]

set_option maxRecDepth 20000 in
theorem large_doc : JsonDoc policyEnv largeText (docJson largeMore) := jsonScan_iff.1 (by with_unfolding_all rfl)

theorem large_typed : TypedDoc (docJson largeMore) ∧ SpelledDoc (docJson largeMore) ∧ NoEmptyConditions (docJson largeMore) := by
  refine ⟨?_, ?_, ?_⟩
  · refine .obj ?_ (docJson_each (typed_all ?_))
    · intro j hj
      simp at hj
      subst hj
      exact .inr ⟨_, rfl, by simp [IsObject]⟩
    · have one : ∀ k j, (k ∈ [gs"ruleID", gs"protocol", gs"decision"] ∧ ∃ s, j = .str s) → TypedRule [(k, j)] := by
        rintro k j ⟨hk, s, rfl⟩
        have hc : k ≠ gs"conditions" := by rintro rfl; exact absurd hk (by decide)
        refine field_typed (r := {}) hc ?_
        simp only [List.mem_cons, List.not_mem_nil, or_false] at hk
        rcases hk with rfl | rfl | rfl <;> rfl
      intro x hx
      simp only [blockJson, largeMore, List.cons_append, List.nil_append, List.mem_cons, List.not_mem_nil, or_false] at hx
      rcases hx with rfl | rfl | rfl | rfl | rfl
      · exact one _ _ ⟨by decide, _, rfl⟩
      · exact field_typed (r := {}) (by decide) rfl
      · exact one _ _ ⟨by decide, _, rfl⟩
      · exact typed_of (by decide) fun _ => .inr ⟨_, rfl⟩
      · exact one _ _ ⟨by decide, _, rfl⟩
  · refine ⟨fun kvs e => ?_, docJson_each ⟨by unfold Spelled; decide +kernel, ?_⟩⟩
    · cases e; unfold Spelled; decide +kernel
    · intro q hq l hl
      simp only [parts, List.mem_cons, List.not_mem_nil, or_false] at hq
      rcases hq with rfl | rfl | rfl
      · simp [blockJson, largeMore] at hl
        subst hl
        unfold Spelled; decide +kernel
      · simp [blockJson, largeMore] at hl
      · simp [blockJson, largeMore] at hl
  · refine docJson_each fun c hc => ?_
    simp [blockJson, largeMore] at hc
    subst hc
    simp

theorem large_says : List.Forall₂ (fun b x => WrittenSays policyEnv policyTables policyMsg b x.1 x.2) [largeBody]
    [(WrittenParts largeBody gs"*" [] policyMsg ∧ ∀ f ∈ some (Statement.cond gs"payloadSize" gs"GT" gs"10"), Meaning policyEnv policyTables f policyMsg, .block)] := by
  refine .cons (WrittenSays.mk (body := largeBody) (c := some _) rfl (.plain (by simp [largeBody, blockRule])) (.plain (by simp [largeBody, blockRule])) ⟨?_, ?_, ?_, ?_⟩ ?_ ?_) .nil
  · show PlainPattern gs"*"; decide
  · show PlainPattern []; decide
  · show PlainPattern []; decide
  · show PlainPattern []; decide
  · intro f hf
    cases hf
    rw [Sound]
    refine ⟨?_, by unfold NoControl; decide, by unfold NoControl; decide, ?_⟩
    · exact (C42_accepted_iff { attr := _, method := _, value := _ }).1 ⟨_, rfl⟩
    · exact C42_prepared_iff (r := none) |>.1 ⟨_, rfl⟩
  · intro f hf
    cases hf
    rw [Defined]
    exact ⟨_, _, policy_size⟩

example : ∃ bodies, unmarshalRules policyEnv largeText = .ok bodies ∧ ∃ out, check policyEnv policyTables policyMsg (bodies.map parsedRule) = .ok out := by
  obtain ⟨h1, h2, -⟩ := C87_json policyEnv_ok large_doc (same_ofJson _ _ _) large_typed.1 large_typed.2.1 large_typed.2.2 ((testYaml_iff _).1 (by decide +kernel))
    (docJson_dash (by decide +kernel)) large_writes large_says
  obtain ⟨out, ho, -⟩ := h2 policyMsg_ok
  exact ⟨_, h1, out, ho⟩

end Mapl.Props

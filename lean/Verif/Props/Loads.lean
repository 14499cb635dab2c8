import Verif.Lemmas.Texts
import Verif.Props.Decode

/-!
# C78: reading a document does not crash

`.error (.panic _)` is a Go panic. The full statement, that no document makes the readers panic, is false: see `C78_violated`.
-/

namespace Mapl.Props

open Spec

variable {env : Env}

/-- **C78**, partial: conditions are parsed without a crash if attributes, methods, parent paths and return values are texts, whatever else
the document holds. -/
theorem C78_tree_partial (ho : env.OrdOk) {j : Json} (h : Texts j) (p : List Nat) :
    (∀ x, parseConditionsTree env p j ≠ .error (.panic x)) ∧ ∀ x, unmarshalConditions env p j ≠ .error (.panic x) := by
  have h1 : NoPanic (parseConditionsTree env p j) := noPanic_interpret ho j [] p h
  refine ⟨h1, ?_⟩
  show NoPanic _
  unfold unmarshalConditions
  split
  · exact noPanic_ok _
  · exact noPanic_ok _
  · exact noPanic_bind h1 fun _ _ => noPanic_pure _

/-- **C78**, partial: a rules document is read without a crash if the conditions in it are such documents; the rest may be anything. -/
theorem C78_rules_partial (ho : env.OrdOk) {y : Yaml}
    (h : ∀ kvs l rule c, y = .map kvs → (gs"rules", .seq l) ∈ kvs → .map rule ∈ l → (gs"conditions", c) ∈ rule → TextsYaml c) :
    (∃ rs e, readRules env y = .ok (rs, e)) ∧ ∃ rs e, readRulesFile env y = .ok (rs, e) := by
  have h1 : NoPanic (decodeRules env y) := by
    unfold decodeRules
    split
    · exact noPanic_ok _
    · rename_i kvs
      exact noPanic_decodeRulesEntries ho fun l hl rule hr c hc => h kvs l rule c rfl hl hr hc
    · exact noPanic_ok _
  have h2 : ∃ rs e, readRules env y = .ok (rs, e) := by
    unfold readRules
    split
    · exact ⟨_, _, rfl⟩
    · exact ⟨_, _, rfl⟩
    · exact ⟨_, _, rfl⟩
    · rename_i x hx
      exact absurd hx (h1 x)
  refine ⟨h2, ?_⟩
  unfold readRulesFile
  split
  · exact h2
  · exact ⟨_, _, rfl⟩

/-- A value that is not a text crashes the parser. -/
theorem asString_crash {v : Json} (h : ∀ s, v ≠ .str s) : asString v = .error (.panic .typeAssertion) := by
  cases v with
  | str s => exact absurd rfl (h s)
  | _ => rfl

theorem readText_cases (o : Option Json) : (∃ s, readText o = .ok s) ∨ readText o = .error (.panic .typeAssertion) := by
  cases o with
  | none => exact .inl ⟨_, rfl⟩
  | some v => cases v with
    | str s => exact .inl ⟨s, rfl⟩
    | _ => exact .inr rfl

/-- **C78.** A condition whose attribute or method is not a text crashes the parser, whatever the rest of it is. -/
theorem C78_crash {kvs : List (Str × Json)} {ks : List Str} (hc : CondKeys True ks) (hp : (kvs.map (·.1)).Perm ks) {k : Str} {v : Json}
    (hk : k ∈ attrKeys ++ methodKeys) (hv : (k, v) ∈ kvs) (ht : ∀ s, v ≠ .str s) (kw : Str) (p : List Nat) :
    interpret env (.obj kvs) kw p = .error (.panic .typeAssertion) := by
  have hcond : isConditionNode kvs = true := by
    rw [isConditionNode_keys, condKeysB_perm hp]
    exact condKeysB_of hc
  have text : ∀ {a b : Str} {n : Nat}, (∀ k, k ∈ [a, b] ↔ kindOf k = n) → k ∈ [a, b] → readText (field2 kvs a b) = .error (.panic .typeAssertion) := by
    intro a b n hn hkm
    rcases readText_cases (field2 kvs a b) with ⟨s, hs⟩ | h
    · exact absurd (readText_inv hc hp hn hs k hkm v hv) (ht s)
    · exact h
  have hr : readCondition env kvs = .error (.panic .typeAssertion) := by
    rw [readCondition_eq]
    rcases List.mem_append.1 hk with hk | hk
    · rw [text (fun _ => kind_attr) hk]; rfl
    · rcases readText_cases (field2 kvs gs"attribute" gs"Attribute") with ⟨s, hs⟩ | h
      · rw [hs, Go.ok_bind, text (fun _ => kind_method) hk]; rfl
      · rw [h]; rfl
  rw [interpret, handleMap, if_pos hcond, getNodeCondition, hr]
  rfl

/-! ## Documents -/

/-- A condition with a number as its value and an unknown method is an error, not a crash; so is a list as a tree. -/
example : Texts (.obj [(gs"AND", .arr [.obj [(gs"attribute", .str gs"payloadSize"), (gs"method", .str gs"AROUND"), (gs"value", .num (.fin 3))], .null])]) ∧
    ∃ e, parseConditionsTree Demo.env [] (.obj [(gs"AND", .arr [.obj [(gs"attribute", .str gs"payloadSize"), (gs"method", .str gs"AROUND"), (gs"value", .num (.fin 3))], .null])])
      = .error (.err e) := by
  refine ⟨.obj (by simp [textKeys, attrKeys, methodKeys, parentKey]) (by simp [returnKeys]) ?_, _, rfl⟩
  simp only [List.mem_cons, List.not_mem_nil, or_false]
  rintro x rfl
  refine .arr ?_
  simp only [List.mem_cons, List.not_mem_nil, or_false]
  rintro x (rfl | rfl)
  · refine .obj (by simp [textKeys, attrKeys, methodKeys, parentKey]) (by simp [returnKeys]) ?_
    simp only [List.mem_cons, List.not_mem_nil, or_false]
    rintro x (rfl | rfl | rfl) <;> constructor
  · exact .null

/-- The document of C77. -/
example : ∃ rs e, readRulesFile Demo.env sizeDoc = .ok (rs, e) := by
  refine (C78_rules_partial Demo.env_ordOk ?_).2
  intro kvs l rule c e hl hr hc
  cases e
  simp at hl
  subst hl
  simp at hr
  subst hr
  simp [sizeRule] at hc
  subst hc
  refine .map ?_ (by simp [returnKeys]) ?_
  · simp [textKeys, attrKeys, methodKeys, parentKey, textYaml]
  · simp only [List.mem_cons, List.not_mem_nil, or_false]
    rintro x (rfl | rfl | rfl) <;> exact .scalar _ _

/-! ## Where the code differs -/

/-- A rules document with one condition, of which the method is left empty. -/
def emptyMethod : Yaml :=
  .map [(gs"rules", .seq [.map [(gs"decision", textYaml gs"block"),
    (gs"conditions", .map [(gs"attribute", textYaml gs"payloadSize"), (gs"method", .scalar [] .null), (gs"value", textYaml gs"3")])]])]

/-- **C78 fails**: a document in which the method of a condition is left empty crashes the readers, as does a path that is a number. -/
theorem C78_violated : ∃ (env : Env), env.OrdOk ∧ Distinct emptyMethod ∧ (∃ x, readRules env emptyMethod = .error (.panic x)) ∧
    (∃ x, readRulesFile env emptyMethod = .error (.panic x)) ∧
    ∃ x, parseConditionsTree env [] (.obj [(gs"ANY", .obj [(gs"parentJsonpathAttribute", .num (.fin 3)), (gs"condition", .null)])]) = .error (.panic x) :=
  ⟨Demo.env, Demo.env_ordOk, (testYaml_iff _).1 (by decide +kernel), ⟨_, rfl⟩, ⟨_, rfl⟩, _, rfl⟩

example : ∀ kw p, interpret Demo.env (.obj [(gs"attribute", .str gs"payloadSize"), (gs"method", .null)]) kw p = .error (.panic .typeAssertion) :=
  C78_crash (ks := [gs"attribute", gs"method"]) (.short (kr := []) (by simp [attrKeys]) (by simp [methodKeys]) (.inl rfl)) (.refl _) (k := gs"method") (v := .null)
    (by decide) (by simp) (by simp)

end Mapl.Props

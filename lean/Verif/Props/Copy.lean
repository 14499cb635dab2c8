import Verif.Lemmas.Copy
import Verif.Demo

/-!
# C44: copying a rule
-/

namespace Mapl.Props
open Spec

variable {env : Env}

/-- **C44**, partial: the copy of a tree of acceptable conditions is that tree, in every order of iteration, if no attribute or value has a control character, no
AND or OR is empty, and the path of no ANY or ALL has a quote, a backslash or a control character. Missing: these trees. -/
theorem C44_partial (ho : env.OrdOk) {n : Node} (h : Copyable env n) (p : List Nat) : copyConditions env p (some n) = .ok (some n) := copy_copyable ho h p

/-- No conditions are copied to no conditions. -/
theorem C44_empty (p : List Nat) : copyConditions env p none = .ok none := by
  have : jsonParse env gs"{}" = some (.obj []) := jsonParse_of valueText_empty
  simp [copyConditions, marshalConditions, this, unmarshalConditions]

/-- **C44**, partial, for rules: the copy has all written fields of the rule and its tree. -/
theorem C44_rule_partial (ho : env.OrdOk) {r : Rule} (h : ∀ n, r.conditions = some n → Copyable env n) (p : List Nat) :
    ∃ r', copyRule env p r = .ok r' ∧ r'.conditions = r.conditions ∧ r'.ruleID = r.ruleID ∧ r'.senderName = r.senderName ∧ r'.senderType = r.senderType ∧
      r'.receiverName = r.receiverName ∧ r'.receiverType = r.receiverType ∧ r'.protocol = r.protocol ∧ r'.resourceType = r.resourceType ∧
      r'.resourceName = r.resourceName ∧ r'.operation = r.operation ∧ r'.decision = r.decision := by
  have hc : copyConditions env p r.conditions = .ok r.conditions := by
    cases hr : r.conditions with
    | none => exact C44_empty p
    | some n => exact copy_copyable ho (h n hr) p
  simp [copyRule, hc]

/-- **C44** fails for every tree with a control character (say a line break) in an attribute or value: copying it, and with it preparing the rule, is an error. -/
theorem C44_control {n : Node} {a m v : Str} {r : Option (List RetVal)} (hc : parsed env a m v r ∈ leaves n) (hm : m ∈ allMethods)
    (h : ¬ NoControl a ∨ ¬ NoControl v) (p : List Nat) : copyConditions env p (some n) = .error (.err .badCopy) :=
  copy_bad (marshal_control hm h) hc p

/-- **C44** fails for empty AND and OR, anywhere. -/
theorem C44_empty_connective (p : List Nat) : (∃ e, copyConditions env p (some (.and [])) = .error (.err e)) ∧ ∃ e, copyConditions env p (some (.or [])) = .error (.err e) := by
  have hj : jsonParse env gs"{\"conditionsTree\":{}}" = some (.obj [(gs"conditionsTree", .obj [])]) := by
    have := jsonParse_once (valueText_obj (.one (show TextLit gs"conditionsTree" gs"conditionsTree" from lit_of (by decide)) (valueText_empty (env := env.toExt)))) (once_key rfl)
    simpa using this
  constructor
  all_goals
    simp only [copyConditions, marshalConditions, marshal, Go.ok_bind]
    rw [show (pure (gs"{\"conditionsTree\":" ++ gs"{}" ++ gs"}") : Go Str) = .ok gs"{\"conditionsTree\":{}}" from rfl]
    rw [Go.ok_bind, hj]
    exact ⟨.badNode, rfl⟩

/-- The path of an ANY that ends one JSON text and starts another. -/
def sneaky : Str := gs"jsonpath:$.a\",\"parentJsonpathAttribute\":\"jsonpath:$.b"

set_option maxRecDepth 20000 in
/-- **C44** fails: a tree that the parser accepts is copied to a tree that looks at another path; and one with a quoted key in its path cannot be copied. -/
theorem C44_violated : ∃ (env : Env) (c : Node), env.OrdOk ∧ c = condNode env gs"jsonpath:$RELATIVE.x" gs"EX" [] none ∧
    Writable env (.any (anyFields env sneaky []) c) ∧
    copyConditions env [] (some (.any (anyFields env sneaky []) c)) = .ok (some (.any (anyFields env gs"jsonpath:$.b" []) c)) ∧
    Writable env (.any (anyFields env gs"jsonpath:$.labels[\"app\"]" []) c) ∧
    copyConditions env [] (some (.any (anyFields env gs"jsonpath:$.labels[\"app\"]" []) c)) = .error (.err .badCopy) := by
  have hc : Writable Demo.env (condNode Demo.env gs"jsonpath:$RELATIVE.x" gs"EX" [] none) := by
    refine .cond ?_ (by simp)
    have : ∃ c', validateOneCondition Demo.env { attr := gs"jsonpath:$RELATIVE.x", method := gs"EX", value := [] } = .ok c' := ⟨_, rfl⟩
    obtain ⟨c', h⟩ := this
    exact (validateOneCondition_iff.1 h).1
  refine ⟨Demo.env, _, Demo.env_ordOk, rfl, .any (.inr (.inl ⟨_, rfl⟩)) (by simp) (by simp) hc, ?_, .any (.inr (.inl ⟨_, rfl⟩)) (by simp) (by simp) hc, ?_⟩
  · with_unfolding_all rfl
  · with_unfolding_all rfl

/-- A tree with every kind of node, with quotes and backslashes in a value, is copyable. -/
example : Copyable Demo.env (.and [.not (condNode Demo.env gs"payloadSize" gs"GT" gs"10" none),
    .any (anyFields Demo.env gs"jsonpath:$.containers" [(gs"image\n", gs"jsonpath:$RELATIVE.image")])
      (.or [condNode Demo.env gs"jsonpath:$RELATIVE.image" gs"EQ" gs"\"ng\\inx\"" none, condNode Demo.env gs"jsonpath:$RELATIVE.name" gs"EX" [] none])]) := by
  have ok : ∀ a m v, (∃ c', validateOneCondition Demo.env { attr := a, method := m, value := v } = .ok c') → NoControl a → NoControl v →
      Copyable Demo.env (condNode Demo.env a m v none) := by
    rintro a m v ⟨c', h⟩ ha hv
    exact .cond (validateOneCondition_iff.1 h).1 ha hv (by simp)
  refine .and (by simp) ?_
  simp only [List.mem_cons, List.not_mem_nil, or_false]
  rintro n (rfl | rfl)
  · exact .not (ok _ _ _ ⟨_, rfl⟩ (by unfold NoControl; decide) (by unfold NoControl; decide))
  · refine .any (.inr (.inl ⟨gs"containers", rfl⟩)) (by unfold Verbatim; decide) (by simp) (by simp) (.or (by simp) ?_)
    simp only [List.mem_cons, List.not_mem_nil, or_false]
    rintro n (rfl | rfl)
    · exact ok _ _ _ ⟨_, rfl⟩ (by unfold NoControl; decide) (by unfold NoControl; decide)
    · exact ok _ _ _ ⟨_, rfl⟩ (by unfold NoControl; decide) (by unfold NoControl; decide)

/-- A value with a line break. -/
example : parsed Demo.env gs"domain" gs"EQ" gs"a\nb" none ∈ leaves (condNode Demo.env gs"domain" gs"EQ" gs"a\nb" none) ∧ gs"EQ" ∈ allMethods ∧ ¬ NoControl gs"a\nb" := by
  refine ⟨by simp [condNode, leaves], by decide, by unfold NoControl; decide⟩

end Mapl.Props

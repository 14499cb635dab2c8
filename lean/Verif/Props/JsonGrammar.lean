import Verif.Props.JsonRule

/-!
# C86: what is read as JSON

The decoder accepts the texts of the grammar of RFC 8259 (Spec/JsonGrammar) and no others, and what it makes of them depends on the document only, not on how it is
written.
-/

namespace Mapl.Props
open Spec

variable {env : Env} {s s' : Str} {j j' c c' : Json} {p : List Nat}

/-- **C86.** A text is at most one JSON document. -/
theorem C86_unique (h : JsonDoc env s j) (h' : JsonDoc env s j') : j = j' := by
  have := jsonScan_iff.2 h
  rw [jsonScan_iff.2 h'] at this
  cases this
  rfl

/-- **C86.** A text that is no JSON document is refused as a list of rules and as a rule, without a crash. -/
theorem C86_refused (h : ¬ ∃ j, JsonDoc env s j) :
    (∃ e, unmarshalRules env s = .error (.err e)) ∧ ∃ e, unmarshalRule env p s = .error (.err e) := by
  cases hp : jsonScan env s with
  | some j => exact absurd ⟨j, jsonScan_iff.1 hp⟩ h
  | none => rw [unmarshalRules, unmarshalRule, hp]; exact ⟨⟨_, rfl⟩, _, rfl⟩

/-- **C86.** How the document is written does not matter: blanks, line breaks, escapes in texts. -/
theorem C86_same (h : JsonDoc env s j) (h' : JsonDoc env s' j) :
    unmarshalRules env s = unmarshalRules env s' ∧ unmarshalRule env p s = unmarshalRule env p s' := by
  rw [unmarshalRules, unmarshalRules, unmarshalRule, unmarshalRule, jsonScan_iff.2 h, jsonScan_iff.2 h']
  exact ⟨rfl, rfl⟩

theorem ruleEntries_split (env : Env) (p : List Nat) : ∀ (a b : List (Str × Json)) (r : Rule), jsonRuleEntries env p r (a ++ b) = (do
    let x ← jsonRuleEntries env p r a; let y ← jsonRuleEntries env p x.1 b; pure (y.1, x.2 || y.2))
  | [], b, r => by
    rw [List.nil_append, jsonRuleEntries, Go.ok_bind]
    cases jsonRuleEntries env p r b <;> rfl
  | (k, j) :: a, b, r => by
    rw [List.cons_append, jsonRuleEntries, jsonRuleEntries]
    cases fieldOf ruleNames k with
    | none => exact ruleEntries_split env p a b r
    | some name =>
      simp only
      split
      · cases unmarshalConditions env p j.once with
        | error x => rfl
        | ok t => rw [Go.ok_bind, Go.ok_bind]; exact ruleEntries_split env p a b _
      · rw [ruleEntries_split env p a b]
        cases jsonRuleEntries env p (jsonRuleField r name j).1 a with
        | error x => rfl
        | ok x =>
          simp only [Go.ok_bind, pure_bind, bind_assoc, Bool.or_assoc]

/-- **C86.** Of keys that are repeated in the conditions, at any depth, the last one counts. -/
theorem C86_conditions {a b : List (Str × Json)} (hr : Reduced c c') (h : JsonDoc env s (.obj (a ++ (gs"conditions", c) :: b)))
    (h' : JsonDoc env s' (.obj (a ++ (gs"conditions", c') :: b))) : unmarshalRule env p s = unmarshalRule env p s' := by
  have e : c'.once = c.once := by
    rw [once_of_reduced hr]
    exact once_of_reduced (reduced_reduced hr)
  rw [unmarshalRule, unmarshalRule, jsonScan_iff.2 h, jsonScan_iff.2 h']
  simp only [jsonRule]
  rw [ruleEntries_split, ruleEntries_split]
  simp only [jsonRuleEntries, show fieldOf ruleNames gs"conditions" = some gs"conditions" from rfl, if_true, e]

/-- **C86.** What is written is JSON. -/
theorem C86_written {r : Rule} (h : marshalRule env r = .ok s) : ∃ j, JsonDoc env s j := by
  obtain ⟨c, h1, h2⟩ := Go.bind_eq_ok.1 h
  cases h2
  obtain ⟨j, hj⟩ := marshalConditions_text h1
  exact ⟨_, jsonScan_iff.1 (jsonScan_of (ruleText hj))⟩

/-! ## Texts -/

set_option maxRecDepth 20000 in
/-- Two texts of one document. -/
example : JsonDoc Demo.env gs"{\"rules\":[{\"ruleID\":\"r1\"}]}" (.obj [(gs"rules", .arr [.obj [(gs"ruleID", .str gs"r1")]])]) ∧
    JsonDoc Demo.env gs" { \"r\\u0075les\": [\n{\"ruleID\": \"r\\u0031\"} ] }\n" (.obj [(gs"rules", .arr [.obj [(gs"ruleID", .str gs"r1")]])]) :=
  ⟨jsonScan_iff.1 (by with_unfolding_all rfl), jsonScan_iff.1 (by with_unfolding_all rfl)⟩

set_option maxRecDepth 20000 in
/-- Texts that are refused: a comma too many, a comment, single quotes, a leading zero, a line break in a text, two documents. -/
example : ∀ s ∈ [gs"{\"rules\":[],}", gs"{} // none", gs"{'rules':[]}", gs"{\"hash\":01}", gs"{\"hash\":\"\n\"}", gs"{} {}", gs"", gs"{\"rules\":[}"],
    ¬ ∃ j, JsonDoc Demo.env s j := by
  rintro s hs ⟨j, hj⟩
  have := jsonScan_iff.2 hj
  simp only [List.mem_cons, List.not_mem_nil, or_false] at hs
  rcases hs with rfl | rfl | rfl | rfl | rfl | rfl | rfl | rfl <;> exact absurd this (by rw [show jsonScan _ _ = none by with_unfolding_all rfl]; simp)

/-- Conditions with a repeated key. -/
example : Reduced (.obj [(gs"attribute", .str gs"domain"), (gs"attribute", .str gs"payloadSize")]) (.obj [(gs"attribute", .str gs"payloadSize")]) :=
  .obj (.cons (.str _) (.cons (.str _) .nil)) ⟨by decide, by
    intro x hx
    rw [List.mem_singleton] at hx
    subst hx
    exact ⟨[(gs"attribute", .str gs"domain")], [], rfl, by simp⟩⟩

end Mapl.Props

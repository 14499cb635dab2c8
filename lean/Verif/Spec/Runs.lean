import Verif.Spec.Leaf
import Verif.Spec.Documents

/-! # Runs that differ in the order of maps (C24) -/

namespace Mapl.Spec

/-- No condition of the tree, as written, asks for the key or the value of an entry. -/
def NoEntries (n : Node) : Prop := ∀ c ∈ leaves n, ∀ q, c.attr = gs"jsonpath:" ++ q → ¬ EntryPath q

/-- What two runs of `Check` have in common: all but the extra data and the message afterwards. -/
structure SameRun (out out' : CheckOut) : Prop where
  decision : out'.decision = out.decision
  decisionString : out'.decisionString = out.decisionString
  relevantRule : out'.relevantRuleIndex = out.relevantRuleIndex
  results : out'.results = out.results
  applied : out'.appliedRulesIndices = out.appliedRulesIndices
  description : out'.ruleDescription = out.ruleDescription

end Mapl.Spec

import Verif.Spec.Address
import Verif.Spec.Fields
import Verif.Spec.Frame

/-! # A message that is read alone, and the same message in a document of messages (C106) -/

namespace Mapl.Spec

/-- The mapping with the entries `kvs` stands at place `i` of the list of messages of the document. -/
def StandsAt (z : Yaml) (i : Nat) (kvs : List (Str × Yaml)) : Prop :=
  ∃ top l, z = .map top ∧ (gs"messages", .seq l) ∈ top ∧ l[i]? = some (.map kvs)

/-- No labels are written. -/
def NoLabels (text : Str) : Prop := ∀ c ∈ text, c = ' '

/-- The rule looks at nothing of the message that is filled in only for messages in a document of messages: addresses as numbers, the hour, the labels. -/
structure NeedsNothing (env : Env) (g : Predef) (m : Msg) (r : RuleObj) : Prop where
  sender : r.body.senderType = gs"subnet" → ¬ ∃ y, AddressText m.sourceIp y
  receiver : r.body.receiverType = gs"subnet" → ¬ ∃ y, AddressText m.destinationIp y
  hours : ¬ RuleMentions env g r .hours
  senderLabels : (∃ k, RuleMentions env g r (.senderLabel k)) → NoLabels m.sourceLabelsJson
  receiverLabels : (∃ k, RuleMentions env g r (.receiverLabel k)) → NoLabels m.destinationLabelsJson

end Mapl.Spec

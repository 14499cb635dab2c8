import Verif.Spec.Hash
import Verif.Spec.Match

/-! # Rules that are the same -/

namespace Mapl.Spec

/-- The same written rule, up to its identifier, metadata and stored hash, to the case of letters in the decision, the types of sender and receiver, the
operation and the protocol, and to the order of the children of AND and OR. -/
structure SameRule (r r' : Rule) : Prop where
  decision : SameUpToCase r.decision r'.decision
  senderType : SameUpToCase r.senderType r'.senderType
  senderName : r.senderName = r'.senderName
  receiverType : SameUpToCase r.receiverType r'.receiverType
  receiverName : r.receiverName = r'.receiverName
  operation : SameUpToCase r.operation r'.operation
  protocol : SameUpToCase r.protocol r'.protocol
  resourceType : r.resourceType = r'.resourceType
  resourceName : r.resourceName = r'.resourceName
  conditions : r.conditions = none ∧ r'.conditions = none ∨ ∃ n n', r.conditions = some n ∧ r'.conditions = some n' ∧ Alike n n'

/-- The punctuation of the text form is not in the fields, as far as it would be misread. -/
structure PlainFields (r : Rule) : Prop where
  decision : '>' ∉ r.decision
  senderType : ':' ∉ r.senderType
  senderName : '>' ∉ r.senderName
  receiverType : ':' ∉ r.receiverType
  receiverName : '>' ∉ r.receiverName
  operation : '-' ∉ r.operation
  protocol : '-' ∉ r.protocol
  resourceType : '-' ∉ r.resourceType
  resourceName : '>' ∉ r.resourceName

/-- Plain fields and a plain tree. -/
structure PlainRule (env : Ext) (r : Rule) : Prop where
  fields : PlainFields r
  conditions : ∀ n, r.conditions = some n → Plain env n

/-- Written in lower case where the text form does not distinguish cases. -/
structure LowerCase (r : Rule) : Prop where
  decision : r.decision.map Char.toLower = r.decision
  senderType : r.senderType.map Char.toLower = r.senderType
  receiverType : r.receiverType.map Char.toLower = r.receiverType
  operation : r.operation.map Char.toLower = r.operation
  protocol : r.protocol.map Char.toLower = r.protocol

/-- Capitals only where they make no difference. -/
structure CapitalsIgnored (r : Rule) : Prop where
  senderType : r.senderType.map Char.toLower = r.senderType
  receiverType : r.receiverType.map Char.toLower = r.receiverType
  resourceType : r.resourceType.map Char.toLower = r.resourceType
  protocol : r.protocol.map Char.toLower = gs"tcp" → r.protocol = gs"tcp"
  operation : r.operation = gs"READ" ∨ r.operation = gs"WRITE" ∨ r.operation.map Char.toLower = r.operation
  decision : r.decision ∈ [gs"ALLOW", gs"Allow", gs"ALERT", gs"Alert", gs"BLOCK", gs"Block"] ∨ r.decision.map Char.toLower = r.decision

/-- Protocols that are matched in the same way: both `tcp`, both `*`, or the same up to the case of letters. -/
def SameProtocol (a b : Str) : Prop := (a = gs"tcp" ↔ b = gs"tcp") ∧ (a = gs"*" ↔ b = gs"*") ∧ SameUpToCase a b

end Mapl.Spec

import Verif.Model.Hash

/-!
# Displaying rules

/repo/MAPL_engine/tools.go:124-184 and the `String` methods in definitions_rule.go:241-263. What `Print` writes to the standard output is modelled as the
list of its lines.
-/

namespace Mapl

/-- tools.go:127-136 (`RuleSetId` is never set). -/
structure RuleStrings where
  sender : Str
  receiver : Str
  protocol : Str
  resource : Str
  operation : Str
  conditions : Str
  decision : Str
  deriving DecidableEq

/-- definitions_rule.go:241-247 and 249-255. -/
def partyString (type name : Str) : Str := if type ≠ [] then type ++ gs":" ++ name else gs"{default type}:" ++ gs":" ++ name

/-- definitions_rule.go:257-263. -/
def resourceString (type name : Str) : Str := if type ≠ [] then type ++ gs":" ++ name else gs"default:default"

/-- tools.go:144-147, 151-154, 156-159. -/
def orDefault (s : Str) : Str := if s ≠ [] then s else gs"default"

/-- tools.go:138-164. The call of `String` on the nil interface of a rule without conditions panics. -/
def getRuleStrings (r : Rule) : Go RuleStrings := do
  let n ← deref r.conditions
  let c ← n.string
  pure { sender := partyString r.senderType r.senderName, receiver := partyString r.receiverType r.receiverName, protocol := orDefault r.protocol,
         resource := resourceString r.resourceType r.resourceName, operation := orDefault r.operation, conditions := c, decision := orDefault r.decision }

/-- tools.go:170-184: the lines that `Print` writes. -/
def printRule (r : Rule) : Go (List Str) := do
  let s ← getRuleStrings r
  pure ([gs"Sender (type:name): " ++ s.sender, gs"Receiver (type:name): " ++ s.receiver, gs"Protocol: " ++ s.protocol,
         gs"Resource (type:name): " ++ s.resource, gs"Operation : " ++ s.operation] ++
        (if s.conditions ≠ [] then [gs"Conditions : " ++ s.conditions] else []) ++ [gs"Decision: " ++ s.decision])

end Mapl

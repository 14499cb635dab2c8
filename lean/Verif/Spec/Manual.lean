import Verif.Spec.Policy

/-!
# Rules of the manual

The examples of /repo/docs/MAPL_SPEC_v2.md, and what it says about them.
-/

namespace Mapl.Spec

/-- The rule `default_allow`, MAPL_SPEC_v2.md:112-126: every field is a wildcard, there are no conditions, the decision is to allow. -/
structure AllowsAll (b : Rule) : Prop where
  sender : b.senderName = gs"*"
  senderType : b.senderType = gs"*"
  receiver : b.receiverName = gs"*"
  receiverType : b.receiverType = gs"*"
  protocol : b.protocol = gs"*"
  resource : b.resourceName = gs"*"
  operation : b.operation = gs"*"
  conditions : b.conditions = none
  decision : decisionOf b.decision = .allow

/-- The rule about `/books/*`, MAPL_SPEC_v2.md:238-252, with `type` for the type of sender and receiver and `operation` for the operation. -/
structure BooksRule (b : Rule) (type operation : Str) : Prop where
  sender : b.senderName = gs"A.my_namespace"
  senderType : b.senderType = type
  receiver : b.receiverName = gs"B.my_namespace"
  receiverType : b.receiverType = type
  protocol : b.protocol = gs"http"
  resourceType : b.resourceType = gs"httpPath"
  resource : b.resourceName = gs"/books/*"
  operation : b.operation = operation
  conditions : b.conditions = none
  decision : decisionOf b.decision = .allow

/-- What that rule is about, for the methods given: A asks B, over HTTP, for something below `/books/`. -/
structure AsksForBooks (methods : List Str) (m : Msg) : Prop where
  sender : m.sourceService = gs"A.my_namespace"
  receiver : m.destinationService = gs"B.my_namespace"
  protocol : SameUpToCase m.contextProtocol gs"http"
  type : m.contextType = gs"httpPath"
  path : ∃ x, m.requestPath = gs"/books/" ++ x
  method : m.requestMethod ∈ methods

end Mapl.Spec

import Verif.Model.Base

/-!
# Data types

/repo/MAPL_engine/definitions_rule.go, definitions_message.go, definitions_lists.go and the node types of conditions_tree.go.
-/

namespace Mapl

/-- One entry of a `returnValueJsonpath` map together with what is derived from it.
conditions_tree.go:251-254 (`Any`), :462-465 (`All`), definitions_rule.go:82-85 (`Condition`).
Simplification: the four parallel maps keyed by the same names are one list. -/
structure RetVal where
  name : Str
  /-- value in `ReturnValueJsonpathOriginal` -/
  orig : Str
  /-- value in `ReturnValueJsonpath` -/
  query : Str
  /-- value in `(ReturnValue)Prepared...JsonpathQuery`, `none` is nil -/
  prepared : Option JPath
  /-- value in `...RelativeFlag` -/
  rel : Bool
  deriving DecidableEq

/-- definitions_rule.go:53-90. `ret = none` is a nil `ReturnValueJsonpath` map. -/
structure Condition where
  attr : Str
  method : Str
  value : Str
  valueInt : Option Int := none
  valueFloat : Option F64 := none
  valueRegex : Option Re := none
  valueStringRegex : Option Re := none
  attrIsSenderLabel : Bool := false
  senderLabelKey : Str := []
  attrIsReceiverLabel : Bool := false
  receiverLabelKey : Str := []
  valueIsReceiverLabel : Bool := false
  valueReceiverLabelKey : Str := []
  attrIsSenderObject : Bool := false
  attrIsReceiverObject : Bool := false
  valueIsReceiverObject : Bool := false
  senderObjectAttr : Str := []
  receiverObjectAttr : Str := []
  valueReceiverObject : Str := []
  attrIsJsonpath : Bool := false
  attrIsJsonpathRelative : Bool := false
  jsonpathQuery : Str := []
  prepared : Option JPath := none
  ret : Option (List RetVal) := none
  origAttr : Str := []
  origMethod : Str := []
  origValue : Str := []
  deriving DecidableEq

/-- Fields shared by `Any` and `All` (conditions_tree.go:247-257, 458-468), without the child node.
`queries = []` is a nil `PreparedJsonpathQuery`; `ret = []` is a nil `ReturnValueJsonpath`
(the maps are only ever set non-empty, conditions_tree.go:854-862). -/
structure AnyAll where
  /-- `ParentJsonpathAttribute` -/
  parent : Str := []
  /-- `ParentJsonpathAttributeArray` -/
  parentArr : List Str := []
  /-- `ParentJsonpathAttributeOriginal` -/
  parentOrig : Str := []
  ret : List RetVal := []
  queries : List JPath := []
  deriving DecidableEq

/-- The `Node` interface and its implementations (conditions_tree.go:100-668). `nil` is a nil interface value. -/
inductive Node
  | nil
  | and (ns : List Node)
  | or (ns : List Node)
  | not (n : Node)
  | any (a : AnyAll) (n : Node)
  | all (a : AnyAll) (n : Node)
  | tt
  | ff
  | cond (c : Condition)

/-- A `net.IP`: a list of bytes of length 0 (nil), 4 or 16. -/
abbrev IP := List Nat

/-- `net.IPNet`. -/
structure IPNet where
  ip : IP := []
  mask : List Nat := []
  deriving DecidableEq

/-- definitions_rule.go:29-37. -/
structure ExpandedSR where
  name : Str
  type : Str
  regexp : Option Re := none
  isIP : Bool := false
  isCIDR : Bool := false
  cidr : IPNet := {}
  ip : IP := []
  deriving DecidableEq

/-- definitions_rule.go:92-112: the exported fields of `Rule` (Sender, Receiver and Resource are inlined).
`conditions = none` is a nil `ConditionsTree`; a nil map `Metadata` is the empty list. -/
structure Rule where
  ruleID : Str := []
  senderName : Str := []
  senderType : Str := []
  senderList : List ExpandedSR := []
  receiverName : Str := []
  receiverType : Str := []
  receiverList : List ExpandedSR := []
  protocol : Str := []
  resourceType : Str := []
  resourceName : Str := []
  resourceNameRegex : Option Re := none
  operation : Str := []
  conditions : Option Node := none
  decision : Str := []
  metadata : List (Str × Str) := []
  hash : Str := []
  operationRegex : Option Re := none
  /-- `AlreadyConvertedFieldsToRegexFlag` -/
  converted : Bool := false

/-- definitions_lists.go. -/
structure Predef where
  strings : List (Str × Str) := []
  lists : List (Str × List Str) := []
  /-- `PredefinedListsWithoutRefs` -/
  listsNoRefs : List (Str × List Str) := []
  deriving DecidableEq

/-- A `Rule` value with its unexported fields (definitions_rule.go:114-116). -/
structure RuleObj where
  body : Rule
  /-- `predefinedStringsAndLists` -/
  predefined : Predef := {}
  /-- `ruleAlreadyPrepared` -/
  ready : Bool := false
  /-- `preparedRule` -/
  prepared : Option Rule := none

/-- definitions_message.go:12-65 (`RequestTime...` fields included). Pointers are `Option`; `rawI = some .null`
is a non-nil pointer to a nil interface. -/
structure Msg where
  sourceIp : Str := []
  sourceNamespace : Str := []
  sourceCluster : Str := []
  destinationIp : Str := []
  destinationPort : Str := []
  destinationNamespace : Str := []
  destinationCluster : Str := []
  requestPath : Str := []
  requestHost : Str := []
  requestMethod : Str := []
  requestSize : Int := 0
  requestTime : Str := []
  requestUseragent : Str := []
  contextProtocol : Str := []
  messageID : Str := []
  sourceService : Str := []
  destinationService : Str := []
  sourceLabelsJson : Str := []
  destinationLabelsJson : Str := []
  contextType : Str := []
  encryptionType : Str := []
  encryptionVersion : Option F64 := none
  /-- `RequestJsonRaw` -/
  jsonRaw : Option Str := none
  /-- `RequestJsonRawRelative` -/
  jsonRawRel : Option Str := none
  /-- `RequestRawInterface` -/
  rawI : Option Json := none
  /-- `RequestRawInterfaceRelative` -/
  rawIRel : Option Json := none
  domain : Str := []
  secondsFromMidnight : F64 := .fin 0
  minutesFromMidnight : F64 := .fin 0
  hoursFromMidnight : F64 := .fin 0
  sourceNetIp : IP := []
  destinationNetIp : IP := []
  sourceLabels : List (Str × Str) := []
  destinationLabels : List (Str × Str) := []

/-- One entry of the extra data: a `map[string]interface{}`. -/
abbrev Extra := List (Str × Json)

end Mapl

import Verif.Model.Check
import Verif.Spec.Check
import Verif.Spec.Tree

/-! # When a rule applies to a message -/

namespace Mapl.Spec

/-- A compiled pattern is there and accepts the text. -/
def Accepts (env : Ext) (re : Option Re) (s : Str) : Prop := ∃ r, re = some r ∧ env.reMatch r.src s = true

/-- One entry of the expanded address list agrees with an address: a subnet contains it, a single address equals its text. -/
def AddressMatches (e : ExpandedSR) (text : Str) (ip : IP) : Prop :=
  if e.isCIDR then e.cidr.contains ip = true else e.isIP = true ∧ e.name = text

/-- One entry of the sender list agrees with the message. -/
def SenderEntry (env : Ext) (e : ExpandedSR) (m : Msg) : Prop :=
  e.type = gs"subnet" ∧ AddressMatches e m.sourceIp m.sourceNetIp ∨
  (e.type = gs"*" ∨ e.type = gs"workload") ∧ Accepts env e.regexp m.sourceService

/-- One entry of the receiver list agrees with the message. -/
def ReceiverEntry (env : Ext) (e : ExpandedSR) (m : Msg) : Prop :=
  e.type = gs"subnet" ∧ AddressMatches e m.destinationIp m.destinationNetIp ∨
  e.type = gs"hostname" ∧ Accepts env e.regexp m.requestHost ∨
  (e.type = gs"*" ∨ e.type = gs"workload") ∧ Accepts env e.regexp m.destinationService

/-- Texts that differ only in the case of letters. -/
def SameUpToCase (s t : Str) : Prop := s.map Char.toLower = t.map Char.toLower

/-- Protocol and resource agree with the message. -/
def ResourceMatches (env : Ext) (r : Rule) (m : Msg) : Prop :=
  if r.protocol = gs"tcp" then Accepts env r.resourceNameRegex m.destinationPort
  else if r.protocol = gs"*" then True
  else SameUpToCase m.contextProtocol r.protocol ∧ (r.resourceType = gs"*" ∨ r.resourceType = m.contextType) ∧
    Accepts env r.resourceNameRegex m.requestPath

/-- Everything but the conditions agrees with the message. -/
structure PartsMatch (env : Ext) (r : Rule) (m : Msg) : Prop where
  sender : ∃ e ∈ r.senderList, SenderEntry env e m
  receiver : ∃ e ∈ r.receiverList, ReceiverEntry env e m
  operation : Accepts env r.operationRegex m.requestMethod
  resource : ResourceMatches env r m

/-- The conditions of a rule, if any, hold. -/
def ConditionsSat (env : Ext) (r : Rule) (m : Msg) : Prop := ∀ n, r.conditions = some n → Sat env n m

/-- What the decision text of a rule means. -/
def decisionOf (s : Str) : Decision :=
  if s ∈ [gs"allow", gs"ALLOW", gs"Allow"] then .allow
  else if s ∈ [gs"alert", gs"ALERT", gs"Alert"] then .alert
  else if s ∈ [gs"block", gs"BLOCK", gs"Block"] then .block
  else .default

/-- The expanded lists are there, and all entries have the type written in the rule. -/
structure Expanded (r : Rule) : Prop where
  converted : r.converted = true
  sender : ∀ e ∈ r.senderList, e.type = r.senderType
  receiver : ∀ e ∈ r.receiverList, e.type = r.receiverType

/-- A rule as it comes from parsing: never prepared, never converted. -/
structure Fresh (r : RuleObj) : Prop where
  ready : r.ready = false
  prepared : r.prepared = none
  converted : r.body.converted = false

/-- The conditions of the rule do not depend on which entry of an object a map iteration meets first. -/
def RuleKeySafe (env : Ext) (r : Rule) (m : Msg) : Prop := ∀ n, r.conditions = some n → KeySafe env n m

end Mapl.Spec

namespace Mapl.Spec

/-- What a prepared rule has in common with the rule it was prepared from. -/
structure PreparedFrom (body rule : Rule) : Prop where
  senderType : rule.senderType = body.senderType
  receiverType : rule.receiverType = body.receiverType
  protocol : rule.protocol = body.protocol
  resourceType : rule.resourceType = body.resourceType
  resourceName : rule.resourceName = body.resourceName
  operation : rule.operation = body.operation
  decision : rule.decision = body.decision
  noConditions : body.conditions = none → rule.conditions = none

/-- The rule applies: every part agrees with the message and the conditions hold. -/
def Applies (env : Ext) (r : Rule) (m : Msg) : Prop := PartsMatch env r m ∧ ConditionsSat env r m

end Mapl.Spec

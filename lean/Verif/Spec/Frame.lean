import Verif.Spec.Crash
import Verif.Spec.Match

/-!
# What a decision depends on (C75)

Which parts of a message a rule looks at, read off the text of the rule.
-/

namespace Mapl.Spec

/-- The parts of a message that only conditions look at. -/
inductive Field
  | size | agent | hours | encryptionType | encryptionVersion | domain
  | senderNamespace | senderCluster | receiverNamespace | receiverCluster
  | senderLabel (key : Str) | receiverLabel (key : Str)
  | documents

/-- Two messages agree on a part. `documents`: the parsed and unparsed request, whole and current element. -/
def Field.Same (m m' : Msg) : Field → Prop
  | .size => m.requestSize = m'.requestSize
  | .agent => m.requestUseragent = m'.requestUseragent
  | .hours => m.hoursFromMidnight = m'.hoursFromMidnight
  | .encryptionType => m.encryptionType = m'.encryptionType
  | .encryptionVersion => m.encryptionVersion = m'.encryptionVersion
  | .domain => m.domain = m'.domain
  | .senderNamespace => m.sourceNamespace = m'.sourceNamespace
  | .senderCluster => m.sourceCluster = m'.sourceCluster
  | .receiverNamespace => m.destinationNamespace = m'.destinationNamespace
  | .receiverCluster => m.destinationCluster = m'.destinationCluster
  | .senderLabel k => lookup k m.sourceLabels = lookup k m'.sourceLabels
  | .receiverLabel k => lookup k m.destinationLabels = lookup k m'.destinationLabels
  | .documents => m.rawI = m'.rawI ∧ m.rawIRel = m'.rawIRel ∧ m.jsonRaw = m'.jsonRaw ∧ m.jsonRawRel = m'.jsonRawRel

/-- A condition with this attribute and value (references replaced) mentions the part. -/
inductive Mentions : Str → Str → Field → Prop
  | size {w} : Mentions gs"payloadSize" w .size
  | agent {w} : Mentions gs"requestUseragent" w .agent
  | hours {w} : Mentions gs"utcHoursFromMidnight" w .hours
  | encryptionType {w} : Mentions gs"encryptionType" w .encryptionType
  | encryptionVersion {w} : Mentions gs"encryptionVersion" w .encryptionVersion
  | domain {w} : Mentions gs"domain" w .domain
  | senderNamespace {w} : Mentions gs"$sender.namespace" w .senderNamespace
  | senderCluster {w} : Mentions gs"$sender.cluster" w .senderCluster
  | receiverNamespace {w} : Mentions gs"$receiver.namespace" w .receiverNamespace
  | receiverCluster {w} : Mentions gs"$receiver.cluster" w .receiverCluster
  | sameNamespace {x} : Mentions (gs"$sender." ++ x) gs"$receiver.namespace" .receiverNamespace
  | sameCluster {x} : Mentions (gs"$sender." ++ x) gs"$receiver.cluster" .receiverCluster
  | senderLabel {k w} : Mentions (gs"senderLabel[" ++ k ++ gs"]") w (.senderLabel k)
  | receiverLabel {k w} : Mentions (gs"receiverLabel[" ++ k ++ gs"]") w (.receiverLabel k)
  | sameLabel {k k'} : Mentions (gs"senderLabel[" ++ k ++ gs"]") (gs"receiverLabel[" ++ k' ++ gs"]") (.receiverLabel k')
  | path {q w} : Mentions (gs"jsonpath:" ++ q) w .documents

/-- A tree of prepared conditions mentions the part: one of its conditions does, or it has an ANY or ALL and the part is the
documents. -/
inductive TreeMentions (n : Node) : Field → Prop
  | leaf {c : Condition} {f : Field} (h : c ∈ leaves n) (hm : Mentions c.origAttr c.origValue f) : TreeMentions n f
  | quantifier (h : quantifiers n ≠ []) : TreeMentions n .documents

/-- The rule, prepared before or by the check itself, mentions the part. -/
def RuleMentions (env : Env) (global : Predef) (r : RuleObj) (f : Field) : Prop :=
  ∃ rule n, (ReadyAs env r rule ∨ ∃ p r', r.setPredefined env p global = .ok (r', none) ∧ r'.prepared = some rule) ∧
    rule.conditions = some n ∧ TreeMentions n f

/-- Two messages agree on the parts every rule may look at: sender, receiver, operation and resource. -/
structure SameRequest (m m' : Msg) : Prop where
  sourceService : m.sourceService = m'.sourceService
  sourceIp : m.sourceIp = m'.sourceIp
  sourceNetIp : m.sourceNetIp = m'.sourceNetIp
  destinationService : m.destinationService = m'.destinationService
  destinationIp : m.destinationIp = m'.destinationIp
  destinationNetIp : m.destinationNetIp = m'.destinationNetIp
  requestHost : m.requestHost = m'.requestHost
  requestMethod : m.requestMethod = m'.requestMethod
  contextProtocol : m.contextProtocol = m'.contextProtocol
  contextType : m.contextType = m'.contextType
  requestPath : m.requestPath = m'.requestPath
  destinationPort : m.destinationPort = m'.destinationPort

/-- Two messages agree on the parts that the rule with the text `b` compares besides its conditions. Which these are depends on the types of sender and receiver
and on the protocol of the rule. -/
structure SameFor (b : Rule) (m m' : Msg) : Prop where
  sourceService : b.senderType = gs"*" ∨ b.senderType = gs"workload" → m.sourceService = m'.sourceService
  sourceAddress : b.senderType = gs"subnet" → m.sourceIp = m'.sourceIp ∧ m.sourceNetIp = m'.sourceNetIp
  destinationService : b.receiverType = gs"*" ∨ b.receiverType = gs"workload" → m.destinationService = m'.destinationService
  destinationAddress : b.receiverType = gs"subnet" → m.destinationIp = m'.destinationIp ∧ m.destinationNetIp = m'.destinationNetIp
  requestHost : b.receiverType = gs"hostname" → m.requestHost = m'.requestHost
  requestMethod : m.requestMethod = m'.requestMethod
  port : b.protocol = gs"tcp" → m.destinationPort = m'.destinationPort
  path : b.protocol ≠ gs"tcp" → b.protocol ≠ gs"*" → m.contextProtocol = m'.contextProtocol ∧ m.contextType = m'.contextType ∧ m.requestPath = m'.requestPath

/-- A rule prepared by the API, or one straight from the parser. -/
inductive Usable (env : Env) (r : RuleObj) : Prop
  | prepared {rule : Rule} (h : ReadyAs env r rule)
  | fresh (h : Fresh r)

/-- The seven values `Check` returns. -/
def CheckOut.answer (o : CheckOut) : Nat × Str × Int × List Nat × List Nat × Str × List (List Extra) :=
  (o.decision, o.decisionString, o.relevantRuleIndex, o.results, o.appliedRulesIndices, o.ruleDescription, o.extraData)

end Mapl.Spec

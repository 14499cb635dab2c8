import Verif.Model.DecodeMessage
import Verif.Spec.Decode
import Verif.Spec.Messages

/-!
# Message documents

What a YAML document writes: `MessagesDoc` relates a document to the messages that are written in it, key by key. `Completes` says what
loading adds to a message.
-/

namespace Mapl.Spec

/-- The whole number that a scalar writes, be it as an integer or as `1e3`; null is zero. -/
inductive WritesSize : Yaml → Int → Prop
  | null (t) : WritesSize (.scalar t .null) 0
  | int {t n} (h : -2 ^ 63 ≤ n ∧ n < 2 ^ 63) : WritesSize (.scalar t (.int n)) n
  | float {t} {n : Int} (h : -2 ^ 63 ≤ n ∧ n < 2 ^ 63) : WritesSize (.scalar t (.float (.fin n))) n

/-- The number that a scalar writes; null is none. -/
inductive WritesNumber (env : Ext) : Yaml → Option F64 → Prop
  | null {y} (h : IsNull y) : WritesNumber env y none
  | int (t n) : WritesNumber env (.scalar t (.int n)) (some (env.rnd n))
  | float (t x) : WritesNumber env (.scalar t (.float x)) (some x)

/-- The mapping with the entries `kvs` writes the message `m`. -/
structure MessageDoc (env : Ext) (kvs : List (Str × Yaml)) (m : Msg) : Prop where
  sourceIp : TextUnder kvs gs"sender_ip" m.sourceIp
  sourceNamespace : TextUnder kvs gs"sender_namespace" m.sourceNamespace
  sourceCluster : TextUnder kvs gs"sender_cluster" m.sourceCluster
  destinationIp : TextUnder kvs gs"receiver_ip" m.destinationIp
  destinationPort : TextUnder kvs gs"receiver_port" m.destinationPort
  destinationNamespace : TextUnder kvs gs"receiver_namespace" m.destinationNamespace
  destinationCluster : TextUnder kvs gs"receiver_cluster" m.destinationCluster
  requestPath : TextUnder kvs gs"request_path" m.requestPath
  requestHost : TextUnder kvs gs"request_host" m.requestHost
  requestMethod : TextUnder kvs gs"request_method" m.requestMethod
  requestSize : (∀ y, (gs"request_size", y) ∈ kvs → WritesSize y m.requestSize) ∧ (¬ HasKey kvs gs"request_size" → m.requestSize = 0)
  requestTime : TextUnder kvs gs"request_time" m.requestTime
  requestUseragent : TextUnder kvs gs"request_user_agent" m.requestUseragent
  contextProtocol : TextUnder kvs gs"request_protocol" m.contextProtocol
  messageID : TextUnder kvs gs"message_id" m.messageID
  sourceService : TextUnder kvs gs"sender_service" m.sourceService
  destinationService : TextUnder kvs gs"receiver_service" m.destinationService
  sourceLabelsJson : TextUnder kvs gs"sender_labels" m.sourceLabelsJson
  destinationLabelsJson : TextUnder kvs gs"receiver_labels" m.destinationLabelsJson
  contextType : TextUnder kvs gs"request_type" m.contextType
  encryptionType : TextUnder kvs gs"encryption_type" m.encryptionType
  encryptionVersion : (∀ y, (gs"encryption_version", y) ∈ kvs → WritesNumber env y m.encryptionVersion) ∧
    (¬ HasKey kvs gs"encryption_version" → m.encryptionVersion = none)
  domain : TextUnder kvs gs"domain" m.domain
  /-- Nothing else is set. -/
  rest : m.jsonRaw = none ∧ m.jsonRawRel = none ∧ m.rawI = none ∧ m.rawIRel = none ∧ m.secondsFromMidnight = .fin 0 ∧ m.minutesFromMidnight = .fin 0 ∧
    m.hoursFromMidnight = .fin 0 ∧ m.sourceNetIp = [] ∧ m.destinationNetIp = [] ∧ m.sourceLabels = [] ∧ m.destinationLabels = []

/-- An element of the list of messages. -/
inductive MessageOf (env : Ext) : Yaml → Msg → Prop
  | null (t) : MessageOf env (.scalar t .null) {}
  | message {kvs m} (h : MessageDoc env kvs m) : MessageOf env (.map kvs) m

/-- The document writes the messages. -/
inductive MessagesDoc (env : Ext) : Yaml → List Msg → Prop
  | empty (t) : MessagesDoc env (.scalar t .null) []
  | missing {kvs} (h : ¬ HasKey kvs gs"messages") : MessagesDoc env (.map kvs) []
  | null {kvs t} (h : (gs"messages", .scalar t .null) ∈ kvs) : MessagesDoc env (.map kvs) []
  | messages {kvs l ms} (h : (gs"messages", .seq l) ∈ kvs) (hr : List.Forall₂ (MessageOf env) l ms) : MessagesDoc env (.map kvs) ms

/-- No raw documents, sizes without fractions, and no version `Null` or `NULL`. -/
structure ClearMessage (kvs : List (Str × Yaml)) : Prop where
  raw : ∀ k ∈ [gs"json_raw", gs"json_raw_relative", gs"interface_raw", gs"interface_raw_relative"], ¬ HasKey kvs k
  size : ∀ t x, (gs"request_size", .scalar t (.float x)) ∈ kvs → ∃ n : Int, -2 ^ 63 ≤ n ∧ n < 2 ^ 63 ∧ x = .fin n
  version : ∀ t, (gs"encryption_version", .scalar t .null) ∈ kvs → t ∈ [gs"null", gs"~", []]

/-- All messages of the document are like that. -/
def Clear (y : Yaml) : Prop := ∀ kvs l msg, y = .map kvs → (gs"messages", .seq l) ∈ kvs → .map msg ∈ l → ClearMessage msg

/-- The clock of a message shows the time of day of a time stamp, up to rounding (whole seconds are exact). -/
def ShowsTime (c : Clock) (m : Msg) : Prop :=
  ∃ s mi h : Rat, m.secondsFromMidnight = .fin s ∧ m.minutesFromMidnight = .fin mi ∧ m.hoursFromMidnight = .fin h ∧
    |s - c.seconds| ≤ c.seconds / 2 ^ 53 ∧ |60 * mi - s| ≤ s / 2 ^ 53 ∧ |60 * h - mi| ≤ mi / 2 ^ 53 ∧ (c.nano = 0 → s = c.seconds)

/-- What loading makes of a message as it is written: the type follows the protocol, the addresses are read, the clock is set by the time
stamp, the labels come from their texts; all the rest stays. -/
structure Completes (env : Ext) (parse : Str → Option Clock) (m m' : Msg) : Prop where
  type : m'.contextType = (if m.contextProtocol ∈ [gs"HTTP", gs"http"] then gs"path" else if m.contextProtocol ∈ [gs"TCP", gs"tcp"] then gs"port" else [])
  source : m'.sourceNetIp = parseIP env m.sourceIp
  destination : m'.destinationNetIp = parseIP env m.destinationIp
  clock : ∃ c, parse m.requestTime = some c ∧ (RoundOk env → ShowsTime c m')
  sourceLabels : ∀ l, LabelsOk l → m.sourceLabelsJson.filter (fun c => c ≠ ' ') = labelText l → m'.sourceLabels = l
  destinationLabels : ∀ l, LabelsOk l → m.destinationLabelsJson.filter (fun c => c ≠ ' ') = labelText l → m'.destinationLabels = l
  noSourceLabels : m.sourceLabelsJson.filter (fun c => c ≠ ' ') = [] → m'.sourceLabels = []
  noDestinationLabels : m.destinationLabelsJson.filter (fun c => c ≠ ' ') = [] → m'.destinationLabels = []
  rest : m' = { m with
    contextType := m'.contextType, sourceNetIp := m'.sourceNetIp, destinationNetIp := m'.destinationNetIp, sourceLabels := m'.sourceLabels
    destinationLabels := m'.destinationLabels, secondsFromMidnight := m'.secondsFromMidnight, minutesFromMidnight := m'.minutesFromMidnight
    hoursFromMidnight := m'.hoursFromMidnight }

end Mapl.Spec

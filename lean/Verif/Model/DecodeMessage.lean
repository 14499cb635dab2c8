import Verif.Model.Decode
import Verif.Model.Messages

/-!
# Messages from YAML documents

`yaml.Unmarshal` of gopkg.in/yaml.v2 v2.4.0 (outside /repo, recorded in DESIGN.md) into the types of
/repo/MAPL_engine/definitions_message.go:8-72, as called by messages_load.go:39-57. A document is the tree that the parser of YAML gives,
as in Model/Decode.
-/

namespace Mapl

/-- A field of a message that holds a text. -/
structure TextField where
  key : Str
  get : Msg → Str
  set : Msg → Str → Msg

/-- The fields of type `string` with their keys (definitions_message.go:14-53). -/
def messageTexts : List TextField := [
  ⟨gs"sender_ip", (·.sourceIp), fun m s => { m with sourceIp := s }⟩,
  ⟨gs"sender_namespace", (·.sourceNamespace), fun m s => { m with sourceNamespace := s }⟩,
  ⟨gs"sender_cluster", (·.sourceCluster), fun m s => { m with sourceCluster := s }⟩,
  ⟨gs"receiver_ip", (·.destinationIp), fun m s => { m with destinationIp := s }⟩,
  ⟨gs"receiver_port", (·.destinationPort), fun m s => { m with destinationPort := s }⟩,
  ⟨gs"receiver_namespace", (·.destinationNamespace), fun m s => { m with destinationNamespace := s }⟩,
  ⟨gs"receiver_cluster", (·.destinationCluster), fun m s => { m with destinationCluster := s }⟩,
  ⟨gs"request_path", (·.requestPath), fun m s => { m with requestPath := s }⟩,
  ⟨gs"request_host", (·.requestHost), fun m s => { m with requestHost := s }⟩,
  ⟨gs"request_method", (·.requestMethod), fun m s => { m with requestMethod := s }⟩,
  ⟨gs"request_time", (·.requestTime), fun m s => { m with requestTime := s }⟩,
  ⟨gs"request_user_agent", (·.requestUseragent), fun m s => { m with requestUseragent := s }⟩,
  ⟨gs"request_protocol", (·.contextProtocol), fun m s => { m with contextProtocol := s }⟩,
  ⟨gs"message_id", (·.messageID), fun m s => { m with messageID := s }⟩,
  ⟨gs"sender_service", (·.sourceService), fun m s => { m with sourceService := s }⟩,
  ⟨gs"receiver_service", (·.destinationService), fun m s => { m with destinationService := s }⟩,
  ⟨gs"sender_labels", (·.sourceLabelsJson), fun m s => { m with sourceLabelsJson := s }⟩,
  ⟨gs"receiver_labels", (·.destinationLabelsJson), fun m s => { m with destinationLabelsJson := s }⟩,
  ⟨gs"request_type", (·.contextType), fun m s => { m with contextType := s }⟩,
  ⟨gs"encryption_type", (·.encryptionType), fun m s => { m with encryptionType := s }⟩,
  ⟨gs"domain", (·.domain), fun m s => { m with domain := s }⟩]

/-- Into an `int64`. A fraction is dropped. `wild` is `int64(x)` for numbers that do not fit, which Go leaves to the implementation. -/
def decodeInt (wild : F64 → Int) (old : Int) : Yaml → Int × Bool
  | .scalar _ .null => (0, false)
  | .scalar _ (.int n) => if -2 ^ 63 ≤ n ∧ n < 2 ^ 63 then (n, false) else (old, true)
  | .scalar _ (.float (.fin q)) =>
    if -2 ^ 63 ≤ q ∧ q < 2 ^ 63 then (q.num.tdiv q.den, false)
    else if q ≤ 2 ^ 63 then (wild (.fin q), false)
    else (old, true)
  | .scalar _ (.float .negInf) => (wild .negInf, false)
  | _ => (old, true)

/-- Null, as `yaml.Unmarshal` recognises it before it follows a pointer; the other spellings `Null` and `NULL` are recognised after that. -/
def plainNull (t : Str) : Bool := t = gs"null" ∨ t = gs"~" ∨ t = []

/-- Into a `*float64`. -/
def decodeNumber (env : Ext) (old : Option F64) : Yaml → Option F64 × Bool
  | .scalar t .null => (if plainNull t then none else some (.fin 0), false)
  | .scalar _ (.int n) => (some (env.rnd n), false)
  | .scalar _ (.float x) => (some x, false)
  | _ => (old, true)

/-- The keys of the raw documents, of types `*[]byte` and `*interface{}` (definitions_message.go:49-52). -/
def rawKeys : List Str := [gs"json_raw", gs"json_raw_relative", gs"interface_raw", gs"interface_raw_relative"]

/-- One entry of a mapping into a `MessageAttributes`. Simplification: a value under one of `rawKeys` is an error here. In the code it is one for
a text under `json_raw`; lists of bytes there, and anything under `interface_raw` (which gives values of Go types that JSON does not give), are
accepted and not modelled. -/
def messageField (env : Ext) (wild : F64 → Int) (m : Msg) (k : Str) (y : Yaml) : Msg × Bool :=
  match messageTexts.find? (fun f => f.key = k) with
  | some f => let v := decodeText (f.get m) y; (f.set m v.1, v.2)
  | none =>
    if k = gs"request_size" then let v := decodeInt wild m.requestSize y; ({ m with requestSize := v.1 }, v.2)
    else if k = gs"encryption_version" then let v := decodeNumber env m.encryptionVersion y; ({ m with encryptionVersion := v.1 }, v.2)
    else (m, k ∈ rawKeys)

/-- Elements of a sequence into a `[]MessageAttributes`. Elements of the wrong type are dropped, but then there is an error in the end. -/
def decodeMessageList (env : Ext) (wild : F64 → Int) : List Yaml → List Msg × Bool
  | [] => ([], false)
  | y :: ys =>
    let m := decodeStruct (messageField env wild) {} {} y
    let ms := decodeMessageList env wild ys
    (m.1 :: ms.1, m.2 || ms.2)

/-- One entry of a document into a `Messages` (definitions_message.go:69-72). -/
def messagesField (env : Ext) (wild : F64 → Int) (ms : List Msg) (k : Str) (y : Yaml) : List Msg × Bool :=
  if k = gs"messages" then
    match y with
    | .scalar _ .null => ([], false)
    | .seq l => decodeMessageList env wild l
    | _ => (ms, true)
  else (ms, false)

/-- `YamlReadMessagesFromString` (messages_load.go:39-57); `YamlReadMessagesFromFile` (messages_load.go:60-72) is the same for a file that can be read.
On an error the code returns no messages with it. -/
def readMessages (env : Ext) (wild : F64 → Int) (parse : Str → Option Clock) (y : Yaml) : Go (List Msg) :=
  match decodeStruct (messagesField env wild) [] [] y with
  | (ms, false) => loadMessages env parse ms
  | (_, true) => .error (.err .badNode)

end Mapl

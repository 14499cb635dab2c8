import Verif.Model.Fields
import Verif.Spec.DecodeMessage

/-!
# Documents with one message

A document of lines `key: value`, and what the values must not contain for the numbers of fields to be compared as intended.
-/

namespace Mapl.Spec

/-- A line: a key, a value as it is written, and what kind of scalar it is. -/
structure Entry where
  key : Str
  value : Str
  kind : Scalar

/-- The text of the line. -/
def Entry.line (e : Entry) : Str := e.key ++ gs": " ++ e.value

/-- The text of the document. -/
def linesText : List Entry → Str
  | [] => []
  | [e] => e.line
  | e :: e' :: l => e.line ++ gs"\n" ++ linesText (e' :: l)

/-- The document. -/
def linesTree (l : List Entry) : Yaml := .map (l.map fun e => (e.key, .scalar e.value e.kind))

/-- The keys of a message. -/
def messageKeys : List Str := [
  gs"sender_ip", gs"sender_namespace", gs"sender_cluster", gs"receiver_ip", gs"receiver_port", gs"receiver_namespace", gs"receiver_cluster",
  gs"request_path", gs"request_host", gs"request_method", gs"request_size", gs"request_time", gs"request_user_agent", gs"request_protocol", gs"message_id",
  gs"sender_service", gs"receiver_service", gs"sender_labels", gs"receiver_labels", gs"request_type", gs"encryption_type", gs"encryption_version", gs"domain"]

/-- Words with a special meaning in the comparison. -/
def specialWords : List Str := [
  gs"null", gs"ValueInt:", gs"ValueFloat:", gs"ValueRegex:", gs"ValueTime:", gs"UTC:", gs"RequestTimeMinutesParity:", gs"ContextType:",
  gs"0001-01-01T00:00:00Z", gs"sender_label", gs"receiver_label"]

/-- A value in one word, without the characters that YAML or JSON treat in a special way, and without the words above. -/
structure OneWord (v : Str) : Prop where
  nonempty : v ≠ []
  chars : ∀ c ∈ v, 0x20 < c.toNat ∧ c.toNat ≠ 0x2028 ∧ c.toNat ≠ 0x2029 ∧ c ∉ ['"', '\\', '{', '}', '[', ']', ',', '<', '>', '&']
  words : ∀ w ∈ specialWords, ¬ ∃ a b, v = a ++ w ++ b

/-- A line that is compared as intended: a plain value, not null; a size is not zero; a version is a number that is printed in digits; not the type of the
resource, labels or a raw document. -/
structure PlainEntry (env : Ext) (e : Entry) : Prop where
  key : '\n' ∉ e.key ∧ e.key ∉ [gs"request_type", gs"sender_labels", gs"receiver_labels", gs"json_raw", gs"json_raw_relative", gs"interface_raw", gs"interface_raw_relative"]
  value : OneWord e.value
  kind : e.kind ≠ .null
  size : e.key = gs"request_size" → ∃ n : Int, n ≠ 0 ∧ WritesSize (.scalar e.value e.kind) n
  version : e.key = gs"encryption_version" → ∃ q, WritesNumber env (.scalar e.value e.kind) (some (.fin q)) ∧
    env.jsonMarshal (.num (.fin q)) ≠ [] ∧ ∀ c ∈ env.jsonMarshal (.num (.fin q)), c ∈ gs"0123456789+-.eE"

/-- What loading adds to the message. -/
def typed (m : Msg) : Msg :=
  { m with contextType := if m.contextProtocol ∈ [gs"HTTP", gs"http"] then gs"path" else if m.contextProtocol ∈ [gs"TCP", gs"tcp"] then gs"port" else [] }

end Mapl.Spec

import Verif.Model.DecodeMessage
import Verif.Model.JsonText

/-!
# Reading one message, with the comparison of the numbers of fields

/repo/MAPL_engine/messages_load.go:15-36, tools.go:13-100 and definitions_message.go:74-81. Of a YAML document the function uses the text and what the
decoder makes of it; the parser of YAML is not modelled, so both the text and its tree are arguments.
-/

namespace Mapl

/-- The members of a message in JSON, names and values. Simplification: only for messages as the decoder of YAML leaves them, in which the raw documents, the
addresses of type `net.IP`, the times and the label maps are not set, so their values are written as constants here. -/
def messageMembers (env : Ext) (m : Msg) : List (Str × Str) := [
  (gs"SourceIp", quoteJson m.sourceIp), (gs"SourceNamespace", quoteJson m.sourceNamespace), (gs"SourceCluster", quoteJson m.sourceCluster),
  (gs"DestinationIp", quoteJson m.destinationIp), (gs"DestinationPort", quoteJson m.destinationPort),
  (gs"DestinationNamespace", quoteJson m.destinationNamespace), (gs"DestinationCluster", quoteJson m.destinationCluster),
  (gs"RequestPath", quoteJson m.requestPath), (gs"RequestHost", quoteJson m.requestHost), (gs"RequestMethod", quoteJson m.requestMethod),
  (gs"RequestSize", fmtInt m.requestSize), (gs"RequestTime", quoteJson m.requestTime), (gs"RequestUseragent", quoteJson m.requestUseragent),
  (gs"ContextProtocol", quoteJson m.contextProtocol), (gs"MessageID", quoteJson m.messageID), (gs"SourceService", quoteJson m.sourceService),
  (gs"DestinationService", quoteJson m.destinationService), (gs"SourceLabelsJson", quoteJson m.sourceLabelsJson),
  (gs"DestinationLabelsJson", quoteJson m.destinationLabelsJson), (gs"ContextType", quoteJson m.contextType), (gs"EncryptionType", quoteJson m.encryptionType),
  (gs"EncryptionVersion", match m.encryptionVersion with | none => gs"null" | some x => env.jsonMarshal (.num x)),
  (gs"RequestJsonRaw", gs"null"), (gs"RequestJsonRawRelative", gs"null"), (gs"RequestRawInterface", gs"null"), (gs"RequestRawInterfaceRelative", gs"null"),
  (gs"Domain", quoteJson m.domain), (gs"RequestTimeSecondsFromMidnightUTC", gs"0"), (gs"RequestTimeMinutesFromMidnightUTC", gs"0"),
  (gs"RequestTimeHoursFromMidnightUTC", gs"0"), (gs"SourceNetIp", gs"\"\""), (gs"DestinationNetIp", gs"\"\""), (gs"SourceLabels", gs"null"),
  (gs"DestinationLabels", gs"null")]

/-- One line of `json.MarshalIndent(…, "", "  ")`. -/
def memberLine (x : Str × Str) : Str := gs"  \"" ++ x.1 ++ gs"\": " ++ x.2

/-- A number that JSON can write. -/
def finite : Option F64 → Bool
  | none => true
  | some (.fin _) => true
  | some _ => false

/-- `ToJson` (definitions_message.go:74-81). Not-a-number and infinities are an error. -/
def messageToJson (env : Ext) (m : Msg) : Go Str :=
  if finite m.encryptionVersion then .ok (gs"{\n" ++ join gs",\n" ((messageMembers env m).map memberLine) ++ gs"\n}")
  else .error (.err .badNode)

/-- The replacements in the text of the structure (tools.go:36-65). -/
def fieldReplacements : List (Str × Str) := [
  (gs"\"", []), (gs"null", []), (gs",\n", gs"\n"), (gs"{}\n", gs"\n"), (gs"{\n", gs"\n"), (gs"[\n", gs"\n"), (gs"}\n", gs"\n"), (gs"]\n", gs"\n"),
  (gs"ValueInt:", gs"ValueInt-"), (gs"ValueFloat:", gs"ValueFloat-"), (gs"ValueRegex:", gs"ValueRegex-"), (gs"ValueTime:", gs"ValueTime-"),
  (gs"UTC:", gs"UTC-"), (gs"RequestTimeMinutesParity:", gs"RequestTimeMinutesParity-"), (gs"ContextType:", gs"ContextType-"),
  (gs"Size: 0\n", gs"Size- 0\n"), (gs"Duration: 0\n", gs"Duration- 0\n"), (gs"ResponseCode: 0\n", gs"ResponseCode- 0\n"),
  (gs"0001-01-01T00:00:00Z\n", gs"\n"), (gs"IpFlag: false\n", gs"IpFlag- false\n"), (gs"NetIp: ", gs"NetIp- "),
  (gs"AttributeIsSenderLabel: ", gs"AttributeIsSenderLabel- "), (gs"AttributeIsReceiverLabel: ", gs"AttributeIsReceiverLabel- "),
  (gs"ValueIsReceiverLabel: ", gs"ValueIsReceiverLabel- "), (gs"SourceLabels: ", gs"SourceLabels- "), (gs"DestinationLabels: ", gs"DestinationLabels- "),
  (gs"Regex: ", gs"Regex- ")]

/-- tools.go:36-65. -/
def replaceFields (s : Str) : Str := fieldReplacements.foldl (fun s x => replaceAll s x.1 x.2) s

/-- `\S` of package regexp. -/
def solid (c : Char) : Bool := c ≠ ' ' ∧ c ≠ '\t' ∧ c ≠ '\n' ∧ c ≠ '\r' ∧ c.toNat ≠ 12

/-- What `[:][ ]\S+` matches at the beginning of a text. -/
def fieldAt : Str → Option Str
  | ':' :: ' ' :: d :: tail => if solid d then some (':' :: ' ' :: (d :: tail).takeWhile solid) else none
  | _ => none

/-- What `^.*[:][ ]\S+` matches in a line: everything up to the last place with a colon, a blank and some other character, and the word there. -/
def fieldMatch : Str → Option Str
  | [] => none
  | c :: rest =>
    match fieldMatch rest with
    | some m => some (c :: m)
    | none => fieldAt (c :: rest)

/-- `re.FindAllString(s, -1)` for ``(?m)^.*[:][ ]\S+`` (tools.go:67-73). The pattern cannot match a line break and starts at the beginning of a line, so it
is matched in each line by itself. -/
def fieldMatches (s : Str) : List Str := (split '\n' s).filterMap fieldMatch

/-- `[[:alnum:]]`. -/
def alnum (c : Char) : Bool := ('0' ≤ c ∧ c ≤ '9') ∨ ('A' ≤ c ∧ c ≤ 'Z') ∨ ('a' ≤ c ∧ c ≤ 'z')

/-- The number of matches of `[[:alnum:]][:][[:alnum:]]` (tools.go:78-83, 87-92), from left to right, without overlaps. -/
def labelPairs : Str → Nat
  | a :: ':' :: b :: rest => if alnum a ∧ alnum b then labelPairs rest + 1 else labelPairs (':' :: b :: rest)
  | _ :: rest => labelPairs rest
  | [] => 0

/-- tools.go:76-94 for one match. -/
def matchPairs (s : Str) : Nat :=
  (if contains s gs"sender_label" then labelPairs s else 0) + (if contains s gs"receiver_label" then labelPairs s else 0)

/-- `compareJsonAndYaml` (tools.go:34-100), without the text for the error message. -/
def compareJsonAndYaml (json yaml : Str) : Bool :=
  (fieldMatches yaml).length + ((fieldMatches yaml).map matchPairs).sum = (fieldMatches (replaceFields json)).length

/-- `YamlReadMessageAttributes` (messages_load.go:15-36) with `IsNumberOfFieldsEqual` (tools.go:22-29). -/
def readMessage (env : Ext) (wild : F64 → Int) (text : Str) (y : Yaml) : Go Msg :=
  match decodeStruct (messageField env wild) {} {} y with
  | (_, true) => .error (.err .badNode)
  | (m, false) => do
    let json ← messageToJson env m
    if compareJsonAndYaml json text then pure (addResourceType m) else .error (.err .badNode)

end Mapl

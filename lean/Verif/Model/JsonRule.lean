import Verif.Model.Decode

/-!
# Rules as JSON documents

`json.Unmarshal` and `json.Marshal` (encoding/json of Go 1.18, outside /repo, recorded in DESIGN.md) of the types of
/repo/MAPL_engine/definitions_rule.go, as users call them (unmarshal_test.go:91-103, 225, 267-279) and as `deepcopy.Copy` does
(rules_load.go:69, 554).

As in `Decode`, a value of the wrong type does not stop the decoder: the flag says that there is an error in the end. An error of `UnmarshalJSON`
stops it at once. Repeated keys are decoded one after the other into the same field. Simplification: `{ }` with blanks inside counts as `{}` (see
`unmarshalConditions`).
-/

namespace Mapl

/-- How characters of keys are compared: ASCII letters in either case, with the Kelvin sign and the long s that Unicode folds to `k` and `s`. -/
def foldChar (c : Char) : Char :=
  if c.toNat = 0x212A then 'k' else if c.toNat = 0x17F then 's' else c.toLower

/-- The field that a key sets: the one with this name, else the first whose name differs in letter case only. -/
def fieldOf (names : List Str) (k : Str) : Option Str :=
  if k ∈ names then some k else names.find? fun n => n.map foldChar == k.map foldChar

/-- Into a `string`; null changes nothing. -/
def jsonText (old : Str) : Json → Str × Bool
  | .null => (old, false)
  | .str s => (s, false)
  | _ => (old, true)

/-- Into a `bool`. -/
def jsonBool (old : Bool) : Json → Bool × Bool
  | .null => (old, false)
  | .bool b => (b, false)
  | _ => (old, true)

/-- The entries of an object into a `map[string]string`. A value of the wrong type leaves the empty text. -/
def jsonTextEntries (acc : List (Str × Str)) : List (Str × Json) → List (Str × Str) × Bool
  | [] => (acc, false)
  | (k, j) :: rest =>
    let v := jsonText [] j
    let r := jsonTextEntries (setKey k v.1 acc) rest
    (r.1, v.2 || r.2)

/-- Into a `map[string]string`. -/
def jsonTextMap (old : List (Str × Str)) : Json → List (Str × Str) × Bool
  | .null => ([], false)
  | .obj kvs => jsonTextEntries old kvs
  | _ => (old, true)

/-- Into a `*regexp.Regexp`, which has no exported fields (`none` stands for one that cannot be used, as in `copySR`). -/
def jsonRegexp (old : Option Re) : Json → Option Re × Bool
  | .null => (none, false)
  | .obj _ => (none, false)
  | _ => (old, true)

/-- The entries of an object into a struct, one after the other. -/
def jsonFields {α : Type} (f : α → Str → Json → α × Bool) (r : α) : List (Str × Json) → α × Bool
  | [] => (r, false)
  | (k, j) :: rest =>
    let a := f r k j
    let b := jsonFields f a.1 rest
    (b.1, a.2 || b.2)

/-- Into a struct; null changes nothing. -/
def jsonStruct {α : Type} (f : α → Str → Json → α × Bool) (r : α) : Json → α × Bool
  | .null => (r, false)
  | .obj kvs => jsonFields f r kvs
  | _ => (r, true)

/-- One entry into a `Sender` or `Receiver` (definitions_rule.go:15-27). Simplification: the value of the key "-", the list for internal use, is
not decoded. -/
def jsonPartyField (nameKey typeKey : Str) (s : Party) (k : Str) (j : Json) : Party × Bool :=
  if fieldOf [nameKey, typeKey, gs"-"] k = some nameKey then let v := jsonText s.name j; ({ s with name := v.1 }, v.2)
  else if fieldOf [nameKey, typeKey, gs"-"] k = some typeKey then let v := jsonText s.type j; ({ s with type := v.1 }, v.2)
  else (s, false)

/-- The names of the fields of a `Resource` (definitions_rule.go:40-50): the tag `json:"-,omitempty"` names the key "-". -/
def resourceNames : List Str := [gs"resourceType", gs"resourceName", gs"-"]

/-- One entry into a `Resource`. -/
def jsonResourceField (r : Resource) (k : Str) (j : Json) : Resource × Bool :=
  if fieldOf resourceNames k = some gs"resourceType" then let v := jsonText r.type j; ({ r with type := v.1 }, v.2)
  else if fieldOf resourceNames k = some gs"resourceName" then let v := jsonText r.name j; ({ r with name := v.1 }, v.2)
  else if fieldOf resourceNames k = some gs"-" then let v := jsonRegexp r.regex j; ({ r with regex := v.1 }, v.2)
  else (r, false)

/-- The names of the fields of a `Rule` (definitions_rule.go:92-112). -/
def ruleNames : List Str :=
  [gs"ruleID", gs"sender", gs"receiver", gs"protocol", gs"resource", gs"operation", gs"conditions", gs"decision", gs"metadata", gs"hash", gs"operationRegex", gs"-"]

/-- The value of a field of a `Rule` except `conditions`. -/
def jsonRuleField (r : Rule) (name : Str) (j : Json) : Rule × Bool :=
  if name = gs"ruleID" then let v := jsonText r.ruleID j; ({ r with ruleID := v.1 }, v.2)
  else if name = gs"sender" then
    let v := jsonStruct (jsonPartyField gs"senderName" gs"senderType") ⟨r.senderName, r.senderType, r.senderList⟩ j
    ({ r with senderName := v.1.name, senderType := v.1.type, senderList := v.1.list }, v.2)
  else if name = gs"receiver" then
    let v := jsonStruct (jsonPartyField gs"receiverName" gs"receiverType") ⟨r.receiverName, r.receiverType, r.receiverList⟩ j
    ({ r with receiverName := v.1.name, receiverType := v.1.type, receiverList := v.1.list }, v.2)
  else if name = gs"protocol" then let v := jsonText r.protocol j; ({ r with protocol := v.1 }, v.2)
  else if name = gs"resource" then
    let v := jsonStruct jsonResourceField ⟨r.resourceType, r.resourceName, r.resourceNameRegex⟩ j
    ({ r with resourceType := v.1.type, resourceName := v.1.name, resourceNameRegex := v.1.regex }, v.2)
  else if name = gs"operation" then let v := jsonText r.operation j; ({ r with operation := v.1 }, v.2)
  else if name = gs"decision" then let v := jsonText r.decision j; ({ r with decision := v.1 }, v.2)
  else if name = gs"metadata" then let v := jsonTextMap r.metadata j; ({ r with metadata := v.1 }, v.2)
  else if name = gs"hash" then let v := jsonText r.hash j; ({ r with hash := v.1 }, v.2)
  else if name = gs"operationRegex" then let v := jsonRegexp r.operationRegex j; ({ r with operationRegex := v.1 }, v.2)
  else if name = gs"-" then let v := jsonBool r.converted j; ({ r with converted := v.1 }, v.2)
  else (r, false)

/-- The entries of an object into a `Rule`. `p` identifies the run of the parser of conditions. -/
def jsonRuleEntries (env : Env) (p : List Nat) (r : Rule) : List (Str × Json) → Go (Rule × Bool)
  | [] => .ok (r, false)
  | (k, j) :: rest =>
    match fieldOf ruleNames k with
    | none => jsonRuleEntries env p r rest
    | some name =>
      if name = gs"conditions" then do
        let c ← unmarshalConditions env p j.once
        jsonRuleEntries env p { r with conditions := c } rest
      else do
        let a := jsonRuleField r name j
        let b ← jsonRuleEntries env p a.1 rest
        pure (b.1, a.2 || b.2)

/-- Into a `Rule`. -/
def jsonRule (env : Env) (p : List Nat) (r : Rule) : Json → Go (Rule × Bool)
  | .null => .ok (r, false)
  | .obj kvs => jsonRuleEntries env p r kvs
  | _ => .ok (r, true)

/-- Elements of an array into a `[]Rule`, over the elements that are there. -/
def jsonRuleList (env : Env) (p : List Nat) : Nat → List Rule → List Json → Go (List Rule × Bool)
  | _, _, [] => .ok ([], false)
  | i, old, j :: js => do
    let r ← jsonRule env (i :: p) (old.head?.getD {}) j
    let rs ← jsonRuleList env p (i + 1) old.tail js
    pure (r.1 :: rs.1, r.2 || rs.2)

/-- The value of the key `rules` into a `[]Rule`. -/
def jsonRulesKey (env : Env) (i : Nat) (old : List Rule) : Json → Go (List Rule × Bool)
  | .null => .ok ([], false)
  | .arr l => jsonRuleList env [i] 0 old l
  | _ => .ok (old, true)

/-- The entries of a document into a `Rules` (definitions_rule.go:119-122); `i` numbers them. -/
def jsonRulesEntries (env : Env) (i : Nat) (old : List Rule) : List (Str × Json) → Go (List Rule × Bool)
  | [] => .ok (old, false)
  | (k, j) :: rest =>
    if fieldOf [gs"rules"] k = some gs"rules" then do
      let a ← jsonRulesKey env i old j
      let b ← jsonRulesEntries env (i + 1) a.1 rest
      pure (b.1, a.2 || b.2)
    else jsonRulesEntries env (i + 1) old rest

/-- Into a `Rules`. -/
def jsonRules (env : Env) : Json → Go (List Rule × Bool)
  | .null => .ok ([], false)
  | .obj kvs => jsonRulesEntries env 0 [] kvs
  | _ => .ok ([], true)

/-- An error in the end. -/
def finish {α : Type} (x : Go (α × Bool)) : Go α := do
  match ← x with
  | (a, false) => .ok a
  | (_, true) => .error (.err .badNode)

/-- `json.Unmarshal(data, &rule)` into a new `Rule`. -/
def unmarshalRule (env : Env) (p : List Nat) (s : Str) : Go Rule :=
  match jsonScan env s with
  | none => .error (.err .badCopy)
  | some j => finish (jsonRule env p {} j)

/-- `json.Unmarshal(data, &rules)` into a new `Rules`. -/
def unmarshalRules (env : Env) (s : Str) : Go (List Rule) :=
  match jsonScan env s with
  | none => .error (.err .badCopy)
  | some j => finish (jsonRules env j)

/-! ## Writing -/

/-- An object with the given keys and texts of values. -/
def renderMembers : List (Str × Str) → Str
  | [] => []
  | [(k, v)] => quoteJson k ++ gs":" ++ v
  | (k, v) :: x :: rest => quoteJson k ++ gs":" ++ v ++ gs"," ++ renderMembers (x :: rest)

def renderObject (l : List (Str × Str)) : Str := gs"{" ++ renderMembers l ++ gs"}"

/-- A text with the option `omitempty`. -/
def textMember (k s : Str) : List (Str × Str) := if s = [] then [] else [(k, quoteJson s)]

/-- The fields of a `Rule` as `json.Marshal` writes them (definitions_rule.go:14-50, 92-112), given the text of the conditions. Structs are written even
if they are empty. Simplification: the expanded lists of senders and receivers are not written; the theorems are about rules without them. -/
def ruleMembers (r : Rule) (c : Str) : List (Str × Str) :=
  textMember gs"ruleID" r.ruleID ++
  [(gs"sender", renderObject (textMember gs"senderName" r.senderName ++ textMember gs"senderType" r.senderType)),
   (gs"receiver", renderObject (textMember gs"receiverName" r.receiverName ++ textMember gs"receiverType" r.receiverType))] ++
  textMember gs"protocol" r.protocol ++
  [(gs"resource", renderObject (textMember gs"resourceType" r.resourceType ++ textMember gs"resourceName" r.resourceName ++
    (if r.resourceNameRegex.isSome then [(gs"-", gs"{}")] else [])))] ++
  textMember gs"operation" r.operation ++
  [(gs"conditions", c)] ++
  textMember gs"decision" r.decision ++
  (if r.metadata = [] then [] else [(gs"metadata", renderStringMap r.metadata)]) ++
  textMember gs"hash" r.hash ++
  (if r.operationRegex.isSome then [(gs"operationRegex", gs"{}")] else []) ++
  (if r.converted then [(gs"-", gs"true")] else [])

/-- `json.Marshal(rule)`. -/
def marshalRule (env : Ext) (r : Rule) : Go Str := do
  let c ← marshalConditions env r.conditions
  pure (renderObject (ruleMembers r c))

/-- `json.Marshal` of the elements of a `[]Rule`. -/
def marshalRuleList (env : Ext) : List Rule → Go (List Str)
  | [] => .ok []
  | r :: rs => do let s ← marshalRule env r; let l ← marshalRuleList env rs; pure (s :: l)

/-- `json.Marshal(rules)`. -/
def marshalRules (env : Ext) (rs : List Rule) : Go Str := do
  if rs = [] then pure gs"{}"
  else
    let l ← marshalRuleList env rs
    pure (gs"{\"rules\":[" ++ commaSep l ++ gs"]}")

end Mapl

import Verif.Model.Loading
import Verif.Model.Marshal

/-!
# Rules and tables from YAML documents

`yaml.Unmarshal` of gopkg.in/yaml.v2 v2.4.0 (outside /repo, recorded in DESIGN.md) into the types of
/repo/MAPL_engine/definitions_rule.go and definitions_lists.go, as called by rules_load.go:27-61, 98-140 and
predefined_lists_load.go:11-28. The parser of YAML texts is not modelled: a document is the tree that it gives.
Simplifications: keys are texts (see `Model/Keys` for others); no tags, anchors, aliases or merge keys.

A value of the wrong type does not stop the decoder: it goes on, and `yaml.Unmarshal` returns an error at the end. The flag in the
results below says whether that happened. An error of `UnmarshalYAML` stops it at once.
-/

namespace Mapl

/-- What a YAML scalar resolves to. A text resolves to itself (so do time stamps when they are decoded into `interface{}`). -/
inductive Scalar
  | null
  | bool (b : Bool)
  | int (n : Int)
  | float (x : F64)
  | str
  deriving DecidableEq

/-- A YAML document: scalars with their text, sequences, mappings with their entries in order, possibly with repeated keys. -/
inductive Yaml
  | scalar (text : Str) (v : Scalar)
  | seq (l : List Yaml)
  | map (kvs : List (Str × Yaml))

/-- `fmt.Sprintf("%v", n)` for an integer. -/
def fmtInt (n : Int) : Str := if n < 0 then '-' :: Nat.toDigits 10 n.natAbs else Nat.toDigits 10 n.natAbs

/-! ## Into `interface{}` -/

/-- Where a value stands in a conditions document. -/
inductive Place
  | plain
  | value       -- below the key `value` of a condition
  | returned    -- below `returnValueJsonpath`
  deriving DecidableEq

/-- The place of the elements of a list. -/
def Place.inside (c : Place) : Place := if c = .value then .value else .plain

/-- The place of the value of a key. -/
def Place.below (c : Place) (k : Str) : Place :=
  if c = .value then .value
  else if c = .returned then .plain
  else if k = gs"value" ∨ k = gs"Value" then .value
  else if k = gs"returnValueJsonpath" ∨ k = gs"ReturnValueJsonpath" then .returned
  else .plain

mutual
/-- A document decoded into `interface{}` (conditions_tree.go:24-27). Go has integers besides floats there. The only place where the
engine can tell them apart is the value of a condition, which is printed (definitions_rule.go:179); there the model has the printed text. -/
def Yaml.generic (env : Ext) (c : Place) : Yaml → Json
  | .scalar _ .null => .null
  | .scalar _ (.bool b) => .bool b
  | .scalar _ (.int n) => if c = .value then .str (fmtInt n) else .num (env.rnd n)
  | .scalar _ (.float x) => .num x
  | .scalar t .str => .str t
  | .seq l => .arr (genericList env c.inside l)
  | .map kvs => .obj (genericEntries env c [] kvs)

def genericList (env : Ext) (c : Place) : List Yaml → List Json
  | [] => []
  | y :: ys => y.generic env c :: genericList env c ys

/-- The entries of a mapping, added to a map one after the other. -/
def genericEntries (env : Ext) (c : Place) (acc : List (Str × Json)) : List (Str × Yaml) → List (Str × Json)
  | [] => acc
  | (k, y) :: rest => genericEntries env c (setKey k (y.generic env (c.below k)) acc) rest
end

/-! ## Into the types of the engine -/

/-- Into a `string`: the text as written, whatever it resolves to; null is the empty text. -/
def decodeText (old : Str) : Yaml → Str × Bool
  | .scalar _ .null => ([], false)
  | .scalar t _ => (t, false)
  | _ => (old, true)

/-- Into a `bool`. -/
def decodeBool (old : Bool) : Yaml → Bool × Bool
  | .scalar _ .null => (false, false)
  | .scalar _ (.bool b) => (b, false)
  | _ => (old, true)

/-- The entries of a mapping into a `map[string]string`. -/
def decodeTextEntries (acc : List (Str × Str)) : List (Str × Yaml) → List (Str × Str) × Bool
  | [] => (acc, false)
  | (k, y) :: rest =>
    let v := decodeText [] y
    let r := decodeTextEntries (if v.2 then acc else setKey k v.1 acc) rest
    (r.1, v.2 || r.2)

/-- Into a `map[string]string`. -/
def decodeTextMap (old : List (Str × Str)) : Yaml → List (Str × Str) × Bool
  | .scalar _ .null => ([], false)
  | .map kvs => decodeTextEntries old kvs
  | _ => (old, true)

/-- Elements of a sequence into a `[]ExpandedSenderReceiver`, all of whose fields are hidden (definitions_rule.go:29-37). -/
def decodeHiddenElements : List Yaml → List ExpandedSR × Bool
  | [] => ([], false)
  | y :: ys =>
    let r := decodeHiddenElements ys
    match y with
    | .scalar _ .null => ({ name := [], type := [] } :: r.1, r.2)
    | .map _ => ({ name := [], type := [] } :: r.1, r.2)
    | _ => (r.1, true)

/-- Into a `[]ExpandedSenderReceiver`. -/
def decodeHidden (old : List ExpandedSR) : Yaml → List ExpandedSR × Bool
  | .scalar _ .null => ([], false)
  | .seq l => decodeHiddenElements l
  | _ => (old, true)

/-- `Sender` and `Receiver` (definitions_rule.go:15-27), which `Rule` of the model has inlined. -/
structure Party where
  name : Str := []
  type : Str := []
  list : List ExpandedSR := []

/-- One entry of a mapping into a `Sender` or `Receiver`, with the keys of their names and types; the tag `yaml:"-,omitempty"` names the key "-". -/
def partyField (nameKey typeKey : Str) (s : Party) (k : Str) (y : Yaml) : Party × Bool :=
  if k = nameKey then let v := decodeText s.name y; ({ s with name := v.1 }, v.2)
  else if k = typeKey then let v := decodeText s.type y; ({ s with type := v.1 }, v.2)
  else if k = gs"-" then let v := decodeHidden s.list y; ({ s with list := v.1 }, v.2)
  else (s, false)

/-- `Resource` (definitions_rule.go:40-50), which `Rule` of the model has inlined. -/
structure Resource where
  type : Str := []
  name : Str := []
  regex : Option Re := none

/-- One entry of a mapping into a `Resource`; `ResourceNameRegex` is hidden. -/
def resourceField (r : Resource) (k : Str) (y : Yaml) : Resource × Bool :=
  if k = gs"resourceType" then let v := decodeText r.type y; ({ r with type := v.1 }, v.2)
  else if k = gs"resourceName" then let v := decodeText r.name y; ({ r with name := v.1 }, v.2)
  else (r, false)

/-- The entries of a mapping into a struct, one after the other. -/
def decodeFields {α : Type} (f : α → Str → Yaml → α × Bool) (r : α) : List (Str × Yaml) → α × Bool
  | [] => (r, false)
  | (k, y) :: rest =>
    let a := f r k y
    let b := decodeFields f a.1 rest
    (b.1, a.2 || b.2)

/-- Into a struct; null gives the zero value. -/
def decodeStruct {α : Type} (f : α → Str → Yaml → α × Bool) (zero r : α) : Yaml → α × Bool
  | .scalar _ .null => (zero, false)
  | .map kvs => decodeFields f r kvs
  | _ => (r, true)

/-- Into a `ConditionsTree`: `UnmarshalYAML` (conditions_tree.go:22-37), which is not called for the plain scalars `null` and `~` and the empty one. -/
def decodeConditions (env : Env) (p : List Nat) (old : Option Node) : Yaml → Go (Option Node × Bool)
  | .scalar t v =>
    if v = .null ∧ (t = gs"null" ∨ t = gs"~" ∨ t = []) then .ok (none, false)
    else if t = gs"null" ∨ t = gs"~" then .ok (old, true)
    else .error (.err .badNode)
  | .seq l => do let n ← parseConditionsTree env p ((Yaml.seq l).generic env .plain); pure (some n, false)
  | .map kvs => do let n ← parseConditionsTree env p ((Yaml.map kvs).generic env .plain); pure (some n, false)

/-- Into a `*regexp.Regexp`, which has no exported fields: a mapping gives an empty one, which cannot be used (`none` here, as in `copySR`). -/
def decodeRegexp (old : Option Re) : Yaml → Option Re × Bool
  | .scalar _ .null => (none, false)
  | .map _ => (none, false)
  | _ => (old, true)

/-- One entry of a mapping into a `Rule` (definitions_rule.go:92-117) except `conditions`. `AlreadyConvertedFieldsToRegexFlag` has the key "-". -/
def ruleField (r : Rule) (k : Str) (y : Yaml) : Rule × Bool :=
  if k = gs"ruleID" then let v := decodeText r.ruleID y; ({ r with ruleID := v.1 }, v.2)
  else if k = gs"sender" then
    let v := decodeStruct (partyField gs"senderName" gs"senderType") {} ⟨r.senderName, r.senderType, r.senderList⟩ y
    ({ r with senderName := v.1.name, senderType := v.1.type, senderList := v.1.list }, v.2)
  else if k = gs"receiver" then
    let v := decodeStruct (partyField gs"receiverName" gs"receiverType") {} ⟨r.receiverName, r.receiverType, r.receiverList⟩ y
    ({ r with receiverName := v.1.name, receiverType := v.1.type, receiverList := v.1.list }, v.2)
  else if k = gs"protocol" then let v := decodeText r.protocol y; ({ r with protocol := v.1 }, v.2)
  else if k = gs"resource" then
    let v := decodeStruct resourceField {} ⟨r.resourceType, r.resourceName, r.resourceNameRegex⟩ y
    ({ r with resourceType := v.1.type, resourceName := v.1.name, resourceNameRegex := v.1.regex }, v.2)
  else if k = gs"operation" then let v := decodeText r.operation y; ({ r with operation := v.1 }, v.2)
  else if k = gs"decision" then let v := decodeText r.decision y; ({ r with decision := v.1 }, v.2)
  else if k = gs"metadata" then let v := decodeTextMap r.metadata y; ({ r with metadata := v.1 }, v.2)
  else if k = gs"hash" then let v := decodeText r.hash y; ({ r with hash := v.1 }, v.2)
  else if k = gs"operationRegex" then let v := decodeRegexp r.operationRegex y; ({ r with operationRegex := v.1 }, v.2)
  else if k = gs"-" then let v := decodeBool r.converted y; ({ r with converted := v.1 }, v.2)
  else (r, false)

/-- The entries of a mapping into a `Rule`. `p` identifies the run of the parser of conditions. -/
def decodeRuleEntries (env : Env) (p : List Nat) (r : Rule) : List (Str × Yaml) → Go (Rule × Bool)
  | [] => .ok (r, false)
  | (k, y) :: rest =>
    if k = gs"conditions" then do
      let c ← decodeConditions env p r.conditions y
      let b ← decodeRuleEntries env p { r with conditions := c.1 } rest
      pure (b.1, c.2 || b.2)
    else do
      let a := ruleField r k y
      let b ← decodeRuleEntries env p a.1 rest
      pure (b.1, a.2 || b.2)

/-- Into a `Rule`. -/
def decodeRule (env : Env) (p : List Nat) : Yaml → Go (Rule × Bool)
  | .scalar _ .null => .ok ({}, false)
  | .map kvs => decodeRuleEntries env p {} kvs
  | _ => .ok ({}, true)

/-- Elements of a sequence into a `[]Rule`. Elements of the wrong type are dropped, but then there is an error in the end. -/
def decodeRuleList (env : Env) (p : List Nat) : Nat → List Yaml → Go (List Rule × Bool)
  | _, [] => .ok ([], false)
  | i, y :: ys => do
    let r ← decodeRule env (i :: p) y
    let rs ← decodeRuleList env p (i + 1) ys
    pure (r.1 :: rs.1, r.2 || rs.2)

/-- The value of the key `rules` into a `[]Rule`. -/
def decodeRulesKey (env : Env) (j : Nat) (old : List Rule) (y : Yaml) : Go (List Rule × Bool) :=
  match y with
  | .scalar _ .null => .ok (([] : List Rule), false)
  | .seq l => decodeRuleList env [j] 0 l
  | _ => .ok (old, true)

/-- The entries of a document into a `Rules` (definitions_rule.go:119-122); `j` numbers them. -/
def decodeRulesEntries (env : Env) (j : Nat) (old : List Rule) : List (Str × Yaml) → Go (List Rule × Bool)
  | [] => .ok (old, false)
  | (k, y) :: rest =>
    if k = gs"rules" then do
      let a ← decodeRulesKey env j old y
      let b ← decodeRulesEntries env (j + 1) a.1 rest
      pure (b.1, a.2 || b.2)
    else decodeRulesEntries env (j + 1) old rest

/-- Into a `Rules`. -/
def decodeRules (env : Env) : Yaml → Go (List Rule × Bool)
  | .scalar _ .null => .ok ([], false)
  | .map kvs => decodeRulesEntries env 0 [] kvs
  | _ => .ok ([], true)

/-- `YamlReadRulesFromString` (rules_load.go:27-44): the rules and the error. -/
def readRules (env : Env) (y : Yaml) : Go (List Rule × Option Err) :=
  match decodeRules env y with
  | .ok (rs, false) => .ok (rs, none)
  | .ok (_, true) => .ok ([], some .badNode)
  | .error (.err e) => .ok ([], some e)
  | .error (.panic x) => .error (.panic x)

mutual
/-- `testYaml` (rules_load.go:140-143): `UnmarshalStrict` into `interface{}` rejects repeated keys. -/
def testYaml : Yaml → Bool
  | .scalar _ _ => true
  | .seq l => testYamlList l
  | .map kvs => decide (kvs.map (·.1)).Nodup && testYamlEntries kvs

def testYamlList : List Yaml → Bool
  | [] => true
  | y :: ys => testYaml y && testYamlList ys

def testYamlEntries : List (Str × Yaml) → Bool
  | [] => true
  | (_, y) :: rest => testYaml y && testYamlEntries rest
end

/-- `YamlReadRulesFromFile` (rules_load.go:46-62), for a file that can be read and is YAML. -/
def readRulesFile (env : Env) (y : Yaml) : Go (List Rule × Option Err) :=
  if testYaml y then readRules env y else .ok ([], some .badNode)

/-- `YamlReadRulesFromStringWithPredefinedStrings` (rules_load.go:98-120). -/
def readRulesWithTables (env : Env) (t : Predef) (y : Yaml) : Go (List RuleObj × Option Err) := do
  match ← readRules env y with
  | (_, some e) => .ok ([], some e)
  | (bodies, none) => loadWithTables env t bodies

/-- `YamlReadRulesFromFileWithPredefinedStrings` (rules_load.go:122-138), for a file that can be read and is YAML. -/
def readRulesFileWithTables (env : Env) (t : Predef) (y : Yaml) : Go (List RuleObj × Option Err) :=
  if testYaml y then readRulesWithTables env t y else .ok ([], some .badNode)

/-! ## Tables -/

/-- Elements of a sequence into a `[]string`. -/
def decodeTexts : List Yaml → List Str × Bool
  | [] => ([], false)
  | y :: ys =>
    let v := decodeText [] y
    let r := decodeTexts ys
    (if v.2 then r.1 else v.1 :: r.1, v.2 || r.2)

/-- Into a `[]string`. -/
def decodeTextList : Yaml → List Str × Bool
  | .scalar _ .null => ([], false)
  | .seq l => decodeTexts l
  | _ => ([], true)

/-- The entries of a mapping into a `map[string][]string`. -/
def decodeListEntries (acc : List (Str × List Str)) : List (Str × Yaml) → List (Str × List Str) × Bool
  | [] => (acc, false)
  | (k, y) :: rest =>
    let v := decodeTextList y
    let r := decodeListEntries (if v.2 then acc else setKey k v.1 acc) rest
    (r.1, v.2 || r.2)

/-- Into a `map[string][]string`. -/
def decodeListMap (old : List (Str × List Str)) : Yaml → List (Str × List Str) × Bool
  | .scalar _ .null => ([], false)
  | .map kvs => decodeListEntries old kvs
  | _ => (old, true)

/-- One entry of a mapping into `PredefinedStringsAndLists` (definitions_lists.go:3-7). -/
def tableField (t : Predef) (k : Str) (y : Yaml) : Predef × Bool :=
  if k = gs"predefinedStrings" then let v := decodeTextMap t.strings y; ({ t with strings := v.1 }, v.2)
  else if k = gs"predefinedLists" then let v := decodeListMap t.lists y; ({ t with lists := v.1 }, v.2)
  else if k = gs"-" then let v := decodeListMap t.listsNoRefs y; ({ t with listsNoRefs := v.1 }, v.2)
  else (t, false)

/-- `YamlReadStringListsFromString` (predefined_lists_load.go:11-28); on an error the code returns empty tables with it. -/
def readTables (y : Yaml) : Go Predef :=
  match decodeStruct tableField {} {} y with
  | (t, false) => validatePredefinedString t
  | (_, true) => .error (.err .badNode)

end Mapl

import Verif.Model.JsonRule

/-!
# Rules as BSON documents

The methods `MarshalBSON` and `UnmarshalBSON` of /repo/MAPL_engine/conditions_tree.go:66-95, and `bson.Marshal`, `bson.Unmarshal` of a `Rule` by the tags of
definitions_rule.go:14-112, as users store rules in a MongoDB (mongo_plugin/mongo_plugin_test.go:890-930).

The bytes of a document are not modelled: a BSON document is the value that it denotes. What the driver (go.mongodb.org/mongo-driver 1.11.4, outside /repo) does
with texts, lists, maps and nulls is recorded in DESIGN.md: it writes and reads them without loss, refuses keys with the character NUL, and reads documents into maps.
-/

namespace Mapl

/-- The order in which `json.Marshal` writes the entries of a map. -/
def keyLe {α : Type} (a b : Str × α) : Bool := strLe a.1 b.1

mutual
/-- `json.Unmarshal` after `json.Marshal` of a generic value: the same value, with the entries of maps in order. -/
def sortedJson : Json → Json
  | .null => .null
  | .bool b => .bool b
  | .num x => .num x
  | .str s => .str s
  | .arr l => .arr (sortedElements l)
  | .obj kvs => .obj (sortBy keyLe (sortedEntries kvs))

def sortedElements : List Json → List Json
  | [] => []
  | j :: js => sortedJson j :: sortedElements js

def sortedEntries : List (Str × Json) → List (Str × Json)
  | [] => []
  | (k, j) :: rest => (k, sortedJson j) :: sortedEntries rest
end

/-- The driver refuses this key. -/
def badKey (k : Str) : Bool := k.contains (Char.ofNat 0)

mutual
/-- The driver accepts all keys of a document. -/
def bsonOk : Json → Bool
  | .null => true
  | .bool _ => true
  | .num _ => true
  | .str _ => true
  | .arr l => bsonElementsOk l
  | .obj kvs => bsonEntriesOk kvs

def bsonElementsOk : List Json → Bool
  | [] => true
  | j :: js => bsonOk j && bsonElementsOk js

def bsonEntriesOk : List (Str × Json) → Bool
  | [] => true
  | (k, j) :: rest => !badKey k && bsonOk j && bsonEntriesOk rest
end

/-- `bson.Marshal(doc)`. The driver writes the entries of a map in any order; `unmarshalBson` sorts them, so the order is left as it is here. -/
def bsonMarshal (j : Json) : Go Json := if bsonOk j then .ok j else .error (.err .badCopy)

/-- conditions_tree.go:82-95. -/
def marshalBson (env : Ext) (t : Option Node) : Go Json := do
  let s ← marshalConditions env t
  match jsonParse env s with
  | some (.obj kvs) => bsonMarshal (.obj kvs)
  | _ => .error (.err .badCopy)

/-- conditions_tree.go:68-80 on the document. -/
def unmarshalBson (env : Env) (p : List Nat) : Json → Go (Option Node)
  | .obj kvs => unmarshalConditions env p (sortedJson (.obj kvs))
  | _ => .error (.err .badCopy)

/-! ## Rules -/

/-- A text field with the option `omitempty`. -/
def bsonOptional (k s : Str) : List (Str × Json) := if s = [] then [] else [(k, .str s)]

/-- A map of texts; the empty map stands for a nil map, which is written as null. -/
def bsonTextMap (l : List (Str × Str)) : Json := if l = [] then .null else .obj (l.map fun x => (x.1, .str x.2))

/-- The fields of a `Rule` (definitions_rule.go:14-50, 92-112), given the document of the conditions and the metadata in the order in which they are written. Simplification:
lists of senders and receivers, regular expressions and the flag of prepared rules are not written; the theorems are about rules without them. -/
def bsonMembers (r : Rule) (metadata : List (Str × Str)) (c : Json) : List (Str × Json) :=
  bsonOptional gs"ruleID" r.ruleID ++
  [(gs"sender", .obj ((gs"senderName", .str r.senderName) :: bsonOptional gs"senderType" r.senderType)),
   (gs"receiver", .obj ((gs"receiverName", .str r.receiverName) :: bsonOptional gs"receiverType" r.receiverType)),
   (gs"protocol", .str r.protocol),
   (gs"resource", .obj (bsonOptional gs"resourceType" r.resourceType ++ bsonOptional gs"resourceName" r.resourceName)),
   (gs"operation", .str r.operation), (gs"conditions", c), (gs"decision", .str r.decision), (gs"metadata", bsonTextMap metadata), (gs"hash", .str r.hash)]

/-- `bson.Marshal(rule)`; `p` identifies the iteration over the metadata. -/
def bsonMarshalRule (env : Env) (p : List Nat) (r : Rule) : Go Json := do
  let c ← marshalBson env r.conditions
  bsonMarshal (.obj (bsonMembers r (env.ord p r.metadata) c))

/-- Into a `string`. -/
def bsonText : Json → Go Str
  | .null => .ok []
  | .str s => .ok s
  | _ => .error (.err .badCopy)

/-- The values of a document that are texts. -/
def bsonTexts : List (Str × Json) → Go (List (Str × Str))
  | [] => .ok []
  | (k, j) :: rest => do let s ← bsonText j; let l ← bsonTexts rest; pure ((k, s) :: l)

/-- Into a `map[string]string`. -/
def bsonMap : Json → Go (List (Str × Str))
  | .null => .ok []
  | .obj kvs => bsonTexts kvs
  | _ => .error (.err .badCopy)

/-- The entries of a document into a struct, one after the other. -/
def bsonFields {α : Type} (f : α → Str → Json → Go α) (a : α) : List (Str × Json) → Go α
  | [] => .ok a
  | (k, j) :: rest => do let b ← f a k j; bsonFields f b rest

/-- Into a struct; null is the empty struct. -/
def bsonStruct {α : Type} (f : α → Str → Json → Go α) (zero a : α) : Json → Go α
  | .null => .ok zero
  | .obj kvs => bsonFields f a kvs
  | _ => .error (.err .badCopy)

/-- One entry into a pair of texts with the given names. -/
def bsonPairField (k1 k2 : Str) (a : Str × Str) (k : Str) (j : Json) : Go (Str × Str) :=
  if k = k1 then do let s ← bsonText j; pure (s, a.2)
  else if k = k2 then do let s ← bsonText j; pure (a.1, s)
  else pure a

/-- One entry into a `Rule`. Simplifications: keys count as they are spelled (the driver also tries the key in lower case); the keys that prepared rules have are ignored. -/
def bsonRuleField (env : Env) (p : List Nat) (r : Rule) (k : Str) (j : Json) : Go Rule :=
  if k = gs"ruleID" then do let s ← bsonText j; pure { r with ruleID := s }
  else if k = gs"sender" then do
    let x ← bsonStruct (bsonPairField gs"senderName" gs"senderType") ([], []) (r.senderName, r.senderType) j
    pure { r with senderName := x.1, senderType := x.2 }
  else if k = gs"receiver" then do
    let x ← bsonStruct (bsonPairField gs"receiverName" gs"receiverType") ([], []) (r.receiverName, r.receiverType) j
    pure { r with receiverName := x.1, receiverType := x.2 }
  else if k = gs"protocol" then do let s ← bsonText j; pure { r with protocol := s }
  else if k = gs"resource" then do
    let x ← bsonStruct (bsonPairField gs"resourceType" gs"resourceName") ([], []) (r.resourceType, r.resourceName) j
    pure { r with resourceType := x.1, resourceName := x.2 }
  else if k = gs"operation" then do let s ← bsonText j; pure { r with operation := s }
  else if k = gs"conditions" then do let c ← unmarshalBson env p j; pure { r with conditions := c }
  else if k = gs"decision" then do let s ← bsonText j; pure { r with decision := s }
  else if k = gs"metadata" then do let l ← bsonMap j; pure { r with metadata := l }
  else if k = gs"hash" then do let s ← bsonText j; pure { r with hash := s }
  else pure r

/-- `bson.Unmarshal(data, &rule)` into a new `Rule`, on the document. -/
def bsonUnmarshalRule (env : Env) (p : List Nat) : Json → Go Rule
  | .obj kvs => bsonFields (bsonRuleField env p) {} kvs
  | _ => .error (.err .badCopy)

end Mapl

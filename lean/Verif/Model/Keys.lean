import Verif.Model.Decode

/-!
# Rules from YAML documents whose keys need not be texts

In `Model/Decode` the keys of a mapping are texts. In YAML a key can be a number, a truth value or null (`1:`, `yes:`, `~:`). This file models
the readers of rules of /repo/MAPL_engine/rules_load.go:27-62 for such documents: `map[interface{}]interface{}` is a type of its own, and
`mapInterfaceToMapString` (conditions_tree.go:917-923) panics on a key that is not a text.
Simplifications: no key is a sequence or a mapping (the decoder refuses those); two keys that are not a number count as the same key.
-/

namespace Mapl

/-- A key as it is written, and what it resolves to. -/
structure Key where
  text : Str
  val : Scalar
  deriving DecidableEq

/-- A YAML document: scalars with their text, sequences, and mappings with their entries in order. -/
inductive KYaml
  | scalar (text : Str) (v : Scalar)
  | seq (l : List KYaml)
  | map (kvs : List (Key × KYaml))

/-- A key of a `map[interface{}]interface{}`. -/
inductive GKey
  | text (s : Str)
  | other (v : Scalar)
  deriving DecidableEq

/-- A key decoded into `interface{}`. -/
def Key.generic (k : Key) : GKey := if k.val = .str then .text k.text else .other k.val

/-- A key decoded into `string`: the text as written; null is the empty text. -/
def Key.name (k : Key) : Str := if k.val = .null then [] else k.text

/-- What `yaml.v2` decodes into `interface{}`. -/
inductive KJson
  | null
  | bool (b : Bool)
  | num (x : F64)
  | str (s : Str)
  | arr (l : List KJson)
  | obj (kvs : List (GKey × KJson))

/-- Assignment to a key of a map; the entries are listed in the order in which their keys came first (as `setKey`). -/
def setGKey (k : GKey) (v : KJson) : List (GKey × KJson) → List (GKey × KJson)
  | [] => [(k, v)]
  | (k', v') :: rest => if k = k' then (k, v) :: rest else (k', v') :: setGKey k v rest

/-- The place of the value of a key, see `Place.below`. -/
def Place.belowG (c : Place) : GKey → Place
  | .text k => c.below k
  | .other _ => if c = .value then .value else .plain

mutual
/-- A document decoded into `interface{}` (conditions_tree.go:24-27); integers as in `Yaml.generic`. -/
def KYaml.generic (env : Ext) (c : Place) : KYaml → KJson
  | .scalar _ .null => .null
  | .scalar _ (.bool b) => .bool b
  | .scalar _ (.int n) => if c = .value then .str (fmtInt n) else .num (env.rnd n)
  | .scalar _ (.float x) => .num x
  | .scalar t .str => .str t
  | .seq l => .arr (genericListK env c.inside l)
  | .map kvs => .obj (genericEntriesK env c [] kvs)

def genericListK (env : Ext) (c : Place) : List KYaml → List KJson
  | [] => []
  | y :: ys => y.generic env c :: genericListK env c ys

/-- The entries of a mapping, added to a map one after the other. -/
def genericEntriesK (env : Ext) (c : Place) (acc : List (GKey × KJson)) : List (Key × KYaml) → List (GKey × KJson)
  | [] => acc
  | (k, y) :: rest => genericEntriesK env c (setGKey k.generic (y.generic env (c.belowG k.generic)) acc) rest
end

/-- `mapInterfaceToMapString` (conditions_tree.go:917-923), for any type of values. -/
def textEntries {α : Type} : List (GKey × α) → Go (List (Str × α))
  | [] => .ok []
  | (.text k, v) :: rest => do let r ← textEntries rest; pure ((k, v) :: r)
  | (.other _, _) :: _ => .error (.panic .typeAssertion)

mutual
/-- Whether all keys in a value are texts, and then the value. -/
def KJson.texts? : KJson → Option Json
  | .null => some .null
  | .bool b => some (.bool b)
  | .num x => some (.num x)
  | .str s => some (.str s)
  | .arr l => (texts?List l).map .arr
  | .obj kvs => (texts?Entries kvs).map .obj

def texts?List : List KJson → Option (List Json)
  | [] => some []
  | j :: js => match j.texts?, texts?List js with
    | some x, some xs => some (x :: xs)
    | _, _ => none

def texts?Entries : List (GKey × KJson) → Option (List (Str × Json))
  | [] => some []
  | (.text k, j) :: rest => match j.texts?, texts?Entries rest with
    | some x, some xs => some ((k, x) :: xs)
    | _, _ => none
  | (.other _, _) :: _ => none
end

/-- A text, or another value that is no text. -/
def KJson.scalar : KJson → Json
  | .str s => .str s
  | _ => .null

/-- A map with a key in it that is not a text: a panic in the conversion, see `KJson.other`, or one of its values is no text. -/
def mapOther (kvs : List (GKey × KJson)) : Json :=
  match textEntries kvs with
  | .ok l => .obj (l.map fun x => (x.1, x.2.scalar))
  | .error _ => .obj [([], .null)]

/-- The field `k` of a condition or quantifier with a key in it that is not a text, as the functions of `Model/Parse` take it, which know values with text
keys only. They need the following. Its text (definitions_rule.go:179), which is the parameter `printed`: `fmt` sorts such keys in an order of its own. Whether it is a
map with such a key: then line 851 of conditions_tree.go and line 193 of definitions_rule.go panic, as lines 854 and 193 do for values that are no texts, and the model
has such a value instead. And that it is no text. -/
def KJson.other (printed : KJson → Str) (k : Str) (j : KJson) : Json :=
  if k = gs"value" ∨ k = gs"Value" then .str (printed j)
  else match j with
    | .obj kvs => mapOther kvs
    | _ => .null

/-- The field `k` of a condition or quantifier. -/
def KJson.field (printed : KJson → Str) (k : Str) (j : KJson) : Json := j.texts?.getD (j.other printed k)

mutual
/-- conditions_tree.go:716-748: `InterpretNode`, with `handleMapInterfaceInterface` for every map. See `interpret`. -/
def interpretK (env : Env) (printed : KJson → Str) : KJson → Str → List Nat → Go Node
  | .obj kvs, parent, p => do
    let l ← textEntries (interpretKidsK env printed kvs p 2)
    handleMap env p parent (l.map fun x => (x.1, x.2.1)) l
  | .arr l, parent, p => handleArray parent (interpretListK env printed l p 2)
  | .null, _, _ => .error (.err .badNode)
  | .bool _, _, _ => .error (.err .badNode)
  | .num _, _, _ => .error (.err .badNode)
  | .str _, _, _ => .error (.err .badNode)

/-- The fields of a map, each with the interpretation of its value under its key. -/
def interpretKidsK (env : Env) (printed : KJson → Str) : List (GKey × KJson) → List Nat → Nat → List (GKey × Json × Go Node)
  | [], _, _ => []
  | (.text k, v) :: rest, p, i => (.text k, v.field printed k, interpretK env printed v k (i :: p)) :: interpretKidsK env printed rest p (i + 1)
  | (.other k, _) :: rest, p, i => (.other k, .null, .error (.err .badNode)) :: interpretKidsK env printed rest p (i + 1)

/-- Elements of an array interpreted without a keyword. -/
def interpretListK (env : Env) (printed : KJson → Str) : List KJson → List Nat → Nat → List (Go Node)
  | [], _, _ => []
  | v :: rest, p, i => interpretK env printed v [] (i :: p) :: interpretListK env printed rest p (i + 1)
end

/-- `UnmarshalYAML` (conditions_tree.go:22-37); see `decodeConditions`. -/
def decodeConditionsK (env : Env) (printed : KJson → Str) (p : List Nat) (old : Option Node) : KYaml → Go (Option Node × Bool)
  | .scalar t v => decodeConditions env p old (.scalar t v)
  | .seq l => do let n ← interpretK env printed ((KYaml.seq l).generic env .plain) [] p; pure (some n, false)
  | .map kvs => do let n ← interpretK env printed ((KYaml.map kvs).generic env .plain) [] p; pure (some n, false)

mutual
/-- The document with its keys decoded into `string`, which is all that the fields other than `conditions` see. -/
def KYaml.named : KYaml → Yaml
  | .scalar t v => .scalar t v
  | .seq l => .seq (namedList l)
  | .map kvs => .map (namedEntries kvs)

def namedList : List KYaml → List Yaml
  | [] => []
  | y :: ys => y.named :: namedList ys

def namedEntries : List (Key × KYaml) → List (Str × Yaml)
  | [] => []
  | (k, y) :: rest => (k.name, y.named) :: namedEntries rest
end

/-- See `decodeRuleEntries`. -/
def decodeRuleEntriesK (env : Env) (printed : KJson → Str) (p : List Nat) (r : Rule) : List (Key × KYaml) → Go (Rule × Bool)
  | [] => .ok (r, false)
  | (k, y) :: rest =>
    if k.name = gs"conditions" then do
      let c ← decodeConditionsK env printed p r.conditions y
      let b ← decodeRuleEntriesK env printed p { r with conditions := c.1 } rest
      pure (b.1, c.2 || b.2)
    else do
      let a := ruleField r k.name y.named
      let b ← decodeRuleEntriesK env printed p a.1 rest
      pure (b.1, a.2 || b.2)

/-- See `decodeRule`. -/
def decodeRuleK (env : Env) (printed : KJson → Str) (p : List Nat) : KYaml → Go (Rule × Bool)
  | .scalar _ .null => .ok ({}, false)
  | .map kvs => decodeRuleEntriesK env printed p {} kvs
  | _ => .ok ({}, true)

/-- See `decodeRuleList`. -/
def decodeRuleListK (env : Env) (printed : KJson → Str) (p : List Nat) : Nat → List KYaml → Go (List Rule × Bool)
  | _, [] => .ok ([], false)
  | i, y :: ys => do
    let r ← decodeRuleK env printed (i :: p) y
    let rs ← decodeRuleListK env printed p (i + 1) ys
    pure (r.1 :: rs.1, r.2 || rs.2)

/-- See `decodeRulesKey`. -/
def decodeRulesKeyK (env : Env) (printed : KJson → Str) (j : Nat) (old : List Rule) : KYaml → Go (List Rule × Bool)
  | .scalar _ .null => .ok (([] : List Rule), false)
  | .seq l => decodeRuleListK env printed [j] 0 l
  | _ => .ok (old, true)

/-- See `decodeRulesEntries`. -/
def decodeRulesEntriesK (env : Env) (printed : KJson → Str) (j : Nat) (old : List Rule) : List (Key × KYaml) → Go (List Rule × Bool)
  | [] => .ok (old, false)
  | (k, y) :: rest =>
    if k.name = gs"rules" then do
      let a ← decodeRulesKeyK env printed j old y
      let b ← decodeRulesEntriesK env printed (j + 1) a.1 rest
      pure (b.1, a.2 || b.2)
    else decodeRulesEntriesK env printed (j + 1) old rest

/-- See `decodeRules`. -/
def decodeRulesK (env : Env) (printed : KJson → Str) : KYaml → Go (List Rule × Bool)
  | .scalar _ .null => .ok ([], false)
  | .map kvs => decodeRulesEntriesK env printed 0 [] kvs
  | _ => .ok ([], true)

/-- `YamlReadRulesFromString` (rules_load.go:27-44): the rules and the error. -/
def readRulesK (env : Env) (printed : KJson → Str) (y : KYaml) : Go (List Rule × Option Err) :=
  match decodeRulesK env printed y with
  | .ok (rs, false) => .ok (rs, none)
  | .ok (_, true) => .ok ([], some .badNode)
  | .error (.err e) => .ok ([], some e)
  | .error (.panic x) => .error (.panic x)

mutual
/-- `testYaml` (rules_load.go:140-143): repeated keys are found by what they resolve to. -/
def testYamlK : KYaml → Bool
  | .scalar _ _ => true
  | .seq l => testYamlListK l
  | .map kvs => decide (kvs.map (·.1.generic)).Nodup && testYamlEntriesK kvs

def testYamlListK : List KYaml → Bool
  | [] => true
  | y :: ys => testYamlK y && testYamlListK ys

def testYamlEntriesK : List (Key × KYaml) → Bool
  | [] => true
  | (_, y) :: rest => testYamlK y && testYamlEntriesK rest
end

/-- `YamlReadRulesFromFile` (rules_load.go:46-62), for a file that can be read and is YAML. -/
def readRulesFileK (env : Env) (printed : KJson → Str) (y : KYaml) : Go (List Rule × Option Err) :=
  if testYamlK y then readRulesK env printed y else .ok ([], some .badNode)

end Mapl

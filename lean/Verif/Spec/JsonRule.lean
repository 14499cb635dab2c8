import Verif.Model.JsonRule
import Verif.Spec.Decode
import Verif.Spec.Copy

/-!
# Rules in JSON documents
-/

namespace Mapl.Spec

/-- A rule of which nothing is set but the fields of the format, and whose conditions can be copied. -/
structure Storable (env : Ext) (r : Rule) : Prop where
  rest : r.senderList = [] ∧ r.receiverList = [] ∧ r.resourceNameRegex = none ∧ r.operationRegex = none
  metadata : (r.metadata.map (·.1)).Nodup
  conditions : ∀ n, r.conditions = some n → Copyable env n

mutual
/-- A JSON document and a YAML document say the same. A number that is the value of a condition must not be an integer in the YAML document, where it
is printed as it is; in JSON it is a floating-point number. -/
inductive Same (env : Ext) : Place → Json → Yaml → Prop
  | null (c t) : Same env c .null (.scalar t .null)
  | bool (c b t) : Same env c (.bool b) (.scalar t (.bool b))
  | int {c} (n : Int) (t) (h : c ≠ .value) : Same env c (.num (env.rnd n)) (.scalar t (.int n))
  | float (c x t) : Same env c (.num x) (.scalar t (.float x))
  | str (c s) : Same env c (.str s) (.scalar s .str)
  | arr {c js l} (h : SameAll env c.elements js l) : Same env c (.arr js) (.seq l)
  | obj {c js l} (h : SameKeys env c js l) : Same env c (.obj js) (.map l)

inductive SameAll (env : Ext) : Place → List Json → List Yaml → Prop
  | nil (c) : SameAll env c [] []
  | cons {c j js y l} (h : Same env c j y) (hs : SameAll env c js l) : SameAll env c (j :: js) (y :: l)

inductive SameKeys (env : Ext) : Place → List (Str × Json) → List (Str × Yaml) → Prop
  | nil (c) : SameKeys env c [] []
  | cons {c k j js y l} (h : Same env (c.entry k) j y) (hs : SameKeys env c js l) : SameKeys env c ((k, j) :: js) ((k, y) :: l)
end

/-- No key differs from one of the names in the case of its letters only. -/
def Spelled (names : List Str) (kvs : List (Str × Json)) : Prop := ∀ x ∈ kvs, ∀ n ∈ names, n.map foldChar = x.1.map foldChar → n = x.1

/-- The parts of a rule and the names of their fields. -/
def parts : List (Str × Str × Str) :=
  [(gs"sender", gs"senderName", gs"senderType"), (gs"receiver", gs"receiverName", gs"receiverType"), (gs"resource", gs"resourceType", gs"resourceName")]

/-- A text or null. -/
def IsText (j : Json) : Prop := j = .null ∨ ∃ s, j = .str s

/-- An object whose entries satisfy a condition, or null. -/
def IsObject (P : Str → Json → Prop) (j : Json) : Prop := j = .null ∨ ∃ l, j = .obj l ∧ ∀ x ∈ l, P x.1 x.2

/-- The values of a rule are of the right types. -/
structure TypedRule (kvs : List (Str × Json)) : Prop where
  texts : ∀ k ∈ [gs"ruleID", gs"protocol", gs"operation", gs"decision", gs"hash"], ∀ j, (k, j) ∈ kvs → IsText j
  parts : ∀ q ∈ parts, ∀ j, (q.1, j) ∈ kvs →
    IsObject (fun k v => (k = q.2.1 ∨ k = q.2.2 → IsText v) ∧ (q.1 = gs"resource" → k = gs"-" → IsObject (fun _ _ => True) v)) j
  metadata : ∀ j, (gs"metadata", j) ∈ kvs → IsObject (fun _ v => IsText v) j
  regexp : ∀ j, (gs"operationRegex", j) ∈ kvs → IsObject (fun _ _ => True) j
  conditions : ∀ j, (gs"conditions", j) ∈ kvs → (∃ l, j = .arr l) ∨ ∃ l, j = .obj l

/-- The keys of a rule are spelled as the format wants. -/
structure SpelledRule (kvs : List (Str × Json)) : Prop where
  rule : Spelled ruleNames kvs
  parts : ∀ q ∈ parts, ∀ l, (q.1, .obj l) ∈ kvs → Spelled [q.2.1, q.2.2] l

/-- A condition on every rule of a document. -/
def EachRule (P : List (Str × Json) → Prop) (j : Json) : Prop :=
  ∀ kvs l rule, j = .obj kvs → (gs"rules", .arr l) ∈ kvs → .obj rule ∈ l → P rule

/-- The values of a document are of the right types. -/
inductive TypedDoc : Json → Prop
  | null : TypedDoc .null
  | obj {kvs} (list : ∀ j, (gs"rules", j) ∈ kvs → j = .null ∨ ∃ l, j = .arr l ∧ ∀ r ∈ l, IsObject (fun _ _ => True) r)
      (each : EachRule TypedRule (.obj kvs)) : TypedDoc (.obj kvs)

/-- The keys of a document are spelled as the format wants. -/
def SpelledDoc (j : Json) : Prop := (∀ kvs, j = .obj kvs → Spelled [gs"rules"] kvs) ∧ EachRule SpelledRule j

/-- No rule has empty conditions, `{}` or `[]`. -/
def NoEmptyConditions (j : Json) : Prop := EachRule (fun kvs => ∀ c, (gs"conditions", c) ∈ kvs → c ≠ .obj [] ∧ c ≠ .arr []) j

end Mapl.Spec

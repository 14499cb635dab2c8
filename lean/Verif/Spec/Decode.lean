import Verif.Model.Decode
import Verif.Spec.Parse

/-!
# Rules documents

What a YAML document writes: `RulesDoc` relates a document to the rules that are written in it, key by key.
-/

namespace Mapl.Spec

/-- All keys of all mappings are distinct. -/
inductive Distinct : Yaml → Prop
  | scalar (t v) : Distinct (.scalar t v)
  | seq {l : List Yaml} (h : ∀ y ∈ l, Distinct y) : Distinct (.seq l)
  | map {kvs : List (Str × Yaml)} (distinct : (kvs.map (·.1)).Nodup) (h : ∀ x ∈ kvs, Distinct x.2) : Distinct (.map kvs)

/-- The key is there. -/
def HasKey (kvs : List (Str × Yaml)) (k : Str) : Prop := ∃ y, (k, y) ∈ kvs

/-- The text that a scalar writes, which is the one that is there, be it a number or not; null is the empty text. -/
inductive WritesText : Yaml → Str → Prop
  | null (t) : WritesText (.scalar t .null) []
  | text {t v} (h : v ≠ .null) : WritesText (.scalar t v) t

/-- The text under a key; the empty text if the key is missing. -/
def TextUnder (kvs : List (Str × Yaml)) (k s : Str) : Prop := (∀ y, (k, y) ∈ kvs → WritesText y s) ∧ (¬ HasKey kvs k → s = [])

/-- The entries of the mapping under a key; none if the key is missing or null. -/
inductive PartUnder (kvs : List (Str × Yaml)) (k : Str) : List (Str × Yaml) → Prop
  | missing (h : ¬ HasKey kvs k) : PartUnder kvs k []
  | null {t} (h : (k, .scalar t .null) ∈ kvs) : PartUnder kvs k []
  | mapping {l} (h : (k, .map l) ∈ kvs) : PartUnder kvs k l

/-- The mapping with the entries `kvs` writes the rule `r`; `tree` relates documents to the trees that they write. -/
structure RuleDoc (tree : Yaml → Option Node → Prop) (kvs : List (Str × Yaml)) (r : Rule) : Prop where
  ruleID : TextUnder kvs gs"ruleID" r.ruleID
  sender : ∃ l, PartUnder kvs gs"sender" l ∧ TextUnder l gs"senderName" r.senderName ∧ TextUnder l gs"senderType" r.senderType
  receiver : ∃ l, PartUnder kvs gs"receiver" l ∧ TextUnder l gs"receiverName" r.receiverName ∧ TextUnder l gs"receiverType" r.receiverType
  protocol : TextUnder kvs gs"protocol" r.protocol
  resource : ∃ l, PartUnder kvs gs"resource" l ∧ TextUnder l gs"resourceType" r.resourceType ∧ TextUnder l gs"resourceName" r.resourceName
  operation : TextUnder kvs gs"operation" r.operation
  conditions : (∀ y, (gs"conditions", y) ∈ kvs → tree y r.conditions) ∧ (¬ HasKey kvs gs"conditions" → r.conditions = none)
  decision : TextUnder kvs gs"decision" r.decision
  metadata : ∃ l, PartUnder kvs gs"metadata" l ∧ List.Forall₂ (fun x z => x.1 = z.1 ∧ WritesText x.2 z.2) l r.metadata
  hash : TextUnder kvs gs"hash" r.hash
  /-- The key of a field for internal use is ignored, unless its value is a text or a list. -/
  regexp : ∀ y, (gs"operationRegex", y) ∈ kvs → (∃ t, y = .scalar t .null) ∨ ∃ l, y = .map l
  /-- Nothing else is set. -/
  rest : r.senderList = [] ∧ r.receiverList = [] ∧ r.resourceNameRegex = none ∧ r.operationRegex = none ∧ r.converted = false

/-- An element of the list of rules. -/
inductive RuleOf (tree : Yaml → Option Node → Prop) : Yaml → Rule → Prop
  | null (t) : RuleOf tree (.scalar t .null) {}
  | rule {kvs r} (h : RuleDoc tree kvs r) : RuleOf tree (.map kvs) r

/-- The document writes the rules. -/
inductive RulesDoc (tree : Yaml → Option Node → Prop) : Yaml → List Rule → Prop
  | empty (t) : RulesDoc tree (.scalar t .null) []
  | missing {kvs} (h : ¬ HasKey kvs gs"rules") : RulesDoc tree (.map kvs) []
  | null {kvs t} (h : (gs"rules", .scalar t .null) ∈ kvs) : RulesDoc tree (.map kvs) []
  | rules {kvs l rs} (h : (gs"rules", .seq l) ∈ kvs) (hr : List.Forall₂ (RuleOf tree) l rs) : RulesDoc tree (.map kvs) rs

/-- Null, as the decoder of YAML recognises it before it decodes a value. -/
def IsNull (y : Yaml) : Prop := ∃ t ∈ [gs"null", gs"~", []], y = .scalar t .null

/-- The decimal digits. -/
def digits : Str := gs"0123456789"

/-- The text of a natural number: decimal digits, without leading zeros. -/
inductive Digits : Nat → Str → Prop
  | digit {d c} (h : digits[d]? = some c) : Digits d [c]
  | more {n s d c} (hn : Digits n s) (hpos : 0 < n) (h : digits[d]? = some c) : Digits (10 * n + d) (s ++ [c])

/-- The text of an integer. -/
inductive Prints : Int → Str → Prop
  | nat {n : Nat} {s} (h : Digits n s) : Prints n s
  | neg {n : Nat} {s} (h : Digits n s) (hpos : 0 < n) : Prints (-n) ('-' :: s)

/-- The place of the elements of a list: all that is below the value of a condition belongs to it. -/
def _root_.Mapl.Place.elements : Place → Place
  | .value => .value
  | _ => .plain

/-- The place of the value of a key. Return values are texts under names that can be chosen, also the name `value`. -/
def _root_.Mapl.Place.entry : Place → Str → Place
  | .value, _ => .value
  | .returned, _ => .plain
  | .plain, k => if k ∈ valueKeys then .value else if k ∈ returnKeys then .returned else .plain

mutual
/-- The data that a document denotes, as conditions see it. An integer below the key `value` of a condition is taken as it is printed. -/
inductive Denotes (env : Ext) : Place → Yaml → Json → Prop
  | null (c t) : Denotes env c (.scalar t .null) .null
  | bool (c t b) : Denotes env c (.scalar t (.bool b)) (.bool b)
  | int {c} (t n) (h : c ≠ .value) : Denotes env c (.scalar t (.int n)) (.num (env.rnd n))
  | printed {t n s} (h : Prints n s) : Denotes env .value (.scalar t (.int n)) (.str s)
  | float (c t x) : Denotes env c (.scalar t (.float x)) (.num x)
  | str (c t) : Denotes env c (.scalar t .str) (.str t)
  | seq {c l js} (h : DenotesAll env c.elements l js) : Denotes env c (.seq l) (.arr js)
  | map {c kvs js} (h : DenotesKeys env c kvs js) : Denotes env c (.map kvs) (.obj js)

inductive DenotesAll (env : Ext) : Place → List Yaml → List Json → Prop
  | nil (c) : DenotesAll env c [] []
  | cons {c y j l js} (h : Denotes env c y j) (hs : DenotesAll env c l js) : DenotesAll env c (y :: l) (j :: js)

inductive DenotesKeys (env : Ext) : Place → List (Str × Yaml) → List (Str × Json) → Prop
  | nil (c) : DenotesKeys env c [] []
  | cons {c k y j l js} (h : Denotes env (c.entry k) y j) (hs : DenotesKeys env c l js) : DenotesKeys env c ((k, y) :: l) ((k, j) :: js)
end

/-- A conditions document writes a tree, and nothing in it is lost; null is no tree. -/
def WritesTree (env : Ext) (y : Yaml) (o : Option Node) : Prop :=
  (IsNull y ∧ o = none) ∨ ∃ j n, Denotes env .plain y j ∧ Writes env [] j n ∧ o = some n

/-- The same in the larger grammar of the documents that the parser of conditions reads. -/
def ReadAsTree (env : Ext) (y : Yaml) (o : Option Node) : Prop :=
  (IsNull y ∧ o = none) ∨ ∃ j n, Denotes env .plain y j ∧ Reads env True True [] j n ∧ o = some n

/-- The key `-` does not occur in a rule, nor in its sender or receiver. -/
def NoDash (y : Yaml) : Prop :=
  ∀ kvs l rule, y = .map kvs → (gs"rules", .seq l) ∈ kvs → .map rule ∈ l →
    ¬ HasKey rule gs"-" ∧ ∀ k ∈ [gs"sender", gs"receiver"], ∀ part, (k, .map part) ∈ rule → ¬ HasKey part gs"-"

/-- The keys of conditions, ANY and ALL whose values must be texts. -/
def textKeys : List Str := attrKeys ++ methodKeys ++ [parentKey]

/-- Wherever such a key stands, its value is a text, and so are the return values. -/
inductive Texts : Json → Prop
  | null : Texts .null
  | bool (b) : Texts (.bool b)
  | num (x) : Texts (.num x)
  | str (s) : Texts (.str s)
  | arr {l : List Json} (h : ∀ x ∈ l, Texts x) : Texts (.arr l)
  | obj {kvs : List (Str × Json)} (text : ∀ k ∈ textKeys, ∀ v, (k, v) ∈ kvs → ∃ s, v = .str s)
      (ret : ∀ k ∈ returnKeys, ∀ l, (k, .obj l) ∈ kvs → ∀ x ∈ l, ∃ s, x.2 = .str s) (h : ∀ x ∈ kvs, Texts x.2) : Texts (.obj kvs)

/-- The same of a YAML document. -/
inductive TextsYaml : Yaml → Prop
  | scalar (t v) : TextsYaml (.scalar t v)
  | seq {l : List Yaml} (h : ∀ y ∈ l, TextsYaml y) : TextsYaml (.seq l)
  | map {kvs : List (Str × Yaml)} (text : ∀ k ∈ textKeys, ∀ v, (k, v) ∈ kvs → ∃ t, v = .scalar t .str)
      (ret : ∀ k ∈ returnKeys, ∀ l, (k, .map l) ∈ kvs → ∀ x ∈ l, ∃ t, x.2 = .scalar t .str) (h : ∀ x ∈ kvs, TextsYaml x.2) : TextsYaml (.map kvs)

/-- A list of texts; null is the empty list. -/
inductive WritesTexts : Yaml → List Str → Prop
  | null (t) : WritesTexts (.scalar t .null) []
  | texts {l ts} (h : List.Forall₂ WritesText l ts) : WritesTexts (.seq l) ts

/-- The mapping with the entries `kvs` writes a table. -/
structure TablesDoc (kvs : List (Str × Yaml)) (t : Predef) : Prop where
  strings : ∃ l, PartUnder kvs gs"predefinedStrings" l ∧ List.Forall₂ (fun x z => x.1 = z.1 ∧ WritesText x.2 z.2) l t.strings
  lists : ∃ l, PartUnder kvs gs"predefinedLists" l ∧ List.Forall₂ (fun x z => x.1 = z.1 ∧ WritesTexts x.2 z.2) l t.lists
  /-- The key of a field for internal use is ignored if lists are below it. -/
  hidden : ∃ (ls : List (Str × List Str)) (l : List (Str × Yaml)), PartUnder kvs gs"-" l ∧ List.Forall₂ (fun x z => x.1 = z.1 ∧ WritesTexts x.2 z.2) l ls

/-- The document writes a table: a mapping, or null for the empty table. -/
inductive TablesOf : Yaml → Predef → Prop
  | null (t n) : TablesOf (.scalar t .null) { strings := [], lists := [], listsNoRefs := n }
  | tables {kvs t} (h : TablesDoc kvs t) : TablesOf (.map kvs) t

end Mapl.Spec

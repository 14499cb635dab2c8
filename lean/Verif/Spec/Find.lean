import Verif.Spec.Mongo
import Verif.Spec.Place

/-!
# Which documents the query of a rule finds

The claims of `Spec/Place.lean` that have a query, and the documents of which the query says what the claim says. Values in MongoDB have types: a query compares numbers with
numbers and texts with texts, and what is missing is different from everything.
-/

namespace Mapl.Spec

/-- Methods that hold for a list of values if they hold for one of them. -/
def OneIsEnough (m : Str) : Prop := m ∉ [gs"NEQ", gs"neq", gs"NE", gs"ne", gs"NEX", gs"nex", gs"NRE", gs"nre", gs"NIN", gs"in", gs"nin"]

/-- One condition on the name or on the value of an entry. -/
inductive EntryTest : Claim → Prop
  | key {m v} (h : OneIsEnough m) : EntryTest (.key m v)
  | value {m v} (h : OneIsEnough m) : EntryTest (.value m v)

mutual
/-- Claims about the document alone: outside of ANY and ALL the paths start from the document, inside from the element. ANY and ALL have one path, without numbers. ANY about the entries of an
object stands outside of other ANY and ALL, and has one condition. -/
def Claim.Findable : Bool → Claim → Prop
  | _, .attr _ _ _ => False
  | i, .test p m _ => p.start = (if i then .element else .document) ∧ m ∉ [gs"in", gs"nin"]
  | _, .key _ _ => False
  | _, .value _ _ => False
  | i, .and fs => Claim.AllFindable i fs
  | i, .or fs => Claim.AllFindable i fs
  | i, .not f => f.Findable i
  | i, .any ps f => ∃ p, ps = [p] ∧ p.start = (if i then .element else .document) ∧ (∀ s ∈ p.rest, ∃ n, s = .field n) ∧ f.Findable true
  | i, .all ps f => ∃ p, ps = [p] ∧ p.start = (if i then .element else .document) ∧ (∀ s ∈ p.rest, ∃ n, s = .field n) ∧ f.Findable true
  | i, .anyEntry p f => i = false ∧ p.start = .document ∧ (∀ s ∈ p.rest, ∃ n, s = .field n) ∧ EntryTest f
  | _, .allEntries _ _ => False

def Claim.AllFindable : Bool → List Claim → Prop
  | _, [] => True
  | i, f :: fs => f.Findable i ∧ Claim.AllFindable i fs
end

/-- The value found and the value of the condition are of one kind: numbers are compared with numbers without a unit, texts that are no numbers with anything; that something is there can be asked
of all values that are not empty, and what is not there is not compared by NEQ. -/
inductive OneKind (env : Ext) : Option Json → Str → Str → Prop
  | nothing {m w} (hm : m ∉ NumMethod.ne.spellings) : OneKind env none m w
  | number {m w q x} (hm : ∃ k : NumMethod, m ∈ k.spellings) (hw : env.parseFloat w = some x) (hu : parseNumber env w = some x) : OneKind env (some (.num (.fin q))) m w
  | text {m w s} (hs : s ≠ []) (hn : (∃ k : NumMethod, m ∈ k.spellings) → env.parseFloat s = none ∧ parseNumber env s = none) : OneKind env (some (.str s)) m w
  | there {m w v} (hm : m ∈ [gs"EX", gs"ex", gs"NEX", gs"nex"]) (h1 : v ≠ .str []) (h2 : v ≠ .arr []) : OneKind env (some v) m w

/-- A condition on an entry compares with a text, not with a label or a field of the receiver. -/
def Claim.Constant (env : Ext) (t : Predef) : Claim → Prop
  | .key m v => ∀ w, ValueResolves env t m v w → NoReference w
  | .value m v => ∀ w, ValueResolves env t m v w → NoReference w
  | _ => True

mutual
/-- All conditions compare values of one kind, and none with a label or a field of the receiver. Of an AND, the conditions behind one that does not hold need not. -/
def Claim.Typed (env : Ext) (t : Predef) (msg : Msg) (root : Json) : Claim → Option Json → Prop
  | .attr _ _ _, _ => True
  | .test p m v, cur => ∀ o w, p.Leads root cur o → ValueResolves env t m v w → OneKind env o m w ∧ NoReference w
  | .key m v, cur => ∀ k j w, cur = some (.obj [(k, j)]) → ValueResolves env t m v w → OneKind env (some (.str k)) m w
  | .value m v, cur => ∀ k j w, cur = some (.obj [(k, j)]) → ValueResolves env t m v w → OneKind env (some j) m w
  | .and fs, cur => Claim.TypedInTurn env t msg root fs cur
  | .or fs, cur => Claim.AllTyped env t msg root fs cur
  | .not f, cur => f.Typed env t msg root cur
  | .any ps f, cur => ∀ p ∈ ps, ∀ l, p.Leads root cur (some (.arr l)) → ∀ e ∈ l, f.Typed env t msg root (some e)
  | .all ps f, cur => ∀ p ∈ ps, ∀ l, p.Leads root cur (some (.arr l)) → ∀ e ∈ l, f.Typed env t msg root (some e)
  | .anyEntry p f, cur => f.Constant env t ∧ ∀ kvs, p.Leads root cur (some (.obj kvs)) → ∀ kv ∈ kvs, f.Typed env t msg root (some (.obj [kv]))
  | .allEntries p f, cur => f.Constant env t ∧ ∀ kvs, p.Leads root cur (some (.obj kvs)) → ∀ kv ∈ kvs, f.Typed env t msg root (some (.obj [kv]))

def Claim.TypedInTurn (env : Ext) (t : Predef) (msg : Msg) (root : Json) : List Claim → Option Json → Prop
  | [], _ => True
  | f :: fs, cur => f.Typed env t msg root cur ∧ (f.Holds env t msg root cur → Claim.TypedInTurn env t msg root fs cur)

def Claim.AllTyped (env : Ext) (t : Predef) (msg : Msg) (root : Json) : List Claim → Option Json → Prop
  | [], _ => True
  | f :: fs, cur => f.Typed env t msg root cur ∧ Claim.AllTyped env t msg root fs cur
end

mutual
/-- The paths to the objects whose entries are asked for. -/
def Claim.entryPaths : Claim → List Path
  | .and fs => Claim.allEntryPaths fs
  | .or fs => Claim.allEntryPaths fs
  | .not f => f.entryPaths
  | .any _ f => f.entryPaths
  | .all _ f => f.entryPaths
  | .anyEntry p f => p :: f.entryPaths
  | .allEntries p f => p :: f.entryPaths
  | _ => []

def Claim.allEntryPaths : List Claim → List Path
  | [] => []
  | f :: fs => f.entryPaths ++ Claim.allEntryPaths fs
end

/-- None of these objects is inside of another one. -/
def Claim.Apart (f : Claim) : Prop := ∀ p ∈ f.entryPaths, ∀ q ∈ f.entryPaths, p.steps <+: q.steps → p.steps = q.steps

/-- No object in the document has a number as a name. (In MongoDB `a.0` is both an element of a list and the field `0` of the elements.) -/
def NoNumberNames (d : Json) : Prop := ∀ p kvs i, Leads d p (some (.obj kvs)) → lookup (decimal i) kvs = none

/-- The field of the stored documents in which the data are, `raw` or `data.raw`. -/
structure BaseField (names : List Str) : Prop where
  ne : names ≠ []
  all : ∀ n ∈ names, FieldName n

/-- The stored document has the data `root` in the field. -/
structure StoredIn (names : List Str) (doc root : Json) : Prop where
  field : Leads doc (names.map .field) (some root)
  names : NoNumberNames root

/-- If the claim asks for entries, the stored document does not have the field in which the query puts them. -/
def Claim.Unused (f : Claim) (doc : Json) : Prop := f.entryPaths ≠ [] → Leads doc [.field gs"addedField"] none

/-- The rule has the claim as its conditions, and its sender and its receiver are the texts `s` and `v`. The claim has a query. -/
structure Searchable (env : Env) (t : Predef) (body : Rule) (s v : Str) (f : Claim) : Prop where
  written : body.conditions = some (f.statement.tree env)
  sender : Resolves t body.senderName s
  receiver : Resolves t body.receiverName v
  texts : TextsOk body s v
  sound : Sound env t f.statement
  plain : f.Plain
  findable : f.Findable false
  apart : f.Apart

end Mapl.Spec

import Verif.Spec.Texts
import Verif.Spec.Crash
import Verif.Spec.Copy
import Verif.Spec.Check
import Verif.Spec.Split
import Verif.Props.Validate

/-!
# What a policy says

Statements are conditions as they are written. `Meaning` is what a statement says of a message: connectives and quantifiers have their
usual meaning, and `Says` gives the meaning of single conditions. Nothing here mentions preparation or execution.
-/

namespace Mapl.Spec

/-- The path of an ANY or ALL: paths in the whole document, paths in the element in scope, or the entries of the object in scope. -/
inductive Parent
  | document (paths : List Str)
  | element (paths : List Str)
  | entries

/-- How it is written, after `jsonpath:`. -/
def Parent.text : Parent → Str
  | .document rs => join gs"," (rs.map (gs"$." ++ ·))
  | .element rs => join gs"," (rs.map (gs"$RELATIVE." ++ ·))
  | .entries => gs"$RELATIVE*"

/-- Conditions as they are written. -/
inductive Statement
  | cond (attr method value : Str)
  | and (fs : List Statement)
  | or (fs : List Statement)
  | not (f : Statement)
  | any (path : Parent) (f : Statement)
  | all (path : Parent) (f : Statement)

mutual
/-- The tree that the parser builds. -/
def Statement.tree (env : Ext) : Statement → Node
  | .cond a m v => condNode env a m v none
  | .and fs => .and (Statement.trees env fs)
  | .or fs => .or (Statement.trees env fs)
  | .not f => .not (f.tree env)
  | .any q f => .any (anyFields env (gs"jsonpath:" ++ q.text) []) (f.tree env)
  | .all q f => .all (anyFields env (gs"jsonpath:" ++ q.text) []) (f.tree env)

def Statement.trees (env : Ext) : List Statement → List Node
  | [] => []
  | f :: fs => f.tree env :: Statement.trees env fs
end

/-! ## Single conditions -/

/-- What a condition on the attribute `a` with the method `m` and the (resolved) value `w` says of a message. -/
inductive Says (env : Ext) (msg : Msg) : Str → Str → Str → Prop → Prop
  | yes {a m w} (ha : a ∈ [gs"true", gs"TRUE"]) : Says env msg a m w True
  | no {a m w} (ha : a ∈ [gs"false", gs"FALSE"]) : Says env msg a m w False
  | size {k : NumMethod} {m w x} (hm : m ∈ k.spellings) (hw : IntText w x) :
      Says env msg gs"payloadSize" m w (k.holds msg.requestSize x)
  | hours {k : NumMethod} {m w x} (hm : m ∈ k.spellings) (hw : parseNumber env w = some x) :
      Says env msg gs"utcHoursFromMidnight" m w (k.holdsF msg.hoursFromMidnight x)
  | version {k : NumMethod} {m w x y} (hm : m ∈ k.spellings) (hw : parseNumber env w = some x) (hy : msg.encryptionVersion = some y) :
      Says env msg gs"encryptionVersion" m w (k.holdsF y x)
  | text {a m w f P} (ha : TextAttr a f) (hP : TextMeans m w P) (hn : (∃ x, a = gs"$sender." ++ x) → ¬ ∃ y, w = gs"$receiver." ++ y) :
      Says env msg a m w (P (f msg))
  | sameField {m x y} (hm : m ∈ [gs"EQ", gs"eq"]) : Says env msg (gs"$sender." ++ x) m (gs"$receiver." ++ y)
      (fieldText msg.sourceNamespace msg.sourceCluster x = fieldText msg.destinationNamespace msg.destinationCluster y)
  | otherField {m x y} (hm : m ∈ [gs"NEQ", gs"neq", gs"NE", gs"ne"]) : Says env msg (gs"$sender." ++ x) m (gs"$receiver." ++ y)
      (fieldText msg.sourceNamespace msg.sourceCluster x ≠ fieldText msg.destinationNamespace msg.destinationCluster y)
  | label {a m w f P} (ha : LabelAttr a f) (hP : TextMeans m w P) (hm : m ∉ [gs"EX", gs"ex"])
      (hn : (∃ x, a = gs"senderLabel[" ++ x) → ¬ ∃ y, w = gs"receiverLabel[" ++ y) : Says env msg a m w (∃ x, f msg = some x ∧ P x)
  | labelThere {a m w f} (ha : LabelAttr a f) (hm : m = gs"EX" ∨ m = gs"ex")
      (hn : (∃ x, a = gs"senderLabel[" ++ x) → ¬ ∃ y, w = gs"receiverLabel[" ++ y) : Says env msg a m w (∃ x, f msg = some x)
  | sameLabel {m k k'} (hm : m ∈ [gs"EQ", gs"eq"]) : Says env msg (gs"senderLabel[" ++ k ++ gs"]") m (gs"receiverLabel[" ++ k' ++ gs"]")
      (∃ x, lookup k msg.sourceLabels = some x ∧ lookup k' msg.destinationLabels = some x)
  | otherLabel {m k k'} (hm : m ∈ [gs"NEQ", gs"neq", gs"NE", gs"ne"]) :
      Says env msg (gs"senderLabel[" ++ k ++ gs"]") m (gs"receiverLabel[" ++ k' ++ gs"]")
      (∃ x y, lookup k msg.sourceLabels = some x ∧ lookup k' msg.destinationLabels = some y ∧ x ≠ y)
  | number {k : NumMethod} {m w q s x y} (hm : m ∈ k.spellings) (hw : parseNumber env w = some x) (hs : SelectsText env msg q s)
      (hy : parseNumber env s = some y) : Says env msg (gs"jsonpath:" ++ q) m w (k.holdsF y x)
  | scalar {m w q s P} (hP : ScalarMeans m w P) (hs : SelectsText env msg q s) (hy : (∃ k : NumMethod, m ∈ k.spellings) → parseNumber env s = none) :
      Says env msg (gs"jsonpath:" ++ q) m w (P s)
  | missing {m w q x} (hs : SelectsI env msg q x) (hx : NoValue x) : Says env msg (gs"jsonpath:" ++ q) m w (m = gs"NEX" ∨ m = gs"nex")
  | missingText {m w q x} (hs : SelectsB env msg q x) (hx : NoText x) : Says env msg (gs"jsonpath:" ++ q) m w (m = gs"NEX" ∨ m = gs"nex")

/-! ## Statements -/

/-- What a path gives in the text of a document: a part of it, nothing if there is no such part. -/
inductive PathGives (env : Ext) (raw r : Str) : Str → Prop
  | part {x} (h : env.jsGet raw (gs"$." ++ r) = (x, false)) : PathGives env raw r x
  | fails (h : (env.jsGet raw (gs"$." ++ r)).2 = true) : PathGives env raw r []

/-- The path gives the text `data`, in a message with the text of a document: what the paths give, with commas in between. The last path does not fail. -/
inductive SelectsPart (env : Ext) (msg : Msg) : Parent → Str → Prop
  | document {rs raw parts} (hd : msg.jsonRaw = some raw) (hr : List.Forall₂ (PathGives env raw) rs parts)
      (hl : ∀ r ∈ rs.getLast?, (env.jsGet raw (gs"$." ++ r)).2 = false) : SelectsPart env msg (.document rs) (join gs"," (parts.filter (· ≠ [])))
  | element {rs raw parts} (hd : msg.jsonRawRel = some raw) (hr : List.Forall₂ (PathGives env raw) rs parts)
      (hl : ∀ r ∈ rs.getLast?, (env.jsGet raw (gs"$." ++ r)).2 = false) : SelectsPart env msg (.element rs) (join gs"," (parts.filter (· ≠ [])))
  | entries {raw data} (hd : msg.jsonRawRel = some raw) (hr : env.jsGet raw gs"$*" = (data, false)) : SelectsPart env msg .entries data

/-- The elements of a text without superfluous white space: the objects in lists, not counting objects inside of other elements; the objects in a
list of lists; the entries of an object. Braces in strings are balanced, and values that are not objects have none. -/
inductive PartElements (env : Ext) : Str → List Str → Prop
  | lists {ls : List (List Item)} (hne : ls ≠ []) (h : ∀ l ∈ ls, ∀ i ∈ l, i.Ok Nested ∧ (i.isObject = false → ∀ c ∈ i.text, c ≠ '{' ∧ c ≠ '}'))
      (hl : ∀ rest, join gs"," (ls.map listText) ≠ gs"[[" ++ rest) : PartElements env (join gs"," (ls.map listText)) (ls.flatMap objects)
  | nested {ll : List (List Str)} (hne : ll ≠ []) (h : ∀ l ∈ ll, ∀ x ∈ l, ObjectText Nested x ∧ NoListOfLists x) :
      PartElements env (listsText ll) ll.flatten
  | object {s kvs} (h : env.jsonUnmarshal ('{' :: (s ++ gs"}")) = some (.obj kvs)) :
      PartElements env ('{' :: (s ++ gs"}")) (kvs.map fun kv => env.jsonMarshal (.obj [kv]))

/-- What an ANY or ALL ranges over: the message with each of the elements in scope. -/
inductive Ranges (env : Ext) (msg : Msg) : Parent → List Msg → Prop
  | document {rs d} (hd : msg.rawI = some d) (hr : ∀ r ∈ rs, Ranged (env.jpGet (gs"$." ++ r) d).1) :
      Ranges env msg (.document rs) ((rs.flatMap fun r => elementsOf (env.jpGet (gs"$." ++ r) d).1).map fun x => { msg with rawIRel := some x })
  | element {rs d} (hI : msg.rawI.isSome) (hd : msg.rawIRel = some d) (hr : ∀ r ∈ rs, Ranged (env.jpGet (gs"$." ++ r) d).1) :
      Ranges env msg (.element rs) ((rs.flatMap fun r => elementsOf (env.jpGet (gs"$." ++ r) d).1).map fun x => { msg with rawIRel := some x })
  | entries {kvs} (hI : msg.rawI.isSome) (hd : msg.rawIRel = some (.obj kvs)) :
      Ranges env msg .entries (kvs.map fun kv => { msg with rawIRel := some (.obj [kv]) })
  | text {q data l} (hI : msg.rawI = none) (hs : SelectsPart env msg q data) (hd : 2 ≤ data.length) (hl : PartElements env (env.ugly data) l) :
      Ranges env msg q (l.map fun x => { msg with jsonRawRel := some x })
  | nothing {q} (hI : msg.rawI = none) (hs : SelectsPart env msg q []) : Ranges env msg q []

mutual
/-- What a statement says of a message. -/
def Meaning (env : Ext) (t : Predef) : Statement → Msg → Prop
  | .cond a m v, msg => ∃ w P, ValueResolves env t m v w ∧ Says env msg a m w P ∧ P
  | .and fs, msg => MeaningAll env t fs msg
  | .or fs, msg => MeaningSome env t fs msg
  | .not f, msg => ¬ Meaning env t f msg
  | .any q f, msg => ∃ l, Ranges env msg q l ∧ ∃ m ∈ l, Meaning env t f m
  | .all q f, msg => ∃ l, Ranges env msg q l ∧ ∀ m ∈ l, Meaning env t f m

def MeaningAll (env : Ext) (t : Predef) : List Statement → Msg → Prop
  | [], _ => True
  | f :: fs, msg => Meaning env t f msg ∧ MeaningAll env t fs msg

def MeaningSome (env : Ext) (t : Predef) : List Statement → Msg → Prop
  | [], _ => False
  | f :: fs, msg => Meaning env t f msg ∨ MeaningSome env t fs msg
end

mutual
/-- Every condition says something of the message, in every scope. Of an AND, the conditions behind one that does not hold need not. -/
def Defined (env : Ext) (t : Predef) : Statement → Msg → Prop
  | .cond a m v, msg => ∃ w P, ValueResolves env t m v w ∧ Says env msg a m w P
  | .and fs, msg => DefinedInTurn env t fs msg
  | .or fs, msg => DefinedAll env t fs msg
  | .not f, msg => Defined env t f msg
  | .any q f, msg => ∃ l, Ranges env msg q l ∧ ∀ m ∈ l, Defined env t f m
  | .all q f, msg => ∃ l, Ranges env msg q l ∧ ∀ m ∈ l, Defined env t f m

def DefinedInTurn (env : Ext) (t : Predef) : List Statement → Msg → Prop
  | [], _ => True
  | f :: fs, msg => Defined env t f msg ∧ (Meaning env t f msg → DefinedInTurn env t fs msg)

def DefinedAll (env : Ext) (t : Predef) : List Statement → Msg → Prop
  | [], _ => True
  | f :: fs, msg => Defined env t f msg ∧ DefinedAll env t fs msg
end

/-! ## Statements that the engine accepts -/

/-- A path after `$.` or `$RELATIVE.`, like `spec.containers` or `spec.containers[:]`. -/
def PlainPath (r : Str) : Prop := Verbatim r ∧ '$' ∉ r ∧ ',' ∉ r ∧ ¬ gs"jsonpath:" <:+: r

/-- The paths are there, and the json path library knows them. -/
def Parent.Ok (env : Ext) : Parent → Prop
  | .document rs => rs ≠ [] ∧ ∀ r ∈ rs, PlainPath r ∧ env.jpOk (gs"$." ++ r) = true
  | .element rs => rs ≠ [] ∧ ∀ r ∈ rs, PlainPath r ∧ env.jpOk (gs"$." ++ r) = true
  | .entries => env.jpOk gs"$.*" = true

mutual
/-- All conditions are in the grammar, as written and with their references replaced, and can be compiled; connectives are not empty. -/
def Sound (env : Ext) (t : Predef) : Statement → Prop
  | .cond a m v => Acceptable env a m v ∧ NoControl a ∧ NoControl v ∧
      ∃ w, ValueResolves env t m v w ∧ Acceptable env a m w ∧ Props.Preparable env a m w
  | .and fs => fs ≠ [] ∧ SoundAll env t fs
  | .or fs => fs ≠ [] ∧ SoundAll env t fs
  | .not f => Sound env t f
  | .any q f => q.Ok env ∧ Sound env t f
  | .all q f => q.Ok env ∧ Sound env t f

def SoundAll (env : Ext) (t : Predef) : List Statement → Prop
  | [] => True
  | f :: fs => Sound env t f ∧ SoundAll env t fs
end

/-! ## Rules -/

/-- What is assumed of the external functions. -/
structure Assumed (env : Env) : Prop where
  regexp : RegexpOk env
  order : env.OrdOk
  numbers : NumbersOk env
  empty : env.jsonMarshal (.arr []) = gs"[]"

/-- A rule object in a policy: what was written, and the tables that are used for it. -/
inductive Loaded (env : Env) (global : Predef) : RuleObj → Rule → Predef → Prop
  /-- As it comes from the parser; the global tables are used. -/
  | parsed {r} (h : Fresh r) : Loaded env global r r.body global
  /-- Prepared with its own tables. -/
  | prepared {r r' p t} (h : Fresh r) (hs : r.setPredefined env p t = .ok (r', none)) : Loaded env global r' r.body t

/-- With the tables `t`, the rule that was written has the decision `d`, and applies to the message exactly if `A` holds. -/
inductive WrittenSays (env : Env) (t : Predef) (msg : Msg) (body : Rule) : Prop → Decision → Prop
  | mk {c : Option Statement} {s v : Str} (hc : body.conditions = c.map (Statement.tree env)) (hs : Resolves t body.senderName s)
      (hv : Resolves t body.receiverName v) (ht : TextsOk body s v) (hok : ∀ f ∈ c, Sound env t f) (hd : ∀ f ∈ c, Defined env t f msg) :
      WrittenSays env t msg body (WrittenParts body s v msg ∧ ∀ f ∈ c, Meaning env t f msg) (decisionOf body.decision)

/-- The rule object has the decision `d`, and applies to the message exactly if `A` holds. -/
def RuleSays (env : Env) (global : Predef) (msg : Msg) (r : RuleObj) (A : Prop) (d : Decision) : Prop :=
  ∃ body t, Loaded env global r body t ∧ WrittenSays env t msg body A d

/-- The answer of a check for rules with the given conditions and decisions: the decision is the most severe one of the rules that apply,
`default` if none does; a rule that applies has its decision as result and any other rule `default`. -/
def Decides (xs : List (Prop × Decision)) (out : CheckOut) : Prop :=
  ∃ d : Decision, out.decision = d.rank ∧ out.decisionString = d.text ∧
    (d = .default ∨ ∃ x ∈ xs, x.1 ∧ x.2 = d) ∧ (∀ x ∈ xs, x.1 → x.2.rank ≤ d.rank) ∧
    out.results.length = xs.length ∧
    ∀ (k : Nat) x, xs[k]? = some x → (x.1 → out.results[k]? = some x.2.rank) ∧ (¬ x.1 → out.results[k]? = some Decision.default.rank)

end Mapl.Spec

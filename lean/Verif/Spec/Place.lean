import Verif.Spec.Policy

/-!
# What a policy says of a document

A claim is a statement whose conditions are about fields of a document. Its meaning is given on the document itself: paths lead to values, values are compared. There is no
library in it, and no difference between a document that is parsed and a document that is a text. `PathsOk` is what is assumed of the libraries that look up paths.
-/

namespace Mapl.Spec

/-! ## Paths -/

/-- One step of a path: a field of an object, or an element of a list, counted from 0. -/
inductive Step
  | field (name : Str)
  | item (i : Nat)

/-- How it is written. -/
def Step.text : Step → Str
  | .field n => '.' :: n
  | .item i => '[' :: (decimal i ++ gs"]")

/-- How steps are written. -/
def stepsText (p : List Step) : Str := p.flatMap Step.text

/-- Names of letters, digits and underscores that do not begin with a digit. -/
def FieldName (n : Str) : Prop := n ≠ [] ∧ (∀ c ∈ n, c.isAlphanum = true ∨ c = '_') ∧ ∀ c ∈ n.head?, c.isDigit = false

/-- All names on the path are of this kind. -/
def PlainSteps (p : List Step) : Prop := ∀ n, Step.field n ∈ p → FieldName n

/-- Where a path leads in a document: to a value, or to none if the last object or list on the way does not have the field or the element. -/
inductive Leads : Json → List Step → Option Json → Prop
  | here (v) : Leads v [] (some v)
  | field {n kvs v p o} (h : lookup n kvs = some v) (hp : Leads v p o) : Leads (.obj kvs) (.field n :: p) o
  | noField {n kvs p} (h : lookup n kvs = none) : Leads (.obj kvs) (.field n :: p) none
  | item {i l v p o} (h : l[i]? = some v) (hp : Leads v p o) : Leads (.arr l) (.item i :: p) o
  | noItem {i l p} (h : l[i]? = none) : Leads (.arr l) (.item i :: p) none

/-- What a path starts from: the whole document, or the element of the ANY or ALL around it. -/
inductive Start
  | document
  | element

/-- A path: where it starts, a field, and further steps. -/
structure Path where
  start : Start
  name : Str
  rest : List Step := []

/-- The steps of a path. -/
def Path.steps (p : Path) : List Step := .field p.name :: p.rest

/-- How a path is written, after `$.` or `$RELATIVE.`. -/
def Path.tail (p : Path) : Str := p.name ++ stepsText p.rest

/-- How a path is written. -/
def Path.text (p : Path) : Str := match p.start with
  | .document => gs"$." ++ p.tail
  | .element => gs"$RELATIVE." ++ p.tail

/-- How the elements of a list may be marked at the end of a path. -/
inductive Mark
  | none
  | slice
  | star
  deriving DecidableEq

def Mark.text : Mark → Str
  | .none => []
  | .slice => gs"[:]"
  | .star => gs"[*]"

/-- The path to a list: `$.spec.containers`, `$.spec.containers[:]` or `$.spec.containers[*]`. -/
structure ListPath extends Path where
  mark : Mark := .none

/-- What a path leads to in a document, with an element in scope. -/
inductive Path.Leads (root : Json) (cur : Option Json) (p : Path) (o : Option Json) : Prop
  | document (hs : p.start = .document) (h : Spec.Leads root p.steps o)
  | element {e} (hs : p.start = .element) (hc : cur = some e) (h : Spec.Leads e p.steps o)

/-- The paths of an ANY or ALL, of which there may be several, with commas between them. All start from the same place. -/
def parentOf (ps : List ListPath) : Parent := match ps.head?.map (fun p => p.start) with
  | some Start.element => .element (ps.map fun p => p.tail ++ p.mark.text)
  | _ => .document (ps.map fun p => p.tail ++ p.mark.text)

/-- The elements under a path: those of the list to which it leads, none if there is no such list. -/
inductive Gathers (root : Json) (cur : Option Json) (p : ListPath) : List Json → Prop
  | there {l} (h : p.Leads root cur (some (.arr l))) : Gathers root cur p l
  | missing (h : p.Leads root cur none) : Gathers root cur p []

/-! ## Claims -/

/-- Conditions on attributes of the message, conditions on a field of the document, and what is made of them. ANY and ALL are about the elements of lists or about the entries of an object;
the name and the value of an entry can be tested. -/
inductive Claim
  | attr (attr method value : Str)
  | test (path : Path) (method value : Str)
  | key (method value : Str)
  | value (method value : Str)
  | and (fs : List Claim)
  | or (fs : List Claim)
  | not (f : Claim)
  | any (paths : List ListPath) (f : Claim)
  | all (paths : List ListPath) (f : Claim)
  | anyEntry (path : Path) (f : Claim)
  | allEntries (path : Path) (f : Claim)

mutual
/-- How a claim is written. -/
def Claim.statement : Claim → Statement
  | .attr a m v => .cond a m v
  | .test p m v => .cond (gs"jsonpath:" ++ p.text) m v
  | .key m v => .cond gs"jsonpath:$KEY" m v
  | .value m v => .cond gs"jsonpath:$VALUE" m v
  | .and fs => .and (Claim.statements fs)
  | .or fs => .or (Claim.statements fs)
  | .not f => .not f.statement
  | .any ps f => .any (parentOf ps) f.statement
  | .all ps f => .all (parentOf ps) f.statement
  | .anyEntry p f => .any (parentOf [{ p with }]) f.statement
  | .allEntries p f => .all (parentOf [{ p with }]) f.statement

def Claim.statements : List Claim → List Statement
  | [] => []
  | f :: fs => f.statement :: Claim.statements fs
end

mutual
/-- The names on the paths of a claim are letters, digits and underscores; the paths of an ANY or ALL start from the same place. -/
def Claim.Plain : Claim → Prop
  | .attr a _ _ => ¬ ∃ q, a = gs"jsonpath:" ++ q
  | .test p _ _ => PlainSteps p.steps
  | .key _ _ => True
  | .value _ _ => True
  | .and fs => Claim.AllPlain fs
  | .or fs => Claim.AllPlain fs
  | .not f => f.Plain
  | .any ps f => (∃ st, ∀ p ∈ ps, p.start = st ∧ PlainSteps p.steps) ∧ f.Plain
  | .all ps f => (∃ st, ∀ p ∈ ps, p.start = st ∧ PlainSteps p.steps) ∧ f.Plain
  | .anyEntry p f => PlainSteps p.steps ∧ f.Plain
  | .allEntries p f => PlainSteps p.steps ∧ f.Plain

def Claim.AllPlain : List Claim → Prop
  | [] => True
  | f :: fs => f.Plain ∧ Claim.AllPlain fs
end

/-- A whole number in the usual notation. -/
def wholeText (n : Int) : Str := if n < 0 then '-' :: decimal n.natAbs else decimal n.natAbs

/-- A value that is read as a number: numbers, and texts like `12`, `1.5` or `100Mi`. -/
inductive NumberIn (env : Ext) : Json → F64 → Prop
  | num {q} (h : env.rnd q = .fin q) : NumberIn env (.num (.fin q)) (.fin q)
  | str {s y} (hc : Clean s) (hn : s ≠ gs"<nil>") (h : parseNumber env s = some y) : NumberIn env (.str s) y

/-- A value that is compared as a text: texts, `true`, `false` and whole numbers below a million. -/
inductive TextIn : Json → Str → Prop
  | str {s} (hc : Clean s) (hn : s ≠ gs"<nil>") : TextIn (.str s) s
  | true : TextIn (.bool true) gs"true"
  | false : TextIn (.bool false) gs"false"
  | whole {n : Int} (h : n.natAbs < 1000000) : TextIn (.num (.fin n)) (wholeText n)

/-- What a method with a value says about what is found in a document. Fields that are not there, empty texts and empty lists count as missing. -/
inductive TestSays (env : Ext) : Option Json → Str → Str → Prop → Prop
  | missing {m w} : TestSays env none m w (m = gs"NEX" ∨ m = gs"nex")
  | emptyText {m w} : TestSays env (some (.str [])) m w (m = gs"NEX" ∨ m = gs"nex")
  | emptyList {m w} : TestSays env (some (.arr [])) m w (m = gs"NEX" ∨ m = gs"nex")
  | number {k : NumMethod} {m w v x y} (hm : m ∈ k.spellings) (hw : parseNumber env w = some x) (hv : NumberIn env v y) :
      TestSays env (some v) m w (k.holdsF y x)
  | text {m w v s P} (hP : ScalarMeans m w P) (hv : TextIn v s) (hy : (∃ k : NumMethod, m ∈ k.spellings) → parseNumber env s = none) :
      TestSays env (some v) m w (P s)
  | there {m w q} (hm : m ∈ [gs"EX", gs"ex", gs"NEX", gs"nex"]) (h : env.rnd q = .fin q) : TestSays env (some (.num (.fin q))) m w (m = gs"EX" ∨ m = gs"ex")

mutual
/-- The claim holds of the message and its document, with an element in scope. -/
def Claim.Holds (env : Ext) (t : Predef) (msg : Msg) (root : Json) : Claim → Option Json → Prop
  | .attr a m v, _ => ∃ w P, ValueResolves env t m v w ∧ Says env msg a m w P ∧ P
  | .test p m v, cur => ∃ o w P, p.Leads root cur o ∧ ValueResolves env t m v w ∧ TestSays env o m w P ∧ P
  | .key m v, cur => ∃ k j w P, cur = some (.obj [(k, j)]) ∧ ValueResolves env t m v w ∧ TestSays env (some (.str k)) m w P ∧ P
  | .value m v, cur => ∃ k j w P, cur = some (.obj [(k, j)]) ∧ ValueResolves env t m v w ∧ TestSays env (some j) m w P ∧ P
  | .and fs, cur => Claim.AllHold env t msg root fs cur
  | .or fs, cur => Claim.SomeHolds env t msg root fs cur
  | .not f, cur => ¬ f.Holds env t msg root cur
  | .any ps f, cur => ∃ p ∈ ps, ∃ l, p.Leads root cur (some (.arr l)) ∧ ∃ e ∈ l, f.Holds env t msg root (some e)
  | .all ps f, cur => ∀ p ∈ ps, ∀ l, p.Leads root cur (some (.arr l)) → ∀ e ∈ l, f.Holds env t msg root (some e)
  | .anyEntry p f, cur => ∃ kvs, p.Leads root cur (some (.obj kvs)) ∧ ∃ kv ∈ kvs, f.Holds env t msg root (some (.obj [kv]))
  | .allEntries p f, cur => ∀ kvs, p.Leads root cur (some (.obj kvs)) → ∀ kv ∈ kvs, f.Holds env t msg root (some (.obj [kv]))

def Claim.AllHold (env : Ext) (t : Predef) (msg : Msg) (root : Json) : List Claim → Option Json → Prop
  | [], _ => True
  | f :: fs, cur => f.Holds env t msg root cur ∧ Claim.AllHold env t msg root fs cur

def Claim.SomeHolds (env : Ext) (t : Predef) (msg : Msg) (root : Json) : List Claim → Option Json → Prop
  | [], _ => False
  | f :: fs, cur => f.Holds env t msg root cur ∨ Claim.SomeHolds env t msg root fs cur
end

/-! ## Documents as texts -/

/-- What can stand between quotes in a plainly written text: no quotes, no escapes, no braces. -/
def PlainString (s : Str) : Prop := ∀ c ∈ s, c ∉ gs"\"\\{}" ∧ 0x20 ≤ c.toNat

mutual
/-- The text is a JSON document with this value, plainly written: no escapes and no braces in strings, the names in an object are different, small whole numbers are written as such
and other numbers have a sign in the exponent if there is one. There may be white space. -/
inductive Plainly (env : Ext) : Str → Json → Prop
  | null : Plainly env gs"null" .null
  | true : Plainly env gs"true" (.bool true)
  | false : Plainly env gs"false" (.bool false)
  | whole {n : Int} (h : n.natAbs < 1000000) : Plainly env (wholeText n) (.num (.fin n))
  | num {s q} (h : NumberText s) (he : ∀ a c b, s = a ++ 'e' :: c :: b → c.isDigit = Bool.false) (hx : env.parseFloat s = some (.fin q))
      (hn : ¬ ∃ n : Int, n.natAbs < 1000000 ∧ q = n) : Plainly env s (.num (.fin q))
  | str {s} (h : PlainString s) : Plainly env ('"' :: (s ++ gs"\"")) (.str s)
  | noElements : Plainly env gs"[]" (.arr [])
  | arr {s l} (h : PlainElements env s l) : Plainly env ('[' :: (s ++ gs"]")) (.arr l)
  | noMembers : Plainly env gs"{}" (.obj [])
  | obj {s l} (h : PlainMembers env s l) (hd : (l.map (·.1)).Nodup) : Plainly env ('{' :: (s ++ gs"}")) (.obj l)

/-- One or more values with commas between them. -/
inductive PlainElements (env : Ext) : Str → List Json → Prop
  | one {w s w' v} (h1 : Blank w) (hv : Plainly env s v) (h2 : Blank w') : PlainElements env (w ++ (s ++ w')) [v]
  | more {w s w' v t l} (h1 : Blank w) (hv : Plainly env s v) (h2 : Blank w') (h : PlainElements env t l) :
      PlainElements env (w ++ (s ++ (w' ++ ',' :: t))) (v :: l)

/-- One or more members with commas between them. -/
inductive PlainMembers (env : Ext) : Str → List (Str × Json) → Prop
  | oneMember {w0 k w1 w2 s v w3} (h0 : Blank w0) (hk : PlainString k) (h1 : Blank w1) (h2 : Blank w2) (hv : Plainly env s v) (h3 : Blank w3) :
      PlainMembers env (w0 ++ '"' :: (k ++ '"' :: (w1 ++ ':' :: (w2 ++ (s ++ w3))))) [(k, v)]
  | moreMembers {w0 k w1 w2 s v w3 t l} (h0 : Blank w0) (hk : PlainString k) (h1 : Blank w1) (h2 : Blank w2) (hv : Plainly env s v) (h3 : Blank w3)
      (h : PlainMembers env t l) : PlainMembers env (w0 ++ '"' :: (k ++ '"' :: (w1 ++ ':' :: (w2 ++ (s ++ (w3 ++ ',' :: t)))))) ((k, v) :: l)
end

/-- A text that is printed as it is: without the characters that `json.Marshal` replaces by escapes. -/
def Unescaped (s : Str) : Prop := ∀ c ∈ s, c ∉ gs"<>&" ∧ c.toNat ≠ 0x2028 ∧ c.toNat ≠ 0x2029

/-- Values that are printed as they are written: no objects, and texts without such characters. -/
inductive ShownValue : Json → Prop
  | null : ShownValue .null
  | bool (b) : ShownValue (.bool b)
  | num (x) : ShownValue (.num x)
  | str {s} (h : Unescaped s) : ShownValue (.str s)
  | arr {l} (h : ∀ v ∈ l, ShownValue v) : ShownValue (.arr l)

/-- Entries of this kind. -/
def ShownEntry (kv : Str × Json) : Prop := Unescaped kv.1 ∧ ShownValue kv.2

/-! ## Libraries -/

/-- There are no elements under the path: it leads to nothing, or it has a mark and leads to an empty list. -/
inductive NoItems (d : Json) (p : List Step) (k : Mark) : Prop
  | missing (h : Leads d p none)
  | empty (h : Leads d p (some (.arr []))) (hk : k ≠ .none)

/-- What is assumed of the libraries: paths of names and numbers are looked up as one would expect, in parsed documents and in texts that are plainly written; removing white space
does not change what a text says, and is done part by part; `[:]` and `[*]` at the end of a path to a list that is not empty give all elements; numbers are printed such that they can be read again. Plainly written texts are read as the
documents that they are, and values without objects and entries with such values are printed plainly. -/
structure PathsOk (env : Ext) : Prop where
  found : ∀ p d v, PlainSteps p → Leads d p (some v) → env.jpGet ('$' :: stepsText p) d = (v, none)
  absent : ∀ p d, PlainSteps p → Leads d p none → ∃ e, env.jpGet ('$' :: stepsText p) d = (.null, some e)
  foundText : ∀ p s d v, PlainSteps p → Plainly env s d → Leads d p (some v) → ∃ u, env.jsGet s ('$' :: stepsText p) = (u, false) ∧ Plainly env u v
  absentText : ∀ p s d, PlainSteps p → Plainly env s d → Leads d p none →
    env.jsGet s ('$' :: stepsText p) = ([], false) ∨ (env.jsGet s ('$' :: stepsText p)).2 = true
  listed : ∀ p (k : Mark) d l, PlainSteps p → l ≠ [] → Leads d p (some (.arr l)) → env.jpGet ('$' :: (stepsText p ++ k.text)) d = (.arr l, none)
  listedText : ∀ p (k : Mark) s d l, PlainSteps p → l ≠ [] → Plainly env s d → Leads d p (some (.arr l)) →
    ∃ u, env.jsGet s ('$' :: (stepsText p ++ k.text)) = (u, false) ∧ Plainly env u (.arr l)
  unlisted : ∀ p k d, PlainSteps p → NoItems d p k → (∃ e, env.jpGet ('$' :: (stepsText p ++ k.text)) d = (.null, e)) ∨ ∃ e, env.jpGet ('$' :: (stepsText p ++ k.text)) d = (.arr [], e)
  unlistedText : ∀ p k s d, PlainSteps p → Plainly env s d → NoItems d p k →
    (∃ u ∈ [[], gs"[]"], env.jsGet s ('$' :: (stepsText p ++ k.text)) = (u, false)) ∨ (env.jsGet s ('$' :: (stepsText p ++ k.text))).2 = true
  ugly : ∀ s d, Plainly env s d → Plainly env (env.ugly s) d
  uglyParts : ∀ ss ds, List.Forall₂ (Plainly env) ss ds → env.ugly (join gs"," ss) = join gs"," (ss.map env.ugly)
  read : ∀ s d, Plainly env s d → env.jsonUnmarshal s = some d
  written : ∀ s d, Plainly env s d → ShownValue d → Plainly env (env.jsonMarshal d) d
  writtenEntry : ∀ s kv, Plainly env s (.obj [kv]) → ShownEntry kv → Plainly env (env.jsonMarshal (.obj [kv])) (.obj [kv])
  one : env.rnd 1 = .fin 1
  exact : ∀ s q, env.parseFloat s = some (.fin q) → env.rnd q = .fin q
  print : ∀ q, env.rnd q = .fin q → NumberText (env.fmtFloat (.fin q)) ∧ (∀ a c b, env.fmtFloat (.fin q) = a ++ 'e' :: c :: b → c.isDigit = false) ∧
    env.parseFloat (env.fmtFloat (.fin q)) = some (.fin q)
  whole : ∀ n : Int, n.natAbs < 1000000 → env.rnd n = .fin n ∧ env.fmtFloat (.fin n) = wholeText n

/-! ## Claims that say something -/

/-- The libraries do not report an error if there are no elements under a path in a text. -/
def QuietAbsent (env : Ext) : Prop := ∀ p k s d, PlainSteps p → Plainly env s d → NoItems d p k → (env.jsGet s ('$' :: (stepsText p ++ k.text))).2 = false

mutual
/-- Every condition says something of the document, and ANY and ALL are about lists of objects, or about the entries of an object; the paths may lead to nothing, and marked lists may be empty,
but for the last path only if this is no error.
Of an AND, the conditions behind one that does not hold need not. -/
def Claim.Clear (env : Ext) (t : Predef) (msg : Msg) (root : Json) : Claim → Option Json → Prop
  | .attr a m v, _ => ∃ w P, ValueResolves env t m v w ∧ Says env msg a m w P
  | .test p m v, cur => ∃ o w P, p.Leads root cur o ∧ ValueResolves env t m v w ∧ TestSays env o m w P
  | .key m v, cur => ∃ k j w P, cur = some (.obj [(k, j)]) ∧ ValueResolves env t m v w ∧ TestSays env (some (.str k)) m w P
  | .value m v, cur => ∃ k j w P, cur = some (.obj [(k, j)]) ∧ ShownValue j ∧ ValueResolves env t m v w ∧ TestSays env (some j) m w P
  | .and fs, cur => Claim.ClearInTurn env t msg root fs cur
  | .or fs, cur => Claim.AllClear env t msg root fs cur
  | .not f, cur => f.Clear env t msg root cur
  | .any ps f, cur => (∀ p ∈ ps, ∃ l, Gathers root cur p l ∧ ∀ e ∈ l, (∃ kvs, e = .obj kvs) ∧ f.Clear env t msg root (some e)) ∧
      ((∃ p ∈ ps.getLast?, ∃ l, p.Leads root cur (some (.arr l)) ∧ (p.mark ≠ .none → l ≠ [])) ∨ QuietAbsent env)
  | .all ps f, cur => (∀ p ∈ ps, ∃ l, Gathers root cur p l ∧ ∀ e ∈ l, (∃ kvs, e = .obj kvs) ∧ f.Clear env t msg root (some e)) ∧
      ((∃ p ∈ ps.getLast?, ∃ l, p.Leads root cur (some (.arr l)) ∧ (p.mark ≠ .none → l ≠ [])) ∨ QuietAbsent env)  | .anyEntry p f, cur => (∃ kvs, p.Leads root cur (some (.obj kvs)) ∧ ∀ kv ∈ kvs, ShownEntry kv ∧ f.Clear env t msg root (some (.obj [kv]))) ∨ (p.Leads root cur none ∧ QuietAbsent env)
  | .allEntries p f, cur => (∃ kvs, p.Leads root cur (some (.obj kvs)) ∧ ∀ kv ∈ kvs, ShownEntry kv ∧ f.Clear env t msg root (some (.obj [kv]))) ∨ (p.Leads root cur none ∧ QuietAbsent env)

def Claim.ClearInTurn (env : Ext) (t : Predef) (msg : Msg) (root : Json) : List Claim → Option Json → Prop
  | [], _ => True
  | f :: fs, cur => f.Clear env t msg root cur ∧ (f.Holds env t msg root cur → Claim.ClearInTurn env t msg root fs cur)

def Claim.AllClear (env : Ext) (t : Predef) (msg : Msg) (root : Json) : List Claim → Option Json → Prop
  | [], _ => True
  | f :: fs, cur => f.Clear env t msg root cur ∧ Claim.AllClear env t msg root fs cur
end

/-! ## Messages and rules -/

/-- The message has the document, parsed or as a plainly written text, with an element in scope. Apart from documents it is the message `base`. -/
inductive Carries (env : Ext) (base : Msg) (root : Json) : Msg → Option Json → Prop
  | parsed {cur r} (hr : ∀ e, cur = some e → r = some e) : Carries env base root { base with rawI := some root, rawIRel := r } cur
  | text {cur s r} (hs : Plainly env s root) (hr : ∀ e, cur = some e → ∃ u, r = some u ∧ Plainly env u e) :
      Carries env base root { base with rawI := none, jsonRaw := some s, jsonRawRel := r } cur

/-- With the tables `t`, the rule that was written has the decision `d`, and applies to messages like `base` with the document `root` exactly if `A` holds. -/
inductive WrittenClaims (env : Env) (t : Predef) (base : Msg) (root : Json) (body : Rule) : Prop → Decision → Prop
  | mk {c : Option Claim} {s v : Str} (hc : body.conditions = c.map fun f => f.statement.tree env) (hs : Resolves t body.senderName s)
      (hv : Resolves t body.receiverName v) (ht : TextsOk body s v) (hok : ∀ f ∈ c, Sound env t f.statement) (hp : ∀ f ∈ c, f.Plain)
      (hd : ∀ f ∈ c, f.Clear env t base root none) :
      WrittenClaims env t base root body (WrittenParts body s v base ∧ ∀ f ∈ c, f.Holds env t base root none) (decisionOf body.decision)

/-- The rule object has the decision `d`, and applies to messages like `base` with the document `root` exactly if `A` holds. -/
def RuleClaims (env : Env) (global : Predef) (base : Msg) (root : Json) (r : RuleObj) (A : Prop) (d : Decision) : Prop :=
  ∃ body t, Loaded env global r body t ∧ WrittenClaims env t base root body A d

end Mapl.Spec

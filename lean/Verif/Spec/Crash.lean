import Verif.Spec.Documents
import Verif.Model.Check

/-!
# When evaluation cannot crash

The code dereferences pointers and asserts types that only some values of rules and messages have. This file states, for
conditions, trees and rules, which combinations of a rule and a message are safe.
-/

namespace Mapl.Spec

/-- The method compares numbers. -/
def Compares (m : Str) : Prop := ∃ k : NumMethod, m ∈ k.spellings

/-- The path asks for the key or the value of the entry in scope, or for something inside the value. -/
def AsksEntry (q : Str) : Prop := pathQuery q = gs"$KEY" ∨ ∃ z, pathQuery q = gs"$VALUE" ++ z

/-- What a query found in a text (result and whether there was an error) is not the text of a number, with or without
quotes. -/
def NotNumber (env : Ext) (r : Str × Bool) : Prop :=
  r.2 = true ∨ ∀ s, removeQuotesFromResult (removeQuotesAndBrackets r.1) = some s → parseNumber env s = none

/-- A json path condition with method `m` and value `w` is safe on a message. Parsed documents: key and value are asked of
objects only. Texts: numbers are compared with numbers only. -/
structure PathSafe (env : Ext) (q m w : Str) (msg : Msg) : Prop where
  entry : msg.rawI.isSome → AsksEntry q → ∀ d, msg.rawIRel = some d → ∃ kvs, d = .obj kvs
  text : msg.rawI = none → Compares m → (∃ x, parseNumber env w = some x) ∨
    ¬ EntryPath q ∧ ∀ d, DocumentB msg q d → NotNumber env (env.jsGet d (pathQuery q))

/-- The document that a returned value is taken from is there. -/
def ReportSafe (parsed : Bool) (msg : Msg) (r : RetVal) : Prop :=
  if parsed then (if r.rel then msg.rawIRel.isSome else msg.rawI.isSome)
  else (if r.rel then msg.jsonRawRel.isSome else msg.jsonRaw.isSome)

/-- A prepared condition is safe on a message. The attribute, method and value are the written ones (the value after
references are replaced). -/
structure CondSafe (env : Ext) (c : Condition) (msg : Msg) : Prop where
  size : c.origAttr = gs"payloadSize" → Compares c.origMethod → ∃ n, IntText c.origValue n
  hours : c.origAttr = gs"utcHoursFromMidnight" → Compares c.origMethod → ∃ x, parseNumber env c.origValue = some x
  version : c.origAttr = gs"encryptionVersion" → msg.encryptionVersion.isSome ∧ ∃ x, parseNumber env c.origValue = some x
  path : ∀ q, c.origAttr = gs"jsonpath:" ++ q → PathSafe env q c.origMethod c.origValue msg
  report : ∀ ret, c.ret = some ret → ∀ r ∈ ret, ReportSafe msg.rawI.isSome msg r

/-- ANY and ALL can range over it. -/
inductive Ranged : Json → Prop
  | null : Ranged .null
  | array (l : List Json) : Ranged (.arr l)
  | object (kvs : List (Str × Json)) : Ranged (.obj kvs)

/-- The parsed document is used by an ANY or ALL node. -/
def usesParsed (a : AnyAll) (msg : Msg) : Bool := msg.rawI.isSome && decide (a.queries ≠ [])

/-- The parent path of an ANY or ALL node is safe on a message. Parsed documents: there is a document and the path selects
things that ANY and ALL can range over. Texts: there is a text for every part of the path, and minifying what was
found (`collectJsons`) leaves two characters or more. -/
def SelectSafe (env : Ext) (a : AnyAll) (msg : Msg) : Prop :=
  if usesParsed a msg then
    if a.parent = gs"$RELATIVE*" then ∃ kvs, msg.rawIRel = some (.obj kvs)
    else ∃ d, parentDoc a msg = some d ∧ ∀ q ∈ a.queries, Ranged (env.jpGet q.src d).1
  else
    (∀ q ∈ a.parentArr, (if isRelativeParent q then msg.jsonRawRel else msg.jsonRaw).isSome) ∧
    ∀ data, collectJsons env msg [] true a.parentArr = .ok (some data) → 2 ≤ data.length → 2 ≤ (env.ugly data).length

mutual
/-- A prepared tree is safe on a message: every path and every condition is, in every scope in which it can be judged. -/
def Safe (env : Env) : Node → Msg → Prop
  | .nil, _ => False
  | .and ns, m => SafeAll env ns m
  | .or ns, m => SafeAll env ns m
  | .not n, m => Safe env n m
  | .any a n, m => SelectSafe env a m ∧ ∀ p l, scopes env p a m = .ok (some l) → ∀ m' ∈ l,
      Safe env n m' ∧ ∀ r ∈ a.ret, ReportSafe (usesParsed a m) m' r
  | .all a n, m => SelectSafe env a m ∧ ∀ p l, scopes env p a m = .ok (some l) → ∀ m' ∈ l, Safe env n m'
  | .tt, _ => True
  | .ff, _ => True
  | .cond c, m => CondSafe env c m

def SafeAll (env : Env) : List Node → Msg → Prop
  | [], _ => True
  | n :: ns, m => Safe env n m ∧ SafeAll env ns m
end

/-- The condition was prepared from its written form. -/
def FromText (env : Ext) (c : Condition) : Prop := ∃ t a m v r, (parsed env a m v r).prepare env t = .ok c

/-- The rule was prepared with `SetPredefinedStringsAndLists` from the form in which it is parsed, and `rule` is its
prepared form. -/
structure ReadyAs (env : Env) (r : RuleObj) (rule : Rule) : Prop where
  prepared : r.prepared = some rule
  made : ∃ (r0 : RuleObj) (p : List Nat) (t : Predef), r0.body.converted = false ∧ r0.setPredefined env p t = .ok (r, none)

/-- A rule in a list given to `Check` is safe on a message: prepared before, or, if not, preparing it with the global
tables succeeds; and its prepared conditions are safe on the message. -/
inductive RuleSafe (env : Env) (global : Predef) (m : Msg) (r : RuleObj) : Prop
  | prepared {rule : Rule} (h : ReadyAs env r rule) (hs : ∀ n, rule.conditions = some n → Safe env n m)
  | unprepared (hr : r.ready = false) (hc : r.body.converted = false)
      (h : ∀ p, ∃ r' rule, r.setPredefined env p global = .ok (r', none) ∧ r'.prepared = some rule ∧
        ∀ n, rule.conditions = some n → Safe env n m)

end Mapl.Spec

import Verif.Spec.Crash
import Verif.Spec.Match

/-!
# When evaluation crashes

The counterpart of Spec/Crash: exactly which combinations of prepared conditions and a message make the evaluation fail.
-/

namespace Mapl.Spec

/-- The key or the value of the object in scope, given as a text, and whether it cannot be read. An object that has not exactly one entry gives nothing. -/
inductive EntryText (env : Ext) (raw : Str) (key : Prop) : Str × Bool → Prop
  | key {k v} (hj : env.jsonUnmarshal raw = some (.obj [(k, v)])) (hk : key) : EntryText env raw key (k, false)
  | value {k v} (hj : env.jsonUnmarshal raw = some (.obj [(k, v)])) (hk : ¬ key) : EntryText env raw key (env.jsonMarshal v, false)
  | several {kvs} (hj : env.jsonUnmarshal raw = some (.obj kvs)) (hl : kvs.length ≠ 1) : EntryText env raw key ([], false)
  | null (hj : env.jsonUnmarshal raw = some .null) : EntryText env raw key ([], false)
  | other (hj : ∀ kvs, env.jsonUnmarshal raw ≠ some (.obj kvs)) (hn : env.jsonUnmarshal raw ≠ some .null) : EntryText env raw key ([], true)

/-- What a path finds in a document given as text, and whether there was an error. -/
inductive Found (env : Ext) (msg : Msg) (q : Str) : Str × Bool → Prop
  | path {d} (hq : ¬ (pathRel q = true ∧ AsksEntry q)) (hd : DocumentB msg q d) : Found env msg q (env.jsGet d (pathQuery q))
  | entry {d r} (hr : pathRel q = true) (hq : AsksEntry q) (hv : ¬ ∃ y, pathQuery q = gs"$VALUE." ++ y) (hd : DocumentB msg q d)
      (he : EntryText env d (pathQuery q = gs"$KEY") r) : Found env msg q r
  | field {d r y} (hr : pathRel q = true) (hq : pathQuery q = gs"$VALUE." ++ y) (hd : DocumentB msg q d) (he : EntryText env d False r) :
      Found env msg q (env.jsGet r.1 (gs"$." ++ y))

/-- What was found in a text is the text of a number, with or without quotes and brackets. -/
def FoundNumber (env : Ext) (r : Str × Bool) : Prop :=
  r.2 = false ∧ removeQuotesAndBrackets r.1 ≠ [] ∧ ∃ s, removeQuotesFromResult (removeQuotesAndBrackets r.1) = some s ∧ ∃ x, parseNumber env s = some x

/-- The document from which a value is to be returned is not there. From parsed documents nothing is taken if the path was not prepared. -/
def ReportFails (parsed : Bool) (msg : Msg) (r : RetVal) : Prop :=
  if parsed then (if r.rel then msg.rawIRel else msg.rawI) = none ∧ (r.query = gs"$*" ∨ r.prepared.isSome)
  else (if r.rel then msg.jsonRawRel else msg.jsonRaw) = none

/-- The evaluation of a prepared condition crashes. -/
inductive Crashes (env : Env) (p : List Nat) (c : Condition) (msg : Msg) : Prop
  | size (ha : c.origAttr = gs"payloadSize") (hm : Compares c.origMethod) (hv : ∀ n, ¬ IntText c.origValue n)
  | hours (ha : c.origAttr = gs"utcHoursFromMidnight") (hm : Compares c.origMethod) (hv : parseNumber env c.origValue = none)
  | noVersion (ha : c.origAttr = gs"encryptionVersion") (hv : msg.encryptionVersion = none)
  | version (ha : c.origAttr = gs"encryptionVersion") (hm : Compares c.origMethod) (hv : parseNumber env c.origValue = none)
  | entry {q d} (ha : c.origAttr = gs"jsonpath:" ++ q) (hr : pathRel q = true) (hq : AsksEntry q) (hI : msg.rawI.isSome) (hd : msg.rawIRel = some d) (hn : ∀ kvs, d ≠ .obj kvs)
  | number {q r} (ha : c.origAttr = gs"jsonpath:" ++ q) (hm : Compares c.origMethod) (hv : parseNumber env c.origValue = none) (hf : Found env msg q r) (hn : FoundNumber env r)
  | report {q ret r} (ha : c.origAttr = gs"jsonpath:" ++ q) (hc : c.ret = some ret) (hh : ∃ e, testOneCondition env p { c with ret := none } msg = .ok (true, e)) (hr : r ∈ ret)
      (hf : ReportFails msg.rawI.isSome msg r)

/-- Selecting the elements of an ANY or ALL crashes. Parsed documents: there is no document, or something that is no list and no object is selected. Texts: there is no text for some
part of the path, or nothing but a bracket is left after minifying. -/
def SelectFails (env : Ext) (a : AnyAll) (msg : Msg) : Prop :=
  if usesParsed a msg then
    if a.parent = gs"$RELATIVE*" then ∀ kvs, msg.rawIRel ≠ some (.obj kvs)
    else ∀ d, parentDoc a msg = some d → ∃ q ∈ a.queries, ¬ Ranged (env.jpGet q.src d).1
  else
    (∃ q ∈ a.parentArr, (if isRelativeParent q then msg.jsonRawRel else msg.jsonRaw) = none) ∨
    ∃ data, collectJsons env msg [] true a.parentArr = .ok (some data) ∧ 2 ≤ data.length ∧ (env.ugly data = [] ∨ env.ugly data = gs"[")

mutual
/-- The evaluation of a prepared tree crashes. What is not evaluated does not crash: an AND and an ALL stop where something does not hold, an ANY without return values where something
holds; an OR never stops. -/
def CrashesAt (env : Env) : Node → List Nat → Msg → Prop
  | .nil, _, _ => True
  | .and ns, p, m => AndCrashes env ns p 1 m
  | .or ns, p, m => OrCrashes env ns p 1 m
  | .not n, p, m => CrashesAt env n (1 :: p) m
  | .any a n, p, m => SelectFails env a m ∨ ∃ l, scopes env p a m = .ok (some l) ∧ ∃ i m', l[i]? = some m' ∧
      (a.ret = [] → ∀ j m'', j < i → l[j]? = some m'' → ¬ Holds env n ((j + 1) :: p) m'') ∧
      (CrashesAt env n ((i + 1) :: p) m' ∨ Holds env n ((i + 1) :: p) m' ∧ ∃ r ∈ a.ret, ReportFails (usesParsed a m) m' r)
  | .all a n, p, m => SelectFails env a m ∨ ∃ l, scopes env p a m = .ok (some l) ∧ ∃ i m', l[i]? = some m' ∧
      (∀ j m'', j < i → l[j]? = some m'' → Holds env n ((j + 1) :: p) m'') ∧ CrashesAt env n ((i + 1) :: p) m'
  | .tt, _, _ => False
  | .ff, _, _ => False
  | .cond c, p, m => Crashes env (0 :: 0 :: p) c m

/-- One child crashes and those before it hold. -/
def AndCrashes (env : Env) : List Node → List Nat → Nat → Msg → Prop
  | [], _, _, _ => False
  | n :: ns, p, i, m => CrashesAt env n (i :: p) m ∨ Holds env n (i :: p) m ∧ AndCrashes env ns p (i + 1) m

/-- One child crashes. -/
def OrCrashes (env : Env) : List Node → List Nat → Nat → Msg → Prop
  | [], _, _, _ => False
  | n :: ns, p, i, m => CrashesAt env n (i :: p) m ∨ OrCrashes env ns p (i + 1) m
end

/-- Checking a prepared rule crashes: the message is one for the rule, and its conditions crash. -/
def PreparedCrashes (env : Env) (rule : Rule) (p : List Nat) (m : Msg) : Prop :=
  PartsMatch env rule m ∧ ∃ n, rule.conditions = some n ∧ CrashesAt env n (1 :: 1 :: p) m

/-- Checking a rule crashes, as number `k` in a list: it was prepared before and crashes, or it comes from the parser, and it cannot be prepared with the global tables or the
prepared rule crashes. -/
inductive RuleCrashes (env : Env) (global : Predef) (k : Nat) (m : Msg) (r : RuleObj) : Prop
  | prepared {rule} (h : ReadyAs env r rule) (hc : PreparedCrashes env rule [k] m)
  | refused (h : Fresh r) (hp : ¬ ∃ r', r.setPredefined env [0, k] global = .ok (r', none))
  | fresh {r' rule} (h : Fresh r) (hp : r.setPredefined env [0, k] global = .ok (r', none)) (hr : r'.prepared = some rule) (hc : PreparedCrashes env rule [k] m)

end Mapl.Spec

import Verif.Model.Eval
import Verif.Model.Load
import Verif.Spec.Names
import Mathlib.Order.WithBot
import Mathlib.Data.Rat.Defs
import Mathlib.Algebra.Order.Ring.Unbundled.Rat

/-! # What single conditions mean -/

namespace Mapl.Spec

/-- The comparison methods for numbers. -/
inductive NumMethod
  | eq
  | ne
  | lt
  | le
  | gt
  | ge
  deriving DecidableEq

/-- How they are spelled. -/
def NumMethod.spellings : NumMethod → List Str
  | .eq => [gs"EQ", gs"eq"]
  | .ne => [gs"NEQ", gs"neq", gs"NE", gs"ne"]
  | .lt => [gs"LT", gs"lt"]
  | .le => [gs"LE", gs"le"]
  | .gt => [gs"GT", gs"gt"]
  | .ge => [gs"GE", gs"ge"]

/-- What they mean on a linear order. -/
def NumMethod.holds {α : Type} [LinearOrder α] : NumMethod → α → α → Prop
  | .eq, a, b => a = b
  | .ne, a, b => a ≠ b
  | .lt, a, b => a < b
  | .le, a, b => a ≤ b
  | .gt, a, b => b < a
  | .ge, a, b => b ≤ a

instance {α : Type} [LinearOrder α] (k : NumMethod) (a b : α) : Decidable (k.holds a b) :=
  match k with
  | .eq => inferInstanceAs (Decidable (a = b))
  | .ne => inferInstanceAs (Decidable (a ≠ b))
  | .lt => inferInstanceAs (Decidable (a < b))
  | .le => inferInstanceAs (Decidable (a ≤ b))
  | .gt => inferInstanceAs (Decidable (b < a))
  | .ge => inferInstanceAs (Decidable (b ≤ a))

/-- The place of a float64 on the extended line; NaN has none. -/
def place : F64 → Option (WithBot (WithTop ℚ))
  | .nan => none
  | .negInf => some ⊥
  | .posInf => some ((⊤ : WithTop ℚ) : WithBot (WithTop ℚ))
  | .fin q => some (((q : ℚ) : WithTop ℚ) : WithBot (WithTop ℚ))

/-- Comparison of float64: NaN is different from everything and not comparable. -/
def NumMethod.holdsF (k : NumMethod) (a b : F64) : Prop :=
  match place a, place b with
  | some x, some y => k.holds x y
  | _, _ => k = .ne

instance (k : NumMethod) (a b : F64) : Decidable (k.holdsF a b) := by
  unfold NumMethod.holdsF; split <;> infer_instance

/-- A text over the fields that a message has for its sender or receiver. -/
def fieldText (ns cluster x : Str) : Str := if x = gs"namespace" then ns else if x = gs"cluster" then cluster else []

/-- The attributes that stand for a text of the message, and the text. -/
inductive TextAttr : Str → (Msg → Str) → Prop
  | agent : TextAttr gs"requestUseragent" (·.requestUseragent)
  | encryption : TextAttr gs"encryptionType" (·.encryptionType)
  | domain : TextAttr gs"domain" (·.domain)
  | sender (x : Str) : TextAttr (gs"$sender." ++ x) fun m => fieldText m.sourceNamespace m.sourceCluster x
  | receiver (x : Str) : TextAttr (gs"$receiver." ++ x) fun m => fieldText m.destinationNamespace m.destinationCluster x

/-- The attributes that stand for a label, and the value of the label in a message. -/
inductive LabelAttr : Str → (Msg → Option Str) → Prop
  | sender (k : Str) : LabelAttr (gs"senderLabel[" ++ k ++ gs"]") fun m => lookup k m.sourceLabels
  | receiver (k : Str) : LabelAttr (gs"receiverLabel[" ++ k ++ gs"]") fun m => lookup k m.destinationLabels

/-- Positive methods with their negative counterparts. -/
def oppositePairs : List (List Str × List Str) :=
  [([gs"RE", gs"re"], [gs"NRE", gs"nre"]), ([gs"EQ", gs"eq"], [gs"NEQ", gs"neq", gs"NE", gs"ne"]),
   ([gs"EX", gs"ex"], [gs"NEX", gs"nex"]), ([gs"IN", gs"IS"], [gs"NIN"])]

/-- One method is the negative counterpart of the other. -/
def Opposite (pos neg : Str) : Prop := ∃ pr ∈ oppositePairs, pos ∈ pr.1 ∧ neg ∈ pr.2

instance (pos neg : Str) : Decidable (Opposite pos neg) := by unfold Opposite; infer_instance

/-- Spellings that are meant to be the same method. -/
def synonyms : List (List Str) :=
  [[gs"EQ", gs"eq"], [gs"NEQ", gs"neq", gs"NE", gs"ne"], [gs"LT", gs"lt"], [gs"LE", gs"le"], [gs"GT", gs"gt"], [gs"GE", gs"ge"],
   [gs"RE", gs"re"], [gs"NRE", gs"nre"], [gs"EX", gs"ex"], [gs"NEX", gs"nex"], [gs"IN", gs"in"], [gs"NIN", gs"nin"]]

/-- The spellings for which this is so for every attribute but json paths. -/
def realSynonyms : List (List Str) :=
  [[gs"EQ", gs"eq"], [gs"NEQ", gs"neq", gs"NE", gs"ne"], [gs"LT", gs"lt"], [gs"LE", gs"le"], [gs"GT", gs"gt"], [gs"GE", gs"ge"],
   [gs"RE", gs"re"], [gs"NRE", gs"nre"], [gs"EX", gs"ex"], [gs"NEX", gs"nex"]]

/-- The spellings for which this is so for json paths. -/
def pathSynonyms : List (List Str) :=
  [[gs"EQ", gs"eq"], [gs"NEQ", gs"neq"], [gs"NE", gs"ne"], [gs"LT", gs"lt"], [gs"LE", gs"le"], [gs"GT", gs"gt"], [gs"GE", gs"ge"],
   [gs"RE", gs"re"], [gs"NRE", gs"nre"], [gs"EX", gs"ex"], [gs"NEX", gs"nex"]]

/-! ## Json paths -/

/-- Whether a path after `jsonpath:` is relative to the element of the surrounding ANY or ALL. -/
def pathRel (q : Str) : Bool := sliceHasPrefix [gs"$RELATIVE.", gs"$KEY", gs"$VALUE"] q || q == gs"$RELATIVE"

/-- The normal form of a written path: `$RELATIVE` is `$`, a leading `$` may be left out, quotes after a dot are dropped
and other single quotes are double quotes, the dot before a bracket is dropped. -/
def pathQuery (q : Str) : Str :=
  let q := if sliceHasPrefix [gs"$RELATIVE.", gs"$KEY", gs"$VALUE"] q then replaceFirst gs"$RELATIVE." gs"$." q
    else if q = gs"$RELATIVE" then gs"$" else q
  let q := if q.head? = some '.' then '$' :: q else q
  replaceAll (replaceAll (removeDotQuotes q) gs"'" gs"\"") gs".[" gs"["

/-- The query given to the json path library; `$KEY` and `$VALUE` are not known to it. -/
def queryText (q : Str) : Str :=
  let q1 := replaceAll (pathQuery q) gs"$RELATIVE" gs"$"
  let q2 := if q1 = gs"$*" then gs"$.*" else q1
  if contains q2 gs"$KEY" ∨ contains q2 gs"$VALUE" then gs"$.*" else q2

/-- The path speaks of the key or value of an entry of an object. -/
def EntryPath (q : Str) : Prop := (∃ x, q = gs"$KEY" ++ x) ∨ ∃ x, q = gs"$VALUE" ++ x

/-- What a query selects in a document: a value, or nothing because of an error. "Not found" is not an error; the
library then returns null. -/
inductive Selected (env : Ext) (query : Str) (d : Json) : Option Json → Prop
  | found {x} (h : env.jpGet query d = (x, none)) : Selected env query d (some x)
  | notFound {x e} (h : env.jpGet query d = (x, some e)) (he : ∃ a b, e = a ++ gs"not found in JSON object at" ++ b) :
      Selected env query d (some x)
  | failed {x e} (h : env.jpGet query d = (x, some e)) (he : ¬ ∃ a b, e = a ++ gs"not found in JSON object at" ++ b) :
      Selected env query d none

/-- The parsed document a path is applied to. -/
def DocumentI (m : Msg) (q : Str) (d : Json) : Prop :=
  m.rawI.isSome ∧ (if pathRel q then m.rawIRel = some d else m.rawI = some d)

/-- The text of the document a path is applied to. -/
def DocumentB (m : Msg) (q : Str) (d : Str) : Prop :=
  m.rawI = none ∧ d ≠ [] ∧ (if pathRel q then m.jsonRawRel = some d else m.jsonRaw = some d)

/-- Nothing, null, or an empty value. -/
inductive NoValue : Option Json → Prop
  | failed : NoValue none
  | null : NoValue (some .null)
  | text : NoValue (some (.str []))
  | array : NoValue (some (.arr []))

/-- The same for results of the library that works on texts: result and whether there was an error. -/
inductive NoText : Str × Bool → Prop
  | failed {s} : NoText (s, true)
  | nothing : NoText ([], false)
  | text : NoText (gs"\"\"", false)
  | array : NoText (gs"[]", false)

/-- A text on which the removal of quotes and brackets has no effect. -/
def Clean (s : Str) : Prop := s ≠ [] ∧ '"' ∉ s ∧ '[' ∉ s ∧ ']' ∉ s

/-- The text of a scalar. -/
inductive ScalarText (env : Ext) : Json → Str → Prop
  | string {s} : ScalarText env (.str s) s
  | number {x} : ScalarText env (.num x) (env.fmtFloat x)
  | true : ScalarText env (.bool true) gs"true"
  | false : ScalarText env (.bool false) gs"false"

/-- What a path selects in a message with a parsed document. In the scope of one entry of an object, `$KEY` is its key and
`$VALUE` its value. -/
inductive SelectsI (env : Ext) (m : Msg) (q : Str) : Option Json → Prop
  | path {d x} (he : ¬ EntryPath q) (hd : DocumentI m q d) (hs : Selected env (queryText q) d x) : SelectsI env m q x
  | key {k j} (hq : q = gs"$KEY") (hI : m.rawI.isSome) (hr : m.rawIRel = some (.obj [(k, j)])) : SelectsI env m q (some (.str k))
  | value {k j} (hq : q = gs"$VALUE") (hI : m.rawI.isSome) (hr : m.rawIRel = some (.obj [(k, j)])) : SelectsI env m q (some j)

/-- What a path selects in a message with a document given as text: a text, and whether there was an error. Here
`$VALUE.x` is the field `x` of the value of the entry in scope. An object with several entries, or none, has no `$KEY` and no `$VALUE`. -/
inductive SelectsB (env : Ext) (m : Msg) (q : Str) : Str × Bool → Prop
  | path {d x} (he : ¬ EntryPath q) (hd : DocumentB m q d) (hs : env.jsGet d (pathQuery q) = x) : SelectsB env m q x
  | key {raw k j} (hq : q = gs"$KEY") (hI : m.rawI = none) (hr : m.jsonRawRel = some raw) (hn : raw ≠ [])
      (hj : env.jsonUnmarshal raw = some (.obj [(k, j)])) : SelectsB env m q (k, false)
  | value {raw k j} (hq : q = gs"$VALUE") (hI : m.rawI = none) (hr : m.jsonRawRel = some raw) (hn : raw ≠ [])
      (hj : env.jsonUnmarshal raw = some (.obj [(k, j)])) : SelectsB env m q (env.jsonMarshal j, false)
  | field {raw k j y x} (hq : pathQuery q = gs"$VALUE." ++ y) (hrel : ∃ z, q = gs"$VALUE" ++ z) (hI : m.rawI = none)
      (hr : m.jsonRawRel = some raw) (hn : raw ≠ []) (hj : env.jsonUnmarshal raw = some (.obj [(k, j)]))
      (hs : env.jsGet (env.jsonMarshal j) (gs"$." ++ y) = x) : SelectsB env m q x
  | several {raw kvs} (hq : q = gs"$KEY" ∨ q = gs"$VALUE") (hI : m.rawI = none) (hr : m.jsonRawRel = some raw) (hn : raw ≠ [])
      (hj : env.jsonUnmarshal raw = some (.obj kvs)) (hk : kvs.length ≠ 1) : SelectsB env m q ([], false)

/-- The text that a list or an object with the given JSON text is compared as. A list of texts is compared without the outer quotes and
brackets, so that a list of one text is compared as that text; everything else as it is, unless quotes and brackets meet inside. -/
inductive CompoundText : Str → Str → Prop
  | texts {l : List Str} (hne : l ≠ []) (hc : ∀ t ∈ l, Clean t) : CompoundText (gs"[\"" ++ join gs"\",\"" l ++ gs"\"]") (join gs"\",\"" l)
  | whole {s : Str} (hs : s ≠ gs"[]") (hb : (∃ t, s = gs"{" ++ t ++ gs"}") ∨ ∃ t, s = gs"[" ++ t ++ gs"]")
      (hm : ∀ k ∈ [gs"[[", gs"]]", gs"[\"", gs"\"]"], ¬ ∃ a b, s = a ++ k ++ b) : CompoundText s s

/-- A list or an object. -/
def Compound : Json → Prop
  | .arr _ => True
  | .obj _ => True
  | _ => False

/-- A path selects a scalar, a list or an object that is compared as the given text, in the parsed document or in the text of the document. -/
inductive SelectsText (env : Ext) (m : Msg) (q : Str) (s : Str) : Prop
  | parsed {j} (hs : SelectsI env m q (some j)) (ht : ScalarText env j s) (hc : Clean s) (hn : s ≠ gs"<nil>")
  | text {x} (hs : SelectsB env m q (x, false)) (ht : x = s ∨ x = gs"\"" ++ s ++ gs"\"") (hc : Clean s)
  | compound {j} (hs : SelectsI env m q (some j)) (hj : Compound j) (ht : CompoundText (env.jsonMarshal j) s)
  | compoundText {x} (hs : SelectsB env m q (x, false)) (ht : CompoundText x s)

/-- What the value of a condition stands for: `#key` is the predefined list of that name, joined by bars for RE and NRE
(and then it has to be a regular expression) and by commas otherwise; else the predefined string of that name. Every
other text is itself. -/
inductive ValueResolves (env : Ext) (t : Predef) (method : Str) : Str → Str → Prop
  | plain {x : Str} (h : ∀ k, x ≠ '#' :: k) : ValueResolves env t method x x
  | list {k : Str} {l : List Str} (h : lookup k t.listsNoRefs = some l) (hm : method ∉ [gs"RE", gs"NRE"]) :
      ValueResolves env t method ('#' :: k) (join gs"," l)
  | alternatives {k : Str} {l : List Str} (h : lookup k t.listsNoRefs = some l) (hm : method ∈ [gs"RE", gs"NRE"])
      (hr : env.reOk (join gs"|" l) = true) : ValueResolves env t method ('#' :: k) (join gs"|" l)
  | string {k v : Str} (h : lookup k t.listsNoRefs = none) (hs : lookup k t.strings = some v) :
      ValueResolves env t method ('#' :: k) v

/-- A condition as the parser builds it: the written texts, and the numbers the value is read as. -/
def parsed (env : Ext) (attr method value : Str) (ret : Option (List RetVal) := none) : Condition :=
  setNumbers env { attr := attr, method := method, value := value, ret := ret }

/-- The condition `a m v`, prepared with the tables `t`, answers `b` on the message. -/
def Answers (env : Env) (t : Predef) (p : List Nat) (msg : Msg) (a m v : Str) (b : Bool) : Prop :=
  ∃ c, (parsed env a m v).prepare env t = .ok c ∧ testOneCondition env p c msg = .ok (b, [])

end Mapl.Spec

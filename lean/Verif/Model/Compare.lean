import Verif.Model.Types
import Verif.Model.StringUtils

/-!
# /repo/MAPL_engine/check.go: comparison functions

Methods are compared with the literal spellings the code lists.
-/

namespace Mapl

/-- The test `c.Method == "RE" || "re" || "NRE" || "nre"` (check.go:287, 299, 311, 416, 422, 437, 454, 461, 482). -/
def isRegexMethod (m : Str) : Bool := m = gs"RE" ∨ m = gs"re" ∨ m = gs"NRE" ∨ m = gs"nre"

/-- check.go:791-807. -/
def compareInt (v1 : Int) (m : Str) (v2 : Option Int) : Go Bool :=
  if m = gs"EQ" ∨ m = gs"eq" then do let x ← deref v2; pure (v1 == x)
  else if m = gs"NEQ" ∨ m = gs"neq" ∨ m = gs"ne" ∨ m = gs"NE" then do let x ← deref v2; pure (v1 != x)
  else if m = gs"LE" ∨ m = gs"le" then do let x ← deref v2; pure (decide (v1 ≤ x))
  else if m = gs"LT" ∨ m = gs"lt" then do let x ← deref v2; pure (decide (v1 < x))
  else if m = gs"GE" ∨ m = gs"ge" then do let x ← deref v2; pure (decide (v1 ≥ x))
  else if m = gs"GT" ∨ m = gs"gt" then do let x ← deref v2; pure (decide (v1 > x))
  else pure false

/-- check.go:810-826. -/
def compareFloat (v1 : F64) (m : Str) (v2 : Option F64) : Go Bool :=
  if m = gs"EQ" ∨ m = gs"eq" then do let x ← deref v2; pure (v1.eq x)
  else if m = gs"NEQ" ∨ m = gs"neq" ∨ m = gs"ne" ∨ m = gs"NE" then do let x ← deref v2; pure (!(v1.eq x))
  else if m = gs"LE" ∨ m = gs"le" then do let x ← deref v2; pure (v1.le x)
  else if m = gs"LT" ∨ m = gs"lt" then do let x ← deref v2; pure (v1.lt x)
  else if m = gs"GE" ∨ m = gs"ge" then do let x ← deref v2; pure (x.le v1)
  else if m = gs"GT" ∨ m = gs"gt" then do let x ← deref v2; pure (x.lt v1)
  else pure false

/-- check.go:829-837. -/
def compareString (v1 m v2 : Str) : Bool :=
  if m = gs"EQ" ∨ m = gs"eq" then v1 == v2
  else if m = gs"NEQ" ∨ m = gs"neq" ∨ m = gs"ne" ∨ m = gs"NE" then v1 != v2
  else false

/-- check.go:840-865. After the nil test of lines 843-850 the pointer is only used by methods that the nil test already
answered, so no dereference of nil is possible. -/
def compareStringWithWildcards (env : Ext) (v1 m : Str) (re : Option Re) : Bool :=
  if m = gs"EX" ∨ m = gs"ex" then decide (v1.length > 0)
  else if m = gs"NEX" ∨ m = gs"nex" then decide (v1.length = 0)
  else if m = gs"EQ" ∨ m = gs"eq" then
    match re with
    | none => false
    | some r => r.matches env v1
  else if m = gs"NEQ" ∨ m = gs"neq" ∨ m = gs"ne" ∨ m = gs"NE" then
    match re with
    | none => true
    | some r => !(r.matches env v1)
  else false

/-- check.go:868-886. -/
def compareRegex (env : Ext) (v1 m : Str) (re : Option Re) : Bool :=
  if m = gs"RE" ∨ m = gs"re" then
    match re with
    | none => false
    | some r => r.matches env v1
  else if m = gs"NRE" ∨ m = gs"nre" then
    match re with
    | none => true
    | some r => !(r.matches env v1)
  else false

/-- The three-way choice used for text attributes (check.go:287-291, 299-303, 311-315, 422-426, 437-441). -/
def compareText (env : Ext) (c : Condition) (v : Str) : Bool :=
  if isRegexMethod c.method then compareRegex env v c.method c.valueRegex
  else compareStringWithWildcards env v c.method c.valueStringRegex

/-- The parameter `sender_receiver` of `getAttribute`, which is "$sender" or "$receiver" in every call. -/
inductive Side
  | sender
  | receiver
  deriving DecidableEq

/-- check.go:770-788. -/
def getAttribute (side : Side) (a : Str) (m : Msg) : Str :=
  if a = gs"namespace" then (match side with | .sender => m.sourceNamespace | .receiver => m.destinationNamespace)
  else if a = gs"cluster" then (match side with | .sender => m.sourceCluster | .receiver => m.destinationCluster)
  else []

/-- check.go:409-430. -/
def testSenderAttribute (env : Ext) (c : Condition) (m : Msg) : Bool :=
  let v := getAttribute .sender c.senderObjectAttr m
  if c.valueIsReceiverObject then
    let w := getAttribute .receiver c.valueReceiverObject m
    if isRegexMethod c.method then false else compareString v c.method w
  else compareText env c v

/-- check.go:432-443. -/
def testReceiverAttribute (env : Ext) (c : Condition) (m : Msg) : Bool :=
  compareText env c (getAttribute .receiver c.receiverObjectAttr m)

/-- check.go:445-473. -/
def testSenderLabel (env : Ext) (c : Condition) (m : Msg) : Bool :=
  if c.attrIsSenderLabel = false then false
  else match lookup c.senderLabelKey m.sourceLabels with
    | none => false
    | some v =>
      if c.valueIsReceiverLabel then
        match lookup c.valueReceiverLabelKey m.destinationLabels with
        | none => false
        | some w => if isRegexMethod c.method then false else compareString v c.method w
      else if isRegexMethod c.method then compareRegex env v c.method c.valueRegex
      else if c.method = gs"EX" ∨ c.method = gs"ex" then true
      else compareStringWithWildcards env v c.method c.valueStringRegex

/-- check.go:475-493. -/
def testReceiverLabel (env : Ext) (c : Condition) (m : Msg) : Bool :=
  if c.attrIsReceiverLabel = false then false
  else match lookup c.receiverLabelKey m.destinationLabels with
    | none => false
    | some v =>
      if isRegexMethod c.method then compareRegex env v c.method c.valueRegex
      else if c.method = gs"EX" ∨ c.method = gs"ex" then true
      else compareStringWithWildcards env v c.method c.valueStringRegex

/-- check.go:739-744, and the same test at 529-534 and 621-626. -/
def emptyResult (c : Condition) : Bool := c.method = gs"NEX" ∨ c.method = gs"nex"

/-! ## Json path conditions -/

/-- check.go:728-737: the query applied to a document; `none` in the first position is an error that survives. -/
def queryInterface (env : Ext) (q : JPath) (d : Json) : Option Json :=
  match env.jpGet q.src d with
  | (v, none) => some v
  | (v, some e) => if contains e gs"not found in JSON object at" then some v else none

/-- check.go:699-726. The first entry in iteration order is used; `p` identifies the occurrence. An empty object leaves
the result nil and the error nil. -/
def getKeyValueFromInterface (env : Env) (p : List Nat) (c : Condition) (rel : Json) : Go (Option Json) :=
  match rel with
  | .obj kvs =>
    match env.ord p kvs with
    | [] => .ok (some .null)
    | (k, v) :: _ =>
      if c.jsonpathQuery = gs"$KEY" then .ok (some (.str k))
      else if c.jsonpathQuery = gs"$VALUE" then .ok (some v)
      else do let q ← deref c.prepared; pure (queryInterface env q v)
  | _ => .error (.panic .typeAssertion)

/-- check.go:628-635: the text a selected value is compared as. -/
def valueText (env : Ext) : Json → Str
  | .arr l => env.jsonMarshal (.arr l)
  | .obj kvs => env.jsonMarshal (.obj kvs)
  | v => fmtV env v

/-- check.go:653-696: the comparison of a text from a parsed document. -/
def compareInterfaceText (env : Ext) (c : Condition) (s : Str) : Go Bool :=
  let m := toUpper c.method
  if m = gs"GE" ∨ m = gs"GT" ∨ m = gs"LE" ∨ m = gs"LT" ∨ m = gs"EQ" ∨ m = gs"NEQ" ∨ m = gs"NE" then
    if c.valueInt.isSome ∨ c.valueFloat.isSome then
      match parseNumber env s with
      | none => .ok (decide (m = gs"NEQ"))
      | some x => compareFloat x c.method c.valueFloat
    else if m = gs"EQ" ∨ m = gs"NEQ" then .ok (compareString s c.method c.value)
    else .ok false
  else if m = gs"RE" ∨ m = gs"NRE" then .ok (compareRegex env s c.method c.valueRegex)
  else if m = gs"EX" ∨ m = gs"NEX" then
    if s.length = 0 then .ok (decide (m = gs"NEX")) else .ok (decide (m = gs"EX"))
  else .ok false

/-- check.go:621-697: what happens once the value is known (`none` is a query error). -/
def judgeInterfaceValue (env : Ext) (c : Condition) (v : Option Json) : Go Bool :=
  match v with
  | none => .ok (emptyResult c)
  | some j =>
    let s := valueText env j
    if s.length = 0 ∨ s = gs"<nil>" then .ok (emptyResult c)
    else
      let s := removeQuotesAndBrackets s
      if s.length = 0 then .ok (emptyResult c)
      else match removeQuotesFromResult s with
        | none => .ok false
        | some s => compareInterfaceText env c s

/-- check.go:595-697. -/
def testJsonpathOnInterface (env : Env) (p : List Nat) (c : Condition) (m : Msg) : Go Bool :=
  if c.attrIsJsonpath = false then .ok false
  else if c.attrIsJsonpathRelative then
    match m.rawIRel with
    | none => .ok false
    | some rel =>
      if c.jsonpathQuery = gs"$KEY" ∨ hasPrefix c.jsonpathQuery gs"$VALUE" then do
        let v ← getKeyValueFromInterface env p c rel
        judgeInterfaceValue env c v
      else do
        let q ← deref c.prepared
        judgeInterfaceValue env c (queryInterface env q rel)
  else
    match m.rawI with
    | none => .ok false
    | some d => do
      let q ← deref c.prepared
      judgeInterfaceValue env c (queryInterface env q d)

/-- `json.Unmarshal` into a `map[string]interface{}` (check.go:749-750, 1076-1078): `null` gives a nil map without error. -/
def unmarshalMap (env : Ext) (s : Str) : Option (List (Str × Json)) :=
  match env.jsonUnmarshal s with
  | some (.obj kvs) => some kvs
  | some .null => some []
  | _ => none

/-- check.go:746-768; the flag is whether the error is non-nil. Simplification: `json.Marshal` of a value obtained from
`json.Unmarshal` does not fail. -/
def getKeyValue (env : Ext) (raw attr : Str) : Str × Bool :=
  match unmarshalMap env raw with
  | none => ([], true)
  | some [(k, v)] => if attr = gs"$KEY" then (k, false) else (env.jsonMarshal v, false)
  | some _ => ([], false)

/-- check.go:562-592: the comparison of a text from a JSON text. -/
def compareBytesText (env : Ext) (c : Condition) (s : Str) : Go Bool :=
  let m := toUpper c.method
  if m = gs"GE" ∨ m = gs"GT" ∨ m = gs"LE" ∨ m = gs"LT" ∨ m = gs"EQ" ∨ m = gs"NEQ" ∨ m = gs"NE" then
    match parseNumber env s with
    | none => if m = gs"EQ" ∨ m = gs"NEQ" then .ok (compareString s c.method c.value) else .ok false
    | some x => compareFloat x c.method c.valueFloat
  else if m = gs"RE" ∨ m = gs"NRE" then .ok (compareRegex env s c.method c.valueRegex)
  else if m = gs"EX" ∨ m = gs"NEX" then
    if s.length = 0 then .ok (decide (m = gs"NEX")) else .ok (decide (m = gs"EX"))
  else .ok false

/-- check.go:529-593: what happens once the query result is known. The quote handling of lines 547-560 is the same as in
`removeQuotesFromResult` (string_utils.go:177-191). -/
def judgeBytesValue (env : Ext) (c : Condition) (r : Str × Bool) : Go Bool :=
  if r.2 then .ok (emptyResult c)
  else if r.1.length = 0 then .ok (emptyResult c)
  else
    let s := removeQuotesAndBrackets r.1
    if s.length = 0 then .ok (emptyResult c)
    else match removeQuotesFromResult s with
      | none => .ok false
      | some s => compareBytesText env c s

/-- check.go:495-593. -/
def testJsonpath (env : Ext) (c : Condition) (m : Msg) : Go Bool :=
  if c.attrIsJsonpath = false then .ok false
  else if c.attrIsJsonpathRelative then
    match m.jsonRawRel with
    | none => .ok false
    | some raw =>
      if raw.length = 0 then .ok false
      else if c.jsonpathQuery = gs"$KEY" ∨ hasPrefix c.jsonpathQuery gs"$VALUE" then
        let kv := getKeyValue env raw c.jsonpathQuery
        if hasPrefix c.jsonpathQuery gs"$VALUE." then
          judgeBytesValue env c (env.jsGet kv.1 (replaceFirst gs"$VALUE." gs"$." c.jsonpathQuery))
        else judgeBytesValue env c kv
      else judgeBytesValue env c (env.jsGet raw c.jsonpathQuery)
  else
    match m.jsonRaw with
    | none => .ok false
    | some raw => if raw.length = 0 then .ok false else judgeBytesValue env c (env.jsGet raw c.jsonpathQuery)

/-! ## Returned values -/

/-- A document behind a pointer: the relative one or the whole one (check.go:361-365, 369-373, 391-395). -/
def pick {α : Type} (rel : Bool) (whole relative : Option α) : Go α := deref (if rel then relative else whole)

/-- Body of the loop of check.go:358-383: the entry added for one name, if any. A query that fails adds no entry. -/
def extraEntryInterface (env : Ext) (m : Msg) (r : RetVal) : Go Extra :=
  if r.query = gs"$*" then do
    let d ← pick r.rel m.rawI m.rawIRel
    pure [(r.name, d)]
  else match r.prepared with
    | some q => do
      let d ← pick r.rel m.rawI m.rawIRel
      pure (match queryInterface env q d with
        | some v => [(r.name, v)]
        | none => [])
    | none => pure [(r.name, .null)]

/-- check.go:355-385. The loop builds a map, so its order is irrelevant; the model lists the entries in the order of the
condition's list. Simplification: in Go the loop runs over the map of prepared queries, so a tree that was never
prepared reports nothing; here it reports null values. Trees are prepared before `Check` evaluates them. -/
def extraFromInterface (env : Ext) (m : Msg) : List RetVal → Go Extra
  | [] => .ok []
  | r :: rs => do
    let here ← extraEntryInterface env m r
    let rest ← extraFromInterface env m rs
    pure (here ++ rest)

/-- check.go:387-407. -/
def extraFromBytes (env : Ext) (m : Msg) : List RetVal → Go Extra
  | [] => .ok []
  | r :: rs => do
    let raw ← pick r.rel m.jsonRaw m.jsonRawRel
    let here : Extra := match env.jsonUnmarshal (env.jsGet raw r.query).1 with
      | some v => [(r.name, v)]
      | none => []
    let rest ← extraFromBytes env m rs
    pure (here ++ rest)

/-- check.go:348-353. -/
def getExtraData (env : Ext) (m : Msg) (ret : List RetVal) : Go Extra :=
  match m.rawI with
  | some _ => extraFromInterface env m ret
  | none => extraFromBytes env m ret

/-! ## One condition -/

/-- check.go:331-335. -/
def testJsonpathFlag (env : Env) (p : List Nat) (c : Condition) (m : Msg) : Go Bool :=
  if m.rawI.isSome ∧ c.prepared.isSome then testJsonpathOnInterface env p c m else testJsonpath env c m

/-- check.go:266-347. -/
def testOneCondition (env : Env) (p : List Nat) (c : Condition) (m : Msg) : Go (Bool × List Extra) :=
  if c.attr = gs"true" ∨ c.attr = gs"TRUE" then .ok (true, [])
  else if c.attr = gs"false" ∨ c.attr = gs"FALSE" then .ok (false, [])
  else if c.attr = gs"payloadSize" then do let b ← compareInt m.requestSize c.method c.valueInt; pure (b, [])
  else if c.attr = gs"requestUseragent" then .ok (compareText env c m.requestUseragent, [])
  else if c.attr = gs"utcHoursFromMidnight" then do
    let b ← compareFloat m.hoursFromMidnight c.method c.valueFloat; pure (b, [])
  else if c.attr = gs"encryptionType" then .ok (compareText env c m.encryptionType, [])
  else if c.attr = gs"encryptionVersion" then do
    let v ← deref m.encryptionVersion
    let b ← compareFloat v c.method c.valueFloat
    pure (b, [])
  else if c.attr = gs"domain" then .ok (compareText env c m.domain, [])
  else if c.attr = gs"$sender" then .ok (testSenderAttribute env c m, [])
  else if c.attr = gs"$receiver" then .ok (testReceiverAttribute env c m, [])
  else if c.attr = gs"senderLabel" then .ok (testSenderLabel env c m, [])
  else if c.attr = gs"receiverLabel" then .ok (testReceiverLabel env c m, [])
  else if c.attr = gs"jsonpath" then do
    let flag ← testJsonpathFlag env p c m
    match flag, c.ret with
    | true, some ret => do let e ← getExtraData env m ret; pure (true, [e])
    | f, _ => pure (f, [])
  else .ok (false, [])

end Mapl

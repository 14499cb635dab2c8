import Verif.Model.StringUtils

/-!
# /repo/MAPL_engine/validate_conditions.go

`(bool, error)` results: the flag is only ever false together with an error, so the model keeps the error only.
`strings.Index(x, p) == 0` is written as a prefix test.
-/

namespace Mapl

/-- validate_conditions.go:11. -/
def supportedMethods : List Str :=
  [gs"ge", gs"GE", gs"gt", gs"GT", gs"le", gs"LE", gs"lt", gs"LT", gs"re", gs"RE", gs"nre", gs"NRE", gs"in", gs"IN",
   gs"nin", gs"NIN", gs"eq", gs"EQ", gs"neq", gs"NEQ", gs"ne", gs"NE", gs"ex", gs"EX", gs"nex", gs"NEX", gs"IS"]

/-- validate_conditions.go:12. -/
def regexMethods : List Str := [gs"re", gs"nre", gs"RE", gs"NRE"]

/-- validate_conditions.go:13. -/
def numberMethods : List Str := [gs"ge", gs"GE", gs"gt", gs"GT", gs"le", gs"LE", gs"lt", gs"LT"]

/-- validate_conditions.go:14. -/
def supportedAttrPrefixes : List Str := [gs"$sender.", gs"$receiver.", gs"senderLabel[", gs"receiverLabel[", gs"jsonpath:"]

/-- validate_conditions.go:15. -/
def supportedAttrExact : List Str :=
  [gs"true", gs"TRUE", gs"false", gs"FALSE", gs"payloadSize", gs"requestUseragent", gs"utcHoursFromMidnight",
   gs"encryptionType", gs"encryptionVersion", gs"domain"]

/-- validate_conditions.go:16. -/
def encryptionVersionMethods : List Str :=
  [gs"eq", gs"lt", gs"le", gs"gt", gs"ge", gs"EQ", gs"LT", gs"LE", gs"GT", gs"GE"]

/-- Loop of `validateArraysWithIndex` (validate_conditions.go:101-123): the whole text, the position `i`, `startIndex`,
the rest of the text from position `i`. -/
def validateArraysAux (att : Str) (i start : Nat) : Str → Go Bool
  | [] => .ok true
  | c :: cs =>
    let start := if c = '[' then i else start
    if c = ']' then
      if start + 1 > i then .error (.panic .outOfRange)           -- att[startIndex+1 : i]
      else
        let inside := (att.take i).drop (start + 1)
        match inside.head?, inside.getLast? with
        | some a, some z =>
          if a = '"' ∧ z = '"' then validateArraysAux att (i + 1) start cs
          else if a = '\'' ∧ z = '\'' then validateArraysAux att (i + 1) start cs
          else match parseInt inside with
            | none => .ok false
            | some n => if n < 0 then .ok false else validateArraysAux att (i + 1) start cs
        | _, _ => .error (.panic .outOfRange)                       -- insideBrackets[0]
    else validateArraysAux att (i + 1) start cs

/-- validate_conditions.go:99-125. -/
def validateArraysWithIndex (att : Str) : Go Bool := validateArraysAux att 0 0 att

/-- validate_conditions.go:58-83: the checks on `jsonpath:` attributes. -/
def validateJsonpathAttr (a : Str) : Go Unit :=
  given (hasPrefix a gs"jsonpath:") do
    failIf (¬ hasPrefix a gs"jsonpath:$" ∧ ¬ hasPrefix a gs"jsonpath:.") .badAttribute
    failIf (hasPrefix a gs"jsonpath:$" ∧ ¬ hasPrefix a gs"jsonpath:$." ∧
        ¬ sliceHasPrefix [gs"jsonpath:$RELATIVE.", gs"jsonpath:$KEY", gs"jsonpath:$VALUE"] a ∧
        a ≠ gs"jsonpath:$RELATIVE") .badAttribute
    failIf (hasPrefix a gs"jsonpath:$KEY.") .badAttribute
    failIf (contains a gs"[:]") .badAttribute
    failIf (contains a gs"[]") .badAttribute
    let ok ← validateArraysWithIndex a
    failIf (ok = false) .badAttribute

/-- `i2 := strings.Index(x, "]"); i2 < len(x)-1`: the first closing bracket is missing or not the last character
(validate_conditions.go:182-183, 191-192, 201-202). -/
def badBracket (x : Str) : Bool :=
  match index gs"]" x with
  | none => true          -- -1 < len-1, as the text is not empty here
  | some i => i + 1 < x.length

/-- validate_conditions.go:179-207. -/
def validateConditionOnLabels (c : Condition) : Go Unit := do
  given (hasPrefix c.attr gs"senderLabel[") do
    failIf (badBracket c.attr) .badAttribute
    failIf (c.method ∈ numberMethods) .badMethod
  given (hasPrefix c.attr gs"receiverLabel[") do
    failIf (badBracket c.attr) .badAttribute
    failIf (c.method ∈ numberMethods) .badMethod
  given (hasPrefix c.value gs"receiverLabel[") do
    failIf (badBracket c.value) .badAttribute

/-- validate_conditions.go:209-223. -/
def validateConditionOnSenderReceiverAttributes (c : Condition) : Go Unit := do
  given (hasPrefix c.attr gs"$sender.") do
    failIf (c.method ∈ numberMethods) .badMethod
  given (hasPrefix c.attr gs"$receiver.") do
    failIf (c.method ∈ numberMethods) .badMethod

/-- validate_conditions.go:38-97. -/
def validateAttribute (c : Condition) : Go Unit := do
  failIf (¬ (c.attr ∈ supportedAttrExact ∨ sliceHasPrefix supportedAttrPrefixes c.attr)) .badAttribute
  given (c.attr = gs"encryptionVersion") do
    failIf (c.method ∉ encryptionVersionMethods) .badMethod
  validateJsonpathAttr c.attr
  validateConditionOnLabels c
  validateConditionOnSenderReceiverAttributes c

/-- The regular expression an IN/NIN list is turned into: validate_conditions.go:137-140, rules_load.go:334-337. -/
def inListRegex (value : Str) : Str :=
  let t := replaceAll value gs"[" []
  let t := replaceAll t gs"]" []
  let t := replaceAll t gs"," gs"$|^"
  gs"^" ++ t ++ gs"$"

/-- validate_conditions.go:127-148. -/
def validateMethod (env : Ext) (c : Condition) : Go Unit := do
  failIf (c.method ∉ supportedMethods) .badMethod
  given (c.method = gs"IN" ∨ c.method = gs"NIN") do
    failIf (c.value = []) .badMethod
    failIf (¬ env.reOk (inListRegex c.value)) .badRegex

/-- The numeric fields set by validate_conditions.go:152-164 and rules_load.go:348-357: fields keep their old value
when the text is not a number. -/
def setNumbers (env : Ext) (c : Condition) : Condition :=
  let c := match parseNumber env c.value with
    | some x => { c with valueFloat := some x }
    | none => c
  match parseInt c.value with
  | some n => { c with valueInt := some n }
  | none => c

/-- validate_conditions.go:150-177; returns the condition with its numeric fields set. -/
def convertAndValidateNumericalValues (env : Ext) (c : Condition) : Go Condition :=
  let isNum := (parseNumber env c.value).isSome || (parseInt c.value).isSome
  if ¬ isNum ∧ c.method ∈ numberMethods then .error (.err .badNumber)
  else if ¬ env.reOk c.value ∧ c.method ∈ regexMethods then .error (.err .badRegex)
  else .ok (setNumbers env c)

/-- validate_conditions.go:19-36. -/
def validateOneCondition (env : Ext) (c : Condition) : Go Condition := do
  validateAttribute c
  validateMethod env c
  convertAndValidateNumericalValues env c

end Mapl

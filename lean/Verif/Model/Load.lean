import Verif.Model.Validate
import Verif.Model.Net

/-!
# /repo/MAPL_engine/rules_load.go and predefined_lists_load.go: preparation of conditions, trees and rules
-/

namespace Mapl

/-! ## Predefined strings and lists -/

/-- rules_load.go:294-297. -/
def convertListToString (l : List Str) : Str := join gs"," l

/-- rules_load.go:299-302. -/
def convertListToRegexString (l : List Str) : Str := join gs"|" l

/-- rules_load.go:304-313; `none` is a false flag. -/
def isReplaceableString (x : Str) (t : Predef) : Option Str :=
  if hasPrefix x gs"#" then lookup (replaceFirst gs"#" [] x) t.strings else none

/-- rules_load.go:315-326: the list (`none` is a false first flag) and the flag `isReplaceable`. -/
def isReplaceableList (x : Str) (t : Predef) : Option (List Str) × Bool :=
  if hasPrefix x gs"#" then (lookup (replaceFirst gs"#" [] x) t.listsNoRefs, true) else (none, false)

/-- One half of `ReplaceStringsAndListsInOneRule` (rules_load.go:239-250, 252-263): the replacement for one name. -/
def replaceName (name : Str) (t : Predef) : Go Str :=
  match isReplaceableList name t with
  | (some l, _) => .ok (convertListToString l)
  | (none, isRepl) => match isReplaceableString name t with
    | some v => .ok v
    | none => if isRepl then .error (.err .undefinedRef) else .ok name

/-- rules_load.go:237-265. -/
def replaceStringsAndListsInOneRule (r : Rule) (t : Predef) : Go Rule := do
  let s ← replaceName r.senderName t
  let v ← replaceName r.receiverName t
  pure { r with senderName := s, receiverName := v }

/-- rules_load.go:267-292. -/
def replaceStringsAndListsInCondition (env : Ext) (c : Condition) (t : Predef) : Go Condition :=
  match isReplaceableList c.value t with
  | (some l, _) =>
    if c.method = gs"RE" ∨ c.method = gs"NRE" then
      let v := convertListToRegexString l
      if env.reOk v then .ok { c with value := v } else .error (.err .badRegex)
    else .ok { c with value := convertListToString l }
  | (none, isRepl) => match isReplaceableString c.value t with
    | some v => .ok { c with value := v }
    | none => if isRepl then .error (.err .undefinedRef) else .ok c

/-- Inner loop of `validatePredefinedString` (predefined_lists_load.go:50-61). -/
def resolveList (strings : List (Str × Str)) : List Str → Go (List Str)
  | [] => .ok []
  | s :: rest =>
    if hasPrefix s gs"#" then
      match lookup (replaceFirst gs"#" [] s) strings with
      | none => .error (.err .undefinedRef)
      | some v => do let r ← resolveList strings rest; pure (v :: r)
    else do let r ← resolveList strings rest; pure (s :: r)

/-- Outer loop of `validatePredefinedString` (predefined_lists_load.go:45-65). The order of the loop is irrelevant for the
result (keys are distinct) except for which error is reported first. -/
def resolveLists (strings : List (Str × Str)) : List (Str × List Str) → Go (List (Str × List Str))
  | [] => .ok []
  | (k, l) :: rest => do
    let l' ← resolveList strings l
    let r ← resolveLists strings rest
    pure ((k, l') :: r)

/-- predefined_lists_load.go:42-68. -/
def validatePredefinedString (t : Predef) : Go Predef := do
  let ls ← resolveLists t.strings t.lists
  pure { t with listsNoRefs := ls }

/-! ## Conditions -/

/-- `x[i1:i2]` with `i1 = strings.Index(x, "[") + 1` and `i2 = strings.Index(x, "]")` (rules_load.go:396-399, 405-408, 415-418). -/
def sliceBrackets (x : Str) : Go Str :=
  match index gs"]" x with
  | none => .error (.panic .outOfRange)
  | some i2 =>
    let i1 := match index gs"[" x with | some i => i + 1 | none => 0
    if i1 ≤ i2 then .ok ((x.take i2).drop i1) else .error (.panic .outOfRange)

/-- rules_load.go:391-422. -/
def handleLabels (c : Condition) : Go Condition := do
  let c ← if hasPrefix c.attr gs"senderLabel[" then do
      let k ← sliceBrackets c.attr
      pure { c with attrIsSenderLabel := true, senderLabelKey := k, attr := gs"senderLabel" }
    else pure c
  let c ← if hasPrefix c.attr gs"receiverLabel[" then do
      let k ← sliceBrackets c.attr
      pure { c with attrIsReceiverLabel := true, receiverLabelKey := k, attr := gs"receiverLabel" }
    else pure c
  if hasPrefix c.value gs"receiverLabel[" then do
      let k ← sliceBrackets c.value
      pure { c with valueIsReceiverLabel := true, valueReceiverLabelKey := k, value := gs"receiverLabel" }
    else pure c

/-- `x[strings.Index(x, sep)+1:]` (rules_load.go:429-430, 437-438, 445-446, 456-458); the separator occurs in `x` there. -/
def afterFirst (sep x : Str) : Str :=
  match index sep x with
  | some i => x.drop (i + 1)
  | none => x

/-- rules_load.go:424-450. -/
def handleObjects (c : Condition) : Condition :=
  let c := if hasPrefix c.attr gs"$sender." then
      { c with attrIsSenderObject := true, senderObjectAttr := afterFirst gs"." c.attr, attr := gs"$sender" }
    else c
  let c := if hasPrefix c.attr gs"$receiver." then
      { c with attrIsReceiverObject := true, receiverObjectAttr := afterFirst gs"." c.attr, attr := gs"$receiver" }
    else c
  if hasPrefix c.value gs"$receiver." then
      { c with valueIsReceiverObject := true, valueReceiverObject := afterFirst gs"." c.value, value := gs"$receiver" }
    else c

/-- rules_load.go:452-486. -/
def handleJsonpath (c : Condition) : Go Condition :=
  if hasPrefix c.attr gs"jsonpath:" then
    let net0 := afterFirst gs":" c.attr
    let relNet : Bool × Str :=
      if sliceHasPrefix [gs"$RELATIVE.", gs"$KEY", gs"$VALUE"] net0 then (true, replaceFirst gs"$RELATIVE." gs"$." net0)
      else if net0 = gs"$RELATIVE" then (true, gs"$")
      else (false, net0)
    match relNet.2 with
    | [] => .error (.panic .outOfRange)                -- netConditionAttribute[0]
    | ch :: cs =>
      let net := if ch = '.' then '$' :: ch :: cs else ch :: cs
      let net := removeDotQuotes net
      let net := replaceAll net gs"'" gs"\""
      let net := replaceAll net gs".[" gs"["
      .ok { c with attrIsJsonpath := true, attrIsJsonpathRelative := relNet.1, jsonpathQuery := net, attr := gs"jsonpath" }
  else .ok c

/-- rules_load.go:330-344: the original texts are kept, IN, IS and NIN become regular expressions. -/
def convertMethod (c : Condition) : Condition :=
  let c := { c with origAttr := c.attr, origMethod := c.method, origValue := c.value }
  if c.method = gs"IN" ∨ c.method = gs"NIN" ∨ c.method = gs"IS" then
    { c with value := inListRegex c.value,
             method := if c.method = gs"IN" ∨ c.method = gs"IS" then gs"RE" else gs"NRE" }
  else c

/-- rules_load.go:358-361: the regular expression of the value, if it is one (the old one is kept otherwise). -/
def setRegex (env : Ext) (c : Condition) : Condition :=
  match compile env c.value with
  | some re => { c with valueRegex := some re }
  | none => c

/-- rules_load.go:328-389. -/
def convertCondition (env : Ext) (c : Condition) : Go Condition := do
  let c := setRegex env (setNumbers env (convertMethod c))
  failIf (¬ env.reOk c.value ∧ c.method ∈ regexMethods) .badRegex
  let re2 := compile env (convertStringToRegex c.value c.origMethod)
  let c ← handleLabels { c with valueStringRegex := re2 }
  let c ← handleJsonpath (handleObjects c)
  failIf (¬ (c.attrIsJsonpath ∨ c.attrIsJsonpathRelative) ∧ re2.isNone) .badRegex
  pure c

/-- conditions_tree.go:384-399. -/
def prepareJsonpathQuery (env : Ext) (q : Str) : Go JPath :=
  let q := replaceAll q gs"$RELATIVE" gs"$"
  let q := if q = gs"$*" then gs"$.*" else q
  if contains q gs"$KEY" ∨ contains q gs"$VALUE" then .ok ⟨gs"$.*"⟩
  else match jpPrepare env q with
    | some p => .ok p
    | none => .error (.err .badJsonpath)

/-- conditions_tree.go:689-699: a json path condition gets its prepared query. -/
def Condition.setQuery (env : Ext) (c : Condition) : Go Condition :=
  if c.attrIsJsonpath then do
    let p ← prepareJsonpathQuery env c.jsonpathQuery
    pure { c with prepared := some p }
  else pure c

/-- conditions_tree.go:673-701. -/
def Condition.prepare (env : Ext) (t : Predef) (c : Condition) : Go Condition := do
  let c ← replaceStringsAndListsInCondition env c t
  let c ← validateOneCondition env c
  let c ← convertCondition env c
  c.setQuery env

/-- conditions_tree.go:372-381 and 557-565: split the parent path and append one prepared query per part. -/
def AnyAll.prepare (env : Ext) (a : AnyAll) : Go AnyAll := do
  let arr := split ',' a.parent
  let qs ← arr.mapM (prepareJsonpathQuery env)
  pure { a with parentArr := arr, queries := a.queries ++ qs }

mutual
/-- `PrepareAndValidate`: conditions_tree.go:142-150, 206-214, 233-238, 365-382, 551-568, 635-637, 655-657, 673-701.
Here the partially prepared tree is dropped on an error; `Node.prepareIn` in Model/InPlace keeps it. -/
def Node.prepare (env : Ext) (t : Predef) : Node → Go Node
  | .nil => .error (.panic .nilDeref)
  | .and ns => do let ns' ← prepareNodes env t ns; pure (.and ns')
  | .or ns => do let ns' ← prepareNodes env t ns; pure (.or ns')
  | .not n => do let n' ← Node.prepare env t n; pure (.not n')
  | .any a n => do let n' ← Node.prepare env t n; let a' ← a.prepare env; pure (.any a' n')
  | .all a n => do let n' ← Node.prepare env t n; let a' ← a.prepare env; pure (.all a' n')
  | .tt => pure .tt
  | .ff => pure .ff
  | .cond c => do let c' ← c.prepare env t; pure (.cond c')

/-- The loops over children, conditions_tree.go:143-148, 207-212. -/
def prepareNodes (env : Ext) (t : Predef) : List Node → Go (List Node)
  | [] => pure []
  | n :: ns => do let n' ← Node.prepare env t n; let ns' ← prepareNodes env t ns; pure (n' :: ns')
end

/-! ## Rules -/

/-- rules_load.go:147-180. The second component is the returned error; fields assigned before an error stay assigned. -/
def convertFieldsToRegex (env : Ext) (r : Rule) : Rule × Option Fail :=
  if r.converted then (r, none)
  else match convertStringToExpandedSenderReceiver env r.senderName r.senderType with
    | .error e => ({ r with senderList := [] }, some e)
    | .ok sl =>
      let r := { r with senderList := sl }
      match convertStringToExpandedSenderReceiver env r.receiverName r.receiverType with
      | .error e => ({ r with receiverList := [] }, some e)
      | .ok rl =>
        let r := { r with receiverList := rl }
        match compile env (convertOperationStringToRegex r.operation) with
        | none => (r, some (.err .badRegex))
        | some opRe =>
          let r := { r with operationRegex := some opRe }
          match compile env (convertStringToRegex r.resourceName gs"WithWildcards") with
          | none => (r, some (.err .badRegex))
          | some re => ({ r with resourceNameRegex := some re, converted := true }, none)

/-- `convertFieldsToRegex` for callers that stop at an error. -/
def convertFields (env : Ext) (r : Rule) : Go Rule :=
  match convertFieldsToRegex env r with
  | (r', none) => .ok r'
  | (_, some e) => .error e

/-- rules_load.go:219-224: preparation of the conditions tree of a rule, if any. -/
def prepareConditions (env : Ext) (t : Predef) (r : Rule) : Go Rule :=
  match r.conditions with
  | none => .ok r
  | some n => do let n' ← n.prepare env t; pure { r with conditions := some n' }

/-- rules_load.go:215-235. -/
def prepareOneRule (env : Ext) (t : Predef) (r : Rule) : Go Rule := do
  let r ← prepareConditions env t r
  let r ← replaceStringsAndListsInOneRule r t
  convertFields env r

end Mapl

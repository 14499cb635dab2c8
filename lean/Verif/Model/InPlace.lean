import Verif.Model.Check

/-!
# Preparation in place

`PrepareAndValidate` of the nodes and the functions of rules_load.go that call it change the values of the caller. `Model/Load` gives what they are after success;
here they are also followed when there is an error: everything that was assigned before stays assigned. Only what a panic leaves behind is not followed (the state is
then the one before the step that panics).
-/

namespace Mapl

/-- validate_conditions.go:19-36 in place: the numbers stay assigned if only the last checks fail. -/
def validateIn (env : Ext) (c : Condition) : Condition × Option Fail :=
  match (do validateAttribute c; validateMethod env c : Go Unit) with
  | .error e => (c, some e)
  | .ok _ => match convertAndValidateNumericalValues env c with
    | .error e => (setNumbers env c, some e)
    | .ok c' => (c', none)

/-- rules_load.go:328-389 in place. -/
def convertIn (env : Ext) (c : Condition) : Condition × Option Fail :=
  let c := setRegex env (setNumbers env (convertMethod c))
  if ¬ env.reOk c.value ∧ c.method ∈ regexMethods then (c, some (.err .badRegex))
  else
    let re2 := compile env (convertStringToRegex c.value c.origMethod)
    let c := { c with valueStringRegex := re2 }
    match (do let d ← handleLabels c; handleJsonpath (handleObjects d) : Go Condition) with
    | .error e => (c, some e)
    | .ok d => if ¬ (d.attrIsJsonpath ∨ d.attrIsJsonpathRelative) ∧ re2.isNone then (d, some (.err .badRegex)) else (d, none)

/-- `PrepareAndValidate` of a condition in place, conditions_tree.go:673-701. -/
def Condition.prepareIn (env : Ext) (t : Predef) (c : Condition) : Condition × Option Fail :=
  match replaceStringsAndListsInCondition env c t with
  | .error e => (c, some e)
  | .ok c => match validateIn env c with
    | (c, some e) => (c, some e)
    | (c, none) => match convertIn env c with
      | (c, some e) => (c, some e)
      | (c, none) => match c.setQuery env with
        | .error e => (c, some e)
        | .ok c => (c, none)

/-- Loops of conditions_tree.go:374-380 and 559-565 in place: queries are appended until one cannot be prepared. -/
def appendQueries (env : Ext) (done : List JPath) : List Str → List JPath × Option Fail
  | [] => (done, none)
  | q :: qs => match prepareJsonpathQuery env q with
    | .error e => (done, some e)
    | .ok p => appendQueries env (done ++ [p]) qs

/-- conditions_tree.go:372-381 and 557-567 in place. -/
def AnyAll.prepareIn (env : Ext) (a : AnyAll) : AnyAll × Option Fail :=
  let arr := split ',' a.parent
  let x := appendQueries env a.queries arr
  ({ a with parentArr := arr, queries := x.1 }, x.2)

mutual
/-- `PrepareAndValidate` in place: conditions_tree.go:142-150, 206-214, 233-238, 365-382, 551-568, 635-637, 655-657, 673-701. -/
def Node.prepareIn (env : Ext) (t : Predef) : Node → Node × Option Fail
  | .nil => (.nil, some (.panic .nilDeref))
  | .and ns => let x := prepareNodesIn env t ns; (.and x.1, x.2)
  | .or ns => let x := prepareNodesIn env t ns; (.or x.1, x.2)
  | .not n => let x := Node.prepareIn env t n; (.not x.1, x.2)
  | .any a n => match Node.prepareIn env t n with
    | (n, some e) => (.any a n, some e)
    | (n, none) => let x := a.prepareIn env; (.any x.1 n, x.2)
  | .all a n => match Node.prepareIn env t n with
    | (n, some e) => (.all a n, some e)
    | (n, none) => let x := a.prepareIn env; (.all x.1 n, x.2)
  | .tt => (.tt, none)
  | .ff => (.ff, none)
  | .cond c => let x := c.prepareIn env t; (.cond x.1, x.2)

/-- The loops over children, conditions_tree.go:143-148, 207-212: the children after the first error are not touched. -/
def prepareNodesIn (env : Ext) (t : Predef) : List Node → List Node × Option Fail
  | [] => ([], none)
  | n :: ns => match Node.prepareIn env t n with
    | (n, some e) => (n :: ns, some e)
    | (n, none) => let x := prepareNodesIn env t ns; (n :: x.1, x.2)
end

/-- rules_load.go:219-224 in place. -/
def prepareConditionsIn (env : Ext) (t : Predef) (r : Rule) : Rule × Option Fail :=
  match r.conditions with
  | none => (r, none)
  | some n => let x := n.prepareIn env t; ({ r with conditions := some x.1 }, x.2)

/-- rules_load.go:237-265 in place: the sender stays replaced if the receiver cannot be. -/
def replaceNamesIn (t : Predef) (r : Rule) : Rule × Option Fail :=
  match replaceName r.senderName t with
  | .error e => (r, some e)
  | .ok s =>
    let r := { r with senderName := s }
    match replaceName r.receiverName t with
    | .error e => (r, some e)
    | .ok v => ({ r with receiverName := v }, none)

/-- `PrepareOneRuleWithPredefinedStrings` in place, rules_load.go:215-235. -/
def prepareOneRuleIn (env : Ext) (t : Predef) (r : Rule) : Rule × Option Fail :=
  match prepareConditionsIn env t r with
  | (r, some e) => (r, some e)
  | (r, none) => match replaceNamesIn t r with
    | (r, some e) => (r, some e)
    | (r, none) => convertFieldsToRegex env r

/-- The loops of rules_load.go:184-190 and 206-212: the rules after the first error are not touched. -/
def prepareEach (f : Rule → Rule × Option Fail) : List Rule → List Rule × Option Fail
  | [] => ([], none)
  | r :: rs => match f r with
    | (r, some e) => (r :: rs, some e)
    | (r, none) => let x := prepareEach f rs; (r :: x.1, x.2)

/-- `PrepareRulesWithPredefinedStrings`, rules_load.go:204-213. -/
def prepareRulesWithPredefinedStrings (env : Ext) (t : Predef) (rs : List Rule) : List Rule × Option Fail := prepareEach (prepareOneRuleIn env t) rs

/-- `PrepareRules` and `PrepareOneRule`, rules_load.go:182-202: only the fields are converted. -/
def prepareRules (env : Ext) (rs : List Rule) : List Rule × Option Fail := prepareEach (convertFieldsToRegex env) rs

end Mapl

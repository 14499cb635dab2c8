import Verif.Model.Eval
import Verif.Model.Marshal

/-!
# Preparation state of rules and checking of messages

/repo/MAPL_engine/rules_load.go:18-25, 64-96, 551-570 and check.go:34-259.
-/

namespace Mapl

/-! ## Preparation -/

/-- rules_load.go:18-25: the new global table and the returned error; the global table is written only on success. -/
def setGlobal (global t : Predef) : Predef × Option Fail :=
  match validatePredefinedString t with
  | .ok t' => (t', none)
  | .error e => (global, some e)

/-- rules_load.go:64-86: the rule afterwards and the returned error. A panic (outer failure) has no state. -/
def RuleObj.setPredefined (env : Env) (p : List Nat) (t : Predef) (r : RuleObj) : Go (RuleObj × Option Err) :=
  let r := { r with ready := false }
  match copyRule env p r.body with
  | .error (.panic x) => .error (.panic x)
  | .error (.err e) => .ok (r, some e)
  | .ok copy =>
    let r := { r with predefined := t }
    match prepareOneRule env t copy with
    | .error (.panic x) => .error (.panic x)
    | .error (.err e) => .ok (r, some e)
    | .ok copy' => .ok ({ r with prepared := some copy', ready := true }, none)

/-- The lazy preparation at check.go:103-105, 250-252: the error is dropped. -/
def RuleObj.ensure (env : Env) (p : List Nat) (global : Predef) (r : RuleObj) : Go RuleObj :=
  if r.ready then .ok r else (r.setPredefined env p global).map (·.1)

/-- rules_load.go:88-96. -/
def RuleObj.getPreparedRule (r : RuleObj) : Option Rule := if r.ready then r.prepared else some {}

/-- rules_load.go:551-570. -/
def validateRule (env : Env) (p : List Nat) (r : Rule) : Go Unit := do
  let r2 ← copyRule env p r
  let r2 ← convertFields env r2
  match r2.conditions with
  | none => pure ()
  | some n => do let _ ← n.prepare env {}; pure ()

/-! ## Sender and receiver -/

/-- Loop of check.go:185-206. -/
def senderLoop (env : Ext) (m : Msg) : List ExpandedSR → Go Bool
  | [] => .ok false
  | e :: es =>
    if e.type = gs"subnet" then
      let temp := if e.isIP then e.name == m.sourceIp else false
      let temp := if e.isCIDR then e.cidr.contains m.sourceNetIp else temp
      if temp then .ok true else senderLoop env m es
    else if e.type = gs"*" ∨ e.type = gs"workload" then do
      let temp ← matchPtr env e.regexp m.sourceService
      if temp then pure true else senderLoop env m es
    else .ok false

/-- Loop of check.go:217-243. -/
def receiverLoop (env : Ext) (m : Msg) : List ExpandedSR → Go Bool
  | [] => .ok false
  | e :: es =>
    if e.type = gs"subnet" then
      let temp := if e.isIP then e.name == m.destinationIp else false
      let temp := if e.isCIDR then e.cidr.contains m.destinationNetIp else temp
      if temp then .ok true else receiverLoop env m es
    else if e.type = gs"hostname" then do
      let temp ← matchPtr env e.regexp m.requestHost
      if temp then pure true else receiverLoop env m es
    else if e.type = gs"*" ∨ e.type = gs"workload" then do
      let temp ← matchPtr env e.regexp m.destinationService
      if temp then pure true else receiverLoop env m es
    else .ok false

/-- check.go:180-182, 212-214: conversion on first use; a failure is ignored. -/
def convertOnUse (env : Ext) (r : Rule) : Rule := if r.converted then r else (convertFieldsToRegex env r).1

/-- check.go:178-208: the answer; the rule passed in becomes `convertOnUse env r`. -/
def testSender (env : Ext) (r : Rule) (m : Msg) : Go Bool := senderLoop env m (convertOnUse env r).senderList

/-- check.go:210-245. -/
def testReceiver (env : Ext) (r : Rule) (m : Msg) : Go Bool := receiverLoop env m (convertOnUse env r).receiverList

/-! ## Conditions -/

/-- check.go:248-259 on the rule after lazy preparation. -/
def testPreparedConditions (env : Env) (p : List Nat) (prepared : Option Rule) (m : Msg) : Go EvalOut := do
  let r ← deref prepared
  match r.conditions with
  | some n => eval env n p m
  | none => pure ⟨false, [], m⟩

/-- check.go:248-259. -/
def RuleObj.testConditions (env : Env) (global : Predef) (p : List Nat) (r : RuleObj) (m : Msg) :
    Go (EvalOut × RuleObj) := do
  let r ← r.ensure env (0 :: p) global
  let o ← testPreparedConditions env (1 :: p) r.prepared m
  pure (o, r)

/-! ## One rule -/

/-- check.go:18-24. -/
abbrev DEFAULT : Nat := 0
abbrev ALLOW : Nat := 1
abbrev ALERT : Nat := 2
abbrev BLOCK : Nat := 3
abbrev NONE : Nat := 4

/-- check.go:26-32. -/
def decisionNames : List Str :=
  [gs"rules do not apply to message - block by default", gs"allow", gs"alert", gs"block", gs"none"]

/-- check.go:127-148: comparison of protocol and resource. -/
def testResource (env : Ext) (r : Rule) (m : Msg) : Go Bool :=
  if r.protocol = gs"tcp" then matchPtr env r.resourceNameRegex m.destinationPort
  else if r.protocol ≠ gs"*" then
    if ¬ equalFold m.contextProtocol r.protocol then .ok false
    else if r.resourceType ≠ gs"*" ∧ m.contextType ≠ r.resourceType then .ok false
    else matchPtr env r.resourceNameRegex m.requestPath
  else .ok true

/-- check.go:163-171. -/
def decisionCode (s : Str) : Nat :=
  if s = gs"allow" ∨ s = gs"ALLOW" ∨ s = gs"Allow" then ALLOW
  else if s = gs"alert" ∨ s = gs"ALERT" ∨ s = gs"Alert" then ALERT
  else if s = gs"block" ∨ s = gs"BLOCK" ∨ s = gs"Block" then BLOCK
  else DEFAULT

/-- What `CheckOneRule` returns, the message and the rule afterwards. -/
structure RuleOut where
  result : Nat
  extra : List Extra
  msg : Msg
  rule : RuleObj

/-- check.go:101-172. -/
def RuleObj.check (env : Env) (global : Predef) (p : List Nat) (r : RuleObj) (m : Msg) : Go RuleOut := do
  let r ← r.ensure env (0 :: p) global
  let rule ← deref r.prepared
  -- TestSender converts the prepared rule on first use; later steps see the converted rule
  let rule := convertOnUse env rule
  let r := { r with prepared := some rule }
  if ¬ (← testSender env rule m) then return ⟨DEFAULT, [], m, r⟩
  if ¬ (← testReceiver env rule m) then return ⟨DEFAULT, [], m, r⟩
  if ¬ (← matchPtr env rule.operationRegex m.requestMethod) then return ⟨DEFAULT, [], m, r⟩
  if ¬ (← testResource env rule m) then return ⟨DEFAULT, [], m, r⟩
  let (o, r) ← match rule.conditions with
    | some _ => r.testConditions env global (1 :: p) m
    | none => pure (⟨true, [], m⟩, r)
  if o.flag = false then return ⟨DEFAULT, [], o.msg, r⟩
  let d := decisionCode rule.decision
  return ⟨d, if d = DEFAULT then [] else o.extra, o.msg, r⟩

/-! ## All rules -/

/-- check.go:70-74. -/
def describe (r : RuleObj) : Str := (lookup gs"description" r.body.metadata).getD []

/-- Loop of check.go:68-75. `in_rule` is a copy of the rule, so what happens to it is lost; the message is shared.
`i` is the index. -/
def checkRules (env : Env) (global : Predef) (i : Nat) (m : Msg) : List RuleObj → Go (List (Nat × List Extra) × Msg)
  | [] => .ok ([], m)
  | r :: rs => do
    let o ← r.check env global [i] m
    let rest ← checkRules env global (i + 1) o.msg rs
    pure ((o.result, o.extra) :: rest.1, rest.2)

/-- Variables of the loop of check.go:79-93. -/
structure Agg where
  applied : List Nat := []
  relevant : Int := -1
  maxDecision : Nat := DEFAULT
  description : Str := []
  deriving DecidableEq

/-- Loop of check.go:84-93 over (result, description) from index `i`. -/
def aggregate (i : Nat) (a : Agg) : List (Nat × Str) → Agg
  | [] => a
  | (res, desc) :: rest =>
    let a := if res > DEFAULT then { a with applied := a.applied ++ [i] } else a
    let a := if res > a.maxDecision then { a with maxDecision := res, description := desc, relevant := i } else a
    aggregate (i + 1) a rest

/-- The seven values returned by `Check`, and the message afterwards. -/
structure CheckOut where
  decision : Nat
  decisionString : Str
  relevantRuleIndex : Int
  results : List Nat
  appliedRulesIndices : List Nat
  ruleDescription : Str
  extraData : List (List Extra)
  msg : Msg

/-- check.go:34-98 (the branch for parallel checking, lines 46-64, is dead code). -/
def check (env : Env) (global : Predef) (m : Msg) (rules : List RuleObj) : Go CheckOut := do
  let (outs, m') ← checkRules env global 0 m rules
  let results := outs.map (·.1)
  let a := aggregate 0 {} (results.zip (rules.map describe))
  match decisionNames[a.maxDecision]? with
  | none => .error (.panic .outOfRange)
  | some name => pure ⟨a.maxDecision, name, a.relevant, results, a.applied, a.description, outs.map (·.2), m'⟩

end Mapl

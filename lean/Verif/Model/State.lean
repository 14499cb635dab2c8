import Verif.Model.Check
import Verif.Model.Mongo

/-!
# Histories of calls on a set of rules

The package has one global variable (rules_load.go:16) and every rule has a preparation state (definitions_rule.go:114-116).
This file models sequences of calls of the exported functions that read or write that state. Message values are given anew
with every call (C08 shows that calls leave them as they were). A panic ends the history.
-/

namespace Mapl

/-- The global variable and the rules of the caller. -/
structure World where
  global : Predef := {}
  rules : List RuleObj := []

/-- The exported functions that read or write the state. -/
inductive Op
  /-- `SetGlobalPredefinedStringsAndLists(t)` -/
  | setGlobal (t : Predef)
  /-- `rules.Rules[i].SetPredefinedStringsAndLists(t)` -/
  | setRule (i : Nat) (t : Predef)
  /-- `rules.Rules[i].Check(&m)` -/
  | checkRule (i : Nat) (m : Msg)
  /-- `rules.Rules[i].TestConditions(&m)` -/
  | testRule (i : Nat) (m : Msg)
  /-- `rules.Rules[i].ToMongoQuery(base)` -/
  | toMongo (i : Nat) (base : Str)
  /-- `Check(&m, &rules)` -/
  | checkAll (m : Msg)

/-- What they return. -/
inductive Answer
  /-- the error is nil -/
  | status (ok : Bool)
  | verdict (decision : Nat) (extra : List Extra)
  | flag (flag : Bool) (extra : List Extra)
  /-- a query, or an error -/
  | query (q : Go MResult)
  | report (out : CheckOut)

/-- `rules.Rules[i]`. -/
def World.rule (w : World) (i : Nat) : Go RuleObj :=
  match w.rules[i]? with
  | some r => .ok r
  | none => .error (.panic .outOfRange)

/-- The rule at index `i` is replaced (its fields were assigned through a pointer). -/
def World.put (w : World) (i : Nat) (r : RuleObj) : World := { w with rules := w.rules.set i r }

/-- One call: rules_load.go:18-25, 64-86, check.go:34-98, 101-172, 248-263 and rule_mongo_plugin.go:17-40. `Check` works on copies of the rules
(the loop variable of check.go:68), so it leaves them as they are. -/
def step (env : Env) (w : World) : Op → Go (World × Answer)
  | .setGlobal t =>
    let x := setGlobal w.global t
    .ok ({ w with global := x.1 }, .status x.2.isNone)
  | .setRule i t => do
    let r ← w.rule i
    let x ← r.setPredefined env [] t
    pure (w.put i x.1, .status x.2.isNone)
  | .checkRule i m => do
    let r ← w.rule i
    let o ← r.check env w.global [] m
    pure (w.put i o.rule, .verdict o.result o.extra)
  | .testRule i m => do
    let r ← w.rule i
    let o ← r.testConditions env w.global [] m
    pure (w.put i o.2, .flag o.1.flag o.1.extra)
  | .toMongo i base => do
    let r ← w.rule i
    let o ← r.toMongoQuery env w.global [] base
    pure (w.put i o.1, .query o.2)
  | .checkAll m => do
    let out ← check env w.global m w.rules
    pure (w, .report out)

/-- The choices of map orders made during call number `k` of a history. -/
def Env.call (env : Env) (k : Nat) : Env := { env with ord := fun p l => env.ord (p ++ [k]) l }

/-- A history, beginning with call number `k`. -/
def run (env : Env) (k : Nat) (w : World) : List Op → Go (World × List Answer)
  | [] => .ok (w, [])
  | op :: ops => do
    let x ← step (env.call k) w op
    let rest ← run env (k + 1) x.1 ops
    pure (rest.1, x.2 :: rest.2)

end Mapl

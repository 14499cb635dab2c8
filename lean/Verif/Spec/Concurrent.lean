import Verif.Model.Concurrent

/-! # Specification vocabulary for checks that run at the same time -/

namespace Mapl.Spec

/-- A call of `Check` in its own goroutine. `env` fixes the orders in which its map iterations run. -/
structure Job where
  env : Env
  global : Predef
  rules : List RuleObj
  /-- where its message is -/
  addr : Nat

/-- All goroutines are started. -/
def start (heap : Nat → Msg) (jobs : List Job) : Config CheckOut :=
  ⟨heap, jobs.map fun j => ⟨j.addr, checkP j.env j.global j.rules⟩⟩

/-- What the call returns when nothing else runs. -/
def Job.alone (j : Job) (heap : Nat → Msg) : Go CheckOut := check j.env j.global (heap j.addr) j.rules

/-- The seven values that `Check` returns. -/
def CheckOut.values (o : CheckOut) : Nat × Str × Int × List Nat × List Nat × Str × List (List Extra) :=
  (o.decision, o.decisionString, o.relevantRuleIndex, o.results, o.appliedRulesIndices, o.ruleDescription, o.extraData)

/-- The path does not start at the current element. -/
def AbsolutePath (s : Str) : Prop := ¬ hasPrefix s gs"$RELATIVE" ∧ ¬ hasPrefix s gs"$KEY" ∧ ¬ hasPrefix s gs"$VALUE"

/-- No path of the (prepared) tree starts at the current element of an ANY or ALL. -/
def AbsoluteTree : Node → Prop
  | .cond c => c.attrIsJsonpathRelative = false ∧ ∀ ret, c.ret = some ret → ∀ r ∈ ret, r.rel = false
  | .and ns => ∀ n ∈ ns, AbsoluteTree n
  | .or ns => ∀ n ∈ ns, AbsoluteTree n
  | .not n => AbsoluteTree n
  | .any a n => (AbsolutePath a.parent ∧ (∀ q ∈ a.parentArr, AbsolutePath q) ∧ ∀ r ∈ a.ret, r.rel = false) ∧ AbsoluteTree n
  | .all a n => (AbsolutePath a.parent ∧ (∀ q ∈ a.parentArr, AbsolutePath q) ∧ ∀ r ∈ a.ret, r.rel = false) ∧ AbsoluteTree n
  | .nil => True
  | .tt => True
  | .ff => True

/-- The conditions of the rule, as prepared for the check, have only such paths. A rule that was not prepared successfully has no
prepared form from an earlier time. -/
def AbsoluteRule (env : Env) (g : Predef) (r : RuleObj) : Prop :=
  (r.ready = true ∨ r.prepared = none) ∧
  ∀ p r' rule n, r.ensure env p g = .ok r' → r'.prepared = some rule → rule.conditions = some n → AbsoluteTree n

/-- Goroutine `i` gets its turn again and again. -/
def Fair (schedule : Nat → Nat) (k : Nat) : Prop := ∀ i < k, ∀ n, ∃ n' ≥ n, schedule n' = i

end Mapl.Spec

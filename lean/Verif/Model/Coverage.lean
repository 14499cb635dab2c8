import Verif.Model.State

/-!
# Coverage of messages by rules

/repo/MAPL_engine/coverage.go. Logging is left out.
-/

namespace Mapl

/-- `m[k] = v` on a map. -/
def mapSet {α : Type} (k : Str) (v : α) : List (Str × α) → List (Str × α)
  | [] => [(k, v)]
  | (k', v') :: rest => if k = k' then (k, v) :: rest else (k', v') :: mapSet k v rest

/-- coverage.go:7-12. -/
structure MessageCoverage where
  covered : Bool
  decision : Nat
  ids : List Str
  decisions : List Nat
  deriving DecidableEq

/-- coverage.go:20-25. The empty slice is shared by all entries, but appending to it makes a new one. -/
def emptyCoverage (rules : List RuleObj) : List (Str × List Str) :=
  rules.foldl (fun rc r => mapSet r.body.ruleID [] rc) []

/-- coverage.go:32-35: the ids of the rules with these indices. -/
def appliedIds (rules : List RuleObj) : List Nat → Go (List Str)
  | [] => .ok []
  | i :: is =>
    match rules[i]? with
    | none => .error (.panic .outOfRange)
    | some r => do
      let rest ← appliedIds rules is
      pure (r.body.ruleID :: rest)

/-- coverage.go:36, for all iterations of the loop: the message is appended to the entry of each id. (In the code this
happens in the same loop as `appliedIds`; neither reads what the other one writes.) -/
def addMessage (id : Str) : List Str → List (Str × List Str) → List (Str × List Str)
  | [], rc => rc
  | r :: rs, rc => addMessage id rs (mapSet r ((lookup r rc).getD [] ++ [id]) rc)

/-- coverage.go:56-65, the second value. -/
def nonDefaultDecisions (results : List Nat) : List Nat := results.filter fun v => v != DEFAULT

/-- Loop of coverage.go:29-48, from message number `k`. Each iteration has map orders of its own. -/
def coverLoop (env : Env) (global : Predef) (rules : List RuleObj) (k : Nat) :
    List Msg → List (Str × MessageCoverage) × List (Str × List Str) → Go (List (Str × MessageCoverage) × List (Str × List Str))
  | [], acc => .ok acc
  | m :: ms, (mc, rc) => do
    let out ← check (env.call k) global m rules
    let ids ← appliedIds rules out.appliedRulesIndices
    let rc := addMessage m.messageID ids rc
    let flag := if out.decision ≠ DEFAULT then true else false
    let mc := mapSet m.messageID ⟨flag, out.decision, ids, nonDefaultDecisions out.results⟩ mc
    coverLoop env global rules (k + 1) ms (mc, rc)

/-- coverage.go:14-54: `messageCoverage` and `ruleCoverage`. -/
def coverage (env : Env) (global : Predef) (messages : List Msg) (rules : List RuleObj) :
    Go (List (Str × MessageCoverage) × List (Str × List Str)) :=
  coverLoop env global rules 0 messages ([], emptyCoverage rules)

end Mapl

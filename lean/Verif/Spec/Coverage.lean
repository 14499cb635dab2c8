import Mathlib.Data.List.Forall2
import Verif.Model.Coverage
import Verif.Spec.Check

/-! # Specification vocabulary for coverage -/

namespace Mapl.Spec

/-- `outs` are answers that `Check` can give for the messages `ms`, one by one. -/
def CheckAnswers (env : Env) (g : Predef) (rules : List RuleObj) (ms : List Msg) (outs : List CheckOut) : Prop :=
  List.Forall₂ (fun m out => ∃ env', Run env env' ∧ check env' g m rules = .ok out) ms outs

/-- The rules that apply, with their results: those with another result than `default`. -/
def applying (rules : List RuleObj) (out : CheckOut) : List (RuleObj × Nat) :=
  (rules.zip out.results).filter fun x => x.2 ≠ Decision.default.rank

/-- The report on a message with this answer. -/
def reported (rules : List RuleObj) (out : CheckOut) : MessageCoverage where
  covered := out.decision ≠ Decision.default.rank
  decision := out.decision
  ids := (applying rules out).map fun x => x.1.body.ruleID
  decisions := (applying rules out).map fun x => x.2

/-- A rule with this id applies. -/
def appliesId (rules : List RuleObj) (id : Str) (out : CheckOut) : Bool := (applying rules out).any fun x => x.1.body.ruleID = id

end Mapl.Spec

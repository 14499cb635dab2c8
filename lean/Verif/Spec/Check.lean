import Verif.Model.Check

/-! # Specification vocabulary for `Check` -/

namespace Mapl.Spec

/-- The four possible verdicts on a message. -/
inductive Decision
  | default
  | allow
  | alert
  | block
  deriving DecidableEq

/-- Increasing severity; also the number by which the API reports the verdict. -/
def Decision.rank : Decision → Nat
  | .default => 0
  | .allow => 1
  | .alert => 2
  | .block => 3

/-- The text by which the API reports the verdict. -/
def Decision.text : Decision → Str
  | .default => gs"rules do not apply to message - block by default"
  | .allow => gs"allow"
  | .alert => gs"alert"
  | .block => gs"block"

/-- `d` is the most severe of `ds`, and `default` if there are none. -/
def MostSevere (ds : List Decision) (d : Decision) : Prop :=
  (d = .default ∨ d ∈ ds) ∧ ∀ x ∈ ds, x.rank ≤ d.rank

/-- `env'` is another execution with the same libraries: only the order in which maps are iterated may differ. -/
structure Run (env env' : Env) : Prop where
  ext : env'.toExt = env.toExt
  ord : env'.OrdOk

/-- Checking rule `r` alone (`rule.Check(message)`) can give verdict `d` with extra data `e`. -/
def Verdict (env : Env) (global : Predef) (m : Msg) (r : RuleObj) (d : Decision) (e : List Extra) : Prop :=
  ∃ env' p o, Run env env' ∧ r.check env' global p m = .ok o ∧ o.result = d.rank ∧ o.extra = e

/-- Checking `r` alone can only have one decision: map order is not observable in it. (The extra data may still be listed
in different orders.) -/
def Determined (env : Env) (global : Predef) (m : Msg) (r : RuleObj) : Prop :=
  ∀ d e d' e', Verdict env global m r d e → Verdict env global m r d' e' → d = d'

end Mapl.Spec

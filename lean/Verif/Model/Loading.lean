import Verif.Model.State

/-!
# Loading rules together with a table

/repo/MAPL_engine/rules_load.go:98-120. The decoding of the YAML text is not modelled here: the list is what it gives.
-/

namespace Mapl

/-- Loop of rules_load.go:107-112 and the returns after it: the rules and the error. The rules are decoded into fresh objects, so
each is a body without preparation state. -/
def loadLoop (env : Env) (t : Predef) : Nat → List Rule → List RuleObj → Go (List RuleObj × Option Err)
  | _, [], done => .ok (done, none)
  | i, b :: bs, done =>
    match ({ body := b } : RuleObj).setPredefined env [i] t with
    | .error e => .error e
    | .ok (_, some e) => .ok ([], some e)
    | .ok (r, none) => loadLoop env t (i + 1) bs (done ++ [r])

/-- rules_load.go:98-120, after the decoding. -/
def loadWithTables (env : Env) (t : Predef) (bodies : List Rule) : Go (List RuleObj × Option Err) := loadLoop env t 0 bodies []

end Mapl

import Verif.Spec.Narrow
import Verif.Spec.Concurrent

/-! # Policies that are checked while other checks run (C59) -/

namespace Mapl.Spec

mutual
/-- All paths of the statement, as written, start at the document. -/
def Statement.FromDocument : Statement → Prop
  | .cond a _ _ => ∀ q, a = gs"jsonpath:" ++ q → AbsolutePath q
  | .and fs => Statement.AllFromDocument fs
  | .or fs => Statement.AllFromDocument fs
  | .not f => f.FromDocument
  | .any q f => (∃ rs, q = .document rs) ∧ f.FromDocument
  | .all q f => (∃ rs, q = .document rs) ∧ f.FromDocument

def Statement.AllFromDocument : List Statement → Prop
  | [] => True
  | f :: fs => f.FromDocument ∧ Statement.AllFromDocument fs
end

end Mapl.Spec

import Verif.Spec.Copy

/-!
# Tables for preparing again
-/

namespace Mapl.Spec

/-- The tables `t'` give everything that is defined in `t` the same meaning. -/
structure Extends (t t' : Predef) : Prop where
  lists : ∀ k l, lookup k t.listsNoRefs = some l → lookup k t'.listsNoRefs = some l
  strings : ∀ k s, lookup k t.listsNoRefs = none → lookup k t.strings = some s → lookup k t'.listsNoRefs = none ∧ lookup k t'.strings = some s

/-- A text that can be stored in the place of a reference: not empty, no control characters, and no reference itself. -/
def Settled (s : Str) : Prop := s ≠ [] ∧ NoControl s ∧ ∀ k, s ≠ '#' :: k

/-- All that the tables define can be stored. -/
structure SettledTables (t : Predef) : Prop where
  lists : ∀ k l, lookup k t.listsNoRefs = some l → Settled (join gs"," l) ∧ Settled (join gs"|" l)
  strings : ∀ k s, lookup k t.strings = some s → Settled s

end Mapl.Spec

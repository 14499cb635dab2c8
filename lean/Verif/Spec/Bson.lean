import Verif.Model.Bson
import Verif.Spec.JsonRule
import Verif.Spec.State

/-!
# Rules in a database
-/

namespace Mapl.Spec

/-- The same map: the order of the entries does not matter. -/
abbrev SameMap {α : Type} (l l' : List α) : Prop := l.Perm l'

mutual
/-- The same tree: the maps of return values are the same maps, everything else is equal. -/
inductive SameTree : Node → Node → Prop
  | nil : SameTree .nil .nil
  | and {ns ns'} (h : SameTrees ns ns') : SameTree (.and ns) (.and ns')
  | or {ns ns'} (h : SameTrees ns ns') : SameTree (.or ns) (.or ns')
  | not {n n'} (h : SameTree n n') : SameTree (.not n) (.not n')
  | any {a n n'} {ret : List RetVal} (hr : SameMap a.ret ret) (h : SameTree n n') : SameTree (.any a n) (.any { a with ret := ret } n')
  | all {a n n'} {ret : List RetVal} (hr : SameMap a.ret ret) (h : SameTree n n') : SameTree (.all a n) (.all { a with ret := ret } n')
  | tt : SameTree .tt .tt
  | ff : SameTree .ff .ff
  | cond (c : Condition) : SameTree (.cond c) (.cond c)
  | condRet {c : Condition} {ret ret' : List RetVal} (hc : c.ret = some ret) (hr : SameMap ret ret') : SameTree (.cond c) (.cond { c with ret := some ret' })

inductive SameTrees : List Node → List Node → Prop
  | nil : SameTrees [] []
  | cons {n n' ns ns'} (h : SameTree n n') (hs : SameTrees ns ns') : SameTrees (n :: ns) (n' :: ns')
end

/-- The same conditions. -/
def SameConditions (c c' : Option Node) : Prop := (c = none ∧ c' = none) ∨ ∃ n n', c = some n ∧ c' = some n' ∧ SameTree n n'

/-- The same rule: metadata and return values are the same maps, everything else is equal. -/
def StoredAs (r r' : Rule) : Prop :=
  ∃ md c, SameMap r.metadata md ∧ SameConditions r.conditions c ∧ r' = { r with metadata := md, conditions := c }

/-- The key has no character NUL. -/
def NoNul (k : Str) : Prop := ∀ c ∈ k, c ≠ Char.ofNat 0

mutual
/-- No name of a return value has the character NUL. -/
def NamesOk : Node → Prop
  | .and ns => NamesOkAll ns
  | .or ns => NamesOkAll ns
  | .not n => NamesOk n
  | .any a n => (∀ r ∈ a.ret, NoNul r.name) ∧ NamesOk n
  | .all a n => (∀ r ∈ a.ret, NoNul r.name) ∧ NamesOk n
  | .cond c => ∀ ret ∈ c.ret, ∀ r ∈ ret, NoNul r.name
  | _ => True

def NamesOkAll : List Node → Prop
  | [] => True
  | n :: ns => NamesOk n ∧ NamesOkAll ns
end

/-- A rule that can be stored: it can be written to JSON (`Storable`), and the names of its metadata and return values have no character NUL. -/
structure BsonStorable (env : Ext) (r : Rule) : Prop extends Storable env r where
  converted : r.converted = false
  keys : ∀ x ∈ r.metadata, NoNul x.1
  names : ∀ n, r.conditions = some n → NamesOk n

/-- Two answers of a check are the same: the values that are returned are the same maps, everything else is equal. -/
structure AnswersAlike (o o' : CheckOut) : Prop where
  decision : o'.decision = o.decision
  decisionString : o'.decisionString = o.decisionString
  relevant : o'.relevantRuleIndex = o.relevantRuleIndex
  results : o'.results = o.results
  applied : o'.appliedRulesIndices = o.appliedRulesIndices
  description : o'.ruleDescription = o.ruleDescription
  extra : List.Forall₂ (List.Forall₂ SameMap) o.extraData o'.extraData
  msg : o'.msg = o.msg

/-- Two computations do the same: both fail in the same way, or both return, with related results. -/
inductive Outcomes {α β : Type} (R : α → β → Prop) : Go α → Go β → Prop
  | ok {a b} (h : R a b) : Outcomes R (.ok a) (.ok b)
  | error (e : Fail) : Outcomes R (.error e) (.error e)

end Mapl.Spec

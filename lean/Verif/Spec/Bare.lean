import Verif.Spec.Policy

/-! # Conditions and rules without return values -/

namespace Mapl.Spec

mutual
/-- The tree without the values that it asks to be returned. -/
def bare : Node → Node
  | .nil => .nil
  | .and ns => .and (bareAll ns)
  | .or ns => .or (bareAll ns)
  | .not n => .not (bare n)
  | .any a n => .any { a with ret := [] } (bare n)
  | .all a n => .all { a with ret := [] } (bare n)
  | .tt => .tt
  | .ff => .ff
  | .cond c => .cond { c with ret := none }

def bareAll : List Node → List Node
  | [] => []
  | n :: ns => bare n :: bareAll ns
end

/-- The rule without the values that its conditions ask to be returned. -/
def bareRule (r : Rule) : Rule := { r with conditions := r.conditions.map bare }

/-- Two rule objects that were loaded in the same way from a rule and from the same rule without return values. -/
def SameBut (env : Env) (global : Predef) (r r' : RuleObj) : Prop :=
  ∃ b t, Loaded env global r b t ∧ Loaded env global r' (bareRule b) t ∧ ∀ n, b.conditions = some n → Copyable env n

mutual
/-- Conditions ask for values of the element in scope only inside of ANY and ALL; `inside` says whether the tree is. -/
def Reported (inside : Bool) : Node → Prop
  | .and ns => ReportedAll inside ns
  | .or ns => ReportedAll inside ns
  | .not n => Reported inside n
  | .any _ n => Reported true n
  | .all _ n => Reported true n
  | .cond c => ∀ ret ∈ c.ret, ∀ r ∈ ret, r.rel = true → inside = true
  | _ => True

def ReportedAll (inside : Bool) : List Node → Prop
  | [] => True
  | n :: ns => Reported inside n ∧ ReportedAll inside ns
end

/-- The message has a document, and, inside of ANY and ALL, an element in the same representation. -/
def Documented (inside : Bool) (m : Msg) : Prop :=
  (m.rawI.isSome ∨ m.jsonRaw.isSome) ∧ (inside = true → (if m.rawI.isSome then m.rawIRel.isSome else m.jsonRawRel.isSome) = true)

end Mapl.Spec

import Verif.Spec.Leaf
import Verif.Spec.Ints
import Verif.Spec.Tree

/-! # The two representations of a document -/

namespace Mapl.Spec

/-- What is assumed of `strconv.ParseFloat` to compare the two representations: it reads every text that is an integer,
and no number begins with `#`, `$` or `r`. -/
structure NumbersOk (env : Ext) : Prop where
  int : ∀ s n, IntText s n → ∃ x, env.parseFloat s = some x
  start : ∀ c s x, env.parseFloat (c :: s) = some x → c ≠ '#' ∧ c ≠ '$' ∧ c ≠ 'r'

/-- A path shows the same in two messages, the first with a parsed document and the second with a text: the same scalar,
or nothing in either. -/
inductive SameValue (env : Ext) (msgI msgB : Msg) (q : Str) : Option Str → Prop
  | scalar {s} (hI : msgI.rawI.isSome) (hB : msgB.rawI = none) (h : SelectsText env msgI q s) (h' : SelectsText env msgB q s) :
      SameValue env msgI msgB q (some s)
  | nothing {x y} (h : SelectsI env msgI q x) (hx : NoValue x) (h' : SelectsB env msgB q y) (hy : NoText y) :
      SameValue env msgI msgB q none

/-- The one case in which the two implementations differ on a scalar: a comparison whose value is not a number with a
scalar that is one. -/
def NumberAgainstText (env : Ext) (m w s : Str) : Prop :=
  (∃ k : NumMethod, m ∈ k.spellings) ∧ parseNumber env w = none ∧ ∃ x, parseNumber env s = some x

mutual
/-- The conditions of a tree. -/
def leaves : Node → List Condition
  | .and ns => leavesOf ns
  | .or ns => leavesOf ns
  | .not n => leaves n
  | .any _ n => leaves n
  | .all _ n => leaves n
  | .cond c => [c]
  | _ => []

def leavesOf : List Node → List Condition
  | [] => []
  | n :: ns => leaves n ++ leavesOf ns
end

mutual
/-- The ANY and ALL nodes of a tree. -/
def quantifiers : Node → List AnyAll
  | .and ns => quantifiersOf ns
  | .or ns => quantifiersOf ns
  | .not n => quantifiers n
  | .any a n => a :: quantifiers n
  | .all a n => a :: quantifiers n
  | _ => []

def quantifiersOf : List Node → List AnyAll
  | [] => []
  | n :: ns => quantifiers n ++ quantifiersOf ns
end

end Mapl.Spec

namespace Mapl.Spec

/-- Two lists of messages match up to order and repetition. -/
def Matched (R : Msg → Msg → Prop) (l l' : List Msg) : Prop := (∀ m ∈ l, ∃ m' ∈ l', R m m') ∧ ∀ m' ∈ l', ∃ m ∈ l, R m m'

/-- The condition is true of one message exactly if it is true of the other. -/
def SameAnswer (env : Env) (c : Condition) (m m' : Msg) : Prop :=
  ∀ p p', (∃ e, testOneCondition env p c m = .ok (true, e)) ↔ ∃ e, testOneCondition env p' c m' = .ok (true, e)

/-- The ANY/ALL node selects matching elements in both messages. -/
def SameScopes (env : Env) (R : Msg → Msg → Prop) (a : AnyAll) (m m' : Msg) : Prop :=
  ∀ p p', (∀ l, scopes env p a m = .ok (some l) → ∃ l', scopes env p' a m' = .ok (some l') ∧ Matched R l l') ∧
    ∀ l', scopes env p' a m' = .ok (some l') → ∃ l, scopes env p a m = .ok (some l) ∧ Matched R l l'

end Mapl.Spec

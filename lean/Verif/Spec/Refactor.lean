import Verif.Spec.Check
import Verif.Spec.Match
import Verif.Spec.Copy

/-!
# Equivalent policies (C76)

Maps are iterated in any order, so a check has a set of possible outcomes. Two policies are equivalent if on every message
they can give the same decisions, and the one can fail exactly if the other can.
-/

namespace Mapl.Spec

/-- Some execution of `Check` decides `d`. -/
def CanDecide (env : Env) (global : Predef) (m : Msg) (rs : List RuleObj) (d : Decision) : Prop :=
  ∃ env' out, Run env env' ∧ check env' global m rs = .ok out ∧ out.decision = d.rank

/-- Some execution of `Check` does not return a decision. -/
def CanFail (env : Env) (global : Predef) (m : Msg) (rs : List RuleObj) : Prop :=
  ∃ env' x, Run env env' ∧ check env' global m rs = .error x

/-- The same decisions are possible, on every message. -/
structure Equivalent (env : Env) (global : Predef) (rs rs' : List RuleObj) : Prop where
  decisions : ∀ m d, CanDecide env global m rs d ↔ CanDecide env global m rs' d
  failures : ∀ m, CanFail env global m rs ↔ CanFail env global m rs'

/-- The rule with another sender name, as the parser would give it. -/
def sentBy (r : Rule) (name : Str) : RuleObj := { body := { r with senderName := name } }

/-- The rule with another receiver name. -/
def sentTo (r : Rule) (name : Str) : RuleObj := { body := { r with receiverName := name } }

/-- The rule with another operation. -/
def doing (r : Rule) (operation : Str) : RuleObj := { body := { r with operation } }

/-- The rule with another resource name. -/
def touching (r : Rule) (name : Str) : RuleObj := { body := { r with resourceName := name } }

/-- The words that stand for several operations. -/
def operationWords : List Str := [gs"*", gs"read", gs"READ", gs"write", gs"WRITE"]

/-- The rule with other conditions. -/
def provided (r : Rule) (n : Node) : RuleObj := { body := { r with conditions := some n } }

/-- Not a reference into the tables. -/
def PlainList (name : Str) : Prop := ∀ k, name ≠ gs"#" ++ k

/-- No evaluation of the tree fails, once it is prepared. -/
def NeverFails (env : Env) (global : Predef) (n : Node) : Prop :=
  ∀ env' a q m, Run env env' → n.prepare env global = .ok a → ∃ o, eval env' a q m = .ok o

/-- Laws for rewriting a tree of conditions. Those that change which children are evaluated ask the children to be safe. -/
inductive Law (safe : Node → Prop) : Node → Node → Prop
  | refl (n : Node) : Law safe n n
  | symm {a b : Node} : Law safe a b → Law safe b a
  | trans {a b c : Node} : Law safe a b → Law safe b c → Law safe a c
  | inNot {a b : Node} : Law safe a b → Law safe (.not a) (.not b)
  | inOr {a b : Node} (xs zs : List Node) : Law safe a b → Law safe (.or (xs ++ [a] ++ zs)) (.or (xs ++ [b] ++ zs))
  | inAnd {a b : Node} (xs zs : List Node) : Law safe a b → Law safe (.and (xs ++ [a] ++ zs)) (.and (xs ++ [b] ++ zs))
  | inAny {n n' : Node} (a : AnyAll) : Law safe n n' → Law safe (.any a n) (.any a n')
  | inAll {n n' : Node} (a : AnyAll) : Law safe n n' → Law safe (.all a n) (.all a n')
  | notNot (n : Node) : Law safe (.not (.not n)) n
  | oneOr (n : Node) : Law safe (.or [n]) n
  | oneAnd (n : Node) : Law safe (.and [n]) n
  | nestOr (xs ys zs : List Node) : Law safe (.or (xs ++ [.or ys] ++ zs)) (.or (xs ++ ys ++ zs))
  | nestAnd (xs ys zs : List Node) : Law safe (.and (xs ++ [.and ys] ++ zs)) (.and (xs ++ ys ++ zs))
  | orderOr {xs ys : List Node} : xs.Perm ys → Law safe (.or xs) (.or ys)
  | twiceOr (xs zs : List Node) (n : Node) : Law safe (.or (xs ++ [n, n] ++ zs)) (.or (xs ++ [n] ++ zs))
  | twiceAnd (xs zs : List Node) (n : Node) : Law safe (.and (xs ++ [n, n] ++ zs)) (.and (xs ++ [n] ++ zs))
  | orderAnd {xs ys : List Node} : (∀ n ∈ xs, safe n) → xs.Perm ys → Law safe (.and xs) (.and ys)
  | deMorgan (ns : List Node) : (∀ n ∈ ns, safe n) → Law safe (.not (.or ns)) (.and (ns.map .not))
  | distribute (n : Node) {ns : List Node} : ns ≠ [] → safe n → (∀ n ∈ ns, safe n) →
      Law safe (.and [n, .or ns]) (.or (ns.map fun x => .and [n, x]))
  /-- An element meets one of several conditions iff an element meets the first or an element meets the second or so on. -/
  | anyOr {a : AnyAll} {ns : List Node} : ns ≠ [] → a.ret = [] → (∀ n ∈ ns, safe n) → Law safe (.any a (.or ns)) (.or (ns.map (.any a)))
  /-- All elements meet several conditions iff all elements meet the first and all elements meet the second and so on. -/
  | allAnd (a : AnyAll) {ns : List Node} : ns ≠ [] → (∀ n ∈ ns, safe n) → Law safe (.all a (.and ns)) (.and (ns.map (.all a)))

end Mapl.Spec

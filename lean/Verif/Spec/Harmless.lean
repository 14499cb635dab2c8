import Verif.Spec.Panics
import Verif.Spec.Policy
import Verif.Spec.Copy

/-!
# Rules that never crash

Spec/Panics says for which messages a prepared condition crashes. Here the message is left out: which conditions, as they are written, crash for no message at all.
-/

namespace Mapl.Spec

/-- The condition `a m v`, with references replaced from the tables `t`, cannot crash. Sizes and times are compared with numbers; the encryption version is not asked for; nor are the
key and the value of an entry; and what is found in a document is compared with a number, unless no text holds a number there. -/
structure Harmless (env : Ext) (t : Predef) (a m v : Str) : Prop where
  size : a = gs"payloadSize" → Compares m → ∀ w, ValueResolves env t m v w → ∃ n, IntText w n
  hours : a = gs"utcHoursFromMidnight" → Compares m → ∀ w, ValueResolves env t m v w → ∃ x, parseNumber env w = some x
  version : a ≠ gs"encryptionVersion"
  entry : ∀ q, a = gs"jsonpath:" ++ q → ¬ (pathRel q = true ∧ AsksEntry q)
  number : ∀ q, a = gs"jsonpath:" ++ q → Compares m → ∀ w, ValueResolves env t m v w →
    (∃ x, parseNumber env w = some x) ∨ ∀ d, d ≠ [] → ¬ FoundNumber env (env.jsGet d (pathQuery q))

/-- A tree of such conditions, without return values, as it comes from the parser. -/
inductive HarmlessTree (env : Ext) (t : Predef) : Node → Prop
  | cond {a m v : Str} (h : Harmless env t a m v) : HarmlessTree env t (condNode env a m v none)
  | and {ns : List Node} (h : ∀ n ∈ ns, HarmlessTree env t n) : HarmlessTree env t (.and ns)
  | or {ns : List Node} (h : ∀ n ∈ ns, HarmlessTree env t n) : HarmlessTree env t (.or ns)
  | not {n : Node} (h : HarmlessTree env t n) : HarmlessTree env t (.not n)
  | any {parent : Str} {n : Node} (h : HarmlessTree env t n) : HarmlessTree env t (.any (anyFields env parent []) n)
  | all {parent : Str} {n : Node} (h : HarmlessTree env t n) : HarmlessTree env t (.all (anyFields env parent []) n)

/-- The tree has neither ANY nor ALL. -/
inductive Flat : Node → Prop
  | cond {c : Condition} : Flat (.cond c)
  | and {ns : List Node} (h : ∀ n ∈ ns, Flat n) : Flat (.and ns)
  | or {ns : List Node} (h : ∀ n ∈ ns, Flat n) : Flat (.or ns)
  | not {n : Node} (h : Flat n) : Flat (.not n)

/-- In judging the tree on a message, the ANY or ALL `a` may be judged on the message `m'`: the same one, but for the element in scope. -/
inductive Comes (env : Env) : Node → Msg → AnyAll → Msg → Prop
  | any {a n m} : Comes env (.any a n) m a m
  | all {a n m} : Comes env (.all a n) m a m
  | and {ns n m a m'} (hn : n ∈ ns) (h : Comes env n m a m') : Comes env (.and ns) m a m'
  | or {ns n m a m'} (hn : n ∈ ns) (h : Comes env n m a m') : Comes env (.or ns) m a m'
  | not {n m a m'} (h : Comes env n m a m') : Comes env (.not n) m a m'
  | inAny {a n m p l m' b m''} (hl : scopes env p a m = .ok (some l)) (hm : m' ∈ l) (h : Comes env n m' b m'') : Comes env (.any a n) m b m''
  | inAll {a n m p l m' b m''} (hl : scopes env p a m = .ok (some l)) (hm : m' ∈ l) (h : Comes env n m' b m'') : Comes env (.all a n) m b m''

/-- The rule, written as `b` and prepared with `t`, cannot crash: it can be prepared, and its conditions, if it has any, are harmless, without ANY and ALL. -/
structure RuleHarmless (env : Env) (t : Predef) (b : Rule) : Prop where
  accepted : ∃ copy rule, copyRule env [] b = .ok copy ∧ prepareOneRule env t copy = .ok rule
  copyable : ∀ n, b.conditions = some n → Copyable env n
  harmless : ∀ n, b.conditions = some n → HarmlessTree env t n ∧ Flat n

end Mapl.Spec

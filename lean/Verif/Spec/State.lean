import Verif.Model.State
import Verif.Spec.Check
import Mathlib.Data.List.Forall2

/-! # Which table a rule uses -/

namespace Mapl.Spec

/-- What an element of a predefined list stands for. -/
inductive Stands (strings : List (Str × Str)) : Str → Str → Prop
  | text {s : Str} (h : ∀ k, s ≠ '#' :: k) : Stands strings s s
  | reference {k s : Str} (h : lookup k strings = some s) : Stands strings ('#' :: k) s

/-- The table with the references in its lists replaced; strings and the lists as written are kept. -/
structure Validated (t t' : Predef) : Prop where
  strings : t'.strings = t.strings
  lists : t'.lists = t.lists
  resolved : List.Forall₂ (fun l l' => l'.1 = l.1 ∧ List.Forall₂ (Stands t.strings) l.2 l'.2) t.lists t'.listsNoRefs

/-- A rule as it comes from parsing. -/
def parsedRule (b : Rule) : RuleObj := { body := b }

/-- The tables: the global one, and those that single rules hold. -/
structure Tables where
  global : Predef := {}
  own : Nat → Option Predef := fun _ => none

/-- The table that the rule with index `i` uses. -/
def Tables.inForce (s : Tables) (i : Nat) : Predef := (s.own i).getD s.global

/-- The rule with index `i` holds the table `t`. -/
def Tables.hold (s : Tables) (i : Nat) (t : Predef) : Tables := { s with own := fun j => if j = i then some t else s.own j }

/-- How calls change the tables. A rule gets the table it is given, or, when it is used before that, keeps the global table
of that moment. `Check` changes nothing. Histories in which `SetPredefinedStringsAndLists` fails are not described here. -/
inductive Tables.Step (s : Tables) : Op → Answer → Tables → Prop
  | globalSet {t t' : Predef} (h : Validated t t') : Step s (.setGlobal t) (.status true) { s with global := t' }
  | globalRefused {t : Predef} (h : ¬ ∃ t', Validated t t') : Step s (.setGlobal t) (.status false) s
  | ruleSet {i : Nat} {t : Predef} : Step s (.setRule i t) (.status true) (s.hold i t)
  | ruleChecked {i : Nat} {m : Msg} {d : Nat} {e : List Extra} : Step s (.checkRule i m) (.verdict d e) (s.hold i (s.inForce i))
  | ruleTested {i : Nat} {m : Msg} {b : Bool} {e : List Extra} : Step s (.testRule i m) (.flag b e) (s.hold i (s.inForce i))
  | ruleTranslated {i : Nat} {base : Str} {q : Go MResult} : Step s (.toMongo i base) (.query q) (s.hold i (s.inForce i))
  | allChecked {m : Msg} {out : CheckOut} : Step s (.checkAll m) (.report out) s

/-- The answer to a call reports on the rules what checking the rules, as they come from parsing, with the tables in force
gives. -/
inductive Tables.Tells (env : Env) (bodies : List Rule) (s : Tables) : Op → Answer → Prop
  | setGlobal {t : Predef} {b : Bool} : Tells env bodies s (.setGlobal t) (.status b)
  | setRule {i : Nat} {t : Predef} {b : Bool} : Tells env bodies s (.setRule i t) (.status b)
  | checkRule {i : Nat} {m : Msg} {b : Rule} {d : Decision} {e : List Extra} (hb : bodies[i]? = some b)
      (h : Verdict env (s.inForce i) m (parsedRule b) d e) : Tells env bodies s (.checkRule i m) (.verdict d.rank e)
  | testRule {i : Nat} {m : Msg} {b : Rule} {f : Bool} {e : List Extra} (hb : bodies[i]? = some b)
      (h : ∃ env' p o r, Run env env' ∧ (parsedRule b).testConditions env' (s.inForce i) p m = .ok (o, r) ∧ o.flag = f ∧ o.extra = e) :
      Tells env bodies s (.testRule i m) (.flag f e)
  | toMongo {i : Nat} {base : Str} {b : Rule} {q : Go MResult} (hb : bodies[i]? = some b)
      (h : ∃ env' p r, Run env env' ∧ (parsedRule b).toMongoQuery env' (s.inForce i) p base = .ok (r, q)) :
      Tells env bodies s (.toMongo i base) (.query q)
  | checkAll {m : Msg} {out : CheckOut} (h1 : out.results.length = bodies.length) (h2 : out.extraData.length = bodies.length)
      (h : ∀ (i : Nat) (b : Rule), bodies[i]? = some b → ∃ (d : Decision) (e : List Extra), out.results[i]? = some d.rank ∧
        out.extraData[i]? = some e ∧ Verdict env (s.inForce i) m (parsedRule b) d e) :
      Tells env bodies s (.checkAll m) (.report out)

/-- A history as the tables describe it. -/
inductive Tables.Explains (env : Env) (bodies : List Rule) : Tables → List Op → List Answer → Tables → Prop
  | nil {s : Tables} : Explains env bodies s [] [] s
  | cons {s s' s'' : Tables} {op : Op} {a : Answer} {ops : List Op} {as : List Answer} (h1 : Tells env bodies s op a)
      (h2 : Step s op a s') (h3 : Explains env bodies s' ops as s'') : Explains env bodies s (op :: ops) (a :: as) s''

/-- No call of `SetPredefinedStringsAndLists` in the history failed. -/
def NoFailure (ops : List Op) (as : List Answer) : Prop :=
  ∀ (k i : Nat) (t : Predef), ops[k]? = some (.setRule i t) → as[k]? = some (.status true)

/-- The global table after a history: the last one that could be validated. -/
inductive GlobalAfter : Predef → List Op → Predef → Prop
  | nil {g : Predef} : GlobalAfter g [] g
  | set {g g' t t' : Predef} {ops : List Op} (h : Validated t t') (h' : GlobalAfter t' ops g') : GlobalAfter g (.setGlobal t :: ops) g'
  | refused {g g' t : Predef} {ops : List Op} (h : ¬ ∃ t', Validated t t') (h' : GlobalAfter g ops g') :
      GlobalAfter g (.setGlobal t :: ops) g'
  | other {g g' : Predef} {op : Op} {ops : List Op} (h : ∀ t, op ≠ .setGlobal t) (h' : GlobalAfter g ops g') :
      GlobalAfter g (op :: ops) g'

/-- What the answer `a` to the call `op` says about the rule with index `i` is what checking the parsed rule `b` with table
`t` can give. Calls that do not concern the rule may have any answer. -/
def SpeaksFor (env : Env) (i : Nat) (b : Rule) (t : Predef) (op : Op) (a : Answer) : Prop :=
  match op with
  | .checkRule j m => j = i → ∃ (d : Decision) (e : List Extra), a = .verdict d.rank e ∧ Verdict env t m (parsedRule b) d e
  | .testRule j m => j = i → ∃ env' p o r, Run env env' ∧ (parsedRule b).testConditions env' t p m = .ok (o, r) ∧ a = .flag o.flag o.extra
  | .toMongo j base => j = i → ∃ env' p r q, Run env env' ∧ (parsedRule b).toMongoQuery env' t p base = .ok (r, q) ∧ a = .query q
  | .checkAll m => ∃ (out : CheckOut) (d : Decision) (e : List Extra), a = .report out ∧ out.results[i]? = some d.rank ∧
      out.extraData[i]? = some e ∧ Verdict env t m (parsedRule b) d e
  | _ => True

/-- The call reads or writes the preparation state of the rule with index `i` (`Check` works on copies). -/
def Touches (i : Nat) : Op → Prop
  | .setRule j _ | .checkRule j _ | .testRule j _ | .toMongo j _ => j = i
  | .setGlobal _ | .checkAll _ => False

end Mapl.Spec

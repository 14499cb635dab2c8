import Verif.Spec.Place
import Verif.Spec.Copy

/-!
# What a rule returns

An ANY can ask for values. For every element that meets its conditions it then returns the values under given paths of the element. What is returned is described here on the document
itself, as the claims of Spec/Place are.
-/

namespace Mapl.Spec

/-- A value that an ANY asks for: a name, and where the value is in the element. Without steps it is the element itself. -/
structure Wanted where
  name : Str
  steps : List Step

/-- How it is written. -/
def Wanted.text (w : Wanted) : Str := match w.steps with
  | [] => gs"jsonpath:$RELATIVE*"
  | s :: ss => gs"jsonpath:$RELATIVE" ++ stepsText (s :: ss)

/-- The values of one element: one entry for each value that is there. For a value that is not there, there is no entry, or it is null. -/
inductive Values (e : Json) : List Wanted → Extra → Prop
  | nil : Values e [] []
  | found {w ws v x} (h : Leads e w.steps (some v)) (hs : Values e ws x) : Values e (w :: ws) ((w.name, v) :: x)
  | missing {w ws x} (h : Leads e w.steps none) (hs : Values e ws x) : Values e (w :: ws) x
  | null {w ws x} (h : Leads e w.steps none) (hs : Values e ws x) : Values e (w :: ws) ((w.name, .null) :: x)

/-- The values of those elements for which `P` holds, in the order of the elements. -/
inductive ValuesOf (P : Json → Prop) (ws : List Wanted) : List Json → List Extra → Prop
  | nil : ValuesOf P ws [] []
  | yes {e l x xs} (h : P e) (hx : Values e ws x) (hs : ValuesOf P ws l xs) : ValuesOf P ws (e :: l) (x :: xs)
  | no {e l xs} (h : ¬ P e) (hs : ValuesOf P ws l xs) : ValuesOf P ws (e :: l) xs

/-- Conditions that return values: claims, which return none; ANY with values that it asks for; AND and OR of these. -/
inductive Ask
  | claim (f : Claim)
  | any (paths : List ListPath) (wanted : List Wanted) (f : Claim)
  | and (qs : List Ask)
  | or (qs : List Ask)

mutual
/-- The tree of conditions. -/
def Ask.tree (env : Ext) : Ask → Node
  | .claim f => f.statement.tree env
  | .any ps ws f => .any (anyFields env (gs"jsonpath:" ++ (parentOf ps).text) (ws.map fun w => (w.name, w.text))) (f.statement.tree env)
  | .and qs => .and (Ask.trees env qs)
  | .or qs => .or (Ask.trees env qs)

def Ask.trees (env : Ext) : List Ask → List Node
  | [] => []
  | q :: qs => q.tree env :: Ask.trees env qs
end

mutual
/-- The claim without the values that it asks for. -/
def Ask.bare : Ask → Claim
  | .claim f => f
  | .any ps _ f => .any ps f
  | .and qs => .and (Ask.bares qs)
  | .or qs => .or (Ask.bares qs)

def Ask.bares : List Ask → List Claim
  | [] => []
  | q :: qs => q.bare :: Ask.bares qs
end

/-- The conditions hold. -/
def Ask.Holds (env : Ext) (t : Predef) (base : Msg) (root : Json) (q : Ask) : Prop := q.bare.Holds env t base root none

mutual
/-- What conditions that hold return. OR returns what those of its conditions return that hold. AND returns what the last of its conditions returns that returns anything. -/
def Ask.Gives (env : Ext) (t : Predef) (base : Msg) (root : Json) : Ask → List Extra → Prop
  | .claim _, xs => xs = []
  | .any ps ws f, xs => ∃ ls, List.Forall₂ (Gathers root none) ps ls ∧ ValuesOf (fun e => f.Holds env t base root (some e)) ws ls.flatten xs
  | .and qs, xs => Ask.GivesLast env t base root qs [] xs
  | .or qs, xs => Ask.GivesAll env t base root qs xs

def Ask.GivesLast (env : Ext) (t : Predef) (base : Msg) (root : Json) : List Ask → List Extra → List Extra → Prop
  | [], before, xs => xs = before
  | q :: qs, before, xs => ∃ x, q.Gives env t base root x ∧ (x = [] → Ask.GivesLast env t base root qs before xs) ∧ (x ≠ [] → Ask.GivesLast env t base root qs x xs)

def Ask.GivesAll (env : Ext) (t : Predef) (base : Msg) (root : Json) : List Ask → List Extra → Prop
  | [], xs => xs = []
  | q :: qs, xs => ∃ x y, xs = x ++ y ∧ (q.Holds env t base root → q.Gives env t base root x) ∧ (¬ q.Holds env t base root → x = []) ∧ Ask.GivesAll env t base root qs y
end

/-- What is assumed of the library for texts if values are missing: what it gives for them is not a JSON text. -/
def MissingOk (env : Ext) : Prop := ∀ p s d, PlainSteps p → Plainly env s d → Leads d p none → env.jsonUnmarshal (env.jsGet s ('$' :: stepsText p)).1 = none

mutual
/-- Every ANY asks for values with different names, under paths of names and numbers that the library for parsed documents understands. -/
def Ask.Plain (env : Ext) : Ask → Prop
  | .claim _ => True
  | .any _ ws _ => ws ≠ [] ∧ (ws.map (·.name)).Nodup ∧ ∀ w ∈ ws, PlainSteps w.steps ∧ (w.steps ≠ [] → env.jpOk ('$' :: stepsText w.steps) = true)
  | .and qs => Ask.AllPlain env qs
  | .or qs => Ask.AllPlain env qs

def Ask.AllPlain (env : Ext) : List Ask → Prop
  | [] => True
  | q :: qs => q.Plain env ∧ Ask.AllPlain env qs
end

/-- Whether the value is there can be said of the element. Of documents that are texts, no whole elements can be asked for, and values that are missing must be `MissingOk`. -/
def Wanted.Clear (env : Ext) (parsed : Prop) (w : Wanted) (e : Json) : Prop :=
  ∃ o, Leads e w.steps o ∧ (parsed ∨ w.steps ≠ [] ∧ (o = none → MissingOk env))

mutual
/-- What is asked for is clear, of all elements for which the conditions of the ANY hold. -/
def Ask.Clear (env : Ext) (t : Predef) (base : Msg) (root : Json) (parsed : Prop) : Ask → Prop
  | .claim _ => True
  | .any ps ws f => ∀ p ∈ ps, ∀ l, p.Leads root none (some (.arr l)) → ∀ e ∈ l, f.Holds env t base root (some e) → ∀ w ∈ ws, w.Clear env parsed e
  | .and qs => Ask.AllClear env t base root parsed qs
  | .or qs => Ask.AllClear env t base root parsed qs

def Ask.AllClear (env : Ext) (t : Predef) (base : Msg) (root : Json) (parsed : Prop) : List Ask → Prop
  | [] => True
  | q :: qs => q.Clear env t base root parsed ∧ Ask.AllClear env t base root parsed qs
end

/-- With the tables `t`, the rule that was written has the decision `d`, applies to messages like `base` with the document `root` exactly if `A` holds, and then returns values of which `G`
holds. `parsed`: the document is parsed. -/
inductive WrittenAsks (env : Env) (t : Predef) (base : Msg) (root : Json) (parsed : Prop) (body : Rule) : Prop → Decision → (List Extra → Prop) → Prop
  | mk {c : Option Ask} {s v : Str} (hc : body.conditions = c.map (Ask.tree env)) (hs : Resolves t body.senderName s) (hv : Resolves t body.receiverName v) (ht : TextsOk body s v)
      (hok : ∀ q ∈ c, Sound env t q.bare.statement) (hp : ∀ q ∈ c, q.bare.Plain) (hd : ∀ q ∈ c, q.bare.Clear env t base root none) (hpa : ∀ q ∈ c, q.Plain env)
      (hda : ∀ q ∈ c, q.Clear env t base root parsed) :
      WrittenAsks env t base root parsed body (WrittenParts body s v base ∧ ∀ q ∈ c, q.Holds env t base root) (decisionOf body.decision)
        (fun xs => (c = none → xs = []) ∧ ∀ q ∈ c, q.Gives env t base root xs)

/-- The rule object is such a rule. -/
def RuleAsks (env : Env) (global : Predef) (base : Msg) (root : Json) (parsed : Prop) (r : RuleObj) (A : Prop) (d : Decision) (G : List Extra → Prop) : Prop :=
  ∃ body t, Loaded env global r body t ∧ WrittenAsks env t base root parsed body A d G

/-- The answer for rules with these decisions, which apply exactly if so stated: the result of a rule that applies is its decision, and the values under the index of the rule are what the
rule is to return; for a rule that does not apply there are none. -/
def AsksAnswer (xs : List (Prop × Decision × (List Extra → Prop))) (out : CheckOut) : Prop :=
  out.extraData.length = xs.length ∧ ∀ (k : Nat) A d G, xs[k]? = some (A, d, G) →
    (A → out.results[k]? = some d.rank ∧ (d ≠ .default → ∃ es, out.extraData[k]? = some es ∧ G es)) ∧
    (¬ A → out.results[k]? = some Decision.default.rank ∧ out.extraData[k]? = some [])

end Mapl.Spec

import Verif.Spec.Place

/-!
# Deep scan

`$..spec.containers` is about every list of containers in the document, however deep: all lists to which some path leads that ends in `.spec.containers`.
-/

namespace Mapl.Spec

/-- The value is somewhere in the document at the end of the path: a longer path that ends in these steps leads to it. -/
def Somewhere (d : Json) (p : List Step) (v : Json) : Prop := ∃ q, Leads d (q ++ p) (some v)

/-- A path for a deep scan: `$..spec.containers`, `$..spec.containers[:]` or `$..spec.containers[*]`. -/
structure DeepPath where
  steps : List Step
  mark : Mark := .none

/-- How it is written, after `$.`. -/
def DeepPath.tail (p : DeepPath) : Str := stepsText p.steps ++ p.mark.text

/-- How it is written. -/
def DeepPath.text (p : DeepPath) : Str := gs"$." ++ p.tail

/-- There are steps, and the names are letters, digits and underscores. -/
def DeepPath.Plain (p : DeepPath) : Prop := p.steps ≠ [] ∧ PlainSteps p.steps

/-- Everything that the path finds is a list of objects. -/
def DeepPath.Lists (root : Json) (p : DeepPath) : Prop := ∀ v, Somewhere root p.steps v → ∃ l, v = .arr l ∧ ∀ e ∈ l, ∃ kvs, e = .obj kvs

/-! ## Libraries -/

/-- What a deep scan that finds these lists may give for a parsed document: the list of the lists, or the list of all their elements. -/
inductive DeepValue (P : List Json → Prop) : Json → Prop
  | nested {ls : List (List Json)} (h : ∀ l, l ∈ ls ↔ P l) : DeepValue P (.arr (ls.map .arr))
  | flat {es : List Json} (h : ∀ e, e ∈ es ↔ ∃ l, P l ∧ e ∈ l) : DeepValue P (.arr es)

/-- What it may give for a text: the same as a text, or nothing if there are no such lists. -/
inductive DeepText (env : Ext) (P : List Json → Prop) : Str → Prop
  | nothing (h : ∀ l, ¬ P l) : DeepText env P []
  | nested {ls : List (List Json)} {ll : List (List Str)} {u} (hne : ls ≠ []) (h : ∀ l, l ∈ ls ↔ P l) (hu : 2 ≤ u.length) (ht : env.ugly u = listsText ll)
      (hl : List.Forall₂ (List.Forall₂ fun x e => Plainly env x e) ll ls) : DeepText env P u
  | flat {es : List Json} {u} (h : ∀ e, e ∈ es ↔ ∃ l, P l ∧ e ∈ l) (hu : Plainly env u (.arr es)) : DeepText env P u

/-- What is assumed of the libraries: a deep scan finds what is there, if these are lists of objects. -/
structure DeepOk (env : Ext) : Prop where
  found : ∀ (p : DeepPath) d, p.Plain → p.Lists d → DeepValue (fun l => Somewhere d p.steps (.arr l)) (env.jpGet p.text d).1
  text : ∀ (p : DeepPath) s d, p.Plain → Plainly env s d → p.Lists d → ∃ u, env.jsGet s p.text = (u, false) ∧ DeepText env (fun l => Somewhere d p.steps (.arr l)) u

/-! ## Conditions -/

/-- Claims, and ANY and ALL with a deep scan; AND, OR and NOT of these. -/
inductive DeepClaim
  | claim (f : Claim)
  | any (path : DeepPath) (f : Claim)
  | all (path : DeepPath) (f : Claim)
  | and (qs : List DeepClaim)
  | or (qs : List DeepClaim)
  | not (q : DeepClaim)

mutual
/-- How they are written. -/
def DeepClaim.statement : DeepClaim → Statement
  | .claim f => f.statement
  | .any p f => .any (.document [p.tail]) f.statement
  | .all p f => .all (.document [p.tail]) f.statement
  | .and qs => .and (DeepClaim.statements qs)
  | .or qs => .or (DeepClaim.statements qs)
  | .not q => .not q.statement

def DeepClaim.statements : List DeepClaim → List Statement
  | [] => []
  | q :: qs => q.statement :: DeepClaim.statements qs
end

mutual
/-- They hold of the message and its document. -/
def DeepClaim.Holds (env : Ext) (t : Predef) (base : Msg) (root : Json) : DeepClaim → Prop
  | .claim f => f.Holds env t base root none
  | .any p f => ∃ l, Somewhere root p.steps (.arr l) ∧ ∃ e ∈ l, f.Holds env t base root (some e)
  | .all p f => ∀ l, Somewhere root p.steps (.arr l) → ∀ e ∈ l, f.Holds env t base root (some e)
  | .and qs => DeepClaim.AllHold env t base root qs
  | .or qs => DeepClaim.SomeHolds env t base root qs
  | .not q => ¬ q.Holds env t base root

def DeepClaim.AllHold (env : Ext) (t : Predef) (base : Msg) (root : Json) : List DeepClaim → Prop
  | [] => True
  | q :: qs => q.Holds env t base root ∧ DeepClaim.AllHold env t base root qs

def DeepClaim.SomeHolds (env : Ext) (t : Predef) (base : Msg) (root : Json) : List DeepClaim → Prop
  | [] => False
  | q :: qs => q.Holds env t base root ∨ DeepClaim.SomeHolds env t base root qs
end

mutual
/-- The names on the paths are letters, digits and underscores. -/
def DeepClaim.Plain : DeepClaim → Prop
  | .claim f => f.Plain
  | .any p f => p.Plain ∧ f.Plain
  | .all p f => p.Plain ∧ f.Plain
  | .and qs => DeepClaim.AllPlain qs
  | .or qs => DeepClaim.AllPlain qs
  | .not q => q.Plain

def DeepClaim.AllPlain : List DeepClaim → Prop
  | [] => True
  | q :: qs => q.Plain ∧ DeepClaim.AllPlain qs
end

/-- A deep scan finds lists of objects of which the conditions say something. In documents that are texts, there are no lists of lists in these objects, and no strings that look like that. -/
def DeepPath.Clear (env : Ext) (t : Predef) (base : Msg) (root : Json) (parsed : Prop) (p : DeepPath) (f : Claim) : Prop := p.Lists root ∧
  ∀ l, Somewhere root p.steps (.arr l) → ∀ e ∈ l, f.Clear env t base root (some e) ∧ (parsed ∨ ∀ x, Plainly env x e → NoListOfLists x)

mutual
/-- Everything says something of the document. -/
def DeepClaim.Clear (env : Ext) (t : Predef) (base : Msg) (root : Json) (parsed : Prop) : DeepClaim → Prop
  | .claim f => f.Clear env t base root none
  | .any p f => p.Clear env t base root parsed f
  | .all p f => p.Clear env t base root parsed f
  | .and qs => DeepClaim.AllClear env t base root parsed qs
  | .or qs => DeepClaim.AllClear env t base root parsed qs
  | .not q => q.Clear env t base root parsed

def DeepClaim.AllClear (env : Ext) (t : Predef) (base : Msg) (root : Json) (parsed : Prop) : List DeepClaim → Prop
  | [] => True
  | q :: qs => q.Clear env t base root parsed ∧ DeepClaim.AllClear env t base root parsed qs
end

/-- With the tables `t`, the rule that was written has the decision `d`, and applies to messages like `base` with the document `root` exactly if `A` holds. `parsed`: the document is parsed. -/
inductive WrittenDeep (env : Env) (t : Predef) (base : Msg) (root : Json) (parsed : Prop) (body : Rule) : Prop → Decision → Prop
  | mk {c : Option DeepClaim} {s v : Str} (hc : body.conditions = c.map fun q => q.statement.tree env) (hs : Resolves t body.senderName s) (hv : Resolves t body.receiverName v)
      (ht : TextsOk body s v) (hok : ∀ q ∈ c, Sound env t q.statement) (hp : ∀ q ∈ c, q.Plain) (hd : ∀ q ∈ c, q.Clear env t base root parsed) :
      WrittenDeep env t base root parsed body (WrittenParts body s v base ∧ ∀ q ∈ c, q.Holds env t base root) (decisionOf body.decision)

/-- The rule object is such a rule. -/
def RuleDeep (env : Env) (global : Predef) (base : Msg) (root : Json) (parsed : Prop) (r : RuleObj) (A : Prop) (d : Decision) : Prop :=
  ∃ body t, Loaded env global r body t ∧ WrittenDeep env t base root parsed body A d

end Mapl.Spec

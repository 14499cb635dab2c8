import Verif.Model.Memory
import Verif.Spec.Policy

/-! # Text documents in memory -/

namespace Mapl.Spec

/-- What `jsonslice.Get` returns as a part of its input is a part of its input. -/
def PlaceOk (env : MemEnv) : Prop :=
  ∀ t q i, env.place t q = some i → ∃ before after, t = before ++ (env.jsGet t q).1 ++ after ∧ before.length = i

/-- The slice is inside of an array. -/
def Inside (mem : Mem) (s : Slice) : Prop := ∃ t : Str, mem[s.arr]? = some t ∧ s.off + s.len ≤ t.length

/-- The slices of the message are inside of arrays. -/
def InMemory (mem : Mem) (mm : MMsg) : Prop := (∀ s, mm.raw = some s → Inside mem s) ∧ ∀ s, mm.rel = some s → Inside mem s

/-- The message carries no text documents; there may be a parsed one. -/
def NoBytes (mm : MMsg) : Prop := mm.raw = none ∧ mm.rel = none

/-- All arrays are as they were; there may be new ones. -/
def Untouched (mem mem' : Mem) : Prop := ∀ (i : Nat) (t : Str), mem[i]? = some t → mem'[i]? = some t

mutual
/-- Every ANY and ALL of the tree has the property. -/
def Parents (P : AnyAll → Prop) : Node → Prop
  | .and ns => ParentsAll P ns
  | .or ns => ParentsAll P ns
  | .not n => Parents P n
  | .any a n => P a ∧ Parents P n
  | .all a n => P a ∧ Parents P n
  | _ => True

def ParentsAll (P : AnyAll → Prop) : List Node → Prop
  | [] => True
  | n :: ns => Parents P n ∧ ParentsAll P ns
end

/-- ANY and ALL name one parent path: there is no comma in `parentJsonpathAttribute`. -/
def OneParent : Node → Prop := Parents fun a => ',' ∉ a.parent

/-- A rule that was read, and perhaps given its tables, with a property of the trees of conditions. -/
def ReadWith (env : Env) (global : Predef) (P : Node → Prop) (r : RuleObj) : Prop :=
  ∃ b t, Loaded env global r b t ∧ ∀ n, b.conditions = some n → Copyable env n ∧ P n

/-- Evaluation with arrays gives the answer of evaluation with values, and leaves the message and the arrays as they are. -/
def SameAsValues (mm : MMsg) (mem : Mem) : Go EvalOut → Go EvalOutM → Prop
  | .ok o, r => ∃ mem', r = .ok ⟨o.flag, o.extra, mm, mem'⟩ ∧ Untouched mem mem'
  | .error e, r => r = .error e

/-- The same for the check of one rule. -/
def SameRuleM (mm : MMsg) (mem : Mem) : Go RuleOut → Go RuleOutM → Prop
  | .ok o, r => ∃ mem', r = .ok ⟨o.result, o.extra, mm, mem', o.rule⟩ ∧ Untouched mem mem'
  | .error e, r => r = .error e

/-- The same for `Check`. -/
def SameCheckM (mm : MMsg) (mem : Mem) : Go CheckOut → Go CheckOutM → Prop
  | .ok o, r => ∃ mem', r = .ok ⟨o, mm, mem'⟩ ∧ Untouched mem mem'
  | .error e, r => r = .error e

/-- A path from the document for which `jsonslice.Get` makes a copy. -/
def Copied (env : MemEnv) (q : Str) : Prop := (∃ r, q = gs"$." ++ r) ∧ ∀ t, env.place t q = none

/-- `q` is one of the parts of `s` between commas, and not the last one. -/
def EarlierPart (s q : Str) : Prop := ',' ∉ q ∧ ∃ before after, s = before ++ q ++ ',' :: after ∧ (before = [] ∨ ∃ b, before = b ++ [','])

/-- If ANY or ALL name several parent paths, then `jsonslice.Get` makes copies for all of them but the last. -/
def CopiedParents (env : MemEnv) : Node → Prop := Parents fun a => ∀ q, EarlierPart a.parent q → Copied env q

/-- Checks whose documents can be thought of as values: no ANY and no ALL names more than one parent path (or all but the last are copied), or the
message has no text documents. -/
inductive SafeDocuments (env : MemEnv) (g : Predef) (mem : Mem) (mm : MMsg) (rs : List RuleObj) : Prop
  | onePath (hp : PlaceOk env) (hm : InMemory mem mm) (hr : ∀ r ∈ rs, ReadWith env.toEnv g OneParent r)
  | copied (hp : PlaceOk env) (hm : InMemory mem mm) (hr : ∀ r ∈ rs, ReadWith env.toEnv g (CopiedParents env) r)
  | parsed (hm : NoBytes mm) (hr : ∀ r ∈ rs, ReadWith env.toEnv g (fun _ => True) r)

/-- The same for one prepared tree of conditions. -/
inductive SafeTree (env : MemEnv) (mem : Mem) (mm : MMsg) (n : Node) : Prop
  | paths (hp : PlaceOk env) (hm : InMemory mem mm) (hn : Parents (fun a => ∀ q ∈ a.parentArr.dropLast, Copied env q) n)
  | parsed (hm : NoBytes mm)

end Mapl.Spec

import Verif.Spec.Parse

/-!
# Trees that are the same up to the order of children and one-child connectives
-/

namespace Mapl.Spec

mutual
/-- Equal up to the order of the children of AND and OR, to ANDs and ORs with one child, and to the order of the entries of the maps of
return values. -/
inductive Alike : Node → Node → Prop
  | refl {n : Node} : Alike n n
  | symm {n n' : Node} (h : Alike n n') : Alike n' n
  | trans {n n' n'' : Node} (h : Alike n n') (h' : Alike n' n'') : Alike n n''
  | andOne {n : Node} : Alike (.and [n]) n
  | orOne {n : Node} : Alike (.or [n]) n
  | andPerm {ns ns' : List Node} (h : ns.Perm ns') : Alike (.and ns) (.and ns')
  | orPerm {ns ns' : List Node} (h : ns.Perm ns') : Alike (.or ns) (.or ns')
  | and {ns ns' : List Node} (h : AlikeAll ns ns') : Alike (.and ns) (.and ns')
  | or {ns ns' : List Node} (h : AlikeAll ns ns') : Alike (.or ns) (.or ns')
  | not {n n' : Node} (h : Alike n n') : Alike (.not n) (.not n')
  | any {a : AnyAll} {ret : List RetVal} {n n' : Node} (hd : (a.ret.map (·.name)).Nodup) (hr : a.ret.Perm ret) (h : Alike n n') :
      Alike (.any a n) (.any { a with ret := ret } n')
  | all {a : AnyAll} {ret : List RetVal} {n n' : Node} (hd : (a.ret.map (·.name)).Nodup) (hr : a.ret.Perm ret) (h : Alike n n') :
      Alike (.all a n) (.all { a with ret := ret } n')

/-- Child by child. -/
inductive AlikeAll : List Node → List Node → Prop
  | nil : AlikeAll [] []
  | cons {n n' : Node} {ns ns' : List Node} (h : Alike n n') (hs : AlikeAll ns ns') : AlikeAll (n :: ns) (n' :: ns')
end

/-- An attribute that does not look like an attribute followed by a method. -/
def PlainAttr (a : Str) : Prop := ∀ m ∈ allMethods, ¬ gs"-" ++ m ++ gs"-" <:+: a ++ gs"-"

/-- A value in which no `>` is followed by a blank, `)` or `]`. -/
def PlainValue (v : Str) : Prop := ∀ x c y, v = x ++ '>' :: c :: y → c ∉ [' ', ')', ']']

/-- The name of a return value. -/
def PlainName (k : Str) : Prop := ':' ∉ k ∧ ' ' ∉ k ∧ ']' ∉ k

/-- The path of a return value. -/
def PlainQuery (q : Str) : Prop := ' ' ∉ q ∧ ¬ gs"]>:" <:+: q

/-- Trees whose text can be read back: conditions without return values, no empty AND and OR, and no texts that look like the punctuation of the text form. -/
inductive Plain (env : Ext) : Node → Prop
  | cond {a m v : Str} (hm : m ∈ allMethods) (ha : PlainAttr a) (hv : PlainValue v) : Plain env (condNode env a m v none)
  | and {ns : List Node} (hne : ns ≠ []) (h : ∀ n ∈ ns, Plain env n) : Plain env (.and ns)
  | or {ns : List Node} (hne : ns ≠ []) (h : ∀ n ∈ ns, Plain env n) : Plain env (.or ns)
  | not {n : Node} (h : Plain env n) : Plain env (.not n)
  | any {parent : Str} {ret : List (Str × Str)} {n : Node} (hne : parent ≠ []) (hp : ';' ∉ parent) (hd : (ret.map (·.1)).Nodup)
      (hr : ∀ x ∈ ret, PlainName x.1 ∧ PlainQuery x.2) (h : Plain env n) : Plain env (.any (anyFields env parent ret) n)
  | all {parent : Str} {ret : List (Str × Str)} {n : Node} (hne : parent ≠ []) (hp : ';' ∉ parent) (hd : (ret.map (·.1)).Nodup)
      (hr : ∀ x ∈ ret, PlainName x.1 ∧ PlainQuery x.2) (h : Plain env n) : Plain env (.all (anyFields env parent ret) n)
  | tt : Plain env .tt
  | ff : Plain env .ff

end Mapl.Spec

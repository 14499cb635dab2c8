import Verif.Spec.Narrow

/-! # Predefined lists that get more entries (C107) -/

namespace Mapl.Spec

/-- Every list has its entries and possibly more; the names of the lists and the strings are the same. No list was empty. -/
def MoreIn (lists lists' : List (Str × List Str)) : Prop :=
  ∀ k, lookup k lists = none ∧ lookup k lists' = none ∨ ∃ l l', lookup k lists = some l ∧ lookup k lists' = some l' ∧ l ≠ [] ∧ ∀ x ∈ l, x ∈ l'

/-- Tables as they are written, the second with more entries in some lists. -/
structure MoreWritten (t t' : Predef) : Prop where
  strings : t'.strings = t.strings
  lists : MoreIn t.lists t'.lists

/-- Tables as they are used. -/
structure Grown (t t' : Predef) : Prop where
  strings : t'.strings = t.strings
  lists : MoreIn t.listsNoRefs t'.listsNoRefs

/-- The text refers to a list of the table. -/
def RefersToList (t : Predef) (v : Str) : Prop := ∃ k l, v = '#' :: k ∧ lookup k t.listsNoRefs = some l

/-- Lists that are used with IN and NIN consist of plain words. -/
def WordLists (t : Predef) (v : Str) : Prop := ∀ k l, v = '#' :: k → lookup k t.listsNoRefs = some l → ∀ x ∈ l, PlainWord x

/-- The statement becomes more general with the lists (`up`), or more special (not `up`): lists are used with IN or NIN, under an even or odd number of negations. -/
inductive Follows (t t' : Predef) : Bool → Statement → Prop
  | plain (up : Bool) {a m v : Str} (h : ¬ RefersToList t v) : Follows t t' up (.cond a m v)
  | isIn {a m v : Str} (hm : m ∈ [gs"IN", gs"IS"]) (h : WordLists t v) (h' : WordLists t' v) : Follows t t' true (.cond a m v)
  | notIn {a v : Str} (h : WordLists t v) (h' : WordLists t' v) : Follows t t' false (.cond a gs"NIN" v)
  | and {up : Bool} {fs : List Statement} (h : ∀ f ∈ fs, Follows t t' up f) : Follows t t' up (.and fs)
  | or {up : Bool} {fs : List Statement} (h : ∀ f ∈ fs, Follows t t' up f) : Follows t t' up (.or fs)
  | not {up : Bool} {f : Statement} (h : Follows t t' (!up) f) : Follows t t' up (.not f)
  | any {up : Bool} (q : Parent) {f : Statement} (h : Follows t t' up f) : Follows t t' up (.any q f)
  | all {up : Bool} (q : Parent) {f : Statement} (h : Follows t t' up f) : Follows t t' up (.all q f)

/-- The rule becomes more general with the lists (`up`): they are its senders or receivers, or used as above; or more special (not `up`). -/
structure RuleFollows (t t' : Predef) (up : Bool) (x : Wording) : Prop where
  sender : up = true ∨ ¬ RefersToList t x.body.senderName
  receiver : up = true ∨ ¬ RefersToList t x.body.receiverName
  conditions : ∀ f ∈ x.conditions, Follows t t' up f

/-- The rule objects stand for the same rule as it is written, with the old and the new tables. -/
inductive StillSaid (env : Env) (g g' : Predef) (msg : Msg) (up : Bool) (r r' : RuleObj) : Prop
  | mk {t t' : Predef} {x x' : Wording} (h : StandsFor env g t msg r x) (h' : StandsFor env g' t' msg r' x') (hb : x'.body = x.body)
      (hc : x'.conditions = x.conditions) (ht : Grown t t') (hf : RuleFollows t t' up x)

end Mapl.Spec

import Verif.Model.Shared

/-! # Tables that the caller goes on using -/

namespace Mapl.Spec

/-- The table `v` has the entries that are in the maps of `t`, each in its place; where there is no map it has none. -/
structure Contents (h : Maps) (t : TableRef) (v : Predef) : Prop where
  strings : ∀ a, t.strings = some a → v.strings = h.strings a
  noStrings : t.strings = none → v.strings = []
  lists : ∀ a, t.lists = some a → v.lists = h.lists a
  noLists : t.lists = none → v.lists = []
  resolved : ∀ a, t.noRefs = some a → v.listsNoRefs = h.lists a
  noResolved : t.noRefs = none → v.listsNoRefs = []

/-- The calls of a history, with the tables as they were at the time of the call. -/
inductive Passed : Maps → List SharedOp → List Op → Prop
  | nil {h} : Passed h [] []
  | changeStrings {h a m ops vs} (x : Passed { h with strings := fun b => if b = a then m else h.strings b } ops vs) : Passed h (.changeStrings a m :: ops) vs
  | changeLists {h a m ops vs} (x : Passed { h with lists := fun b => if b = a then m else h.lists b } ops vs) : Passed h (.changeLists a m :: ops) vs
  | setGlobal {h t v ops vs} (s : Contents h t v) (x : Passed h ops vs) : Passed h (.setGlobal t :: ops) (.setGlobal v :: vs)
  | setRule {h i t v ops vs} (s : Contents h t v) (x : Passed h ops vs) : Passed h (.setRule i t :: ops) (.setRule i v :: vs)
  | checkRule {h i m ops vs} (x : Passed h ops vs) : Passed h (.checkRule i m :: ops) (.checkRule i m :: vs)
  | testRule {h i m ops vs} (x : Passed h ops vs) : Passed h (.testRule i m :: ops) (.testRule i m :: vs)
  | toMongo {h i base ops vs} (x : Passed h ops vs) : Passed h (.toMongo i base :: ops) (.toMongo i base :: vs)
  | checkAll {h m ops vs} (x : Passed h ops vs) : Passed h (.checkAll m :: ops) (.checkAll m :: vs)

/-- Maps of strings are not changed any more once they were given to `SetGlobalPredefinedStringsAndLists`. -/
def StringsKept (ops : List SharedOp) : Prop :=
  ∀ (i j : Nat) (t : TableRef) (a : Nat) (m : List (Str × Str)), i < j → ops[i]? = some (.setGlobal t) → ops[j]? = some (.changeStrings a m) → t.strings ≠ some a

/-- The caller uses the rules and does what they want to the maps. -/
def OnlyUses (ops : List SharedOp) : Prop := ∀ op ∈ ops, (∀ t, op ≠ .setGlobal t) ∧ ∀ i t, op ≠ .setRule i t

/-- The two histories give the same answers, or end in the same way. -/
def SameAnswers {α β : Type} (x : Go (α × List Answer)) (y : Go (β × List Answer)) : Prop :=
  x.map (·.2) = y.map (·.2)

end Mapl.Spec

import Verif.Model.State

/-!
# Tables that the caller goes on using: rules_load.go:16-25, 64-86, predefined_lists_load.go:43-68

`PredefinedStringsAndLists` (definitions_lists.go:3-7) is a struct of three maps, and in Go maps are references: whoever passes a table keeps
its maps and may change them later. `Model/State` passes tables as values. Here the maps of the caller are places in a heap, and changing
them is an operation.

Simplifications: a map with the slices in it is one place (changing an element of a slice changes the map); the exported variable
`GlobalPredefinedStringsAndLists` is not assigned or changed directly. The map `PredefinedListsWithoutRefs` and the slices in it, as
`validatePredefinedString` makes them (predefined_lists_load.go:45-64), are new, so nobody else has them: they are kept as a value. The table that a rule
remembers (`rule.predefinedStringsAndLists`, rules_load.go:74) is read only in the same call; it is kept as a value as well.
-/

namespace Mapl

/-- A value of type `PredefinedStringsAndLists`: references to maps, `none` for nil. -/
structure TableRef where
  strings : Option Nat := none
  lists : Option Nat := none
  noRefs : Option Nat := none
  deriving DecidableEq

/-- The maps of the caller. -/
structure Maps where
  strings : Nat → List (Str × Str) := fun _ => []
  lists : Nat → List (Str × List Str) := fun _ => []

def Maps.setStrings (h : Maps) (a : Nat) (m : List (Str × Str)) : Maps := { h with strings := fun b => if b = a then m else h.strings b }

def Maps.setLists (h : Maps) (a : Nat) (m : List (Str × List Str)) : Maps := { h with lists := fun b => if b = a then m else h.lists b }

/-- What the maps of a table say now; a nil map is read as an empty one. -/
def TableRef.read (t : TableRef) (h : Maps) : Predef :=
  { strings := (t.strings.map h.strings).getD [], lists := (t.lists.map h.lists).getD [], listsNoRefs := (t.noRefs.map h.lists).getD [] }

/-- The maps of the caller, the global variable and the rules. Of the global variable, two maps belong to the caller. -/
structure SharedWorld where
  maps : Maps := {}
  strings : Option Nat := none
  lists : Option Nat := none
  resolved : List (Str × List Str) := []
  rules : List RuleObj := []

/-- What the state says now. -/
def SharedWorld.now (w : SharedWorld) : World :=
  { global := { strings := (w.strings.map w.maps.strings).getD [], lists := (w.lists.map w.maps.lists).getD [], listsNoRefs := w.resolved }, rules := w.rules }

/-- Calls, and what the caller does to their maps in between. -/
inductive SharedOp
  /-- the caller makes or changes a map of strings -/
  | changeStrings (a : Nat) (m : List (Str × Str))
  /-- the caller makes or changes a map of lists -/
  | changeLists (a : Nat) (m : List (Str × List Str))
  | setGlobal (t : TableRef)
  | setRule (i : Nat) (t : TableRef)
  | checkRule (i : Nat) (m : Msg)
  | testRule (i : Nat) (m : Msg)
  | toMongo (i : Nat) (base : Str)
  | checkAll (m : Msg)

/-- A call that does not concern the global table. -/
def stepRules (env : Env) (w : SharedWorld) (op : Op) : Go (SharedWorld × List Answer) := do
  let x ← step env w.now op
  pure ({ w with rules := x.1.rules }, [x.2])

/-- One operation; what the caller does has no answer. -/
def stepShared (env : Env) (w : SharedWorld) : SharedOp → Go (SharedWorld × List Answer)
  | .changeStrings a m => .ok ({ w with maps := w.maps.setStrings a m }, [])
  | .changeLists a m => .ok ({ w with maps := w.maps.setLists a m }, [])
  | .setGlobal t =>
    match validatePredefinedString (t.read w.maps) with
    | .ok t' => .ok ({ w with strings := t.strings, lists := t.lists, resolved := t'.listsNoRefs }, [.status true])
    | .error _ => .ok (w, [.status false])
  | .setRule i t => stepRules env w (.setRule i (t.read w.maps))
  | .checkRule i m => stepRules env w (.checkRule i m)
  | .testRule i m => stepRules env w (.testRule i m)
  | .toMongo i base => stepRules env w (.toMongo i base)
  | .checkAll m => stepRules env w (.checkAll m)

/-- A history; `k` counts the calls. -/
def runShared (env : Env) (k : Nat) (w : SharedWorld) : List SharedOp → Go (SharedWorld × List Answer)
  | [] => .ok (w, [])
  | op :: ops => do
    let x ← stepShared (env.call k) w op
    let rest ← runShared env (k + x.2.length) x.1 ops
    pure (rest.1, x.2 ++ rest.2)

end Mapl

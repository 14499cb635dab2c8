import Verif.Lemmas.Shared
import Verif.Props.State

/-!
# C90: a table that was set does not change with the maps of the caller

`SetGlobalPredefinedStringsAndLists` keeps the map of strings that it is given; the lists are copied. `SetPredefinedStringsAndLists` prepares the rule
at once and does not look at the table again.
-/

namespace Mapl.Props
open Spec

variable {env : Env} {k : Nat} {ops : List SharedOp} {vs : List Op}

/-- **C90, the part that holds.** A history in which the caller goes on using their maps gives the answers of the history in which every call gets the
table as it is at the time of the call. The caller may change all maps of lists, and the maps of strings that were given to rules. Missing: a
map of strings that was given to `SetGlobalPredefinedStringsAndLists`, for which this is false. -/
theorem C90_partial {maps : Maps} {rules : List RuleObj} (hp : Passed maps ops vs) (hk : StringsKept ops) :
    SameAnswers (runShared env k { maps := maps, rules := rules } ops) (run env k { rules := rules } vs) :=
  together_answers (run_together hp rfl hk (by simp) ⟨rfl, rfl⟩ (List.forall₂_same.2 fun r _ => Twin.refl r))

/-- Rules that were given their tables are not affected by anything that happens to any map, nor by the global table. -/
theorem C90_rules {w : SharedWorld} {g : Predef} (hr : ∀ r ∈ w.rules, r.ready = true) (hu : OnlyUses ops) (hp : Passed w.maps ops vs) :
    SameAnswers (runShared env k w ops) (run env k { global := g, rules := w.rules } vs) :=
  together_answers (run_ready hp hu hr (List.forall₂_same.2 fun r _ => Twin.refl r))

/-- Every history has calls with tables. -/
theorem C90_passed (ops : List SharedOp) (maps : Maps) : ∃ vs, Passed maps ops vs := passed_exists ops maps

/-! ## Where it does not hold -/

/-- The strings of the caller, the table with them, and a rule for senders in the team. -/
def teamMaps : Maps := { strings := fun _ => [(gs"team", gs"a")] }

/-- The decisions of the checks in a history. -/
def decisions (x : Go (SharedWorld × List Answer)) : List Nat :=
  match x with
  | .ok (_, as) => as.filterMap fun a => match a with | .report out => some out.decision | _ => none
  | .error _ => []

/-- Violation of C90: the caller changes a string of their own after they set the global table, and the next check allows what was not allowed before. -/
theorem C90_violated : decisions (runShared Demo.env 0 { maps := teamMaps, rules := [parsedRule teamRule] }
      [.setGlobal { strings := some 0 }, .checkAll Demo.msgI, .changeStrings 0 [(gs"team", gs"z")], .checkAll Demo.msgI]) = [1, 0] ∧
    ∃ vs v as o1 o2, Passed teamMaps [.setGlobal { strings := some 0 }, .checkAll Demo.msgI, .changeStrings 0 [(gs"team", gs"z")], .checkAll Demo.msgI] vs ∧
      run Demo.env 0 { rules := [parsedRule teamRule] } vs = .ok (v, as) ∧ as = [.status true, .report o1, .report o2] ∧ o1.decision = 1 ∧ o2.decision = 1 := by
  refine ⟨by decide +kernel, _, _, _, _, _, .setGlobal (contents_read _ _) (.checkAll (.changeStrings (.checkAll .nil))), rfl, rfl, ?_, ?_⟩ <;> decide +kernel

/-- A list that refers to a string, and a string that is used directly, then mean different things. -/
def sharedTable : TableRef := { strings := some 0, lists := some 0 }

def sharedMaps : Maps := { strings := fun _ => [(gs"x", gs"a")], lists := fun _ => [(gs"team", [gs"#x"])] }

def throughList : RuleObj := parsedRule teamRule

def direct : RuleObj := parsedRule { teamRule with senderName := gs"#x" }

/-- Violation of C90: afterwards the same string has its old value in the lists and its new value elsewhere. -/
theorem C90_violated_lists : decisions (runShared Demo.env 0 { maps := sharedMaps, rules := [throughList] }
      [.setGlobal sharedTable, .changeStrings 0 [(gs"x", gs"z")], .checkAll Demo.msgI]) = [1] ∧
    decisions (runShared Demo.env 0 { maps := sharedMaps, rules := [direct] }
      [.setGlobal sharedTable, .changeStrings 0 [(gs"x", gs"z")], .checkAll Demo.msgI]) = [0] := by
  refine ⟨?_, ?_⟩ <;> decide +kernel

/-- Non-vacuity of `C90_partial`: the caller changes the list, and the map of strings that they gave to the rule; both have no effect. -/
example : StringsKept [.setGlobal { lists := some 0, strings := some 1 }, .changeLists 0 [], .setRule 0 { strings := some 0 }, .changeStrings 0 [(gs"team", gs"z")], .checkAll Demo.msgI] ∧
    decisions (runShared Demo.env 0 { maps := { sharedMaps with strings := fun i => if i = 0 then [(gs"team", gs"a")] else [(gs"x", gs"a")] }, rules := [throughList, throughList] }
      [.setGlobal { lists := some 0, strings := some 1 }, .changeLists 0 [], .setRule 0 { strings := some 0 }, .changeStrings 0 [(gs"team", gs"z")], .checkAll Demo.msgI]) = [1] := by
  refine ⟨?_, by decide +kernel⟩
  intro i j t a m hij h1 h2
  have hj : j = 3 := by
    rcases j with _ | _ | _ | _ | _ | j <;> simp at h2 ⊢
  subst hj
  simp at h2
  have hi : i = 0 := by
    rcases i with _ | _ | _ | i <;> simp at h1 ⊢
    omega
  subst hi
  simp at h1
  rw [← h1, ← h2.1]
  simp

/-- Non-vacuity of `C90_rules`. -/
example : ∃ r, (parsedRule teamRule).setPredefined Demo.env [] teamTable = .ok (r, none) ∧ r.ready = true ∧
    decisions (runShared Demo.env 0 { maps := teamMaps, rules := [r] } [.changeStrings 0 [], .checkAll Demo.msgI]) = [1] :=
  ⟨_, rfl, rfl, by decide +kernel⟩

end Mapl.Props

import Verif.Model.Parse
import Verif.Model.InPlace

/-!
# Nodes in memory: conditions_tree.go:100-238, 362-382, 414-417, 548-568, 583-586, 633-673, 716-984

In Go a tree of conditions is made of pointers. `Model/Types` has trees as values, and `Model/Parse`, `Model/Load` and `Model/InPlace` compute with these. This file models the nodes as
cells in memory, to say when the trees are right, and what `Append`, which is part of the interface `Node`, does to trees that share nodes.

Simplifications: every AND and OR has its own array of children (two nodes whose field `Nodes` is set to one slice by hand are not modelled); cells are never freed.
-/

namespace Mapl

/-- A value of the interface `Node`: the address of a cell, `none` is nil. -/
abbrev NodeRef := Option Nat

/-- What is at an address: the types `And`, `Or`, `Not`, `Any`, `All`, `True`, `False` and `Condition` with pointers to the children. -/
inductive Cell
  | and (ks : List NodeRef)
  | or (ks : List NodeRef)
  | not (k : NodeRef)
  | any (a : AnyAll) (k : NodeRef)
  | all (a : AnyAll) (k : NodeRef)
  | tt
  | ff
  | cond (c : Condition)
  deriving DecidableEq

/-- The memory. -/
abbrev Cells := List Cell

/-- `&And{}` and the like: a new cell and its address. -/
def Cells.make (h : Cells) (c : Cell) : Cells × Nat := (h ++ [c], h.length)

/-- Assign to the cell at an address. -/
def Cells.update (h : Cells) (i : Nat) (f : Cell → Cell) : Cells := h.modify i f

/-- The methods `Append`: conditions_tree.go:138-140, 203-205, 230-232, 362-364, 548-550, 633-634, 653-654, 671-672. -/
def Cell.append (m : NodeRef) : Cell → Cell
  | .and ks => .and (ks ++ [m])
  | .or ks => .or (ks ++ [m])
  | .not _ => .not m
  | .any a _ => .any a m
  | .all a _ => .all a m
  | .tt => .tt
  | .ff => .ff
  | .cond c => .cond c

/-- `x.Append(m)` where `x` is the node at address `i`. -/
def Cells.append (h : Cells) (i : Nat) (m : NodeRef) : Cells := h.update i (Cell.append m)

/-! ### Preparation -/

/-- conditions_tree.go:372-381 and 557-567 at an address. -/
def prepareParent (env : Ext) (h : Cells) (i : Nat) : Cells × Option Fail :=
  match h[i]? with
  | some (.any a k) => let x := a.prepareIn env; (h.set i (.any x.1 k), x.2)
  | some (.all a k) => let x := a.prepareIn env; (h.set i (.all x.1 k), x.2)
  | _ => (h, none)

mutual
/-- `PrepareAndValidate` at an address: conditions_tree.go:142-150, 206-214, 233-238, 365-382, 551-568, 635-637, 655-657, 673-701. The first number bounds the depth of the recursion;
`none` is that the bound does not suffice. Go has no bound but the memory: the program dies if none suffices. -/
def prepareAt (env : Ext) (t : Predef) : Nat → Cells → NodeRef → Option (Cells × Option Fail)
  | 0, _, _ => none
  | _ + 1, h, none => some (h, some (.panic .nilDeref))
  | f + 1, h, some i => match h[i]? with
    | none => some (h, some (.panic .nilDeref))
    | some (.and ks) => prepareEachAt env t f h ks
    | some (.or ks) => prepareEachAt env t f h ks
    | some (.not k) => prepareAt env t f h k
    | some (.any _ k) => (prepareAt env t f h k).map fun x => match x.2 with
      | some e => (x.1, some e)
      | none => prepareParent env x.1 i
    | some (.all _ k) => (prepareAt env t f h k).map fun x => match x.2 with
      | some e => (x.1, some e)
      | none => prepareParent env x.1 i
    | some .tt => some (h, none)
    | some .ff => some (h, none)
    | some (.cond c) => let x := c.prepareIn env t; some (h.set i (.cond x.1), x.2)

/-- The loops over children, conditions_tree.go:143-148, 207-212. -/
def prepareEachAt (env : Ext) (t : Predef) : Nat → Cells → List NodeRef → Option (Cells × Option Fail)
  | _, h, [] => some (h, none)
  | f, h, k :: ks => match prepareAt env t f h k with
    | none => none
    | some (h, some e) => some (h, some e)
    | some (h, none) => prepareEachAt env t f h ks
end

/-! ### Parsing -/

/-- A function that makes nodes and returns the address of one. -/
abbrev Build := Cells → Go (Cells × Nat)

/-- `getNodeByParentString`, conditions_tree.go:966-984. -/
def emptyNode (parent : Str) : Go Cell :=
  if parent = gs"AND" then .ok (.and [])
  else if parent = gs"OR" then .ok (.or [])
  else if parent = gs"NOT" then .ok (.not none)
  else .error (.err .badNode)

/-- conditions_tree.go:787-806 with 936-947. -/
def getNodeConditionAt (env : Ext) (kvs : List (Str × Json)) (parent : Str) : Build := fun h => do
  let cn ← readCondition env kvs
  let c ← validateOneCondition env (conditionFromNode env cn)
  let x := h.make (.cond c)
  if parent ≠ [] ∧ parent ≠ gs"condition" ∧ parent ≠ gs"conditionsTree" then do
    let e ← emptyNode parent
    let y := x.1.make e
    pure (y.1.append y.2 (some x.2), y.2)
  else pure x

/-- `SetParentJsonpathAttribute` and `SetReturnValueJsonpath`, conditions_tree.go:414-417, 426-446, 583-586, 595-615. -/
def Cell.setFields (f : AnyAll → AnyAll) : Cell → Cell
  | .any a k => .any (f a) k
  | .all a k => .all (f a) k
  | c => c

/-- Loop of conditions_tree.go:833-870 over the entries in iteration order, for the node at address `i`. -/
def anyAllLoopAt (env : Env) (p : List Nat) (i : Nat) : List (Str × Json × Build) → Cells → Go Cells
  | [], h => .ok h
  | (key, val, sub) :: rest, h =>
    if key = gs"parentJsonpathAttribute" then do
      let s ← asString val
      if isValidParent s then anyAllLoopAt env p i rest (h.update i (Cell.setFields (·.setParent s))) else throw (.err .badNode)
    else if key = gs"returnValueJsonpath" then do
      let r ← readReturnMap env (1 :: p) val
      anyAllLoopAt env p i rest (h.update i (Cell.setFields ({ · with ret := r })))
    else do
      let x ← sub h
      anyAllLoopAt env p i rest (x.1.append i (some x.2))

/-- `GetParentJsonpathAttribute`, conditions_tree.go:418-420, 587-589. -/
def parentAt (h : Cells) (i : Nat) : Str :=
  match h[i]? with
  | some (.any a _) => a.parent
  | some (.all a _) => a.parent
  | _ => []

/-- conditions_tree.go:819-876. -/
def getAnyAllNodeAt (env : Env) (p : List Nat) (parent : Str) (kids : List (Str × Json × Build)) : Build := fun h =>
  if isValidAnyAllNode (kids.map (·.1)) then do
    let x := h.make (if parent = gs"ANY" then .any {} none else .all {} none)
    let h ← anyAllLoopAt env p x.2 (env.ord (0 :: p) kids) x.1
    if parentAt h x.2 = [] then throw (.err .badNode)
    pure (h, x.2)
  else .error (.err .badNode)

/-- conditions_tree.go:925-934 followed by `InterpretNode(val, nodeType)`. -/
def singleKidAt (kids : List (Str × Json × Build)) : Build := fun h =>
  match kids with
  | [(_, _, sub)] => sub h
  | _ => .error (.err .badNode)

/-- conditions_tree.go:750-785 and 886-902. For a NOT the node is made before its child (line 895). -/
def handleMapAt (env : Env) (p : List Nat) (parent : Str) (kvs : List (Str × Json)) (kids : List (Str × Json × Build)) : Build := fun h =>
  if isConditionNode kvs then getNodeConditionAt env kvs parent h
  else if parent = gs"ANY" ∨ parent = gs"ALL" then getAnyAllNodeAt env p parent kids h
  else if parent = gs"NOT" then do
    let x := h.make (.not none)
    let y ← singleKidAt kids x.1
    pure (y.1.append x.2 (some y.2), x.2)
  else if parent = gs"OR" ∨ parent = gs"AND" ∨ parent = [] ∨ parent = gs"condition" ∨ parent = gs"conditions"
      ∨ parent = gs"conditionsTree" then singleKidAt kids h
  else .error (.err .badNode)

/-- Loop of conditions_tree.go:956-962 for the node at address `i`. -/
def appendEach (i : Nat) : List Build → Cells → Go Cells
  | [], h => .ok h
  | b :: bs, h => do
    let x ← b h
    appendEach i bs (x.1.append i (some x.2))

/-- conditions_tree.go:726-735 and 949-964. -/
def handleArrayAt (parent : Str) (subs : List Build) : Build := fun h =>
  if parent = [] then
    match subs with
    | [b] => b h
    | _ => .error (.err .badNode)
  else do
    let e ← emptyNode parent
    let x := h.make e
    let h ← appendEach x.2 subs x.1
    pure (h, x.2)

mutual
/-- `InterpretNode`, conditions_tree.go:716-741. -/
def interpretAt (env : Env) : Json → Str → List Nat → Build
  | .obj kvs, parent, p => handleMapAt env p parent kvs (interpretKidsAt env kvs p 2)
  | .arr l, parent, p => handleArrayAt parent (interpretListAt env l p 2)
  | .null, _, _ => fun _ => .error (.err .badNode)
  | .bool _, _, _ => fun _ => .error (.err .badNode)
  | .num _, _, _ => fun _ => .error (.err .badNode)
  | .str _, _, _ => fun _ => .error (.err .badNode)

/-- Values of an object, to be interpreted under their keys. -/
def interpretKidsAt (env : Env) : List (Str × Json) → List Nat → Nat → List (Str × Json × Build)
  | [], _, _ => []
  | (k, v) :: rest, p, i => (k, v, interpretAt env v k (i :: p)) :: interpretKidsAt env rest p (i + 1)

/-- Elements of an array, to be interpreted without a keyword. -/
def interpretListAt (env : Env) : List Json → List Nat → Nat → List Build
  | [], _, _ => []
  | v :: rest, p, i => interpretAt env v [] (i :: p) :: interpretListAt env rest p (i + 1)
end

/-- conditions_tree.go:706-714. -/
def parseConditionsTreeAt (env : Env) (p : List Nat) (j : Json) : Build := interpretAt env j [] p

end Mapl

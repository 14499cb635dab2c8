import Verif.Model.Compare

/-!
# Evaluation of trees: /repo/MAPL_engine/conditions_tree.go and the array functions of check.go

`eval` receives a path: the dynamic position of the call, used as index into the oracle for map iteration.
The message is a shared pointer in Go; `eval` returns the message as it is afterwards.
-/

namespace Mapl

/-- What `Eval` returns, together with the message afterwards. -/
structure EvalOut where
  flag : Bool
  extra : List Extra
  msg : Msg

/-! ## Elements selected by a parent path -/

/-- The prefix test at check.go:898 and 976. -/
def isRelativeParent (s : Str) : Bool :=
  hasPrefix s gs"$RELATIVE." || s == gs"$RELATIVE*" || hasPrefix s gs"$KEY." || hasPrefix s gs"$VALUE."

/-- Loop of check.go:953-964: flatten an array of arrays; `none` when some element is not an array (line 961). -/
def flattenArrays : List Json → Option (List Json)
  | [] => some []
  | .arr l :: rest => (flattenArrays rest).map (l ++ ·)
  | _ :: _ => none

/-- One object per entry (check.go:943-945, 904-908). -/
def singletons (kvs : List (Str × Json)) : List Json := kvs.map fun kv => .obj [kv]

/-- check.go:938-966. -/
def arrangeArray (env : Env) (p : List Nat) : Json → Go (List Json)
  | .obj kvs => .ok (singletons (env.ord p kvs))
  | .null => .ok []
  | .arr l => .ok ((flattenArrays l).getD l)
  | _ => .error (.panic .typeAssertion)

/-- Loops of check.go:912-920 and 922-930; errors of the queries are ignored (a nil result gives no elements).
`j` numbers the queries. -/
def queryElements (env : Env) (p : List Nat) (d : Option Json) (j : Nat) : List JPath → Go (List Json)
  | [] => .ok []
  | q :: qs => do
    let doc ← deref d
    let a ← arrangeArray env (0 :: j :: p) (env.jpGet q.src doc).1
    let rest ← queryElements env p d (j + 1) qs
    pure (a ++ rest)

/-- check.go:892-936 (lines 932-935 are unreachable; the error is always nil). -/
def getArrayOfInterfaces (env : Env) (p : List Nat) (a : AnyAll) (m : Msg) : Go (List Json) :=
  if isRelativeParent a.parent then
    if a.parent = gs"$RELATIVE*" then do
      let d ← deref m.rawIRel
      match d with
      | .obj kvs => pure (singletons (env.ord (0 :: 0 :: p) kvs))
      | _ => .error (.panic .typeAssertion)
    else queryElements env p m.rawIRel 0 a.queries
  else queryElements env p m.rawI 0 a.queries

/-- check.go:977-982. -/
def bytesParentQuery (s : Str) : Str :=
  let s := replaceFirst gs"$RELATIVE." gs"$." s
  let s := replaceFirst gs"$KEY." gs"$." s
  let s := replaceFirst gs"$VALUE." gs"$." s
  if s = gs"$RELATIVE*" then gs"$*" else s

/-- Loop of check.go:975-997: `data` is `arrayData`, `err` whether the last error is non-nil. The result is `arrayData`,
or `none` if the last error is non-nil. -/
def collectJsons (env : Ext) (m : Msg) (data : Str) (err : Bool) : List Str → Go (Option Str)
  | [] => .ok (if err then none else some data)
  | q :: qs => do
    let r : Str × Bool ←
      if isRelativeParent q then do let raw ← deref m.jsonRawRel; pure (env.jsGet raw (bytesParentQuery q))
      else do let raw ← deref m.jsonRaw; pure (env.jsGet raw q)
    let data' :=
      if r.2 then data
      else if data.length = 0 then r.1
      else if r.1.length ≠ 0 then data ++ gs"," ++ r.1
      else data
    collectJsons env m data' r.2 qs

/-- check.go:1094-1123; `none` is the error "malformed arrayData". -/
def getArrayFromArrayOfArrays (env : Ext) (data : Str) : Go (Option Str) :=
  if data.length < 2 then .ok (some data)
  else
    let s := env.ugly data
    match s with
    | [] => .error (.panic .outOfRange)
    | c :: rest =>
      if c ≠ '[' then .ok (some s)
      else match rest with
        | [] => .error (.panic .outOfRange)
        | c' :: _ =>
          if c' ≠ '[' then .ok (some s)
          else
            let t := replaceFirst gs"[[" gs"[" s
            let t := replaceFirst gs"]]" gs"]" t
            let t := replaceAll t gs"],[" gs","
            if contains t gs"[[" ∨ contains t gs"]]" then .ok none else .ok (some t)

/-- Loop of check.go:1049-1072: the brace counter, the text since `start` in reverse (`none` is `start == -1`). -/
def scanObjects (c : Int) (cur : Option Str) : Str → List Str
  | [] => []
  | ch :: cs =>
    let cur := if ch = '{' ∧ c = 0 then some [] else cur
    let c := if ch = '{' then c + 1 else c
    let c := if ch = '}' then c - 1 else c
    let cur := cur.map (ch :: ·)
    if c = 0 then
      match cur with
      | none => scanObjects c none cs
      | some y => y.reverse :: scanObjects c none cs
    else scanObjects c cur cs

/-- check.go:1037-1073; `none` is the error. -/
def getArrayOfJsonsFromInterfaceArray (s : Str) : Option (List Str) :=
  match s with
  | [] => some []
  | '{' :: _ => none
  | _ => some (scanObjects 0 none s)

/-- check.go:1075-1092; `none` is the error. -/
def getArrayOfJsonsFromMap (env : Env) (p : List Nat) (s : Str) : Option (List Str) :=
  match unmarshalMap env s with
  | none => none
  | some kvs => some ((env.ord p kvs).map fun kv => env.jsonMarshal (.obj [kv]))

/-- check.go:968-1018; `none` is a non-nil error. -/
def getArrayOfJsons (env : Env) (p : List Nat) (a : AnyAll) (m : Msg) : Go (Option (List Str)) := do
  match ← collectJsons env m [] true a.parentArr with
  | none => pure none
  | some data =>
    match ← getArrayFromArrayOfArrays env data with
    | none => pure none
    | some s =>
      match getArrayOfJsonsFromInterfaceArray s with
      | some l => pure (some l)
      | none => pure (getArrayOfJsonsFromMap env (0 :: 0 :: p) s)

/-! ## The loops of ANY and ALL -/

/-- Loop of conditions_tree.go:308-324 and 343-357, one body for both representations: `set` stores the element
in the message, `reset` restores the saved field, `ret` computes the returned values, `checkAll` is
`checkAllValuesInTheArray`. `i` numbers the elements. `acc` and `result` are the loop variables. -/
def anyLoop {α : Type} (child : Nat → Msg → Go EvalOut) (set : α → Msg → Msg) (reset : Msg → Msg)
    (ret : Msg → Go (List Extra)) (checkAll : Bool) (i : Nat) (result : Bool) (acc : List Extra) (m : Msg) :
    List α → Go EvalOut
  | [] => .ok ⟨result, acc, reset m⟩
  | v :: vs => do
    let o ← child i (set v m)
    if o.flag then
      let e ← ret o.msg
      if checkAll then anyLoop child set reset ret checkAll (i + 1) true (acc ++ e) o.msg vs
      else pure ⟨true, acc ++ e, reset o.msg⟩
    else anyLoop child set reset ret checkAll (i + 1) result acc o.msg vs

/-- Loop of conditions_tree.go:513-524 and 536-545. -/
def allLoop {α : Type} (child : Nat → Msg → Go EvalOut) (set : α → Msg → Msg) (reset : Msg → Msg) (i : Nat) (m : Msg) :
    List α → Go EvalOut
  | [] => .ok ⟨true, [], reset m⟩
  | v :: vs => do
    let o ← child i (set v m)
    if o.flag then allLoop child set reset (i + 1) o.msg vs
    else pure ⟨false, [], reset o.msg⟩

/-- `message.RequestRawInterfaceRelative = &val`. -/
def setRawIRel (v : Json) (m : Msg) : Msg := { m with rawIRel := some v }

/-- `message.RequestJsonRawRelative = &val`. -/
def setJsonRawRel (v : Str) (m : Msg) : Msg := { m with jsonRawRel := some v }

/-- conditions_tree.go:286-361. `a.ret ≠ []` is both `a.ReturnValueJsonpath != nil` and `len(a.ReturnValueJsonpath) > 0`. -/
def evalAny (env : Env) (p : List Nat) (a : AnyAll) (child : Nat → Msg → Go EvalOut) (m : Msg) : Go EvalOut :=
  if m.rawI.isSome ∧ a.queries ≠ [] then do
    let l ← getArrayOfInterfaces env p a m
    anyLoop child setRawIRel (fun m' => { m' with rawIRel := m.rawIRel })
      (fun m' => if a.ret = [] then pure [] else do let e ← extraFromInterface env m' a.ret; pure [e])
      (decide (a.ret ≠ [])) 1 false [] m l
  else do
    match ← getArrayOfJsons env p a m with
    | none => pure ⟨false, [], m⟩
    | some l =>
      anyLoop child setJsonRawRel (fun m' => { m' with jsonRawRel := m.jsonRawRel })
        (fun m' => if a.ret = [] then pure [] else do let e ← extraFromBytes env m' a.ret; pure [e])
        (decide (a.ret ≠ [])) 1 false [] m l

/-- conditions_tree.go:497-546. -/
def evalAll (env : Env) (p : List Nat) (a : AnyAll) (child : Nat → Msg → Go EvalOut) (m : Msg) : Go EvalOut :=
  if m.rawI.isSome ∧ a.queries ≠ [] then do
    let l ← getArrayOfInterfaces env p a m
    allLoop child setRawIRel (fun m' => { m' with rawIRel := m.rawIRel }) 1 m l
  else do
    match ← getArrayOfJsons env p a m with
    | none => pure ⟨false, [], m⟩
    | some l => allLoop child setJsonRawRel (fun m' => { m' with jsonRawRel := m.jsonRawRel }) 1 m l

/-! ## Trees -/

mutual
/-- `Eval` of the node types: conditions_tree.go:125-137, 186-202, 226-229, 286-361, 497-546, 630-632, 650-652, 668-670. -/
def eval (env : Env) : Node → List Nat → Msg → Go EvalOut
  | .nil, _, _ => .error (.panic .nilDeref)
  | .and ns, p, m => evalAnd env ns p 1 [] m
  | .or ns, p, m => evalOr env ns p 1 false [] m
  | .not n, p, m => do
    let o ← eval env n (1 :: p) m
    pure ⟨!o.flag, [], o.msg⟩
  | .any a n, p, m => evalAny env p a (fun i m' => eval env n (i :: p) m') m
  | .all a n, p, m => evalAll env p a (fun i m' => eval env n (i :: p) m') m
  | .tt, _, m => .ok ⟨true, [], m⟩
  | .ff, _, m => .ok ⟨false, [], m⟩
  | .cond c, p, m => do
    let r ← testOneCondition env (0 :: 0 :: p) c m
    pure ⟨r.1, r.2, m⟩

/-- Loop of conditions_tree.go:127-136; `acc` is `extraData`. -/
def evalAnd (env : Env) : List Node → List Nat → Nat → List Extra → Msg → Go EvalOut
  | [], _, _, acc, m => .ok ⟨true, acc, m⟩
  | n :: ns, p, i, acc, m => do
    let o ← eval env n (i :: p) m
    let acc := if o.extra.length > 0 then o.extra else acc
    if o.flag = false then pure ⟨false, acc, o.msg⟩
    else evalAnd env ns p (i + 1) acc o.msg

/-- Loop of conditions_tree.go:189-201. -/
def evalOr (env : Env) : List Node → List Nat → Nat → Bool → List Extra → Msg → Go EvalOut
  | [], _, _, flag, acc, m => .ok ⟨flag, acc, m⟩
  | n :: ns, p, i, flag, acc, m => do
    let o ← eval env n (i :: p) m
    evalOr env ns p (i + 1) (flag || o.flag) (if o.flag then acc ++ o.extra else acc) o.msg
end

end Mapl

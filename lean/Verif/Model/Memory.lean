import Verif.Model.Check

/-!
# Text documents in memory: check.go:34-172, 248-259, 968-1123 and conditions_tree.go:326-361, 526-546

`Model/Eval` treats documents that are held as text as values. In Go they are slices of bytes, and slices share memory: `jsonslice.Get`
returns a part of its input whenever it can, `append` writes behind a slice if its array has room, and the elements of ANY and ALL are
parts of one array. This file models evaluation with the arrays, to say when the values of `Model/Eval` are right.

Simplifications: an array has one character per byte; an array that is allocated has no spare capacity (it is known only to the
function that allocates it, which is done with it before anything else is written); arrays are never freed.
-/

namespace Mapl

/-- The arrays of bytes. -/
abbrev Mem := List Str

/-- A slice `[]byte`: an array, where the slice begins in it, and its length. The capacity reaches to the end of the array. -/
structure Slice where
  arr : Nat
  off : Nat
  len : Nat
  deriving DecidableEq, Repr

/-- The external functions, and where `jsonslice.Get` takes its result from: `place input path` is the offset in the input, `none` if
the result is a new array. -/
structure MemEnv extends Env where
  place : Str → Str → Option Nat

def Mem.array (mem : Mem) (i : Nat) : Str := mem[i]?.getD []

/-- The bytes of a slice. -/
def Mem.read (mem : Mem) (s : Slice) : Str := ((mem.array s.arr).drop s.off).take s.len

/-- `cap(s)`. -/
def Mem.cap (mem : Mem) (s : Slice) : Nat := (mem.array s.arr).length - s.off

/-- A new array. -/
def Mem.alloc (mem : Mem) (t : Str) : Slice × Mem := (⟨mem.length, 0, t.length⟩, mem ++ [t])

/-- Write `xs` at position `i`. -/
def overwrite (t : Str) (i : Nat) (xs : Str) : Str := t.take i ++ xs ++ t.drop (i + xs.length)

/-- `append(s, xs...)`: in place if the capacity suffices. `xs` are the bytes as they are before the call (`memmove`). -/
def Mem.append (mem : Mem) (s : Slice) (xs : Str) : Slice × Mem :=
  if s.len + xs.length ≤ mem.cap s then
    (⟨s.arr, s.off, s.len + xs.length⟩, mem.set s.arr (overwrite (mem.array s.arr) (s.off + s.len) xs))
  else mem.alloc (mem.read s ++ xs)

/-- `jsonslice.Get(s, q)`: the result, whether there is an error, and the arrays. -/
def getM (env : MemEnv) (mem : Mem) (s : Slice) (q : Str) : (Slice × Bool) × Mem :=
  let t := mem.read s
  let r := env.jsGet t q
  match env.place t q with
  | some i => ((⟨s.arr, s.off + i, r.1.length⟩, r.2), mem)
  | none => let a := mem.alloc r.1; ((a.1, r.2), a.2)

/-- `RequestJsonRaw` and `RequestJsonRawRelative` are slices; the other fields are in `msg`. -/
structure MMsg where
  msg : Msg
  raw : Option Slice
  rel : Option Slice

/-- The message with the texts of its documents. -/
def MMsg.view (mm : MMsg) (mem : Mem) : Msg := { mm.msg with jsonRaw := mm.raw.map mem.read, jsonRawRel := mm.rel.map mem.read }

/-- check.go:987-996: put the result of one query behind what is there. -/
def joinM (data : Slice) (r : (Slice × Bool) × Mem) : Slice × Mem :=
  if r.1.2 then (data, r.2)
  else if data.len = 0 then (r.1.1, r.2)
  else if r.1.1.len ≠ 0 then
    let a := r.2.append data gs","
    a.2.append a.1 (a.2.read r.1.1)
  else (data, r.2)

/-- Loop of check.go:975-997. -/
def collectM (env : MemEnv) (mm : MMsg) (data : Slice) (err : Bool) (mem : Mem) : List Str → Go (Option Slice × Mem)
  | [] => .ok (if err then none else some data, mem)
  | q :: qs => do
    let r ←
      if isRelativeParent q then do let s ← deref mm.rel; pure (getM env mem s (bytesParentQuery q))
      else do let s ← deref mm.raw; pure (getM env mem s q)
    let d := joinM data r
    collectM env mm d.1 r.1.2 d.2 qs

/-- check.go:1094-1123: shorter than two bytes it is the slice itself, otherwise a new array. -/
def flattenM (env : MemEnv) (mem : Mem) (data : Slice) : Go (Option Slice × Mem) :=
  if data.len < 2 then .ok (some data, mem)
  else do
    match ← getArrayFromArrayOfArrays env.toExt (mem.read data) with
    | none => pure (none, mem)
    | some s => let a := mem.alloc s; pure (some a.1, a.2)

/-- Loop of check.go:1049-1072 with positions: `i` is the position, `start` that of the object that is read. -/
def scanAt (arr off : Nat) (i : Nat) (c : Int) (start : Option Nat) : Str → List Slice
  | [] => []
  | ch :: cs =>
    let start := if ch = '{' ∧ c = 0 then some i else start
    let c := if ch = '{' then c + 1 else c
    let c := if ch = '}' then c - 1 else c
    if c = 0 then
      match start with
      | none => scanAt arr off (i + 1) c none cs
      | some k => ⟨arr, off + k, i + 1 - k⟩ :: scanAt arr off (i + 1) c none cs
    else scanAt arr off (i + 1) c start cs

/-- check.go:1037-1073; `none` is the error. -/
def objectsM (mem : Mem) (s : Slice) : Option (List Slice) :=
  match mem.read s with
  | [] => some []
  | '{' :: _ => none
  | t => some (scanAt s.arr s.off 0 0 none t)

/-- New arrays for several texts. -/
def Mem.allocAll (mem : Mem) : List Str → List Slice × Mem
  | [] => ([], mem)
  | t :: ts => let a := mem.alloc t; let r := a.2.allocAll ts; (a.1 :: r.1, r.2)

/-- check.go:968-1018. -/
def elementsM (env : MemEnv) (p : List Nat) (a : AnyAll) (mm : MMsg) (mem : Mem) : Go (Option (List Slice) × Mem) := do
  match ← collectM env mm ⟨0, 0, 0⟩ true mem a.parentArr with
  | (none, mem) => pure (none, mem)
  | (some data, mem) =>
    match ← flattenM env mem data with
    | (none, mem) => pure (none, mem)
    | (some s, mem) =>
      match objectsM mem s with
      | some l => pure (some l, mem)
      | none =>
        match getArrayOfJsonsFromMap env.toEnv (0 :: 0 :: p) (mem.read s) with
        | none => pure (none, mem)
        | some ts => let r := mem.allocAll ts; pure (some r.1, r.2)

/-- What `Eval` returns, with the message and the arrays afterwards. -/
structure EvalOutM where
  flag : Bool
  extra : List Extra
  mm : MMsg
  mem : Mem

/-- `anyLoop` with arrays: conditions_tree.go:308-324 and 343-357. -/
def anyLoopM {α : Type} (child : Nat → MMsg → Mem → Go EvalOutM) (set : α → MMsg → MMsg) (reset : MMsg → MMsg)
    (ret : Msg → Go (List Extra)) (checkAll : Bool) (i : Nat) (result : Bool) (acc : List Extra) (mm : MMsg) (mem : Mem) :
    List α → Go EvalOutM
  | [] => .ok ⟨result, acc, reset mm, mem⟩
  | v :: vs => do
    let o ← child i (set v mm) mem
    if o.flag then
      let e ← ret (o.mm.view o.mem)
      if checkAll then anyLoopM child set reset ret checkAll (i + 1) true (acc ++ e) o.mm o.mem vs
      else pure ⟨true, acc ++ e, reset o.mm, o.mem⟩
    else anyLoopM child set reset ret checkAll (i + 1) result acc o.mm o.mem vs

/-- `allLoop` with arrays: conditions_tree.go:513-524 and 536-545. -/
def allLoopM {α : Type} (child : Nat → MMsg → Mem → Go EvalOutM) (set : α → MMsg → MMsg) (reset : MMsg → MMsg) (i : Nat) (mm : MMsg)
    (mem : Mem) : List α → Go EvalOutM
  | [] => .ok ⟨true, [], reset mm, mem⟩
  | v :: vs => do
    let o ← child i (set v mm) mem
    if o.flag then allLoopM child set reset (i + 1) o.mm o.mem vs
    else pure ⟨false, [], reset o.mm, o.mem⟩

/-- `message.RequestRawInterfaceRelative = &val`. -/
def setValueM (v : Json) (mm : MMsg) : MMsg := { mm with msg := setRawIRel v mm.msg }

/-- `message.RequestJsonRawRelative = &val`. -/
def setSliceM (s : Slice) (mm : MMsg) : MMsg := { mm with rel := some s }

/-- conditions_tree.go:286-361. -/
def evalAnyM (env : MemEnv) (p : List Nat) (a : AnyAll) (child : Nat → MMsg → Mem → Go EvalOutM) (mm : MMsg) (mem : Mem) : Go EvalOutM :=
  if mm.msg.rawI.isSome ∧ a.queries ≠ [] then do
    let l ← getArrayOfInterfaces env.toEnv p a (mm.view mem)
    anyLoopM child setValueM (fun mm' => { mm' with msg := { mm'.msg with rawIRel := mm.msg.rawIRel } })
      (fun m' => if a.ret = [] then pure [] else do let e ← extraFromInterface env.toExt m' a.ret; pure [e])
      (decide (a.ret ≠ [])) 1 false [] mm mem l
  else do
    match ← elementsM env p a mm mem with
    | (none, mem) => pure ⟨false, [], mm, mem⟩
    | (some l, mem) =>
      anyLoopM child setSliceM (fun mm' => { mm' with rel := mm.rel })
        (fun m' => if a.ret = [] then pure [] else do let e ← extraFromBytes env.toExt m' a.ret; pure [e])
        (decide (a.ret ≠ [])) 1 false [] mm mem l

/-- conditions_tree.go:497-546. -/
def evalAllM (env : MemEnv) (p : List Nat) (a : AnyAll) (child : Nat → MMsg → Mem → Go EvalOutM) (mm : MMsg) (mem : Mem) : Go EvalOutM :=
  if mm.msg.rawI.isSome ∧ a.queries ≠ [] then do
    let l ← getArrayOfInterfaces env.toEnv p a (mm.view mem)
    allLoopM child setValueM (fun mm' => { mm' with msg := { mm'.msg with rawIRel := mm.msg.rawIRel } }) 1 mm mem l
  else do
    match ← elementsM env p a mm mem with
    | (none, mem) => pure ⟨false, [], mm, mem⟩
    | (some l, mem) => allLoopM child setSliceM (fun mm' => { mm' with rel := mm.rel }) 1 mm mem l

mutual
/-- `Eval` of the node types with arrays. Conditions only read them (check.go:387-407, 495-593). -/
def evalM (env : MemEnv) : Node → List Nat → MMsg → Mem → Go EvalOutM
  | .nil, _, _, _ => .error (.panic .nilDeref)
  | .and ns, p, mm, mem => evalAndM env ns p 1 [] mm mem
  | .or ns, p, mm, mem => evalOrM env ns p 1 false [] mm mem
  | .not n, p, mm, mem => do
    let o ← evalM env n (1 :: p) mm mem
    pure ⟨!o.flag, [], o.mm, o.mem⟩
  | .any a n, p, mm, mem => evalAnyM env p a (fun i mm' mem' => evalM env n (i :: p) mm' mem') mm mem
  | .all a n, p, mm, mem => evalAllM env p a (fun i mm' mem' => evalM env n (i :: p) mm' mem') mm mem
  | .tt, _, mm, mem => .ok ⟨true, [], mm, mem⟩
  | .ff, _, mm, mem => .ok ⟨false, [], mm, mem⟩
  | .cond c, p, mm, mem => do
    let r ← testOneCondition env.toEnv (0 :: 0 :: p) c (mm.view mem)
    pure ⟨r.1, r.2, mm, mem⟩

/-- Loop of conditions_tree.go:127-136. -/
def evalAndM (env : MemEnv) : List Node → List Nat → Nat → List Extra → MMsg → Mem → Go EvalOutM
  | [], _, _, acc, mm, mem => .ok ⟨true, acc, mm, mem⟩
  | n :: ns, p, i, acc, mm, mem => do
    let o ← evalM env n (i :: p) mm mem
    let acc := if o.extra.length > 0 then o.extra else acc
    if o.flag = false then pure ⟨false, acc, o.mm, o.mem⟩
    else evalAndM env ns p (i + 1) acc o.mm o.mem

/-- Loop of conditions_tree.go:189-201. -/
def evalOrM (env : MemEnv) : List Node → List Nat → Nat → Bool → List Extra → MMsg → Mem → Go EvalOutM
  | [], _, _, flag, acc, mm, mem => .ok ⟨flag, acc, mm, mem⟩
  | n :: ns, p, i, flag, acc, mm, mem => do
    let o ← evalM env n (i :: p) mm mem
    evalOrM env ns p (i + 1) (flag || o.flag) (if o.flag then acc ++ o.extra else acc) o.mm o.mem
end

/-! ## Rules -/

/-- check.go:248-259 on the rule after lazy preparation. -/
def testPreparedConditionsM (env : MemEnv) (p : List Nat) (prepared : Option Rule) (mm : MMsg) (mem : Mem) : Go EvalOutM := do
  let r ← deref prepared
  match r.conditions with
  | some n => evalM env n p mm mem
  | none => pure ⟨false, [], mm, mem⟩

/-- check.go:248-259. -/
def RuleObj.testConditionsM (env : MemEnv) (global : Predef) (p : List Nat) (r : RuleObj) (mm : MMsg) (mem : Mem) : Go (EvalOutM × RuleObj) := do
  let r ← r.ensure env.toEnv (0 :: p) global
  let o ← testPreparedConditionsM env (1 :: p) r.prepared mm mem
  pure (o, r)

/-- What `CheckOneRule` returns, and the message, the arrays and the rule afterwards. -/
structure RuleOutM where
  result : Nat
  extra : List Extra
  mm : MMsg
  mem : Mem
  rule : RuleObj

/-- check.go:101-172. What comes before the conditions does not look at documents. -/
def RuleObj.checkM (env : MemEnv) (global : Predef) (p : List Nat) (r : RuleObj) (mm : MMsg) (mem : Mem) : Go RuleOutM := do
  let r ← r.ensure env.toEnv (0 :: p) global
  let rule ← deref r.prepared
  let rule := convertOnUse env.toExt rule
  let r := { r with prepared := some rule }
  if ¬ (← testSender env.toExt rule (mm.view mem)) then return ⟨DEFAULT, [], mm, mem, r⟩
  if ¬ (← testReceiver env.toExt rule (mm.view mem)) then return ⟨DEFAULT, [], mm, mem, r⟩
  if ¬ (← matchPtr env.toExt rule.operationRegex (mm.view mem).requestMethod) then return ⟨DEFAULT, [], mm, mem, r⟩
  if ¬ (← testResource env.toExt rule (mm.view mem)) then return ⟨DEFAULT, [], mm, mem, r⟩
  let (o, r) ← match rule.conditions with
    | some _ => r.testConditionsM env global (1 :: p) mm mem
    | none => pure (⟨true, [], mm, mem⟩, r)
  if o.flag = false then return ⟨DEFAULT, [], o.mm, o.mem, r⟩
  let d := decisionCode rule.decision
  return ⟨d, if d = DEFAULT then [] else o.extra, o.mm, o.mem, r⟩

/-- Loop of check.go:68-75. The rules share the message, and with it the arrays. -/
def checkRulesM (env : MemEnv) (global : Predef) (i : Nat) (mm : MMsg) (mem : Mem) : List RuleObj → Go (List (Nat × List Extra) × MMsg × Mem)
  | [] => .ok ([], mm, mem)
  | r :: rs => do
    let o ← r.checkM env global [i] mm mem
    let rest ← checkRulesM env global (i + 1) o.mm o.mem rs
    pure ((o.result, o.extra) :: rest.1, rest.2)

/-- What `Check` returns, and the message and the arrays afterwards. -/
structure CheckOutM where
  out : CheckOut
  mm : MMsg
  mem : Mem

/-- check.go:34-98. -/
def checkM (env : MemEnv) (global : Predef) (mm : MMsg) (mem : Mem) (rules : List RuleObj) : Go CheckOutM := do
  let (outs, mm', mem') ← checkRulesM env global 0 mm mem rules
  let results := outs.map (·.1)
  let a := aggregate 0 {} (results.zip (rules.map describe))
  match decisionNames[a.maxDecision]? with
  | none => .error (.panic .outOfRange)
  | some name => pure ⟨⟨a.maxDecision, name, a.relevant, results, a.applied, a.description, outs.map (·.2), mm'.view mem'⟩, mm', mem'⟩

end Mapl

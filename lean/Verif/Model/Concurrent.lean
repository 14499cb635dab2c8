import Verif.Model.Check

/-!
# Checks that run at the same time

`eval` and `check` describe a check that runs alone. Here the same functions are given as programs whose steps are reads and writes of
the message behind the pointer, so that the steps of several checks can be interleaved.

Simplifications. The fields of a message other than `RequestJsonRawRelative` and `RequestRawInterfaceRelative` are written by none of
these functions; all that one condition, one parent path or one set of returned values looks at is read in one step, although the code
reads the two fields anew each time it uses them. The stored pointer `&val` is replaced by the value it points to; before Go 1.22 the
pointer is to a variable shared by the iterations of one loop. Both make the model have fewer schedules than the code.
-/

namespace Mapl

/-- A program that works on one message. -/
inductive Prog (α : Type) where
  | done (r : Go α)
  | read (k : Msg → Prog α)
  | write (f : Msg → Msg) (k : Prog α)

/-- One program after the other; a failure ends both. -/
def Prog.bind {α β : Type} (x : Prog α) (f : α → Prog β) : Prog β :=
  match x with
  | .done (.ok a) => f a
  | .done (.error e) => .done (.error e)
  | .read k => .read fun m => (k m).bind f
  | .write g k => .write g (k.bind f)

/-- The program runs alone. -/
def Prog.run {α : Type} : Prog α → Msg → Go (α × Msg)
  | .done r, m => r.map (·, m)
  | .read k, m => (k m).run m
  | .write f k, m => k.run (f m)

/-- Loop of conditions_tree.go:308-326 and 343-359; see `anyLoop`. -/
def anyLoopP {α : Type} (child : Nat → Prog (Bool × List Extra)) (set : α → Msg → Msg) (reset : Msg → Msg)
    (ret : Msg → Go (List Extra)) (checkAll : Bool) (i : Nat) (result : Bool) (acc : List Extra) : List α → Prog (Bool × List Extra)
  | [] => .write reset (.done (.ok (result, acc)))
  | v :: vs => .write (set v) ((child i).bind fun o =>
      if o.1 then
        .read fun m => (Prog.done (ret m)).bind fun e =>
          if checkAll then anyLoopP child set reset ret checkAll (i + 1) true (acc ++ e) vs
          else .write reset (.done (.ok (true, acc ++ e)))
      else anyLoopP child set reset ret checkAll (i + 1) result acc vs)

/-- Loop of conditions_tree.go:513-524 and 536-545; see `allLoop`. -/
def allLoopP {α : Type} (child : Nat → Prog (Bool × List Extra)) (set : α → Msg → Msg) (reset : Msg → Msg) (i : Nat) :
    List α → Prog (Bool × List Extra)
  | [] => .write reset (.done (.ok (true, [])))
  | v :: vs => .write (set v) ((child i).bind fun o =>
      if o.1 then allLoopP child set reset (i + 1) vs else .write reset (.done (.ok (false, []))))

/-- conditions_tree.go:286-361; see `evalAny`. Lines 307 and 342 read the field once more, to save it. -/
def evalAnyP (env : Env) (p : List Nat) (a : AnyAll) (child : Nat → Prog (Bool × List Extra)) : Prog (Bool × List Extra) :=
  .read fun m =>
    if m.rawI.isSome ∧ a.queries ≠ [] then
      (Prog.done (getArrayOfInterfaces env p a m)).bind fun l => .read fun old =>
        anyLoopP child setRawIRel (fun m' => { m' with rawIRel := old.rawIRel })
          (fun m' => if a.ret = [] then pure [] else do let e ← extraFromInterface env m' a.ret; pure [e])
          (decide (a.ret ≠ [])) 1 false [] l
    else
      (Prog.done (getArrayOfJsons env p a m)).bind fun
        | none => .done (.ok (false, []))
        | some l => .read fun old =>
          anyLoopP child setJsonRawRel (fun m' => { m' with jsonRawRel := old.jsonRawRel })
            (fun m' => if a.ret = [] then pure [] else do let e ← extraFromBytes env m' a.ret; pure [e])
            (decide (a.ret ≠ [])) 1 false [] l

/-- conditions_tree.go:497-546; see `evalAll`. -/
def evalAllP (env : Env) (p : List Nat) (a : AnyAll) (child : Nat → Prog (Bool × List Extra)) : Prog (Bool × List Extra) :=
  .read fun m =>
    if m.rawI.isSome ∧ a.queries ≠ [] then
      (Prog.done (getArrayOfInterfaces env p a m)).bind fun l => .read fun old =>
        allLoopP child setRawIRel (fun m' => { m' with rawIRel := old.rawIRel }) 1 l
    else
      (Prog.done (getArrayOfJsons env p a m)).bind fun
        | none => .done (.ok (false, []))
        | some l => .read fun old => allLoopP child setJsonRawRel (fun m' => { m' with jsonRawRel := old.jsonRawRel }) 1 l

mutual
/-- `Eval` of the node types; see `eval`. -/
def evalP (env : Env) : Node → List Nat → Prog (Bool × List Extra)
  | .nil, _ => .done (.error (.panic .nilDeref))
  | .and ns, p => evalAndP env ns p 1 []
  | .or ns, p => evalOrP env ns p 1 false []
  | .not n, p => (evalP env n (1 :: p)).bind fun o => .done (.ok (!o.1, []))
  | .any a n, p => evalAnyP env p a (fun i => evalP env n (i :: p))
  | .all a n, p => evalAllP env p a (fun i => evalP env n (i :: p))
  | .tt, _ => .done (.ok (true, []))
  | .ff, _ => .done (.ok (false, []))
  | .cond c, p => .read fun m => .done (testOneCondition env (0 :: 0 :: p) c m)

/-- Loop of conditions_tree.go:127-136. -/
def evalAndP (env : Env) : List Node → List Nat → Nat → List Extra → Prog (Bool × List Extra)
  | [], _, _, acc => .done (.ok (true, acc))
  | n :: ns, p, i, acc => (evalP env n (i :: p)).bind fun o =>
    let acc := if o.2.length > 0 then o.2 else acc
    if o.1 = false then .done (.ok (false, acc)) else evalAndP env ns p (i + 1) acc

/-- Loop of conditions_tree.go:189-201. -/
def evalOrP (env : Env) : List Node → List Nat → Nat → Bool → List Extra → Prog (Bool × List Extra)
  | [], _, _, flag, acc => .done (.ok (flag, acc))
  | n :: ns, p, i, flag, acc => (evalP env n (i :: p)).bind fun o =>
    evalOrP env ns p (i + 1) (flag || o.1) (if o.1 then acc ++ o.2 else acc)
end

/-- check.go:107-148: everything but the conditions. -/
def testParts (env : Env) (rule : Rule) (m : Msg) : Go Bool := do
  if ¬ (← testSender env rule m) then return false
  if ¬ (← testReceiver env rule m) then return false
  if ¬ (← matchPtr env rule.operationRegex m.requestMethod) then return false
  if ¬ (← testResource env rule m) then return false
  return true

/-- check.go:248-259; see `RuleObj.testConditions`. -/
def RuleObj.testConditionsP (env : Env) (global : Predef) (p : List Nat) (r : RuleObj) : Prog (Bool × List Extra) :=
  (Prog.done (r.ensure env (0 :: p) global)).bind fun r =>
  (Prog.done (deref r.prepared)).bind fun rule =>
  match rule.conditions with
  | some n => evalP env n (1 :: p)
  | none => .done (.ok (false, []))

/-- check.go:101-172; see `RuleObj.check`. The rule is a copy that no other check sees. -/
def RuleObj.checkP (env : Env) (global : Predef) (p : List Nat) (r : RuleObj) : Prog (Nat × List Extra) :=
  (Prog.done (r.ensure env (0 :: p) global)).bind fun r =>
  (Prog.done (deref r.prepared)).bind fun rule =>
  let rule := convertOnUse env rule
  let r := { r with prepared := some rule }
  .read fun m => (Prog.done (testParts env rule m)).bind fun b =>
    if b = false then .done (.ok (DEFAULT, []))
    else
      (match rule.conditions with
        | some _ => r.testConditionsP env global (1 :: p)
        | none => .done (.ok (true, []))).bind fun o =>
      if o.1 = false then .done (.ok (DEFAULT, []))
      else
        let d := decisionCode rule.decision
        .done (.ok (d, if d = DEFAULT then [] else o.2))

/-- Loop of check.go:68-75; see `checkRules`. -/
def checkRulesP (env : Env) (global : Predef) (i : Nat) : List RuleObj → Prog (List (Nat × List Extra))
  | [] => .done (.ok [])
  | r :: rs => (r.checkP env global [i]).bind fun o =>
    (checkRulesP env global (i + 1) rs).bind fun rest => .done (.ok (o :: rest))

/-- check.go:34-98; see `check`. The last read is only there to report the message afterwards. -/
def checkP (env : Env) (global : Predef) (rules : List RuleObj) : Prog CheckOut :=
  (checkRulesP env global 0 rules).bind fun outs =>
    let results := outs.map (·.1)
    let a := aggregate 0 {} (results.zip (rules.map describe))
    match decisionNames[a.maxDecision]? with
    | none => .done (.error (.panic .outOfRange))
    | some name => .read fun m => .done (.ok ⟨a.maxDecision, name, a.relevant, results, a.applied, a.description, outs.map (·.2), m⟩)

/-! ## Interleaving -/

/-- A goroutine: the message its program works on, and what is left of the program. -/
structure Thread (α : Type) where
  addr : Nat
  prog : Prog α

/-- The messages in memory and the goroutines. -/
structure Config (α : Type) where
  heap : Nat → Msg
  threads : List (Thread α)

/-- One step of one goroutine. -/
def Thread.step {α : Type} (heap : Nat → Msg) (t : Thread α) : Option ((Nat → Msg) × Thread α) :=
  match t.prog with
  | .done _ => none
  | .read k => some (heap, { t with prog := k (heap t.addr) })
  | .write f k => some (fun a => if a = t.addr then f (heap a) else heap a, { t with prog := k })

/-- One step of goroutine `i`; a goroutine that is done (or not there) does nothing. -/
def Config.step {α : Type} (c : Config α) (i : Nat) : Config α :=
  match c.threads[i]? with
  | none => c
  | some t =>
    match t.step c.heap with
    | none => c
    | some (heap, t) => ⟨heap, c.threads.set i t⟩

/-- A schedule: which goroutine makes the next step. -/
def Config.exec {α : Type} (c : Config α) (schedule : List Nat) : Config α := schedule.foldl Config.step c

/-- What goroutine `i` returned, if it is done. -/
def Config.result {α : Type} (c : Config α) (i : Nat) : Option (Go α) :=
  match c.threads[i]? with
  | some ⟨_, .done r⟩ => some r
  | _ => none

end Mapl

import Verif.Lemmas.Crash

/-!
# Checking has no error values

The Go functions that check a message return no error: where the model fails, it is a panic.
-/

namespace Mapl

variable {env : Env} {msg : Msg} {p : List Nat} {c : Condition}

/-- If the call fails then with a panic. -/
def OnlyPanics {α : Type} (x : Go α) : Prop := ∀ e, x ≠ .error (.err e)

namespace OnlyPanics

variable {α β : Type}

theorem ok (a : α) : OnlyPanics (.ok a : Go α) := fun _ h => by cases h

theorem pure (a : α) : OnlyPanics (Pure.pure a : Go α) := fun _ h => by cases h

theorem panic (x : Panic) : OnlyPanics (.error (.panic x) : Go α) := fun _ h => by cases h

theorem deref (o : Option α) : OnlyPanics (Mapl.deref o) := by
  cases o with
  | none => exact .panic _
  | some a => exact .ok a

theorem bind {x : Go α} {f : α → Go β} (h : OnlyPanics x) (hf : ∀ a, OnlyPanics (f a)) : OnlyPanics (x >>= f) := by
  intro e he
  cases x with
  | error e' =>
    have : e' = .err e := by cases he; rfl
    subst this
    exact h _ rfl
  | ok a => exact hf a e he

theorem ite {P : Prop} [Decidable P] {x y : Go α} (hx : P → OnlyPanics x) (hy : ¬ P → OnlyPanics y) : OnlyPanics (if P then x else y) := by
  split
  · exact hx (by assumption)
  · exact hy (by assumption)

end OnlyPanics

theorem onlyPanics_compareInt (x : Int) (m : Str) (v : Option Int) : OnlyPanics (compareInt x m v) := by
  unfold compareInt
  repeat' first
    | exact .ok _
    | exact .pure _
    | exact .deref _
    | refine .bind (.deref _) fun _ => ?_
    | refine .ite (fun _ => ?_) fun _ => ?_

theorem onlyPanics_compareFloat (x : F64) (m : Str) (v : Option F64) : OnlyPanics (compareFloat x m v) := by
  unfold compareFloat
  repeat' first
    | exact .ok _
    | exact .pure _
    | exact .deref _
    | refine .bind (.deref _) fun _ => ?_
    | refine .ite (fun _ => ?_) fun _ => ?_

theorem onlyPanics_judgeInterface {env : Ext} (v : Option Json) : OnlyPanics (judgeInterfaceValue env c v) := by
  unfold judgeInterfaceValue compareInterfaceText
  repeat' first
    | exact .ok _
    | exact onlyPanics_compareFloat _ _ _
    | refine .ite (fun _ => ?_) fun _ => ?_
    | split

theorem onlyPanics_judgeBytes {env : Ext} (r : Str × Bool) : OnlyPanics (judgeBytesValue env c r) := by
  unfold judgeBytesValue compareBytesText
  repeat' first
    | exact .ok _
    | exact onlyPanics_compareFloat _ _ _
    | refine .ite (fun _ => ?_) fun _ => ?_
    | split

theorem onlyPanics_keyValue (rel : Json) : OnlyPanics (getKeyValueFromInterface env p c rel) := by
  unfold getKeyValueFromInterface
  split
  · split
    · exact .ok _
    · exact .ite (fun _ => .ok _) fun _ => .ite (fun _ => .ok _) fun _ => .bind (.deref _) fun _ => .pure _
  · exact .panic _

theorem onlyPanics_flag : OnlyPanics (testJsonpathFlag env p c msg) := by
  unfold testJsonpathFlag
  refine .ite (fun _ => ?_) fun _ => ?_
  · unfold testJsonpathOnInterface
    refine .ite (fun _ => .ok _) fun _ => .ite (fun _ => ?_) fun _ => ?_
    · split
      · exact .ok _
      · exact .ite (fun _ => .bind (onlyPanics_keyValue _) fun _ => onlyPanics_judgeInterface _) fun _ => .bind (.deref _) fun _ => onlyPanics_judgeInterface _
    · split
      · exact .ok _
      · exact .bind (.deref _) fun _ => onlyPanics_judgeInterface _
  · unfold testJsonpath
    refine .ite (fun _ => .ok _) fun _ => .ite (fun _ => ?_) fun _ => ?_
    · split
      · exact .ok _
      · refine .ite (fun _ => .ok _) fun _ => .ite (fun _ => ?_) fun _ => onlyPanics_judgeBytes _
        exact .ite (fun _ => onlyPanics_judgeBytes _) fun _ => onlyPanics_judgeBytes _
    · split
      · exact .ok _
      · exact .ite (fun _ => .ok _) fun _ => onlyPanics_judgeBytes _

theorem onlyPanics_extraInterface {env : Ext} {m : Msg} : ∀ l : List RetVal, OnlyPanics (extraFromInterface env m l)
  | [] => .ok _
  | r :: rs => by
    unfold extraFromInterface extraEntryInterface
    refine .bind (.ite (fun _ => .bind (.deref _) fun _ => .pure _) fun _ => ?_) fun _ => .bind (onlyPanics_extraInterface rs) fun _ => .pure _
    split
    · exact .bind (.deref _) fun _ => .pure _
    · exact .pure _

theorem onlyPanics_extraBytes {env : Ext} {m : Msg} : ∀ l : List RetVal, OnlyPanics (extraFromBytes env m l)
  | [] => .ok _
  | r :: rs => by
    unfold extraFromBytes
    exact .bind (.deref _) fun _ => .bind (onlyPanics_extraBytes rs) fun _ => .pure _

theorem onlyPanics_condition : OnlyPanics (testOneCondition env p c msg) := by
  unfold testOneCondition
  repeat' first
    | exact .ok _
    | exact .bind (onlyPanics_compareInt _ _ _) fun _ => .pure _
    | exact .bind (onlyPanics_compareFloat _ _ _) fun _ => .pure _
    | exact .bind (.deref _) fun _ => .bind (onlyPanics_compareFloat _ _ _) fun _ => .pure _
    | refine .ite (fun _ => ?_) fun _ => ?_
  refine .bind onlyPanics_flag fun f => ?_
  split
  · refine .bind ?_ fun _ => .pure _
    unfold getExtraData
    split
    · exact onlyPanics_extraInterface _
    · exact onlyPanics_extraBytes _
  · exact .pure _

theorem onlyPanics_arrange (d : Json) : OnlyPanics (arrangeArray env p d) := by
  cases d <;> first | exact .ok _ | exact .panic _

theorem onlyPanics_elements {d : Option Json} : ∀ (qs : List JPath) (j : Nat), OnlyPanics (queryElements env p d j qs)
  | [], _ => .ok _
  | q :: qs, j => .bind (.deref _) fun _ => .bind (onlyPanics_arrange _) fun _ => .bind (onlyPanics_elements qs _) fun _ => .pure _

theorem onlyPanics_interfaces {a : AnyAll} : OnlyPanics (getArrayOfInterfaces env p a msg) := by
  unfold getArrayOfInterfaces
  refine .ite (fun _ => .ite (fun _ => .bind (.deref _) fun d => ?_) fun _ => onlyPanics_elements _ _) fun _ => onlyPanics_elements _ _
  split
  · exact .pure _
  · exact .panic _

theorem onlyPanics_collect : ∀ (qs : List Str) (data : Str) (e : Bool), OnlyPanics (collectJsons env msg data e qs)
  | [], _, _ => .ok _
  | q :: qs, data, e => by
    unfold collectJsons
    exact .ite (fun _ => .bind (.deref _) fun _ => .bind (.pure _) fun _ => onlyPanics_collect _ _ _)
      fun _ => .bind (.deref _) fun _ => .bind (.pure _) fun _ => onlyPanics_collect _ _ _

theorem onlyPanics_jsons {a : AnyAll} : OnlyPanics (getArrayOfJsons env p a msg) := by
  unfold getArrayOfJsons
  refine .bind (onlyPanics_collect _ _ _) fun d => ?_
  split
  · exact .pure _
  · refine .bind ?_ fun s => ?_
    · unfold getArrayFromArrayOfArrays
      refine .ite (fun _ => .ok _) fun _ => ?_
      dsimp only
      split
      · exact .panic _
      · refine .ite (fun _ => .ok _) fun _ => ?_
        split
        · exact .panic _
        · exact .ite (fun _ => .ok _) fun _ => .ite (fun _ => .ok _) fun _ => .ok _
    · split
      · exact .pure _
      · split
        · exact .pure _
        · exact .pure _

theorem onlyPanics_anyLoop {α : Type} {child : Nat → Msg → Go EvalOut} {set : α → Msg → Msg} {reset : Msg → Msg} {ret : Msg → Go (List Extra)} {checkAll : Bool}
    (hc : ∀ i m, OnlyPanics (child i m)) (hr : ∀ m, OnlyPanics (ret m)) : ∀ (l : List α) (i : Nat) (result : Bool) (acc : List Extra) (m : Msg),
      OnlyPanics (anyLoop child set reset ret checkAll i result acc m l)
  | [], _, _, _, _ => .ok _
  | v :: vs, i, result, acc, m => by
    unfold anyLoop
    refine .bind (hc _ _) fun o => .ite (fun _ => ?_) fun _ => onlyPanics_anyLoop hc hr vs _ _ _ _
    exact .bind (hr _) fun _ => .ite (fun _ => onlyPanics_anyLoop hc hr vs _ _ _ _) fun _ => .pure _

theorem onlyPanics_allLoop {α : Type} {child : Nat → Msg → Go EvalOut} {set : α → Msg → Msg} {reset : Msg → Msg} (hc : ∀ i m, OnlyPanics (child i m)) :
    ∀ (l : List α) (i : Nat) (m : Msg), OnlyPanics (allLoop child set reset i m l)
  | [], _, _ => .ok _
  | v :: vs, i, m => by
    unfold allLoop
    exact .bind (hc _ _) fun o => .ite (fun _ => onlyPanics_allLoop hc vs _ _) fun _ => .pure _

mutual
theorem onlyPanics_eval (env : Env) : ∀ (n : Node) (p : List Nat) (m : Msg), OnlyPanics (eval env n p m)
  | .nil, _, _ => by rw [eval]; exact .panic _
  | .and ns, p, m => by rw [eval]; exact onlyPanics_evalAnd env ns p 1 [] m
  | .or ns, p, m => by rw [eval]; exact onlyPanics_evalOr env ns p 1 false [] m
  | .not n, p, m => by rw [eval]; exact .bind (onlyPanics_eval env n _ _) fun _ => .pure _
  | .any a n, p, m => by
    rw [eval]
    unfold evalAny
    refine .ite (fun _ => .bind onlyPanics_interfaces fun l => onlyPanics_anyLoop (fun _ _ => onlyPanics_eval env n _ _) (fun _ => ?_) _ _ _ _ _) fun _ =>
      .bind onlyPanics_jsons fun l => ?_
    · exact .ite (fun _ => .pure _) fun _ => .bind (onlyPanics_extraInterface _) fun _ => .pure _
    · split
      · exact .pure _
      · refine onlyPanics_anyLoop (fun _ _ => onlyPanics_eval env n _ _) (fun _ => ?_) _ _ _ _ _
        exact .ite (fun _ => .pure _) fun _ => .bind (onlyPanics_extraBytes _) fun _ => .pure _
  | .all a n, p, m => by
    rw [eval]
    unfold evalAll
    refine .ite (fun _ => .bind onlyPanics_interfaces fun l => onlyPanics_allLoop (fun _ _ => onlyPanics_eval env n _ _) _ _ _) fun _ =>
      .bind onlyPanics_jsons fun l => ?_
    split
    · exact .pure _
    · exact onlyPanics_allLoop (fun _ _ => onlyPanics_eval env n _ _) _ _ _
  | .tt, _, _ => by rw [eval]; exact .ok _
  | .ff, _, _ => by rw [eval]; exact .ok _
  | .cond c, p, m => by rw [eval]; exact .bind onlyPanics_condition fun _ => .pure _

theorem onlyPanics_evalAnd (env : Env) : ∀ (ns : List Node) (p : List Nat) (i : Nat) (acc : List Extra) (m : Msg), OnlyPanics (evalAnd env ns p i acc m)
  | [], _, _, _, _ => by rw [evalAnd]; exact .ok _
  | n :: ns, p, i, acc, m => by
    rw [evalAnd]
    exact .bind (onlyPanics_eval env n _ _) fun o => .ite (fun _ => .pure _) fun _ => onlyPanics_evalAnd env ns _ _ _ _

theorem onlyPanics_evalOr (env : Env) : ∀ (ns : List Node) (p : List Nat) (i : Nat) (f : Bool) (acc : List Extra) (m : Msg), OnlyPanics (evalOr env ns p i f acc m)
  | [], _, _, _, _, _ => by rw [evalOr]; exact .ok _
  | n :: ns, p, i, f, acc, m => by
    rw [evalOr]
    exact .bind (onlyPanics_eval env n _ _) fun o => onlyPanics_evalOr env ns _ _ _ _ _
end

theorem onlyPanics_setPredefined {t : Predef} {r : RuleObj} : OnlyPanics (r.setPredefined env p t) := by
  unfold RuleObj.setPredefined
  dsimp only
  split
  · exact .panic _
  · exact .ok _
  · split
    · exact .panic _
    · exact .ok _
    · exact .ok _

theorem onlyPanics_ensure {t : Predef} {r : RuleObj} : OnlyPanics (r.ensure env p t) := by
  unfold RuleObj.ensure
  refine .ite (fun _ => .ok _) fun _ => ?_
  intro e he
  have h := onlyPanics_setPredefined (env := env) (p := p) (t := t) (r := r)
  cases hs : r.setPredefined env p t with
  | error e' =>
    rw [hs] at he
    cases he
    exact h e hs
  | ok x => rw [hs] at he; cases he

theorem onlyPanics_match {env : Ext} (re : Option Re) (s : Str) : OnlyPanics (matchPtr env re s) := by
  cases re with
  | none => exact .panic _
  | some r => exact .ok _

theorem onlyPanics_senderLoop {env : Ext} : ∀ l : List ExpandedSR, OnlyPanics (senderLoop env msg l)
  | [] => .ok _
  | e :: es => by
    unfold senderLoop
    refine .ite (fun _ => .ite (fun _ => .ok _) fun _ => onlyPanics_senderLoop es) fun _ => .ite (fun _ => ?_) fun _ => .ok _
    exact .bind (onlyPanics_match _ _) fun _ => .ite (fun _ => .pure _) fun _ => onlyPanics_senderLoop es

theorem onlyPanics_receiverLoop {env : Ext} : ∀ l : List ExpandedSR, OnlyPanics (receiverLoop env msg l)
  | [] => .ok _
  | e :: es => by
    unfold receiverLoop
    refine .ite (fun _ => .ite (fun _ => .ok _) fun _ => onlyPanics_receiverLoop es) fun _ => .ite (fun _ => ?_) fun _ => .ite (fun _ => ?_) fun _ => .ok _
    · exact .bind (onlyPanics_match _ _) fun _ => .ite (fun _ => .pure _) fun _ => onlyPanics_receiverLoop es
    · exact .bind (onlyPanics_match _ _) fun _ => .ite (fun _ => .pure _) fun _ => onlyPanics_receiverLoop es

theorem onlyPanics_rule {g : Predef} {r : RuleObj} : OnlyPanics (r.check env g p msg) := by
  unfold RuleObj.check
  refine .bind onlyPanics_ensure fun r => .bind (.deref _) fun rule => ?_
  refine .bind (onlyPanics_senderLoop _) fun _ => .ite (fun _ => .pure _) fun _ => ?_
  refine .bind (onlyPanics_receiverLoop _) fun _ => .ite (fun _ => .pure _) fun _ => ?_
  refine .bind (onlyPanics_match _ _) fun _ => .ite (fun _ => .pure _) fun _ => ?_
  refine .bind (.ite (fun _ => onlyPanics_match _ _) fun _ => .ite (fun _ => .ite (fun _ => .ok _) fun _ => .ite (fun _ => .ok _) fun _ => onlyPanics_match _ _)
    fun _ => .ok _) fun _ => .ite (fun _ => .pure _) fun _ => ?_
  split
  · refine .bind ?_ fun _ => .ite (fun _ => .pure _) fun _ => .pure _
    unfold RuleObj.testConditions
    refine .bind onlyPanics_ensure fun r => .bind ?_ fun _ => .pure _
    unfold testPreparedConditions
    refine .bind (.deref _) fun r => ?_
    split
    · exact onlyPanics_eval env _ _ _
    · exact .pure _
  · exact .bind (.pure _) fun _ => .ite (fun _ => .pure _) fun _ => .pure _

theorem onlyPanics_checkRules {g : Predef} : ∀ (rs : List RuleObj) (i : Nat) (m : Msg), OnlyPanics (checkRules env g i m rs)
  | [], _, _ => .ok _
  | r :: rs, i, m => by
    unfold checkRules
    exact .bind onlyPanics_rule fun o => .bind (onlyPanics_checkRules rs _ _) fun _ => .pure _

theorem onlyPanics_check {g : Predef} {rs : List RuleObj} : OnlyPanics (check env g msg rs) := by
  unfold check
  refine .bind (onlyPanics_checkRules _ _ _) fun x => ?_
  dsimp only
  split
  · exact .panic _
  · exact .pure _

end Mapl

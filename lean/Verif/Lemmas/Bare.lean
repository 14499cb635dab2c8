import Verif.Spec.Bare
import Verif.Lemmas.Policy
import Verif.Lemmas.Decision

/-! # Lemmas on trees without return values -/

namespace Mapl

open Spec Props

variable {env : Env} {t : Predef} {msg : Msg}

/-! ## Preparation -/

/-- The condition with other return values. -/
def Condition.withRet (r : Option (List RetVal)) (c : Condition) : Condition := { c with ret := r }

theorem withRet_replace {e : Ext} {c : Condition} {r : Option (List RetVal)} :
    replaceStringsAndListsInCondition e (c.withRet r) t = (replaceStringsAndListsInCondition e c t).map (·.withRet r) := by
  unfold replaceStringsAndListsInCondition Condition.withRet
  dsimp only
  generalize isReplaceableList c.value t = x
  match x with
  | (some l, _) =>
    dsimp only
    split
    · split <;> rfl
    · rfl
  | (none, b) =>
    dsimp only
    split
    · rfl
    · cases b <;> rfl

theorem withRet_setNumbers {e : Ext} {c : Condition} {r : Option (List RetVal)} : setNumbers e (c.withRet r) = (setNumbers e c).withRet r := by
  unfold setNumbers Condition.withRet
  dsimp only
  repeat' split
  all_goals first | rfl | simp_all

theorem withRet_validate {e : Ext} {c : Condition} {r : Option (List RetVal)} :
    validateOneCondition e (c.withRet r) = (validateOneCondition e c).map (·.withRet r) := by
  unfold validateOneCondition
  have h1 : validateAttribute (c.withRet r) = validateAttribute c := rfl
  have h2 : validateMethod e (c.withRet r) = validateMethod e c := rfl
  rw [h1, h2]
  cases validateAttribute c with
  | error x => rfl
  | ok _ =>
    cases validateMethod e c with
    | error x => rfl
    | ok _ =>
      show convertAndValidateNumericalValues e (c.withRet r) = (convertAndValidateNumericalValues e c).map (·.withRet r)
      unfold convertAndValidateNumericalValues
      rw [withRet_setNumbers]
      rw [show (c.withRet r).value = c.value from rfl, show (c.withRet r).method = c.method from rfl]
      generalize setNumbers e c = d
      dsimp only
      split
      · rfl
      · split <;> rfl

theorem withRet_labels {c : Condition} {r : Option (List RetVal)} : handleLabels (c.withRet r) = (handleLabels c).map (·.withRet r) := by
  have e : hasPrefix gs"senderLabel" gs"receiverLabel[" = false := rfl
  unfold handleLabels Condition.withRet
  dsimp only
  cases h1 : hasPrefix c.attr gs"senderLabel[" <;> cases h2 : hasPrefix c.attr gs"receiverLabel[" <;> cases h3 : hasPrefix c.value gs"receiverLabel[" <;>
    cases h4 : sliceBrackets c.attr <;> cases h5 : sliceBrackets c.value <;>
    simp [h1, h2, h3, h4, h5, e, Except.map, bind, Except.bind, pure, Except.pure]

theorem withRet_objects {c : Condition} {r : Option (List RetVal)} : handleObjects (c.withRet r) = (handleObjects c).withRet r := by
  have e : hasPrefix gs"$sender" gs"$receiver." = false := rfl
  unfold handleObjects Condition.withRet
  dsimp only
  cases h0 : hasPrefix c.attr gs"$sender." <;> cases h : hasPrefix c.attr gs"$receiver." <;> cases h' : hasPrefix c.value gs"$receiver." <;> simp [h0, h, h', e]

theorem withRet_jsonpath {c : Condition} {r : Option (List RetVal)} : handleJsonpath (c.withRet r) = (handleJsonpath c).map (·.withRet r) := by
  unfold handleJsonpath
  rw [show (c.withRet r).attr = c.attr from rfl]
  split
  · dsimp only
    split
    · rfl
    · rfl
  · rfl

theorem withRet_convert {e : Ext} {c : Condition} {r : Option (List RetVal)} : convertCondition e (c.withRet r) = (convertCondition e c).map (·.withRet r) := by
  have h1 : setRegex e (setNumbers e (convertMethod (c.withRet r))) = (setRegex e (setNumbers e (convertMethod c))).withRet r := by
    have : convertMethod (c.withRet r) = (convertMethod c).withRet r := by
      unfold convertMethod Condition.withRet
      dsimp only
      split <;> rfl
    rw [this, withRet_setNumbers]
    generalize setNumbers e (convertMethod c) = d
    unfold setRegex
    rw [show (d.withRet r).value = d.value from rfl]
    cases compile e d.value <;> rfl
  unfold convertCondition
  dsimp only
  rw [h1]
  generalize setRegex e (setNumbers e (convertMethod c)) = d
  rw [show (d.withRet r).value = d.value from rfl, show (d.withRet r).method = d.method from rfl, show (d.withRet r).origMethod = d.origMethod from rfl]
  cases failIf (¬ e.reOk d.value = true ∧ d.method ∈ regexMethods) Err.badRegex with
  | error => rfl
  | ok _ =>
    show (handleLabels (({ d with valueStringRegex := compile e (convertStringToRegex d.value d.origMethod) } : Condition).withRet r) >>= _) =
      (handleLabels { d with valueStringRegex := compile e (convertStringToRegex d.value d.origMethod) } >>= _).map _
    rw [withRet_labels]
    cases handleLabels { d with valueStringRegex := compile e (convertStringToRegex d.value d.origMethod) } with
    | error => rfl
    | ok d1 =>
      show (handleJsonpath (handleObjects (d1.withRet r)) >>= _) = (handleJsonpath (handleObjects d1) >>= _).map _
      rw [withRet_objects, withRet_jsonpath]
      cases handleJsonpath (handleObjects d1) with
      | error => rfl
      | ok d2 =>
        show (failIf (¬((d2.withRet r).attrIsJsonpath = true ∨ (d2.withRet r).attrIsJsonpathRelative = true) ∧ _) Err.badRegex >>= _) =
          (failIf (¬(d2.attrIsJsonpath = true ∨ d2.attrIsJsonpathRelative = true) ∧ _) Err.badRegex >>= _).map _
        rw [show (d2.withRet r).attrIsJsonpath = d2.attrIsJsonpath from rfl, show (d2.withRet r).attrIsJsonpathRelative = d2.attrIsJsonpathRelative from rfl]
        cases failIf (¬(d2.attrIsJsonpath = true ∨ d2.attrIsJsonpathRelative = true) ∧ (compile e (convertStringToRegex d.value d.origMethod)).isNone = true) Err.badRegex <;> rfl

theorem withRet_query {e : Ext} {c : Condition} {r : Option (List RetVal)} : (c.withRet r).setQuery e = (c.setQuery e).map (·.withRet r) := by
  unfold Condition.setQuery
  rw [show (c.withRet r).attrIsJsonpath = c.attrIsJsonpath from rfl, show (c.withRet r).jsonpathQuery = c.jsonpathQuery from rfl]
  split
  · cases prepareJsonpathQuery e c.jsonpathQuery <;> rfl
  · rfl

/-- Preparing a condition does not touch its return values. -/
theorem withRet_prepare {e : Ext} {c : Condition} {r : Option (List RetVal)} : (c.withRet r).prepare e t = (c.prepare e t).map (·.withRet r) := by
  unfold Condition.prepare
  rw [withRet_replace]
  cases replaceStringsAndListsInCondition e c t with
  | error => rfl
  | ok c1 =>
    show (validateOneCondition e (c1.withRet r) >>= _) = (validateOneCondition e c1 >>= _).map _
    rw [withRet_validate]
    cases validateOneCondition e c1 with
    | error => rfl
    | ok c2 =>
      show (convertCondition e (c2.withRet r) >>= _) = (convertCondition e c2 >>= _).map _
      rw [withRet_convert]
      cases convertCondition e c2 with
      | error => rfl
      | ok c3 => exact withRet_query

theorem bare_anyall {e : Ext} {a : AnyAll} : ({ a with ret := [] } : AnyAll).prepare e = (a.prepare e).map fun a => { a with ret := [] } := by
  unfold AnyAll.prepare
  dsimp only
  cases (split ',' a.parent).mapM (prepareJsonpathQuery e) <;> rfl

mutual
/-- Preparation and leaving out the return values commute. -/
theorem bare_prepare {e : Ext} : ∀ n : Node, (bare n).prepare e t = (n.prepare e t).map bare
  | .nil => rfl
  | .and ns => by
    rw [bare, Node.prepare, Node.prepare, bareAll_prepare ns]
    cases prepareNodes e t ns <;> rfl
  | .or ns => by
    rw [bare, Node.prepare, Node.prepare, bareAll_prepare ns]
    cases prepareNodes e t ns <;> rfl
  | .not n => by
    rw [bare, Node.prepare, Node.prepare, bare_prepare n]
    cases n.prepare e t <;> rfl
  | .any a n => by
    rw [bare, Node.prepare, Node.prepare, bare_prepare n, bare_anyall]
    cases n.prepare e t with
    | error => rfl
    | ok n' => cases a.prepare e <;> rfl
  | .all a n => by
    rw [bare, Node.prepare, Node.prepare, bare_prepare n, bare_anyall]
    cases n.prepare e t with
    | error => rfl
    | ok n' => cases a.prepare e <;> rfl
  | .tt => rfl
  | .ff => rfl
  | .cond c => by
    rw [bare, Node.prepare, Node.prepare, show ({ c with ret := none } : Condition) = c.withRet none from rfl, withRet_prepare]
    cases c.prepare e t <;> rfl

theorem bareAll_prepare {e : Ext} : ∀ ns : List Node, prepareNodes e t (bareAll ns) = (prepareNodes e t ns).map bareAll
  | [] => rfl
  | n :: ns => by
    rw [bareAll, prepareNodes, prepareNodes, bare_prepare n, bareAll_prepare ns]
    cases n.prepare e t with
    | error => rfl
    | ok n' => cases prepareNodes e t ns <;> rfl
end

/-! ## Evaluation -/

theorem bare_anyLoop {α : Type} {child child' : Nat → Msg → Go EvalOut} {set : α → Msg → Msg} {reset : Msg → Msg} {ret : Msg → Go (List Extra)} {b : Bool}
    (hc : ∀ i m o, child i m = .ok o → child' i m = .ok ⟨o.flag, [], o.msg⟩) :
    ∀ (l : List α) (i : Nat) (acc : List Extra) (m : Msg) (o : EvalOut), anyLoop child set reset ret b i false acc m l = .ok o →
      ∃ m', anyLoop child' set reset (fun _ => pure []) false i false [] m l = .ok ⟨o.flag, [], m'⟩
  | [], i, acc, m, o, h => by
    simp only [anyLoop, Except.ok.injEq] at h
    subst h; exact ⟨_, rfl⟩
  | v :: vs, i, acc, m, o, h => by
    simp only [anyLoop, Go.bind_eq_ok] at h
    obtain ⟨o1, h1, h⟩ := h
    rw [anyLoop, hc i _ o1 h1, Go.ok_bind]
    cases hf : o1.flag with
    | false =>
      simp only [hf, Bool.false_eq_true, if_false] at h ⊢
      exact bare_anyLoop hc vs _ _ _ o h
    | true =>
      simp only [hf, if_true, Go.bind_eq_ok] at h
      obtain ⟨e, -, h⟩ := h
      have : o.flag = true := by
        split at h
        · exact anyLoop_true vs _ _ _ o h
        · simp at h; subst h; rfl
      rw [this]
      exact ⟨_, rfl⟩
where
  anyLoop_true : ∀ (l : List α) (i : Nat) (acc : List Extra) (m : Msg) (o : EvalOut), anyLoop child set reset ret b i true acc m l = .ok o → o.flag = true
  | [], i, acc, m, o, h => by
    simp only [anyLoop, Except.ok.injEq] at h
    subst h; rfl
  | v :: vs, i, acc, m, o, h => by
    simp only [anyLoop, Go.bind_eq_ok] at h
    obtain ⟨o1, h1, h⟩ := h
    split at h
    · rw [Go.bind_eq_ok] at h
      obtain ⟨e, -, h⟩ := h
      split at h
      · exact anyLoop_true vs _ _ _ o h
      · simp at h; subst h; rfl
    · exact anyLoop_true vs _ _ _ o h

theorem bare_allLoop {α : Type} {child child' : Nat → Msg → Go EvalOut} {set : α → Msg → Msg} {reset : Msg → Msg}
    (hc : ∀ i m o, child i m = .ok o → child' i m = .ok ⟨o.flag, [], o.msg⟩) :
    ∀ (l : List α) (i : Nat) (m : Msg) (o : EvalOut), allLoop child set reset i m l = .ok o → allLoop child' set reset i m l = .ok ⟨o.flag, [], o.msg⟩
  | [], i, m, o, h => by
    simp only [allLoop, Except.ok.injEq] at h
    subst h; rfl
  | v :: vs, i, m, o, h => by
    simp only [allLoop, Go.bind_eq_ok] at h
    obtain ⟨o1, h1, h⟩ := h
    rw [allLoop, hc i _ o1 h1, Go.ok_bind]
    cases hf : o1.flag with
    | false =>
      simp only [hf, Bool.false_eq_true, if_false] at h ⊢
      simp at h; subst h; rfl
    | true =>
      simp only [hf, if_true] at h ⊢
      exact bare_allLoop hc vs _ _ o h

theorem bare_evalAny {p : List Nat} {a : AnyAll} {m : Msg} {o : EvalOut} {child child' : Nat → Msg → Go EvalOut}
    (hc : ∀ i m o, child i m = .ok o → child' i m = .ok ⟨o.flag, [], o.msg⟩) (h : evalAny env p a child m = .ok o) :
    ∃ m', evalAny env p { a with ret := [] } child' m = .ok ⟨o.flag, [], m'⟩ := by
  unfold evalAny at h ⊢
  split at h
  · next hq =>
    rw [if_pos hq]
    rw [Go.bind_eq_ok] at h
    obtain ⟨l, h1, h⟩ := h
    rw [show getArrayOfInterfaces env p { a with ret := [] } m = getArrayOfInterfaces env p a m from rfl, h1, Go.ok_bind]
    exact bare_anyLoop hc l _ _ _ o h
  · next hq =>
    rw [if_neg hq]
    rw [Go.bind_eq_ok] at h
    obtain ⟨l, h1, h⟩ := h
    rw [show getArrayOfJsons env p { a with ret := [] } m = getArrayOfJsons env p a m from rfl, h1, Go.ok_bind]
    cases l with
    | none => simp at h; subst h; exact ⟨_, rfl⟩
    | some l => exact bare_anyLoop hc l _ _ _ o h

theorem bare_evalAll {p : List Nat} {a : AnyAll} {m : Msg} {o : EvalOut} {child child' : Nat → Msg → Go EvalOut}
    (hc : ∀ i m o, child i m = .ok o → child' i m = .ok ⟨o.flag, [], o.msg⟩) (h : evalAll env p a child m = .ok o) :
    evalAll env p { a with ret := [] } child' m = .ok ⟨o.flag, [], o.msg⟩ := by
  unfold evalAll at h ⊢
  split at h
  · next hq =>
    rw [if_pos hq]
    rw [Go.bind_eq_ok] at h
    obtain ⟨l, h1, h⟩ := h
    rw [show getArrayOfInterfaces env p { a with ret := [] } m = getArrayOfInterfaces env p a m from rfl, h1, Go.ok_bind]
    exact bare_allLoop hc l _ _ o h
  · next hq =>
    rw [if_neg hq]
    rw [Go.bind_eq_ok] at h
    obtain ⟨l, h1, h⟩ := h
    rw [show getArrayOfJsons env p { a with ret := [] } m = getArrayOfJsons env p a m from rfl, h1, Go.ok_bind]
    cases l with
    | none => simp at h; subst h; rfl
    | some l => exact bare_allLoop hc l _ _ o h

theorem bare_test {p : List Nat} {c : Condition} {m : Msg} {x : Bool × List Extra} (h : testOneCondition env p c m = .ok x) :
    testOneCondition env p { c with ret := none } m = .ok (x.1, []) := by
  have key : ∀ (g : Go Bool), (g >>= fun b => pure (b, ([] : List Extra))) = .ok x → (g >>= fun b => pure (b, ([] : List Extra))) = .ok (x.1, []) := by
    intro g hg
    cases g with
    | error e => cases hg
    | ok b =>
      rw [Go.ok_bind] at hg ⊢
      simp at hg; subst hg; rfl
  have lit : ∀ b : Bool, (Except.ok (b, []) : Go (Bool × List Extra)) = .ok x → (Except.ok (b, []) : Go (Bool × List Extra)) = .ok (x.1, []) := by
    intro b hb; cases hb; rfl
  have ite : ∀ (P : Prop) [Decidable P] (a a' b b' : Go (Bool × List Extra)) (y : Bool × List Extra), (a = .ok x → a' = .ok y) → (b = .ok x → b' = .ok y) →
      (if P then a else b) = .ok x → (if P then a' else b') = .ok y := by
    intro P _ a a' b b' y h1 h2 h
    by_cases hP : P
    · rw [if_pos hP] at h ⊢; exact h1 h
    · rw [if_neg hP] at h ⊢; exact h2 h
  refine ite _ _ _ _ _ _ (lit _) ?_ h
  refine ite _ _ _ _ _ _ (lit _) ?_
  refine ite _ _ _ _ _ _ (key _) ?_
  refine ite _ _ _ _ _ _ (lit _) ?_
  refine ite _ _ _ _ _ _ (key _) ?_
  refine ite _ _ _ _ _ _ (lit _) ?_
  refine ite _ _ _ _ _ _ (fun h => ?_) ?_
  · rw [Go.bind_eq_ok] at h
    obtain ⟨v, h1, h⟩ := h
    rw [h1, Go.ok_bind]
    exact key _ h
  refine ite _ _ _ _ _ _ (lit _) ?_
  refine ite _ _ _ _ _ _ (lit _) ?_
  refine ite _ _ _ _ _ _ (lit _) ?_
  refine ite _ _ _ _ _ _ (lit _) ?_
  refine ite _ _ _ _ _ _ (lit _) ?_
  refine ite _ _ _ _ _ _ (fun h => ?_) (lit _)
  rw [Go.bind_eq_ok] at h
  obtain ⟨f, h1, h⟩ := h
  rw [show testJsonpathFlag env p { c with ret := none } m = testJsonpathFlag env p c m from rfl, h1, Go.ok_bind]
  cases f with
  | false =>
    cases c.ret <;> (simp at h; subst h; rfl)
  | true =>
    cases hr : c.ret with
    | none => simp [hr] at h; subst h; rfl
    | some ret =>
      rw [hr] at h
      simp only [Go.bind_eq_ok] at h
      obtain ⟨e, -, h⟩ := h
      simp at h; subst h; rfl

mutual
/-- A tree that returns gives the same truth value without its return values, and then returns no values. -/
theorem bare_eval : ∀ (n : Node) (p : List Nat) (m : Msg) (o : EvalOut), eval env n p m = .ok o → eval env (bare n) p m = .ok ⟨o.flag, [], o.msg⟩
  | .nil, _, _, _, h => by simp [eval] at h
  | .and ns, p, m, o, h => by
    rw [eval] at h
    rw [bare, eval]; exact bare_evalAnd ns p 1 [] m o h
  | .or ns, p, m, o, h => by
    rw [eval] at h
    rw [bare, eval]; exact bare_evalOr ns p 1 false [] m o h
  | .not n, p, m, o, h => by
    simp only [eval, Go.bind_eq_ok] at h
    obtain ⟨o1, h1, h⟩ := h
    simp at h; subst h
    rw [bare, eval, bare_eval n _ _ o1 h1]; rfl
  | .any a n, p, m, o, h => by
    have hm := eval_msg env _ p m o h
    rw [eval] at h
    obtain ⟨m', h'⟩ := bare_evalAny (fun i m o h => bare_eval n (i :: p) m o h) h
    have hm' : m' = m := eval_msg env (bare (.any a n)) p m _ (by rw [bare, eval]; exact h')
    rw [bare, eval, hm, ← hm']
    rw [hm'] at h' ⊢
    exact h'
  | .all a n, p, m, o, h => by
    rw [eval] at h
    rw [bare, eval]
    exact bare_evalAll (fun i m o h => bare_eval n (i :: p) m o h) h
  | .tt, _, _, _, h => by simp [eval] at h; subst h; rfl
  | .ff, _, _, _, h => by simp [eval] at h; subst h; rfl
  | .cond c, p, m, o, h => by
    simp only [eval, Go.bind_eq_ok] at h
    obtain ⟨r, h1, h⟩ := h
    simp at h; subst h
    rw [bare, eval, bare_test h1]; rfl

theorem bare_evalAnd : ∀ (ns : List Node) (p : List Nat) (i : Nat) (acc : List Extra) (m : Msg) (o : EvalOut), evalAnd env ns p i acc m = .ok o →
    evalAnd env (bareAll ns) p i [] m = .ok ⟨o.flag, [], o.msg⟩
  | [], p, i, acc, m, o, h => by simp [evalAnd] at h; subst h; rfl
  | n :: ns, p, i, acc, m, o, h => by
    simp only [evalAnd, Go.bind_eq_ok] at h
    obtain ⟨o1, h1, h⟩ := h
    rw [bareAll, evalAnd, bare_eval n _ _ o1 h1, Go.ok_bind]
    cases hf : o1.flag with
    | false =>
      simp only [hf, if_true] at h
      simp at h; subst h; rfl
    | true =>
      simp only [hf, Bool.true_eq_false, if_false] at h
      exact bare_evalAnd ns p (i + 1) _ _ o h

theorem bare_evalOr : ∀ (ns : List Node) (p : List Nat) (i : Nat) (b : Bool) (acc : List Extra) (m : Msg) (o : EvalOut), evalOr env ns p i b acc m = .ok o →
    evalOr env (bareAll ns) p i b [] m = .ok ⟨o.flag, [], o.msg⟩
  | [], p, i, b, acc, m, o, h => by simp [evalOr] at h; subst h; rfl
  | n :: ns, p, i, b, acc, m, o, h => by
    simp only [evalOr, Go.bind_eq_ok] at h
    obtain ⟨o1, h1, h⟩ := h
    rw [bareAll, evalOr, bare_eval n _ _ o1 h1, Go.ok_bind]
    have := bare_evalOr ns p (i + 1) _ _ _ o h
    cases hf : o1.flag <;> rw [hf] at this <;> exact this
end

/-! ## Rules -/

theorem bare_condNode {e : Ext} {a m v : Str} {r : Option (List (Str × Str))} : bare (condNode e a m v r) = condNode e a m v none := by
  rw [condNode, bare]
  have : (parsed e a m v (r.map (·.map (condRetVal e)))).withRet none = parsed e a m v none := by
    unfold parsed
    rw [← withRet_setNumbers]; rfl
  rw [show ({ parsed e a m v (r.map (·.map (condRetVal e))) with ret := none } : Condition) = parsed e a m v none from this]
  rfl

theorem bare_copyable {e : Ext} {n : Node} (h : Copyable e n) : Copyable e (bare n) := by
  have all : ∀ ns : List Node, (∀ n ∈ ns, Copyable e (bare n)) → ∀ n ∈ bareAll ns, Copyable e n := by
    intro ns
    induction ns with
    | nil => intro _ n hn; simp [bareAll] at hn
    | cons n ns ih =>
      intro h k hk
      rw [bareAll] at hk
      rcases List.mem_cons.1 hk with rfl | hk
      · exact h _ (by simp)
      · exact ih (fun n hn => h n (by simp [hn])) k hk
  have ne : ∀ ns : List Node, ns ≠ [] → bareAll ns ≠ [] := by
    intro ns h
    cases ns with
    | nil => exact absurd rfl h
    | cons => simp [bareAll]
  induction h with
  | @cond a m v r ok ha hv hr =>
    rw [bare_condNode]
    exact Copyable.cond (r := none) ok ha hv (by simp)
  | and hne h ih => rw [bare]; exact .and (ne _ hne) (all _ ih)
  | or hne h ih => rw [bare]; exact .or (ne _ hne) (all _ ih)
  | not h ih => rw [bare]; exact .not ih
  | @any parent ret n hp hv hd hr h ih => rw [bare]; exact Copyable.any (ret := []) hp hv (by simp) (by simp) ih
  | @all parent ret n hp hv hd hr h ih => rw [bare]; exact Copyable.all (ret := []) hp hv (by simp) (by simp) ih

theorem bare_copyRule (ho : env.OrdOk) {b copy : Rule} {p : List Nat} (hc : ∀ n, b.conditions = some n → Copyable env n) (h : copyRule env p b = .ok copy) (p' : List Nat) :
    copyRule env p' (bareRule b) = .ok (bareRule copy) := by
  obtain ⟨c, h1, rfl⟩ := copyRule_ok h
  rw [copyRule, bareRule]
  cases hb : b.conditions with
  | none =>
    rw [hb, copyConditions_none] at h1
    simp at h1; subst h1
    simp [bareRule, copyConditions_none]
  | some n =>
    rw [hb, copy_copyable ho (hc n hb)] at h1
    simp at h1; subst h1
    simp only [Option.map_some]
    rw [copy_copyable ho (bare_copyable (hc n hb))]
    rfl

theorem bare_prepareOne {e : Ext} {b : Rule} : prepareOneRule e t (bareRule b) = (prepareOneRule e t b).map bareRule := by
  have e1 : prepareConditions e t (bareRule b) = (prepareConditions e t b).map bareRule := by
    unfold prepareConditions
    cases hb : b.conditions with
    | none => simp [bareRule, hb, Except.map]
    | some n =>
      simp only [bareRule, hb, Option.map_some]
      rw [bare_prepare n]
      cases n.prepare e t <;> rfl
  unfold prepareOneRule
  rw [e1]
  cases prepareConditions e t b with
  | error => rfl
  | ok r1 =>
    show (replaceStringsAndListsInOneRule (bareRule r1) t >>= _) = (replaceStringsAndListsInOneRule r1 t >>= _).map _
    have e2 : replaceStringsAndListsInOneRule (bareRule r1) t = (replaceStringsAndListsInOneRule r1 t).map bareRule := by
      unfold replaceStringsAndListsInOneRule
      rw [show (bareRule r1).senderName = r1.senderName from rfl, show (bareRule r1).receiverName = r1.receiverName from rfl]
      cases replaceName r1.senderName t with
      | error => rfl
      | ok s => cases replaceName r1.receiverName t <;> rfl
    rw [e2]
    cases replaceStringsAndListsInOneRule r1 t with
    | error => rfl
    | ok r2 =>
      show convertFields e (bareRule r2) = (convertFields e r2).map bareRule
      unfold convertFields
      rw [bare_convert]
      generalize convertFieldsToRegex e r2 = x
      obtain ⟨r3, e3⟩ := x
      cases e3 <;> rfl
where
  bare_convert {e : Ext} {r : Rule} : convertFieldsToRegex e (bareRule r) = (bareRule (convertFieldsToRegex e r).1, (convertFieldsToRegex e r).2) := by
    unfold convertFieldsToRegex
    rw [show (bareRule r).converted = r.converted from rfl, show (bareRule r).senderName = r.senderName from rfl, show (bareRule r).senderType = r.senderType from rfl]
    split
    · rfl
    · cases convertStringToExpandedSenderReceiver e r.senderName r.senderType with
      | error x => rfl
      | ok sl =>
        dsimp only
        rw [show (bareRule r).receiverName = r.receiverName from rfl, show (bareRule r).receiverType = r.receiverType from rfl]
        cases convertStringToExpandedSenderReceiver e r.receiverName r.receiverType with
        | error x => rfl
        | ok rl =>
          dsimp only
          rw [show (bareRule r).operation = r.operation from rfl, show (bareRule r).resourceName = r.resourceName from rfl]
          cases compile e (convertOperationStringToRegex r.operation) with
          | none => rfl
          | some op => dsimp only; cases compile e (convertStringToRegex r.resourceName gs"WithWildcards") <;> rfl

/-- What the second computation answers if the first one returns. -/
def BareSim (x y : Go RuleOut) : Prop := ∀ o, x = .ok o → ∃ o', y = .ok o' ∧ o'.result = o.result ∧ o'.extra = []

theorem BareSim.bind {α : Type} {g : Go α} {k k' : α → Go RuleOut} (h : ∀ b, BareSim (k b) (k' b)) : BareSim (g >>= k) (g >>= k') := by
  intro o ho
  rw [Go.bind_eq_ok] at ho
  obtain ⟨b, h1, h2⟩ := ho
  rw [h1, Go.ok_bind]
  exact h b o h2

theorem BareSim.ite {P : Prop} [Decidable P] {a a' b b' : Go RuleOut} (h1 : P → BareSim a a') (h2 : ¬ P → BareSim b b') :
    BareSim (if P then a else b) (if P then a' else b') := by
  by_cases h : P
  · rw [if_pos h, if_pos h]; exact h1 h
  · rw [if_neg h, if_neg h]; exact h2 h

theorem BareSim.pure {d : Nat} {e : List Extra} {m m' : Msg} {r r' : RuleObj} : BareSim (.ok ⟨d, e, m, r⟩) (.ok ⟨d, [], m', r'⟩) := by
  intro o ho
  cases ho
  exact ⟨_, rfl, rfl, rfl⟩

/-- The check of a rule that has been prepared. -/
theorem bare_check {g : Predef} {r r' : RuleObj} {rule : Rule} {p : List Nat} {o : RuleOut} (h1 : r.ready = true) (h2 : r.prepared = some rule)
    (h1' : r'.ready = true) (h2' : r'.prepared = some (bareRule rule)) (h : r.check env g p msg = .ok o) :
    ∃ o', r'.check env g p msg = .ok o' ∧ o'.result = o.result ∧ o'.extra = [] := by
  have hcv : ∀ rule, convertOnUse env (bareRule rule) = bareRule (convertOnUse env rule) := by
    intro rule
    unfold convertOnUse
    rw [show (bareRule rule).converted = rule.converted from rfl, bare_prepareOne.bare_convert]
    split <;> rfl
  have hs : ∀ rule, testSender env (bareRule rule) msg = testSender env rule msg := by
    intro rule; unfold testSender; rw [hcv]; rfl
  have hv : ∀ rule, testReceiver env (bareRule rule) msg = testReceiver env rule msg := by
    intro rule; unfold testReceiver; rw [hcv]; rfl
  revert h
  suffices hsim : BareSim (r.check env g p msg) (r'.check env g p msg) from hsim o
  unfold RuleObj.check
  rw [ensure_of_ready h1, Go.ok_bind, h2, ensure_of_ready h1', Go.ok_bind, h2']
  simp only [deref, Go.ok_bind]
  rw [hcv]
  generalize convertOnUse env rule = rule
  rw [hs, hv]
  refine .bind fun _ => .ite (fun _ => .pure) fun _ => ?_
  refine .bind fun _ => .ite (fun _ => .pure) fun _ => ?_
  refine .bind fun _ => .ite (fun _ => .pure) fun _ => ?_
  rw [show testResource env (bareRule rule) msg = testResource env rule msg from rfl]
  refine .bind fun _ => .ite (fun _ => .pure) fun _ => ?_
  cases hcond : rule.conditions with
  | none =>
    simp only [bareRule, hcond, Option.map_none]
    intro o ho
    simp only [Go.pure_eq, Go.ok_bind] at ho
    rw [if_neg (by decide)] at ho
    simp at ho; subst ho
    exact ⟨_, rfl, rfl, ite_self _⟩
  | some n =>
    simp only [bareRule, hcond, Option.map_some]
    unfold RuleObj.testConditions
    rw [ensure_of_ready (by exact h1), Go.ok_bind, ensure_of_ready (by exact h1'), Go.ok_bind]
    simp only [testPreparedConditions, deref, Go.ok_bind, hcond, Option.map_some]
    intro o ho
    simp only [Go.bind_eq_ok] at ho
    obtain ⟨x, ⟨y, hy, hx⟩, ho⟩ := ho
    simp at hx; subst hx
    rw [bare_eval n _ _ y hy]
    simp only [Go.ok_bind, Go.pure_eq]
    cases hf : y.flag with
    | false => simp [hf] at ho; subst ho; exact ⟨_, rfl, rfl, rfl⟩
    | true => simp [hf] at ho; subst ho; exact ⟨_, rfl, rfl, ite_self _⟩

/-- The copy of a rule whose conditions are copied as they are does not depend on the order of any map. -/
theorem copyRule_copyable (ho : env.OrdOk) {b : Rule} (hc : ∀ n, b.conditions = some n → Copyable env n) (p : List Nat) :
    copyRule env p b = .ok { b with senderList := b.senderList.map copySR, receiverList := b.receiverList.map copySR, resourceNameRegex := none, operationRegex := none } := by
  rw [copyRule]
  cases hb : b.conditions with
  | none => rw [copyConditions_none]; rw [← hb]; rfl
  | some n => rw [copy_copyable ho (hc n hb)]; rw [← hb]; rfl

theorem loaded_body {g : Predef} {r : RuleObj} {b : Rule} (h : Loaded env g r b t) : r.body = b := by
  cases h with
  | parsed => rfl
  | prepared hf hs =>
    obtain ⟨_, _, _, _, rfl⟩ := setPredefined_ok hs
    rfl

/-- If the check of a rule object returns then the rule has been prepared. -/
theorem loaded_returns {g : Predef} {r : RuleObj} {b : Rule} {p : List Nat} {o : RuleOut} (h : Loaded env g r b t) (hr : r.check env g p msg = .ok o) :
    ∃ (p0 : List Nat) (copy rule : Rule) (r1 : RuleObj), copyRule env p0 b = .ok copy ∧ prepareOneRule env t copy = .ok rule ∧ r1.ready = true ∧
      r1.prepared = some rule ∧ r.check env g p msg = r1.check env g p msg := by
  cases h with
  | prepared hf hs =>
    obtain ⟨copy, rule, h1, h2, rfl⟩ := setPredefined_ok hs
    exact ⟨_, copy, rule, _, h1, h2, rfl, rfl, rfl⟩
  | parsed hf =>
    have h0 : ∃ r', r.setPredefined env (0 :: p) t = .ok (r', none) := by
      unfold RuleObj.check RuleObj.ensure at hr
      rw [hf.ready] at hr
      simp only [Bool.false_eq_true, if_false] at hr
      cases hs : r.setPredefined env (0 :: p) t with
      | error f => rw [hs] at hr; cases hr
      | ok x =>
        obtain ⟨r', e⟩ := x
        cases e with
        | none => exact ⟨r', rfl⟩
        | some e =>
          have hp : r'.prepared = none := by
            simp only [RuleObj.setPredefined] at hs
            split at hs
            · cases hs
            · simp at hs; rw [← hs.1]; exact hf.prepared
            · split at hs
              · cases hs
              · simp at hs; rw [← hs.1]; exact hf.prepared
              · simp at hs
          rw [hs] at hr
          simp only [Except.map, Go.ok_bind, hp, deref] at hr
          cases hr
    obtain ⟨r', h0⟩ := h0
    have := check_unready (msg := msg) hf.ready h0 (setPredefined_ready h0)
    obtain ⟨copy, rule, h1, h2, rfl⟩ := setPredefined_ok h0
    exact ⟨_, copy, rule, _, h1, h2, rfl, rfl, this⟩

/-- A rule that can be prepared is checked as the prepared rule. -/
theorem loaded_prepared (ho : env.OrdOk) {g : Predef} {r : RuleObj} {b copy rule : Rule} {p0 : List Nat} (p : List Nat) (hc : ∀ n, b.conditions = some n → Copyable env n)
    (h : Loaded env g r b t) (h1 : copyRule env p0 b = .ok copy) (h2 : prepareOneRule env t copy = .ok rule) :
    ∃ r1 : RuleObj, r1.ready = true ∧ r1.prepared = some rule ∧ r.check env g p msg = r1.check env g p msg := by
  cases h with
  | prepared hf hs =>
    obtain ⟨copy', rule', h1', h2', rfl⟩ := setPredefined_ok hs
    rw [copyRule_copyable ho hc] at h1 h1'
    obtain rfl : copy' = copy := by rw [h1] at h1'; exact (Except.ok.inj h1').symm
    obtain rfl : rule' = rule := by rw [h2] at h2'; exact (Except.ok.inj h2').symm
    exact ⟨_, rfl, rfl, rfl⟩
  | parsed hf =>
    have h0 : r.setPredefined env (0 :: p) t = .ok ({ r with predefined := t, prepared := some rule, ready := true }, none) := by
      have : copyRule env (0 :: p) r.body = .ok copy := by
        rw [copyRule_copyable ho hc] at h1 ⊢
        exact h1
      simp only [RuleObj.setPredefined, this, h2]
    refine ⟨_, ?_, ?_, check_unready hf.ready h0 rfl⟩ <;> rfl

/-- Two rules that differ in their return values only: if the check of the first returns then so does the other, with the same result. -/
theorem sameBut_check (ho : env.OrdOk) {g : Predef} {r r' : RuleObj} {p : List Nat} {o : RuleOut} (h : SameBut env g r r') (hr : r.check env g p msg = .ok o) :
    ∃ o', r'.check env g p msg = .ok o' ∧ o'.result = o.result ∧ o'.extra = [] := by
  obtain ⟨b, t, h1, h2, hc⟩ := h
  obtain ⟨p0, copy, rule, r1, k1, k2, k3, k4, k5⟩ := loaded_returns h1 hr
  have hc' : ∀ n, (bareRule b).conditions = some n → Copyable env n := by
    intro n hn
    simp only [bareRule, Option.map_eq_some_iff] at hn
    obtain ⟨n0, hn0, rfl⟩ := hn
    exact bare_copyable (hc n0 hn0)
  obtain ⟨r1', k3', k4', k5'⟩ := loaded_prepared ho p hc' h2 (bare_copyRule ho hc k1 p) (by rw [bare_prepareOne, k2]; rfl) (msg := msg)
  rw [k5] at hr
  rw [k5']
  exact bare_check k3 k4 k3' k4' hr

theorem sameBut_describe {g : Predef} {r r' : RuleObj} (h : SameBut env g r r') : describe r' = describe r := by
  obtain ⟨b, t, h1, h2, -⟩ := h
  rw [describe, describe, loaded_body h1, loaded_body h2]; rfl

/-! ## Trees with return values return -/

theorem returns_bare_test {p : List Nat} {c : Condition} {m : Msg} {x : Bool × List Extra} (h : testOneCondition env p { c with ret := none } m = .ok x)
    (hr : ∀ ret, c.ret = some ret → ∀ r ∈ ret, ReportSafe m.rawI.isSome m r) : Returns (testOneCondition env p c m) := by
  have ite : ∀ (P : Prop) [Decidable P] (a a' b b' : Go (Bool × List Extra)), (a = .ok x → Returns a') → (b = .ok x → Returns b') →
      (if P then a else b) = .ok x → Returns (if P then a' else b') := by
    intro P _ a a' b b' h1 h2 h
    by_cases hP : P
    · rw [if_pos hP] at h ⊢; exact h1 h
    · rw [if_neg hP] at h ⊢; exact h2 h
  have same : ∀ a : Go (Bool × List Extra), a = .ok x → Returns a := fun a h => ⟨x, h⟩
  refine ite _ _ _ _ _ (same _) ?_ h
  refine ite _ _ _ _ _ (same _) ?_
  refine ite _ _ _ _ _ (same _) ?_
  refine ite _ _ _ _ _ (same _) ?_
  refine ite _ _ _ _ _ (same _) ?_
  refine ite _ _ _ _ _ (same _) ?_
  refine ite _ _ _ _ _ (same _) ?_
  refine ite _ _ _ _ _ (same _) ?_
  refine ite _ _ _ _ _ (same _) ?_
  refine ite _ _ _ _ _ (same _) ?_
  refine ite _ _ _ _ _ (same _) ?_
  refine ite _ _ _ _ _ (same _) ?_
  refine ite _ _ _ _ _ (fun h => ?_) (same _)
  rw [Go.bind_eq_ok] at h
  obtain ⟨f, h1, -⟩ := h
  rw [show testJsonpathFlag env p { c with ret := none } m = testJsonpathFlag env p c m from rfl] at h1
  rw [h1, Go.ok_bind]
  cases f with
  | false => cases c.ret <;> exact .pure _
  | true =>
    cases hc : c.ret with
    | none => exact .pure _
    | some ret => exact .bind (returns_extra (hr ret hc)) fun _ _ => .pure _

theorem reportSafe_of {inside : Bool} {m : Msg} {r : RetVal} (hd : Documented inside m) (hr : r.rel = true → inside = true) : ReportSafe m.rawI.isSome m r := by
  obtain ⟨h1, h2⟩ := hd
  unfold ReportSafe
  cases hI : m.rawI.isSome <;> cases hrel : r.rel <;> simp [hI, hrel] at h1 h2 hr ⊢
  · exact h1
  · exact h2 hr
  · exact h2 hr

theorem bare_cond {n : Node} {c : Condition} (h : bare n = .cond c) : ∃ c0, n = .cond c0 ∧ ({ c0 with ret := none } : Condition) = c := by
  cases n <;> simp [bare] at h
  exact ⟨_, rfl, h⟩

theorem documented_scope {p : List Nat} {a : AnyAll} {inside : Bool} {l : List Msg} {m m' : Msg} (hd : Documented inside m) (hq : a.queries ≠ [])
    (h : scopes env p a m = .ok (some l)) (hm : m' ∈ l) : Documented true m' ∧ usesParsed a m = m'.rawI.isSome := by
  unfold scopes at h
  split at h
  · next hc =>
    rw [Go.map_eq_ok] at h
    obtain ⟨l1, -, h⟩ := h
    simp at h; subst h
    obtain ⟨v, -, rfl⟩ := List.mem_map.1 hm
    refine ⟨⟨.inl hc.1, fun _ => ?_⟩, ?_⟩
    · simp [hc.1]
    · simp [usesParsed, hc.1, hq]
  · next hc =>
    have hI : m.rawI.isSome = false := by
      cases hI : m.rawI.isSome with
      | false => rfl
      | true => exact absurd ⟨hI, hq⟩ hc
    rw [Go.map_eq_ok] at h
    obtain ⟨l1, -, h⟩ := h
    cases l1 with
    | none => simp at h
    | some l1 =>
      simp at h; subst h
      obtain ⟨v, -, rfl⟩ := List.mem_map.1 hm
      refine ⟨⟨hd.1, fun _ => ?_⟩, ?_⟩
      · simp [hI]
      · simp [usesParsed, hI]

theorem queries_ne {q : Parent} (hq : q.Ok env) : q.queries ≠ [] := by
  cases q with
  | document rs => simpa [Parent.queries] using hq.1
  | element rs => simpa [Parent.queries] using hq.1
  | entries => simp [Parent.queries]

mutual
/-- Evaluation of a prepared statement with return values returns. -/
theorem returns_bare (he : Assumed env) : ∀ (f : Statement) (n0 n : Node) (m : Msg) (inside : Bool), bare n0 = f.tree env → Sound env t f → n0.prepare env t = .ok n →
    Defined env t f m → Reported inside n0 → Documented inside m → ∀ p, Returns (eval env n p m)
  | .cond a mt v, n0, n, m, inside, hb, hs, hn, hd, hr, hdoc, p => by
    rw [Statement.tree, condNode] at hb
    obtain ⟨c0, rfl, hc0⟩ := bare_cond hb
    simp only [Node.prepare, Go.bind_eq_ok] at hn
    obtain ⟨c, hc, hn⟩ := hn
    simp at hn; subst hn
    rw [Defined] at hd
    obtain ⟨w, P, hv, hS⟩ := hd
    have hp : (parsed env a mt v none).prepare env t = .ok (c.withRet none) := by
      have := withRet_prepare (e := env.toExt) (t := t) (c := c0) (r := none)
      rw [hc] at this
      rw [show parsed env a mt v none = c0.withRet none from hc0.symm, this]; rfl
    obtain ⟨b, hb, -⟩ := says_answer he.regexp he.order he.numbers he.empty hp hv hS (0 :: 0 :: p)
    have hret : c.ret = c0.ret := by
      have := withRet_prepare (e := env.toExt) (t := t) (c := c0) (r := c0.ret)
      rw [show c0.withRet c0.ret = c0 from rfl, hc] at this
      have h1 : c = c.withRet c0.ret := by simpa [Except.map] using this
      rw [h1]; rfl
    rw [eval]
    refine .bind (returns_bare_test hb fun ret hret' r hr' => ?_) fun _ _ => .pure _
    exact reportSafe_of hdoc (hr ret (by rw [hret] at hret'; exact hret') r hr')
  | .and fs, n0, n, m, inside, hb, hs, hn, hd, hr, hdoc, p => by
    rw [Statement.tree] at hb
    cases n0 <;> simp [bare] at hb
    simp only [Node.prepare, Go.bind_eq_ok] at hn
    obtain ⟨ns, hns, hn⟩ := hn
    simp at hn; subst hn
    rw [Sound] at hs
    rw [Defined] at hd
    rw [Reported] at hr
    rw [eval]
    exact returns_turn he fs _ ns m inside hb hs.2 hns hd hr hdoc p 1 []
  | .or fs, n0, n, m, inside, hb, hs, hn, hd, hr, hdoc, p => by
    rw [Statement.tree] at hb
    cases n0 <;> simp [bare] at hb
    simp only [Node.prepare, Go.bind_eq_ok] at hn
    obtain ⟨ns, hns, hn⟩ := hn
    simp at hn; subst hn
    rw [Sound] at hs
    rw [Defined] at hd
    rw [Reported] at hr
    rw [eval]
    exact returns_bares he fs _ ns m inside hb hs.2 hns hd hr hdoc p 1 false []
  | .not f, n0, n, m, inside, hb, hs, hn, hd, hr, hdoc, p => by
    rw [Statement.tree] at hb
    cases n0 <;> simp [bare] at hb
    simp only [Node.prepare, Go.bind_eq_ok] at hn
    obtain ⟨n', hn', hn⟩ := hn
    simp at hn; subst hn
    rw [Sound] at hs
    rw [Defined] at hd
    rw [Reported] at hr
    rw [eval]
    exact .bind (returns_bare he f _ n' m inside hb hs hn' hd hr hdoc _) fun _ _ => .pure _
  | .any q f, n0, n, m, inside, hb, hs, hn, hd, hr, hdoc, p => by
    rw [Statement.tree] at hb
    cases n0 <;> simp only [bare, reduceCtorEq, Node.any.injEq] at hb
    rename_i a0 k0
    simp only [Node.prepare, Go.bind_eq_ok] at hn
    obtain ⟨n', hn', a, ha, hn⟩ := hn
    simp at hn; subst hn
    rw [Sound] at hs
    obtain ⟨a', ha', hap, haq, har, haa⟩ := parent_prepare hs.1
    have hab : ({ a with ret := [] } : AnyAll) = a' := by
      have := bare_anyall (e := env.toExt) (a := a0)
      rw [hb.1, ha', ha] at this
      simpa [Except.map] using this.symm
    subst hab
    rw [Defined] at hd
    obtain ⟨l, hl, hdl⟩ := hd
    obtain ⟨hsafe, hsc⟩ := ranges_scopes (a := a) he.order hs.1 hl hap haq haa
    obtain ⟨l', hl', hperm⟩ := hsc p
    rw [Reported] at hr
    rw [eval]
    refine returns_evalAny (fun i m o h => eval_msg env n' _ m o h) hsafe fun l2 h2 m' hm' => ?_
    obtain ⟨hdoc', hu⟩ := documented_scope hdoc (haq ▸ queries_ne hs.1) h2 hm'
    rw [hl'] at h2
    simp at h2; subst h2
    exact ⟨fun i => returns_bare he f k0 n' m' true hb.2 hs.2 hn' (hdl m' (hperm.subset hm')) hr hdoc' _, fun r _ => by
      rw [hu]; exact reportSafe_of hdoc' fun _ => rfl⟩
  | .all q f, n0, n, m, inside, hb, hs, hn, hd, hr, hdoc, p => by
    rw [Statement.tree] at hb
    cases n0 <;> simp only [bare, reduceCtorEq, Node.all.injEq] at hb
    rename_i a0 k0
    simp only [Node.prepare, Go.bind_eq_ok] at hn
    obtain ⟨n', hn', a, ha, hn⟩ := hn
    simp at hn; subst hn
    rw [Sound] at hs
    obtain ⟨a', ha', hap, haq, har, haa⟩ := parent_prepare hs.1
    have hab : ({ a with ret := [] } : AnyAll) = a' := by
      have := bare_anyall (e := env.toExt) (a := a0)
      rw [hb.1, ha', ha] at this
      simpa [Except.map] using this.symm
    subst hab
    rw [Defined] at hd
    obtain ⟨l, hl, hdl⟩ := hd
    obtain ⟨hsafe, hsc⟩ := ranges_scopes (a := a) he.order hs.1 hl hap haq haa
    obtain ⟨l', hl', hperm⟩ := hsc p
    rw [Reported] at hr
    rw [eval]
    refine returns_evalAll (fun i m o h => eval_msg env n' _ m o h) hsafe fun l2 h2 m' hm' => ?_
    obtain ⟨hdoc', hu⟩ := documented_scope hdoc (haq ▸ queries_ne hs.1) h2 hm'
    rw [hl'] at h2
    simp at h2; subst h2
    exact fun i => returns_bare he f k0 n' m' true hb.2 hs.2 hn' (hdl m' (hperm.subset hm')) hr hdoc' _

theorem returns_turn (he : Assumed env) : ∀ (fs : List Statement) (ns0 ns : List Node) (m : Msg) (inside : Bool), bareAll ns0 = Statement.trees env fs → SoundAll env t fs →
    prepareNodes env t ns0 = .ok ns → DefinedInTurn env t fs m → ReportedAll inside ns0 → Documented inside m → ∀ p i acc, Returns (evalAnd env ns p i acc m)
  | [], ns0, ns, m, inside, hb, hs, hn, hd, hr, hdoc, p => by
    cases ns0 with
    | cons => simp [bareAll, Statement.trees] at hb
    | nil =>
      rw [prepareNodes] at hn
      simp at hn; subst hn
      exact fun _ _ => .ok _
  | f :: fs, ns0, ns, m, inside, hb, hs, hn, hd, hr, hdoc, p => by
    cases ns0 with
    | nil => simp [bareAll, Statement.trees] at hb
    | cons n0 ns0 =>
      rw [bareAll, Statement.trees, List.cons.injEq] at hb
      simp only [prepareNodes, Go.bind_eq_ok] at hn
      obtain ⟨n', hn', ns', hns', hn⟩ := hn
      simp at hn; subst hn
      rw [SoundAll] at hs
      rw [DefinedInTurn] at hd
      rw [ReportedAll] at hr
      have h1 := returns_bare he f n0 n' m inside hb.1 hs.1 hn' hd.1 hr.1 hdoc
      intro i acc
      rw [evalAnd]
      refine .bind (h1 _) fun o ho => ?_
      rw [eval_msg env _ _ _ _ ho]
      refine .ite (fun _ => .pure _) fun hf => ?_
      have hp : (f.tree env).prepare env t = .ok (bare n') := by
        rw [← hb.1, bare_prepare, hn']; rfl
      have hm := (meaning_eval he f (bare n') m hs.1 hp hd.1 _).2.1 ((eval_holds env (bare n') _ _ _ (bare_eval n' _ _ _ ho)).1 (by simpa using hf))
      exact returns_turn he fs ns0 ns' m inside hb.2 hs.2 hns' (hd.2 hm) hr.2 hdoc p _ _

theorem returns_bares (he : Assumed env) : ∀ (fs : List Statement) (ns0 ns : List Node) (m : Msg) (inside : Bool), bareAll ns0 = Statement.trees env fs → SoundAll env t fs →
    prepareNodes env t ns0 = .ok ns → DefinedAll env t fs m → ReportedAll inside ns0 → Documented inside m → ∀ p i b acc, Returns (evalOr env ns p i b acc m)
  | [], ns0, ns, m, inside, hb, hs, hn, hd, hr, hdoc, p => by
    cases ns0 with
    | cons => simp [bareAll, Statement.trees] at hb
    | nil =>
      rw [prepareNodes] at hn
      simp at hn; subst hn
      exact fun _ _ _ => .ok _
  | f :: fs, ns0, ns, m, inside, hb, hs, hn, hd, hr, hdoc, p => by
    cases ns0 with
    | nil => simp [bareAll, Statement.trees] at hb
    | cons n0 ns0 =>
      rw [bareAll, Statement.trees, List.cons.injEq] at hb
      simp only [prepareNodes, Go.bind_eq_ok] at hn
      obtain ⟨n', hn', ns', hns', hn⟩ := hn
      simp at hn; subst hn
      rw [SoundAll] at hs
      rw [DefinedAll] at hd
      rw [ReportedAll] at hr
      have h1 := returns_bare he f n0 n' m inside hb.1 hs.1 hn' hd.1 hr.1 hdoc
      have h3 := returns_bares he fs ns0 ns' m inside hb.2 hs.2 hns' hd.2 hr.2 hdoc p
      intro i b acc
      rw [evalOr]
      refine .bind (h1 _) fun o ho => ?_
      rw [eval_msg env _ _ _ _ ho]
      exact h3 _ _ _
end

/-- A rule with return values is checked without a crash if what it says without them is defined. -/
theorem returns_written (he : Assumed env) {g : Predef} {r : RuleObj} {b : Rule} {A : Prop} {d : Decision} (h : Loaded env g r b t) (hc : ∀ n, b.conditions = some n → Copyable env n)
    (hw : WrittenSays env t msg (bareRule b) A d) (hr : ∀ n, b.conditions = some n → Reported false n) (hdoc : Documented false msg) (p : List Nat) :
    Returns (r.check env g p msg) := by
  have hfresh : b.converted = false := by
    cases h with
    | parsed hf => exact hf.converted
    | prepared hf => exact hf.converted
  cases hw with
  | @mk c s v hcond hs hv ht hok hd =>
    obtain ⟨copy', rule', h1, h2⟩ := written_prepares he (by exact hfresh) hcond hs hv ht hok p
    have h0 := copyRule_copyable he.order hc p
    generalize hcopy : ({ b with senderList := b.senderList.map copySR, receiverList := b.receiverList.map copySR, resourceNameRegex := none, operationRegex := none } : Rule) = copy at h0
    rw [bare_copyRule he.order hc h0 p] at h1
    obtain rfl := Except.ok.inj h1
    rw [bare_prepareOne, Go.map_eq_ok] at h2
    obtain ⟨rule, h2, -⟩ := h2
    obtain ⟨r1, k1, k2, k3⟩ := loaded_prepared (msg := msg) he.order p hc h h0 h2
    rw [k3]
    have hcc : copy.conditions = b.conditions := by rw [← hcopy]
    obtain ⟨s', v', sl, rl, op, re, _, _, h3, h4, _, _, h7, h8⟩ := prepareOneRule_ok (by rw [← hcopy]; exact hfresh) h2
    refine returns_prepared (rule := rule) k1 k2 ?_ ?_ ?_ ?_ ?_ fun n hn p => ?_
    · rw [h8]; exact expand_regexp h3
    · rw [h8]; exact expand_regexp h4
    · rw [h8]; rfl
    · rw [h8]; rfl
    · rw [h8]
    · rcases h7 with ⟨_, h7⟩ | ⟨n0, n', h5, h6, h7⟩
      · rw [h7] at hn; simp at hn
      · rw [h7] at hn
        obtain rfl : n' = n := by simpa using hn
        rw [hcc] at h5
        cases c with
        | none => simp [bareRule, h5] at hcond
        | some f =>
          have hb : bare n0 = f.tree env := by simpa [bareRule, h5] using hcond
          exact returns_bare he f n0 n' msg false hb (hok f (by simp)) h6 (hd f (by simp)) (hr n0 h5) hdoc p

end Mapl

import Verif.Lemmas.MemoryRules

/-! # Checks of messages without text documents do not depend on where `jsonslice.Get` takes its results from -/

namespace Mapl

open Mapl.Spec

/-- The same functions, with a `jsonslice.Get` that makes copies. -/
def copying (env : MemEnv) : MemEnv := { env with place := fun _ _ => none }

section

variable {env : MemEnv} {g : Predef}

theorem bind_congr' {α β : Type} {x : Go α} {f f' : α → Go β} (h : ∀ a, x = .ok a → f a = f' a) : (x >>= f) = (x >>= f') := by
  cases x with
  | error e => rfl
  | ok a => exact h a rfl

theorem noBytes_in {mm : MMsg} (h : NoBytes mm) (mem : Mem) : InMemory mem mm :=
  ⟨fun _ hs => absurd (h.1.symm.trans hs) (by simp), fun _ hs => absurd (h.2.symm.trans hs) (by simp)⟩

theorem evalM_keeps {n : Node} {p : List Nat} {mm : MMsg} {mem : Mem} (hm : NoBytes mm) {o : EvalOutM} (h : evalM (copying env) n p mm mem = .ok o) : o.mm = mm := by
  have := evalM_spec (env := copying env) (P := fun _ => True) (fun _ _ => collects_copies (fun _ _ => rfl) _) n (parents_true n) p mm mem (noBytes_in hm mem)
  cases hv : eval (copying env).toEnv n p (mm.view mem) with
  | error e => rw [hv] at this; rw [same_error this] at h; cases h
  | ok v => rw [hv] at this; obtain ⟨mem', h1, -⟩ := this; rw [h1] at h; cases h; rfl

theorem elementsM_noBytes {p : List Nat} {a : AnyAll} {mm : MMsg} {mem : Mem} (hm : NoBytes mm) : elementsM env p a mm mem = elementsM (copying env) p a mm mem := by
  unfold elementsM
  cases a.parentArr with
  | nil => rfl
  | cons q qs => simp only [collectM, hm.1, hm.2, deref]; split <;> rfl

/-- Two ways of evaluating the condition of an ANY or ALL agree on messages without texts, and keep them so. -/
structure AgreeM (c c' : Nat → MMsg → Mem → Go EvalOutM) : Prop where
  same : ∀ i mm mem, NoBytes mm → c i mm mem = c' i mm mem
  keeps : ∀ i mm mem o, NoBytes mm → c' i mm mem = .ok o → NoBytes o.mm

theorem anyLoopM_agree {c c' : Nat → MMsg → Mem → Go EvalOutM} (H : AgreeM c c') {reset : MMsg → MMsg} {ret : Msg → Go (List Extra)} {checkAll : Bool} :
    ∀ (l : List Json) (i : Nat) (result : Bool) (acc : List Extra) (mm : MMsg) (mem : Mem), NoBytes mm →
      anyLoopM c setValueM reset ret checkAll i result acc mm mem l = anyLoopM c' setValueM reset ret checkAll i result acc mm mem l
  | [], _, _, _, _, _, _ => rfl
  | v :: vs, i, result, acc, mm, mem, hm => by
    have h1 : NoBytes (setValueM v mm) := hm
    rw [anyLoopM, anyLoopM, H.same _ _ _ h1]
    cases hv : c' i (setValueM v mm) mem with
    | error e => rfl
    | ok o =>
      have ho := H.keeps _ _ _ _ h1 hv
      simp only [Go.ok_bind]
      split
      · cases ret (o.mm.view o.mem) with
        | error e => rfl
        | ok e =>
          simp only [Go.ok_bind]
          split
          · exact anyLoopM_agree H vs _ _ _ _ _ ho
          · rfl
      · exact anyLoopM_agree H vs _ _ _ _ _ ho

theorem allLoopM_agree {c c' : Nat → MMsg → Mem → Go EvalOutM} (H : AgreeM c c') {reset : MMsg → MMsg} :
    ∀ (l : List Json) (i : Nat) (mm : MMsg) (mem : Mem), NoBytes mm → allLoopM c setValueM reset i mm mem l = allLoopM c' setValueM reset i mm mem l
  | [], _, _, _, _ => rfl
  | v :: vs, i, mm, mem, hm => by
    have h1 : NoBytes (setValueM v mm) := hm
    rw [allLoopM, allLoopM, H.same _ _ _ h1]
    cases hv : c' i (setValueM v mm) mem with
    | error e => rfl
    | ok o =>
      have ho := H.keeps _ _ _ _ h1 hv
      simp only [Go.ok_bind]
      split
      · exact allLoopM_agree H vs _ _ _ ho
      · rfl

/-- Without texts there are no elements: there is a crash, or no parent path. -/
theorem elementsM_none {p : List Nat} {a : AnyAll} {mm : MMsg} {mem : Mem} (hm : NoBytes mm) :
    (∃ e, elementsM env p a mm mem = .error e) ∨ ∃ mem', elementsM env p a mm mem = .ok (none, mem') := by
  unfold elementsM
  cases a.parentArr with
  | nil => exact .inr ⟨_, rfl⟩
  | cons q qs =>
    left
    simp only [collectM, hm.1, hm.2, deref]
    split <;> exact ⟨_, rfl⟩

theorem evalAnyM_agree {a : AnyAll} {c c' : Nat → MMsg → Mem → Go EvalOutM} (H : AgreeM c c') {p : List Nat} {mm : MMsg} {mem : Mem} (hm : NoBytes mm) :
    evalAnyM env p a c mm mem = evalAnyM (copying env) p a c' mm mem := by
  unfold evalAnyM
  split
  · change (getArrayOfInterfaces env.toEnv p a (mm.view mem) >>= _) = (getArrayOfInterfaces env.toEnv p a (mm.view mem) >>= _)
    cases getArrayOfInterfaces env.toEnv p a (mm.view mem) with
    | error e => rfl
    | ok l => exact anyLoopM_agree H l _ _ _ _ _ hm
  · rw [← elementsM_noBytes hm]
    rcases elementsM_none (env := env) (p := p) (a := a) (mem := mem) hm with ⟨e, he⟩ | ⟨mem', he⟩ <;> rw [he] <;> rfl

theorem evalAllM_agree {a : AnyAll} {c c' : Nat → MMsg → Mem → Go EvalOutM} (H : AgreeM c c') {p : List Nat} {mm : MMsg} {mem : Mem} (hm : NoBytes mm) :
    evalAllM env p a c mm mem = evalAllM (copying env) p a c' mm mem := by
  unfold evalAllM
  split
  · change (getArrayOfInterfaces env.toEnv p a (mm.view mem) >>= _) = (getArrayOfInterfaces env.toEnv p a (mm.view mem) >>= _)
    cases getArrayOfInterfaces env.toEnv p a (mm.view mem) with
    | error e => rfl
    | ok l => exact allLoopM_agree H l _ _ _ hm
  · rw [← elementsM_noBytes hm]
    rcases elementsM_none (env := env) (p := p) (a := a) (mem := mem) hm with ⟨e, he⟩ | ⟨mem', he⟩ <;> rw [he] <;> rfl

mutual
theorem evalM_copying : ∀ (n : Node) (p : List Nat) (mm : MMsg) (mem : Mem), NoBytes mm → evalM env n p mm mem = evalM (copying env) n p mm mem
  | .nil, p, mm, mem, hm => by rw [evalM, evalM]
  | .and ns, p, mm, mem, hm => by rw [evalM, evalM]; exact evalAndM_copying ns p 1 [] mm mem hm
  | .or ns, p, mm, mem, hm => by rw [evalM, evalM]; exact evalOrM_copying ns p 1 false [] mm mem hm
  | .not n, p, mm, mem, hm => by rw [evalM, evalM, evalM_copying n (1 :: p) mm mem hm]
  | .any a n, p, mm, mem, hm => by
    rw [evalM, evalM]
    exact evalAnyM_agree ⟨fun i mm mem hm => evalM_copying n (i :: p) mm mem hm, fun i mm mem o hm h => by rw [evalM_keeps hm h]; exact hm⟩ hm
  | .all a n, p, mm, mem, hm => by
    rw [evalM, evalM]
    exact evalAllM_agree ⟨fun i mm mem hm => evalM_copying n (i :: p) mm mem hm, fun i mm mem o hm h => by rw [evalM_keeps hm h]; exact hm⟩ hm
  | .tt, p, mm, mem, hm => by rw [evalM, evalM]
  | .ff, p, mm, mem, hm => by rw [evalM, evalM]
  | .cond c, p, mm, mem, hm => by rw [evalM, evalM]; rfl

theorem evalAndM_copying : ∀ (ns : List Node) (p : List Nat) (i : Nat) (acc : List Extra) (mm : MMsg) (mem : Mem), NoBytes mm →
    evalAndM env ns p i acc mm mem = evalAndM (copying env) ns p i acc mm mem
  | [], p, i, acc, mm, mem, hm => by rw [evalAndM, evalAndM]
  | n :: ns, p, i, acc, mm, mem, hm => by
    rw [evalAndM, evalAndM, evalM_copying n (i :: p) mm mem hm]
    cases h : evalM (copying env) n (i :: p) mm mem with
    | error e => rfl
    | ok o =>
      simp only [Go.ok_bind, evalM_keeps hm h]
      by_cases hf : o.flag = false
      · rw [if_pos hf, if_pos hf]
      · rw [if_neg hf, if_neg hf]; exact evalAndM_copying ns p (i + 1) _ mm o.mem hm

theorem evalOrM_copying : ∀ (ns : List Node) (p : List Nat) (i : Nat) (flag : Bool) (acc : List Extra) (mm : MMsg) (mem : Mem), NoBytes mm →
    evalOrM env ns p i flag acc mm mem = evalOrM (copying env) ns p i flag acc mm mem
  | [], p, i, flag, acc, mm, mem, hm => by rw [evalOrM, evalOrM]
  | n :: ns, p, i, flag, acc, mm, mem, hm => by
    rw [evalOrM, evalOrM, evalM_copying n (i :: p) mm mem hm]
    cases h : evalM (copying env) n (i :: p) mm mem with
    | error e => rfl
    | ok o =>
      simp only [Go.ok_bind, evalM_keeps hm h]
      exact evalOrM_copying ns p (i + 1) _ _ mm o.mem hm
end

theorem copying_toEnv : (copying env).toEnv = env.toEnv := rfl

theorem testConditionsM_copying {p : List Nat} {r : RuleObj} {mm : MMsg} {mem : Mem} (hm : NoBytes mm) :
    r.testConditionsM env g p mm mem = r.testConditionsM (copying env) g p mm mem := by
  have h (q : Option Rule) : testPreparedConditionsM env (1 :: p) q mm mem = testPreparedConditionsM (copying env) (1 :: p) q mm mem := by
    unfold testPreparedConditionsM
    cases deref q with
    | error e => rfl
    | ok r =>
      simp only [Go.ok_bind]
      cases r.conditions with
      | none => rfl
      | some n => exact evalM_copying n _ mm mem hm
  unfold RuleObj.testConditionsM
  simp only [h, copying_toEnv]

theorem ruleM_copying {p : List Nat} {r : RuleObj} {mm : MMsg} {mem : Mem} (hm : NoBytes mm) : r.checkM env g p mm mem = r.checkM (copying env) g p mm mem := by
  unfold RuleObj.checkM
  simp only [testConditionsM_copying (env := env) hm, copying_toEnv]
  rfl

theorem ruleM_keeps {i : Nat} {r : RuleObj} {mm : MMsg} {mem : Mem} (hm : NoBytes mm) (hr : ReadWith env.toEnv g (fun _ => True) r) (ho : env.OrdOk) {o : RuleOutM}
    (h : r.checkM (copying env) g [i] mm mem = .ok o) : o.mm = mm := by
  have := ruleM_spec (env := copying env) (g := g) (Q := fun _ => True) (r := r) (p := [i]) (fun _ _ => collects_copies (fun _ _ => rfl) _)
    (fun r1 h1 => ensure_readyWith (env := copying env) ho (fun _ _ _ _ hn => prepare_parents (P := fun _ => True) (fun _ _ _ _ => trivial) _ _ (parents_true _) hn) hr h1) (noBytes_in hm mem)
  cases hv : r.check (copying env).toEnv g [i] (mm.view mem) with
  | error e => rw [hv] at this; rw [show r.checkM (copying env) g [i] mm mem = .error e from this] at h; cases h
  | ok v =>
    rw [hv] at this
    obtain ⟨mem', h1, -⟩ := this
    rw [h1] at h
    cases h
    rfl

theorem checkRulesM_copying (ho : env.OrdOk) (rs : List RuleObj) : ∀ (i : Nat) (mm : MMsg) (mem : Mem), NoBytes mm → (∀ r ∈ rs, ReadWith env.toEnv g (fun _ => True) r) →
    checkRulesM env g i mm mem rs = checkRulesM (copying env) g i mm mem rs := by
  induction rs with
  | nil => intro i mm mem _ _; rw [checkRulesM, checkRulesM]
  | cons r rs ih =>
    intro i mm mem hm hr
    rw [checkRulesM, checkRulesM, ruleM_copying hm]
    refine bind_congr' fun o h => ?_
    have hk := ruleM_keeps hm (hr r (by simp)) ho h
    rw [hk, ih (i + 1) mm o.mem hm fun r h => hr r (by simp [h])]

theorem checkM_copying {rs : List RuleObj} {mm : MMsg} {mem : Mem} (hm : NoBytes mm) (hr : ∀ r ∈ rs, ReadWith env.toEnv g (fun _ => True) r) (ho : env.OrdOk) :
    checkM env g mm mem rs = checkM (copying env) g mm mem rs := by
  unfold checkM
  rw [checkRulesM_copying ho rs 0 mm mem hm hr]

end

end Mapl

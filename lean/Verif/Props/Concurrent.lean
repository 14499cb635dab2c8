import Verif.Spec.Concurrent
import Verif.Lemmas.Go
import Verif.Lemmas.EvalMsg
import Verif.Lemmas.State
import Verif.Lemmas.Crash
import Verif.Props.Coverage
import Verif.Demo

/-!
# C59: checks that run at the same time
-/

namespace Mapl.Props
open Spec

variable {α β γ : Type}

/-! ## A program alone is the function -/

theorem run_bind (x : Prog α) (f : α → Prog β) (m : Msg) : (x.bind f).run m = (x.run m).bind fun a => (f a.1).run a.2 := by
  induction x generalizing m with
  | done r => cases r <;> rfl
  | read k ih => exact ih m m
  | write g k ih => exact ih (g m)

theorem run_done (r : Go α) (m : Msg) : (Prog.done r).run m = r.map (·, m) := rfl

/-- The answer of an evaluation in the form programs give it. -/
def EvalOut.split (o : EvalOut) : (Bool × List Extra) × Msg := ((o.flag, o.extra), o.msg)

theorem run_anyLoop {child : Nat → Msg → Go EvalOut} {childP : Nat → Prog (Bool × List Extra)} {set : β → Msg → Msg} {reset : Msg → Msg}
    {ret : Msg → Go (List Extra)} {checkAll : Bool} (hc : ∀ i m, (childP i).run m = (child i m).map EvalOut.split) :
    ∀ (l : List β) (i : Nat) (result : Bool) (acc : List Extra) (m : Msg),
      (anyLoopP childP set reset ret checkAll i result acc l).run m = (anyLoop child set reset ret checkAll i result acc m l).map EvalOut.split := by
  intro l
  induction l with
  | nil => intros; rfl
  | cons v vs ih =>
    intro i result acc m
    simp only [anyLoopP, anyLoop, Prog.run, run_bind, hc]
    cases child i (set v m) with
    | error e => rfl
    | ok o =>
      simp only [Except.map, Except.bind, EvalOut.split, bind]
      cases ho : o.flag with
      | false => simp only [Bool.false_eq_true, if_false]; exact ih _ _ _ _
      | true =>
        simp only [if_true, Prog.run, run_bind, run_done]
        cases ret o.msg with
        | error e => rfl
        | ok e =>
          cases checkAll with
          | true => exact ih _ _ _ _
          | false => rfl

theorem run_allLoop {child : Nat → Msg → Go EvalOut} {childP : Nat → Prog (Bool × List Extra)} {set : β → Msg → Msg} {reset : Msg → Msg}
    (hc : ∀ i m, (childP i).run m = (child i m).map EvalOut.split) : ∀ (l : List β) (i : Nat) (m : Msg),
      (allLoopP childP set reset i l).run m = (allLoop child set reset i m l).map EvalOut.split := by
  intro l
  induction l with
  | nil => intros; rfl
  | cons v vs ih =>
    intro i m
    simp only [allLoopP, allLoop, Prog.run, run_bind, hc]
    cases child i (set v m) with
    | error e => rfl
    | ok o =>
      simp only [Except.map, Except.bind, EvalOut.split, bind]
      cases ho : o.flag with
      | false => rfl
      | true => exact ih _ _

theorem run_evalAny {child : Nat → Msg → Go EvalOut} {childP : Nat → Prog (Bool × List Extra)} {env : Env} {p : List Nat} {a : AnyAll}
    (hc : ∀ i m, (childP i).run m = (child i m).map EvalOut.split) (m : Msg) :
    (evalAnyP env p a childP).run m = (evalAny env p a child m).map EvalOut.split := by
  unfold evalAnyP evalAny
  simp only [Prog.run]
  split
  · rw [run_bind, run_done]
    cases getArrayOfInterfaces env p a m with
    | error e => rfl
    | ok l => exact run_anyLoop hc _ _ _ _ _
  · rw [run_bind, run_done]
    cases getArrayOfJsons env p a m with
    | error e => rfl
    | ok l =>
      cases l with
      | none => rfl
      | some l => exact run_anyLoop hc _ _ _ _ _

theorem run_evalAll {child : Nat → Msg → Go EvalOut} {childP : Nat → Prog (Bool × List Extra)} {env : Env} {p : List Nat} {a : AnyAll}
    (hc : ∀ i m, (childP i).run m = (child i m).map EvalOut.split) (m : Msg) :
    (evalAllP env p a childP).run m = (evalAll env p a child m).map EvalOut.split := by
  unfold evalAllP evalAll
  simp only [Prog.run]
  split
  · rw [run_bind, run_done]
    cases getArrayOfInterfaces env p a m with
    | error e => rfl
    | ok l => exact run_allLoop hc _ _ _
  · rw [run_bind, run_done]
    cases getArrayOfJsons env p a m with
    | error e => rfl
    | ok l =>
      cases l with
      | none => rfl
      | some l => exact run_allLoop hc _ _ _

mutual
theorem run_eval (env : Env) : ∀ (n : Node) (p : List Nat) (m : Msg), (evalP env n p).run m = (eval env n p m).map EvalOut.split
  | .nil, _, _ => rfl
  | .and ns, p, m => by rw [evalP, eval]; exact run_evalAnd env ns p _ _ _
  | .or ns, p, m => by rw [evalP, eval]; exact run_evalOr env ns p _ _ _ _
  | .not n, p, m => by
    rw [evalP, eval, run_bind, run_eval env n]
    cases eval env n (1 :: p) m <;> rfl
  | .any a n, p, m => by rw [evalP, eval]; exact run_evalAny (fun i m => run_eval env n _ m) m
  | .all a n, p, m => by rw [evalP, eval]; exact run_evalAll (fun i m => run_eval env n _ m) m
  | .tt, _, _ => by rw [evalP, eval]; rfl
  | .ff, _, _ => by rw [evalP, eval]; rfl
  | .cond c, p, m => by
    rw [evalP, eval, Prog.run, run_done]
    cases testOneCondition env (0 :: 0 :: p) c m <;> rfl

theorem run_evalAnd (env : Env) : ∀ (ns : List Node) (p : List Nat) (i : Nat) (acc : List Extra) (m : Msg),
    (evalAndP env ns p i acc).run m = (evalAnd env ns p i acc m).map EvalOut.split
  | [], _, _, _, _ => by rw [evalAndP, evalAnd]; rfl
  | n :: ns, p, i, acc, m => by
    rw [evalAndP, evalAnd, run_bind, run_eval env n]
    cases eval env n (i :: p) m with
    | error e => rfl
    | ok o =>
      simp only [Except.map, Except.bind, EvalOut.split, bind]
      cases ho : o.flag with
      | false => rfl
      | true => exact run_evalAnd env ns p _ _ _

theorem run_evalOr (env : Env) : ∀ (ns : List Node) (p : List Nat) (i : Nat) (f : Bool) (acc : List Extra) (m : Msg),
    (evalOrP env ns p i f acc).run m = (evalOr env ns p i f acc m).map EvalOut.split
  | [], _, _, _, _, _ => by rw [evalOrP, evalOr]; rfl
  | n :: ns, p, i, f, acc, m => by
    rw [evalOrP, evalOr, run_bind, run_eval env n]
    cases eval env n (i :: p) m with
    | error e => rfl
    | ok o => exact run_evalOr env ns p _ _ _ _
end

theorem run_testConditions (env : Env) (g : Predef) (p : List Nat) (r : RuleObj) (m : Msg) :
    (r.testConditionsP env g p).run m = (r.testConditions env g p m).map fun o => EvalOut.split o.1 := by
  unfold RuleObj.testConditionsP RuleObj.testConditions testPreparedConditions
  rw [run_bind, run_done]
  cases r.ensure env (0 :: p) g with
  | error e => rfl
  | ok r1 =>
    simp only [Except.map, Except.bind, bind, run_bind, run_done]
    cases deref r1.prepared with
    | error e => rfl
    | ok rule =>
      simp only []
      cases rule.conditions with
      | none => rfl
      | some n =>
        simp only [run_eval]
        cases eval env n (1 :: p) m <;> rfl

theorem run_ruleCheck (env : Env) (g : Predef) (p : List Nat) (r : RuleObj) (m : Msg) :
    (r.checkP env g p).run m = (r.check env g p m).map fun o => ((o.result, o.extra), o.msg) := by
  unfold RuleObj.checkP RuleObj.check
  rw [run_bind, run_done]
  cases r.ensure env (0 :: p) g with
  | error e => rfl
  | ok r1 =>
    simp only [Except.map, Except.bind, bind, run_bind, run_done]
    cases deref r1.prepared with
    | error e => rfl
    | ok rule =>
      simp only [Prog.run, run_bind, run_done, testParts, Except.map, Except.bind, bind]
      generalize convertOnUse env rule = rule
      cases testSender env rule m with
      | error e => rfl
      | ok b1 =>
      cases b1 with
      | false => rfl
      | true =>
      simp only [not_true_eq_false, if_false, Bool.false_eq_true]
      cases testReceiver env rule m with
      | error e => rfl
      | ok b1 =>
      cases b1 with
      | false => rfl
      | true =>
      simp only [not_true_eq_false, if_false, Bool.false_eq_true]
      cases matchPtr env.toExt rule.operationRegex m.requestMethod with
      | error e => rfl
      | ok b1 =>
      cases b1 with
      | false => rfl
      | true =>
      simp only [not_true_eq_false, if_false, Bool.false_eq_true]
      cases testResource env.toExt rule m with
      | error e => rfl
      | ok b1 =>
      cases b1 with
      | false => rfl
      | true =>
      simp only [not_true_eq_false, if_false, Bool.false_eq_true]
      cases hcond : rule.conditions with
      | none => rfl
      | some n =>
        have hb := run_testConditions env g (1 :: p) { r1 with prepared := some rule } m
        cases h : RuleObj.testConditions env g (1 :: p) { r1 with prepared := some rule } m with
        | error e =>
          rw [h] at hb
          simp [run_bind, hb, pure, Except.pure, Except.map, Except.bind]
        | ok o =>
          obtain ⟨o, r2⟩ := o
          rw [h] at hb
          cases ho : o.flag <;> simp [run_bind, hb, pure, Except.pure, EvalOut.split, ho, Except.map, Except.bind, Prog.run]

theorem run_checkRules (env : Env) (g : Predef) : ∀ (rules : List RuleObj) (i : Nat) (m : Msg),
    (checkRulesP env g i rules).run m = checkRules env g i m rules
  | [], _, _ => rfl
  | r :: rs, i, m => by
    rw [checkRulesP, checkRules, run_bind, run_ruleCheck]
    cases r.check env g [i] m with
    | error e => rfl
    | ok o =>
      simp only [Except.map, Except.bind, bind, run_bind, run_checkRules env g rs]
      cases checkRules env g (i + 1) o.msg rs <;> rfl

/-- **C59**, the program of a check that runs alone is the check. -/
theorem C59_alone (env : Env) (g : Predef) (rules : List RuleObj) (m : Msg) :
    (checkP env g rules).run m = (check env g m rules).map fun o => (o, o.msg) := by
  unfold checkP check
  rw [run_bind, run_checkRules]
  cases checkRules env g 0 m rules with
  | error e => rfl
  | ok o =>
    simp only [Except.map, Except.bind, bind]
    cases decisionNames[(aggregate 0 {} ((o.1.map (·.1)).zip (rules.map describe))).maxDecision]? <;> rfl

/-! ## Steps -/

/-- What one step does: nothing, or one step of goroutine `i`. -/
theorem step_cases (c : Config α) (i : Nat) : c.step i = c ∨
    (∃ a k, c.threads[i]? = some ⟨a, .read k⟩ ∧ c.step i = ⟨c.heap, c.threads.set i ⟨a, k (c.heap a)⟩⟩) ∨
    (∃ a f k, c.threads[i]? = some ⟨a, .write f k⟩ ∧
      c.step i = ⟨fun b => if b = a then f (c.heap b) else c.heap b, c.threads.set i ⟨a, k⟩⟩) := by
  unfold Config.step
  cases h : c.threads[i]? with
  | none => exact .inl rfl
  | some t =>
    obtain ⟨a, pr⟩ := t
    cases pr with
    | done r => exact .inl rfl
    | read k => exact .inr (.inl ⟨a, k, rfl, rfl⟩)
    | write f k => exact .inr (.inr ⟨a, f, k, rfl, rfl⟩)

/-- A property of configurations that every step preserves holds after every schedule. -/
theorem exec_inv (P : Config α → Prop) (h : ∀ c i, P c → P (c.step i)) : ∀ (l : List Nat) (c : Config α), P c → P (c.exec l)
  | [], _, hc => hc
  | i :: l, c, hc => exec_inv P h l (c.step i) (h c i hc)

theorem get_set {l : List (Thread α)} {i j : Nat} {t u : Thread α} (h : (l.set i t)[j]? = some u) :
    (i = j ∧ u = t) ∨ (i ≠ j ∧ l[j]? = some u) := by
  rw [List.getElem?_set] at h
  split at h
  · split at h
    · exact .inl ⟨‹_›, (Option.some.inj h).symm⟩
    · cases h
  · exact .inr ⟨‹_›, h⟩

theorem result_some {c : Config α} {i : Nat} {r : Go α} (h : c.result i = some r) : ∃ a, c.threads[i]? = some ⟨a, .done r⟩ := by
  unfold Config.result at h
  split at h
  · cases h; exact ⟨_, ‹_›⟩
  · cases h

/-! ## Messages of their own -/

/-- The goroutines work on different messages, and what is left of each of them does what the whole would have done alone. -/
structure Separate (c0 c : Config α) : Prop where
  addr : c.threads.map (·.addr) = c0.threads.map (·.addr)
  run : ∀ (i : Nat) (t t0 : Thread α), c.threads[i]? = some t → c0.threads[i]? = some t0 → t.prog.run (c.heap t.addr) = t0.prog.run (c0.heap t0.addr)

theorem addr_get {c c0 : Config α} (h : c.threads.map (·.addr) = c0.threads.map (·.addr)) {i : Nat} {t : Thread α}
    (ht : c.threads[i]? = some t) : ∃ t0, c0.threads[i]? = some t0 ∧ t0.addr = t.addr := by
  have h1 : (c.threads.map (·.addr))[i]? = some t.addr := by rw [List.getElem?_map, ht]; rfl
  rw [h, List.getElem?_map] at h1
  cases h2 : c0.threads[i]? with
  | none => rw [h2] at h1; cases h1
  | some t0 => rw [h2] at h1; exact ⟨t0, rfl, by simpa using h1⟩

theorem map_set_addr {l : List (Thread α)} {i : Nat} {t u : Thread α} (h : l[i]? = some t) (ha : u.addr = t.addr) :
    (l.set i u).map (·.addr) = l.map (·.addr) := by
  rw [List.map_set, ha]
  apply List.ext_getElem?
  intro j
  rw [List.getElem?_set]
  split
  · subst ‹i = j›
    rw [List.getElem?_map, h]
    obtain ⟨hlt, _⟩ := List.getElem?_eq_some_iff.1 h
    simp [hlt]
  · rfl

theorem separate_step {c0 : Config α} (hd : (c0.threads.map (·.addr)).Nodup) (c : Config α) (i : Nat) (h : Separate c0 c) :
    Separate c0 (c.step i) := by
  rcases step_cases c i with h1 | ⟨a, k, h1, h2⟩ | ⟨a, f, k, h1, h2⟩
  · rw [h1]; exact h
  · rw [h2]
    refine ⟨by rw [← h.addr]; exact map_set_addr h1 rfl, fun j t t0 ht ht0 => ?_⟩
    rcases get_set ht with ⟨rfl, rfl⟩ | ⟨_, ht⟩
    · exact (h.run _ _ _ h1 ht0 :)
    · exact h.run _ _ _ ht ht0
  · rw [h2]
    refine ⟨by rw [← h.addr]; exact map_set_addr h1 rfl, fun j t t0 ht ht0 => ?_⟩
    rcases get_set ht with ⟨rfl, rfl⟩ | ⟨hij, ht⟩
    · simp only [if_true]
      exact (h.run _ _ _ h1 ht0 :)
    · have : t.addr ≠ a := by
        intro he
        apply hij
        have hn : (c.threads.map (·.addr)).Nodup := by rw [h.addr]; exact hd
        have e1 : (c.threads.map (·.addr))[i]? = some a := by rw [List.getElem?_map, h1]; rfl
        have e2 : (c.threads.map (·.addr))[j]? = some a := by rw [List.getElem?_map, ht, ← he]; rfl
        exact (List.getElem?_inj (List.getElem?_eq_some_iff.1 e1).1 hn).1 (e1.trans e2.symm)
      simp only [if_neg this]
      exact h.run _ _ _ ht ht0

/-- **C59** for goroutines that check messages of their own (the rules may be the same): in every interleaving each of them returns
exactly what its check returns alone. -/
theorem C59_separate (heap : Nat → Msg) (jobs : List Job) (hd : (jobs.map (·.addr)).Nodup) (schedule : List Nat) {i : Nat} {j : Job} {r : Go CheckOut}
    (hj : jobs[i]? = some j) (h : ((start heap jobs).exec schedule).result i = some r) : r = j.alone heap := by
  have hd' : ((start heap jobs).threads.map (·.addr)).Nodup := by
    simpa [start, Function.comp_def] using hd
  have hs : Separate (start heap jobs) ((start heap jobs).exec schedule) :=
    exec_inv _ (separate_step hd') schedule _ ⟨rfl, fun i t t0 h1 h2 => by rw [h1] at h2; cases h2; rfl⟩
  obtain ⟨a, ha⟩ := result_some h
  have h0 : (start heap jobs).threads[i]? = some ⟨j.addr, checkP j.env j.global j.rules⟩ := by simp [start, hj]
  have := hs.run i _ _ ha h0
  rw [C59_alone, run_done] at this
  unfold Job.alone
  change _ = (check j.env j.global (heap j.addr) j.rules).map _ at this
  revert this
  cases r <;> cases check j.env j.global (heap j.addr) j.rules <;> simp [Except.map]
  intro h _; exact h

example : ((([⟨Demo.env, {}, Demo.rules, 0⟩, ⟨Demo.envRev, {}, Demo.rules, 1⟩] : List Job).map (·.addr)).Nodup) ∧
    ((((start (fun _ => Demo.msgI) [⟨Demo.env, {}, Demo.rules, 0⟩, ⟨Demo.envRev, {}, Demo.rules, 1⟩]).exec
      ((List.replicate 40 [0, 1]).flatten)).result 1).map Demo.summary = some (some (3, [1, 3, 0], 1, [0, 1]))) := by
  constructor <;> decide +kernel

/-! ## Every interleaving ends -/

/-- The rest of a program after one step. -/
inductive Prog.Next : Prog α → Prog α → Prop
  | read (k m) : Next (k m) (.read k)
  | write (f k) : Next k (.write f k)

theorem next_acc (x : Prog α) : Acc Prog.Next x := by
  induction x with
  | done r => exact ⟨_, fun y h => by cases h⟩
  | read k ih => exact ⟨_, fun y h => by cases h with | read k m => exact ih m⟩
  | write f k ih => exact ⟨_, fun y h => by cases h; exact ih⟩

/-- One goroutine of a list made a step. -/
def OneNext (l' l : List (Prog α)) : Prop := ∃ i x y, l[i]? = some x ∧ Prog.Next y x ∧ l' = l.set i y

theorem oneNext_acc : ∀ l : List (Prog α), Acc OneNext l
  | [] => ⟨_, fun l' ⟨i, x, y, h, _⟩ => by simp at h⟩
  | x :: l => by
    have hl := oneNext_acc l
    have hx := next_acc x
    induction hx generalizing l with
    | intro x _ ihx =>
      induction hl with
      | intro l hl ihl =>
        refine ⟨_, fun l' ⟨i, x', y, h, hn, e⟩ => ?_⟩
        cases i with
        | zero =>
          simp only [List.getElem?_cons_zero, Option.some.injEq] at h
          subst h e
          exact ihx y hn l ⟨_, hl⟩
        | succ i =>
          simp only [List.getElem?_cons_succ] at h
          subst e
          exact ihl _ ⟨i, x', y, h, hn, rfl⟩

theorem step_next (c : Config α) (i : Nat) : (c.step i = c ∧ ∀ t, c.threads[i]? = some t → ∃ r, t.prog = .done r) ∨
    OneNext ((c.step i).threads.map (·.prog)) (c.threads.map (·.prog)) := by
  unfold Config.step
  cases h : c.threads[i]? with
  | none => exact .inl ⟨rfl, fun t h => by cases h⟩
  | some t =>
    obtain ⟨a, pr⟩ := t
    cases pr with
    | done r => exact .inl ⟨rfl, fun t h => by cases h; exact ⟨r, rfl⟩⟩
    | read k => exact .inr ⟨i, .read k, k (c.heap a), by simp [h], .read _ _, by simp [Thread.step, List.map_set]⟩
    | write f k => exact .inr ⟨i, .write f k, k, by simp [h], .write _ _, by simp [Thread.step, List.map_set]⟩

theorem step_length (c : Config α) (i : Nat) : (c.step i).threads.length = c.threads.length := by
  rcases step_cases c i with h | ⟨a, k, _, h⟩ | ⟨a, f, k, _, h⟩ <;> rw [h] <;> simp

/-- **C59**, under a schedule that gives every goroutine its turn again and again, all checks end. -/
theorem C59_ends (c : Config α) (schedule : Nat → Nat) (hf : Fair schedule c.threads.length) :
    ∃ n, ∀ i < c.threads.length, ((c.exec ((List.range n).map schedule)).result i).isSome := by
  generalize hl : c.threads.map (·.prog) = l
  have hacc := oneNext_acc l
  induction hacc generalizing c schedule with
  | intro l _ ih =>
    by_cases hdone : ∀ i < c.threads.length, (c.result i).isSome
    · exact ⟨0, hdone⟩
    · push Not at hdone
      obtain ⟨i, hi, hr⟩ := hdone
      -- the configuration changes at the latest when goroutine `i` gets its turn
      obtain ⟨n0, _, hn0⟩ := hf i hi 0
      have key : ∃ n, OneNext ((c.step (schedule n)).threads.map (·.prog)) (c.threads.map (·.prog)) ∧ ∀ k < n, c.step (schedule k) = c := by
        have hex : ∃ n, OneNext ((c.step (schedule n)).threads.map (·.prog)) (c.threads.map (·.prog)) := by
          refine ⟨n0, ?_⟩
          rcases step_next c (schedule n0) with ⟨_, h⟩ | h
          · exfalso
            rw [hn0] at h
            obtain ⟨r, hr'⟩ := h c.threads[i] (by simp [hi])
            apply hr
            unfold Config.result
            rw [List.getElem?_eq_getElem hi]
            generalize c.threads[i] = t at hr'
            obtain ⟨a, pr⟩ := t
            subst hr'
            rfl
          · exact h
        classical
        refine ⟨Nat.find hex, Nat.find_spec hex, fun k hk => ?_⟩
        rcases step_next c (schedule k) with ⟨h, _⟩ | h
        · exact h
        · exact absurd h (Nat.find_min hex hk)
      obtain ⟨n, hn, hk⟩ := key
      have hpre : ∀ k ≤ n, c.exec ((List.range k).map schedule) = c := by
        intro k
        induction k with
        | zero => intro _; rfl
        | succ k ihk =>
          intro hle
          rw [List.range_succ, List.map_append, Config.exec, List.foldl_append]
          have := ihk (by omega)
          rw [Config.exec] at this
          rw [this]
          exact hk k (by omega)
      obtain ⟨n', hn'⟩ := ih _ (by rw [hl] at hn; exact hn) (c.step (schedule n)) (fun k => schedule (n + 1 + k)) (by
        rw [step_length]
        intro j hj k
        obtain ⟨k', hk', h⟩ := hf j hj (n + 1 + k)
        exact ⟨k' - (n + 1), by omega, by
          show schedule (n + 1 + (k' - (n + 1))) = j
          rw [← h]; congr 1; omega⟩) rfl
      refine ⟨n + 1 + n', fun j hj => ?_⟩
      have := hn' j (by rw [step_length]; exact hj)
      rw [List.range_add, List.map_append, Config.exec, List.foldl_append, List.range_succ, List.map_append, List.foldl_append]
      have h2 := hpre n le_rfl
      rw [Config.exec] at h2
      rw [h2]
      rw [Config.exec] at this
      simpa [Function.comp_def] using this

/-! ## One message for several checks -/

/-- The messages differ at most in the two fields that checks write. -/
def Apart (m m' : Msg) : Prop := ∃ x y, m' = { m with rawIRel := x, jsonRawRel := y }

theorem Apart.refl (m : Msg) : Apart m m := ⟨_, _, rfl⟩

/-- The program ends with `r`, whatever the two fields hold whenever it looks. -/
def Gives (m0 : Msg) (r : Go α) : Prog α → Prop
  | .done x => x = r
  | .read k => ∀ m, Apart m0 m → Gives m0 r (k m)
  | .write _ k => Gives m0 r k

/-- The program writes nothing but the two fields. -/
def Tame (m0 : Msg) : Prog α → Prop
  | .done _ => True
  | .read k => ∀ m, Tame m0 (k m)
  | .write f k => (∀ m, Apart m0 m → Apart m0 (f m)) ∧ Tame m0 k

theorem tame_bind {m0 : Msg} {x : Prog α} {f : α → Prog β} (hx : Tame m0 x) (hf : ∀ a, Tame m0 (f a)) : Tame m0 (x.bind f) := by
  induction x with
  | done r => cases r with
    | error e => trivial
    | ok a => exact hf a
  | read k ih => exact fun m => ih m (hx m)
  | write g k ih => exact ⟨hx.1, ih hx.2⟩

theorem tame_done {m0 : Msg} (r : Go α) : Tame m0 (.done r) := trivial

theorem gives_bind {m0 : Msg} {x : Prog α} {f : α → Prog β} {r : Go α} {r' : Go β} (hx : Gives m0 r x)
    (hok : ∀ a, r = .ok a → Gives m0 r' (f a)) (herr : ∀ e, r = .error e → r' = .error e) : Gives m0 r' (x.bind f) := by
  induction x with
  | done y => cases y with
    | error e => exact (herr e hx.symm).symm
    | ok a => exact hok a hx.symm
  | read k ih => exact fun m hm => ih m (hx m hm)
  | write g k ih => exact ih hx

/-- The answer does not depend on the two fields. -/
def Fixed (m0 : Msg) (x : Prog α) : Prop := ∃ r, Gives m0 r x

theorem fixed_done {m0 : Msg} (r : Go α) : Fixed m0 (.done r) := ⟨r, rfl⟩

theorem fixed_bind {m0 : Msg} {x : Prog α} {f : α → Prog β} (hx : Fixed m0 x) (hf : ∀ a, Fixed m0 (f a)) : Fixed m0 (x.bind f) := by
  obtain ⟨r, hr⟩ := hx
  cases r with
  | error e => exact ⟨.error e, gives_bind hr (fun a h => by cases h) (fun e' h => by cases h; rfl)⟩
  | ok a =>
    obtain ⟨r', hr'⟩ := hf a
    exact ⟨r', gives_bind hr (fun a' h => by cases h; exact hr') (fun e h => by cases h)⟩

theorem fixed_read {m0 : Msg} {k : Msg → Prog α} (h : ∀ m, Apart m0 m → k m = k m0) (h0 : Fixed m0 (k m0)) : Fixed m0 (.read k) := by
  obtain ⟨r, hr⟩ := h0
  exact ⟨r, fun m hm => by rw [h m hm]; exact hr⟩

/-! ### Every check writes only the two fields -/

theorem tame_anyLoop {m0 : Msg} {child : Nat → Prog (Bool × List Extra)} {set : β → Msg → Msg} {reset : Msg → Msg}
    {ret : Msg → Go (List Extra)} {checkAll : Bool} (hc : ∀ i, Tame m0 (child i)) (hs : ∀ v m, Apart m0 m → Apart m0 (set v m))
    (hr : ∀ m, Apart m0 m → Apart m0 (reset m)) : ∀ (l : List β) (i : Nat) (result : Bool) (acc : List Extra),
      Tame m0 (anyLoopP child set reset ret checkAll i result acc l) := by
  intro l
  induction l with
  | nil => exact fun _ _ _ => ⟨hr, trivial⟩
  | cons v vs ih =>
    intro i result acc
    refine ⟨hs v, tame_bind (hc i) fun o => ?_⟩
    split
    · refine fun m => tame_bind (tame_done _) fun e => ?_
      split
      · exact ih _ _ _
      · exact ⟨hr, trivial⟩
    · exact ih _ _ _

theorem tame_allLoop {m0 : Msg} {child : Nat → Prog (Bool × List Extra)} {set : β → Msg → Msg} {reset : Msg → Msg}
    (hc : ∀ i, Tame m0 (child i)) (hs : ∀ v m, Apart m0 m → Apart m0 (set v m))
    (hr : ∀ m, Apart m0 m → Apart m0 (reset m)) : ∀ (l : List β) (i : Nat), Tame m0 (allLoopP child set reset i l) := by
  intro l
  induction l with
  | nil => exact fun _ => ⟨hr, trivial⟩
  | cons v vs ih =>
    intro i
    refine ⟨hs v, tame_bind (hc i) fun o => ?_⟩
    split
    · exact ih _
    · exact ⟨hr, trivial⟩

theorem apart_rawI {m0 m : Msg} (v : Option Json) (h : Apart m0 m) : Apart m0 { m with rawIRel := v } := by
  obtain ⟨x, y, rfl⟩ := h; exact ⟨v, y, rfl⟩

theorem apart_json {m0 m : Msg} (v : Option Str) (h : Apart m0 m) : Apart m0 { m with jsonRawRel := v } := by
  obtain ⟨x, y, rfl⟩ := h; exact ⟨x, v, rfl⟩

theorem tame_evalAny {m0 : Msg} {env : Env} {p : List Nat} {a : AnyAll} {child : Nat → Prog (Bool × List Extra)}
    (hc : ∀ i, Tame m0 (child i)) : Tame m0 (evalAnyP env p a child) := by
  intro m
  dsimp only
  split
  · exact tame_bind (tame_done _) fun l => fun old =>
      tame_anyLoop hc (fun v m h => apart_rawI _ h) (fun m h => apart_rawI _ h) _ _ _ _
  · refine tame_bind (tame_done _) fun l => ?_
    cases l with
    | none => trivial
    | some l => exact fun old => tame_anyLoop hc (fun v m h => apart_json _ h) (fun m h => apart_json _ h) _ _ _ _

theorem tame_evalAll {m0 : Msg} {env : Env} {p : List Nat} {a : AnyAll} {child : Nat → Prog (Bool × List Extra)}
    (hc : ∀ i, Tame m0 (child i)) : Tame m0 (evalAllP env p a child) := by
  intro m
  dsimp only
  split
  · exact tame_bind (tame_done _) fun l => fun old => tame_allLoop hc (fun v m h => apart_rawI _ h) (fun m h => apart_rawI _ h) _ _
  · refine tame_bind (tame_done _) fun l => ?_
    cases l with
    | none => trivial
    | some l => exact fun old => tame_allLoop hc (fun v m h => apart_json _ h) (fun m h => apart_json _ h) _ _

mutual
theorem tame_eval (env : Env) (m0 : Msg) : ∀ (n : Node) (p : List Nat), Tame m0 (evalP env n p)
  | .nil, _ => by rw [evalP]; trivial
  | .and ns, p => by rw [evalP]; exact tame_evalAnd env m0 ns p _ _
  | .or ns, p => by rw [evalP]; exact tame_evalOr env m0 ns p _ _ _
  | .not n, p => by rw [evalP]; exact tame_bind (tame_eval env m0 n _) fun _ => trivial
  | .any a n, p => by rw [evalP]; exact tame_evalAny fun i => tame_eval env m0 n _
  | .all a n, p => by rw [evalP]; exact tame_evalAll fun i => tame_eval env m0 n _
  | .tt, _ => by rw [evalP]; trivial
  | .ff, _ => by rw [evalP]; trivial
  | .cond c, p => by rw [evalP]; exact fun m => trivial

theorem tame_evalAnd (env : Env) (m0 : Msg) : ∀ (ns : List Node) (p : List Nat) (i : Nat) (acc : List Extra), Tame m0 (evalAndP env ns p i acc)
  | [], _, _, _ => by rw [evalAndP]; trivial
  | n :: ns, p, i, acc => by
    rw [evalAndP]
    refine tame_bind (tame_eval env m0 n _) fun o => ?_
    dsimp only
    split
    · trivial
    · exact tame_evalAnd env m0 ns _ _ _

theorem tame_evalOr (env : Env) (m0 : Msg) : ∀ (ns : List Node) (p : List Nat) (i : Nat) (f : Bool) (acc : List Extra), Tame m0 (evalOrP env ns p i f acc)
  | [], _, _, _, _ => by rw [evalOrP]; trivial
  | n :: ns, p, i, f, acc => by
    rw [evalOrP]
    exact tame_bind (tame_eval env m0 n _) fun o => tame_evalOr env m0 ns _ _ _ _
end

theorem tame_ruleCheck (env : Env) (m0 : Msg) (g : Predef) (p : List Nat) (r : RuleObj) : Tame m0 (r.checkP env g p) := by
  refine tame_bind (tame_done _) fun r1 => tame_bind (tame_done _) fun rule => fun m => tame_bind (tame_done _) fun b => ?_
  split
  · trivial
  · refine tame_bind ?_ fun o => ?_
    · split
      · refine tame_bind (tame_done _) fun r2 => tame_bind (tame_done _) fun rule' => ?_
        split
        · exact tame_eval _ _ _ _
        · trivial
      · trivial
    · split <;> trivial

theorem tame_checkRules (env : Env) (m0 : Msg) (g : Predef) : ∀ (rules : List RuleObj) (i : Nat), Tame m0 (checkRulesP env g i rules)
  | [], _ => trivial
  | r :: rs, i => tame_bind (tame_ruleCheck _ _ _ _ _) fun _ => tame_bind (tame_checkRules env m0 g rs _) fun _ => trivial

theorem tame_check (env : Env) (m0 : Msg) (g : Predef) (rules : List RuleObj) : Tame m0 (checkP env g rules) := by
  refine tame_bind (tame_checkRules _ _ _ _ _) fun o => ?_
  dsimp only
  split
  · trivial
  · exact fun m => trivial

/-! ### What does not depend on the two fields -/

theorem extraFromInterface_apart {env : Ext} {m0 m : Msg} (h : Apart m0 m) : ∀ {ret : List RetVal}, (∀ r ∈ ret, r.rel = false) →
    extraFromInterface env m ret = extraFromInterface env m0 ret
  | [], _ => rfl
  | r :: rs, hr => by
    have h1 := hr r (by simp)
    obtain ⟨x, y, rfl⟩ := h
    have := extraFromInterface_apart (env := env) (m0 := m0) (m := { m0 with rawIRel := x, jsonRawRel := y }) (ret := rs) ⟨x, y, rfl⟩ fun r' hr' => hr r' (by simp [hr'])
    simp only [extraFromInterface, extraEntryInterface, pick, h1, this, Bool.false_eq_true, if_false]

theorem extraFromBytes_apart {env : Ext} {m0 m : Msg} (h : Apart m0 m) : ∀ {ret : List RetVal}, (∀ r ∈ ret, r.rel = false) →
    extraFromBytes env m ret = extraFromBytes env m0 ret
  | [], _ => rfl
  | r :: rs, hr => by
    have h1 := hr r (by simp)
    obtain ⟨x, y, rfl⟩ := h
    have := extraFromBytes_apart (env := env) (m0 := m0) (m := { m0 with rawIRel := x, jsonRawRel := y }) (ret := rs) ⟨x, y, rfl⟩ fun r' hr' => hr r' (by simp [hr'])
    simp only [extraFromBytes, pick, h1, this, Bool.false_eq_true, if_false]

theorem getExtraData_apart {env : Ext} {m0 m : Msg} (h : Apart m0 m) {ret : List RetVal} (hr : ∀ r ∈ ret, r.rel = false) :
    getExtraData env m ret = getExtraData env m0 ret := by
  have h1 := extraFromInterface_apart (env := env) h hr
  have h2 := extraFromBytes_apart (env := env) h hr
  unfold getExtraData
  rw [h1, h2]
  obtain ⟨x, y, rfl⟩ := h
  rfl

theorem testOneCondition_apart {env : Env} {p : List Nat} {c : Condition} {m0 m : Msg} (hc : AbsoluteTree (.cond c)) (h : Apart m0 m) :
    testOneCondition env p c m = testOneCondition env p c m0 := by
  rw [AbsoluteTree] at hc
  have h1 : testJsonpathFlag env p c m = testJsonpathFlag env p c m0 := by
    obtain ⟨x, y, rfl⟩ := h
    simp only [testJsonpathFlag, testJsonpathOnInterface, testJsonpath, hc.1, Bool.false_eq_true, if_false]
  have h2 : ∀ ret, c.ret = some ret → getExtraData env.toExt m ret = getExtraData env.toExt m0 ret := fun ret hr => getExtraData_apart h (hc.2 ret hr)
  obtain ⟨x, y, rfl⟩ := h
  cases hr : c.ret with
  | none => simp only [testOneCondition, h1, hr]; rfl
  | some ret =>
    have h2 := h2 ret hr
    simp only [testOneCondition, h1, hr]
    cases testJsonpathFlag env p c m0 with
    | error e => rfl
    | ok flag =>
      cases flag with
      | false => rfl
      | true => simp only [bind, Except.bind, h2]; rfl

theorem not_relativeParent {s : Str} (h : AbsolutePath s) : isRelativeParent s = false := by
  obtain ⟨h1, h2, h3⟩ := h
  have : ∀ (a b : Str), ¬ hasPrefix s a → hasPrefix s (a ++ b) = false := by
    intro a b hn
    cases hp : hasPrefix s (a ++ b) with
    | false => rfl
    | true =>
      exfalso; apply hn
      simp only [hasPrefix, List.isPrefixOf_iff_prefix] at hp ⊢
      exact (List.prefix_append a b).trans hp
  unfold isRelativeParent
  rw [show gs"$RELATIVE." = gs"$RELATIVE" ++ gs"." from rfl, show gs"$KEY." = gs"$KEY" ++ gs"." from rfl,
    show gs"$VALUE." = gs"$VALUE" ++ gs"." from rfl, this _ _ h1, this _ _ h2, this _ _ h3]
  have : (s == gs"$RELATIVE*") = false := by
    rw [beq_eq_false_iff_ne]
    rintro rfl
    exact h1 (by decide)
  rw [this]; rfl

theorem getArrayOfInterfaces_apart {env : Env} {p : List Nat} {a : AnyAll} {m0 m : Msg} (ha : AbsolutePath a.parent) (h : Apart m0 m) :
    getArrayOfInterfaces env p a m = getArrayOfInterfaces env p a m0 := by
  unfold getArrayOfInterfaces
  rw [not_relativeParent ha]
  obtain ⟨x, y, rfl⟩ := h
  rfl

theorem collectJsons_apart {env : Ext} {m0 m : Msg} (h : Apart m0 m) : ∀ (qs : List Str) (d : Str) (e : Bool), (∀ q ∈ qs, AbsolutePath q) →
    collectJsons env m d e qs = collectJsons env m0 d e qs
  | [], _, _, _ => rfl
  | q :: qs, d, e, hq => by
    simp only [collectJsons, not_relativeParent (hq q (by simp)), Bool.false_eq_true, if_false]
    have ih := fun d e => collectJsons_apart (env := env) h qs d e fun q' hq' => hq q' (by simp [hq'])
    simp only [ih]
    obtain ⟨x, y, rfl⟩ := h
    rfl

theorem getArrayOfJsons_apart {env : Env} {p : List Nat} {a : AnyAll} {m0 m : Msg} (ha : ∀ q ∈ a.parentArr, AbsolutePath q) (h : Apart m0 m) :
    getArrayOfJsons env p a m = getArrayOfJsons env p a m0 := by
  unfold getArrayOfJsons
  rw [collectJsons_apart h _ _ _ ha]

/-! ### Programs whose answer does not depend on them -/

theorem fixed_anyLoop {m0 : Msg} {child : Nat → Prog (Bool × List Extra)} {set : β → Msg → Msg} {ret : Msg → Go (List Extra)} {checkAll : Bool}
    (hc : ∀ i, Fixed m0 (child i)) (hr : ∀ m, Apart m0 m → ret m = ret m0) : ∀ (l : List β) (i : Nat) (result : Bool) (acc : List Extra),
      ∃ r, ∀ reset, Gives m0 r (anyLoopP child set reset ret checkAll i result acc l) := by
  intro l
  induction l with
  | nil => exact fun i result acc => ⟨_, fun reset => rfl⟩
  | cons v vs ih =>
    intro i result acc
    obtain ⟨r, hr1⟩ := hc i
    cases r with
    | error e => exact ⟨.error e, fun reset => gives_bind hr1 (fun a h => by cases h) (fun e' h => by cases h; rfl)⟩
    | ok o =>
      cases ho : o.1 with
      | false =>
        obtain ⟨r', h'⟩ := ih (i + 1) result acc
        exact ⟨r', fun reset => gives_bind hr1 (fun a h => by cases h; simpa [ho] using h' reset) (fun e h => by cases h)⟩
      | true =>
        cases hret : ret m0 with
        | error e =>
          refine ⟨.error e, fun reset => gives_bind hr1 (fun a h => ?_) (fun e h => by cases h)⟩
          cases h
          simp only [ho, if_true]
          intro m hm
          dsimp only
          rw [hr m hm, hret]
          rfl
        | ok ex =>
          cases checkAll with
          | true =>
            obtain ⟨r', h'⟩ := ih (i + 1) true (acc ++ ex)
            refine ⟨r', fun reset => gives_bind hr1 (fun a h => ?_) (fun e h => by cases h)⟩
            cases h
            simp only [ho, if_true]
            intro m hm
            dsimp only
            rw [hr m hm, hret]
            exact h' reset
          | false =>
            refine ⟨.ok (true, acc ++ ex), fun reset => gives_bind hr1 (fun a h => ?_) (fun e h => by cases h)⟩
            cases h
            simp only [ho, if_true]
            intro m hm
            dsimp only
            rw [hr m hm, hret]
            rfl

theorem fixed_allLoop {m0 : Msg} {child : Nat → Prog (Bool × List Extra)} {set : β → Msg → Msg}
    (hc : ∀ i, Fixed m0 (child i)) : ∀ (l : List β) (i : Nat), ∃ r, ∀ reset, Gives m0 r (allLoopP child set reset i l) := by
  intro l
  induction l with
  | nil => exact fun i => ⟨_, fun reset => rfl⟩
  | cons v vs ih =>
    intro i
    obtain ⟨r, hr1⟩ := hc i
    cases r with
    | error e => exact ⟨.error e, fun reset => gives_bind hr1 (fun a h => by cases h) (fun e' h => by cases h; rfl)⟩
    | ok o =>
      cases ho : o.1 with
      | true =>
        obtain ⟨r', h'⟩ := ih (i + 1)
        exact ⟨r', fun reset => gives_bind hr1 (fun a h => by cases h; simpa [ho] using h' reset) (fun e h => by cases h)⟩
      | false =>
        exact ⟨.ok (false, []), fun reset => gives_bind hr1 (fun a h => by cases h; simp [ho, Gives]) (fun e h => by cases h)⟩

theorem fixed_evalAny {m0 : Msg} {env : Env} {p : List Nat} {a : AnyAll} {child : Nat → Prog (Bool × List Extra)}
    (ha : AbsolutePath a.parent ∧ (∀ q ∈ a.parentArr, AbsolutePath q) ∧ ∀ r ∈ a.ret, r.rel = false)
    (hc : ∀ i, Fixed m0 (child i)) : Fixed m0 (evalAnyP env p a child) := by
  obtain ⟨h1, h2, h3⟩ := ha
  unfold evalAnyP
  apply fixed_read
  · intro m hm
    rw [getArrayOfInterfaces_apart h1 hm, getArrayOfJsons_apart h2 hm]
    obtain ⟨x, y, rfl⟩ := hm
    rfl
  · split
    · refine fixed_bind (fixed_done _) fun l => ?_
      obtain ⟨r, hr⟩ := fixed_anyLoop (set := setRawIRel) (checkAll := decide (a.ret ≠ [])) hc
        (ret := fun m' => if a.ret = [] then pure [] else do let e ← extraFromInterface env m' a.ret; pure [e])
        (fun m hm => by simp only [extraFromInterface_apart hm h3]) l 1 false []
      exact ⟨r, fun old _ => hr _⟩
    · refine fixed_bind (fixed_done _) fun l => ?_
      cases l with
      | none => exact fixed_done _
      | some l =>
        obtain ⟨r, hr⟩ := fixed_anyLoop (set := setJsonRawRel) (checkAll := decide (a.ret ≠ [])) hc
          (ret := fun m' => if a.ret = [] then pure [] else do let e ← extraFromBytes env m' a.ret; pure [e])
          (fun m hm => by simp only [extraFromBytes_apart hm h3]) l 1 false []
        exact ⟨r, fun old _ => hr _⟩

theorem fixed_evalAll {m0 : Msg} {env : Env} {p : List Nat} {a : AnyAll} {child : Nat → Prog (Bool × List Extra)}
    (ha : AbsolutePath a.parent ∧ (∀ q ∈ a.parentArr, AbsolutePath q) ∧ ∀ r ∈ a.ret, r.rel = false)
    (hc : ∀ i, Fixed m0 (child i)) : Fixed m0 (evalAllP env p a child) := by
  obtain ⟨h1, h2, _⟩ := ha
  unfold evalAllP
  apply fixed_read
  · intro m hm
    rw [getArrayOfInterfaces_apart h1 hm, getArrayOfJsons_apart h2 hm]
    obtain ⟨x, y, rfl⟩ := hm
    rfl
  · split
    · refine fixed_bind (fixed_done _) fun l => ?_
      obtain ⟨r, hr⟩ := fixed_allLoop (set := setRawIRel) hc l 1
      exact ⟨r, fun old _ => hr _⟩
    · refine fixed_bind (fixed_done _) fun l => ?_
      cases l with
      | none => exact fixed_done _
      | some l =>
        obtain ⟨r, hr⟩ := fixed_allLoop (set := setJsonRawRel) hc l 1
        exact ⟨r, fun old _ => hr _⟩

mutual
theorem fixed_eval (env : Env) (m0 : Msg) : ∀ (n : Node) (p : List Nat), AbsoluteTree n → Fixed m0 (evalP env n p)
  | .nil, _, _ => by rw [evalP]; exact fixed_done _
  | .and ns, p, h => by rw [AbsoluteTree] at h; rw [evalP]; exact fixed_evalAnd env m0 ns p _ _ h
  | .or ns, p, h => by rw [AbsoluteTree] at h; rw [evalP]; exact fixed_evalOr env m0 ns p _ _ _ h
  | .not n, p, h => by rw [AbsoluteTree] at h; rw [evalP]; exact fixed_bind (fixed_eval env m0 n _ h) fun _ => fixed_done _
  | .any a n, p, h => by rw [AbsoluteTree] at h; rw [evalP]; exact fixed_evalAny h.1 fun i => fixed_eval env m0 n _ h.2
  | .all a n, p, h => by rw [AbsoluteTree] at h; rw [evalP]; exact fixed_evalAll h.1 fun i => fixed_eval env m0 n _ h.2
  | .tt, _, _ => by rw [evalP]; exact fixed_done _
  | .ff, _, _ => by rw [evalP]; exact fixed_done _
  | .cond c, p, h => by
    rw [evalP]
    exact fixed_read (fun m hm => by rw [testOneCondition_apart h hm]) (fixed_done _)

theorem fixed_evalAnd (env : Env) (m0 : Msg) : ∀ (ns : List Node) (p : List Nat) (i : Nat) (acc : List Extra), (∀ n ∈ ns, AbsoluteTree n) →
    Fixed m0 (evalAndP env ns p i acc)
  | [], _, _, _, _ => by rw [evalAndP]; exact fixed_done _
  | n :: ns, p, i, acc, h => by
    rw [evalAndP]
    refine fixed_bind (fixed_eval env m0 n _ (h n (by simp))) fun o => ?_
    dsimp only
    split
    · exact fixed_done _
    · exact fixed_evalAnd env m0 ns _ _ _ fun n' hn => h n' (by simp [hn])

theorem fixed_evalOr (env : Env) (m0 : Msg) : ∀ (ns : List Node) (p : List Nat) (i : Nat) (f : Bool) (acc : List Extra), (∀ n ∈ ns, AbsoluteTree n) →
    Fixed m0 (evalOrP env ns p i f acc)
  | [], _, _, _, _, _ => by rw [evalOrP]; exact fixed_done _
  | n :: ns, p, i, f, acc, h => by
    rw [evalOrP]
    exact fixed_bind (fixed_eval env m0 n _ (h n (by simp))) fun o => fixed_evalOr env m0 ns _ _ _ _ fun n' hn => h n' (by simp [hn])
end

theorem fixed_done_bind {m0 : Msg} {x : Go α} {f : α → Prog β} (h : ∀ a, x = .ok a → Fixed m0 (f a)) : Fixed m0 ((Prog.done x).bind f) := by
  cases x with
  | error e => exact fixed_done _
  | ok a => exact h a rfl

theorem ensure_settled {env : Env} {p : List Nat} {g : Predef} {r r' : RuleObj} {rule : Rule} (h : r.ready = true ∨ r.prepared = none)
    (he : r.ensure env p g = .ok r') (hp : r'.prepared = some rule) : r'.ready = true := by
  unfold RuleObj.ensure at he
  split at he
  · cases he; assumption
  · cases hs : r.setPredefined env p g with
    | error e => rw [hs] at he; cases he
    | ok x =>
      obtain ⟨r1, e⟩ := x
      rw [hs] at he
      cases he
      cases e with
      | none => exact setPredefined_ready hs
      | some e =>
        obtain ⟨h1, h2, _⟩ := setPredefined_failed hs
        rcases h with h | h
        · contradiction
        · rw [h2, h] at hp; cases hp

theorem convertOnUse_conditions (env : Ext) (r : Rule) : (convertOnUse env r).conditions = r.conditions := by
  unfold convertOnUse
  split
  · rfl
  · exact convertFieldsToRegex_same env r

theorem senderLoop_apart {env : Ext} {m0 m : Msg} (h : Apart m0 m) : ∀ l : List ExpandedSR, senderLoop env m l = senderLoop env m0 l
  | [] => rfl
  | e :: es => by
    have ih := senderLoop_apart (env := env) h es
    simp only [senderLoop, ih]
    obtain ⟨x, y, rfl⟩ := h
    rfl

theorem receiverLoop_apart {env : Ext} {m0 m : Msg} (h : Apart m0 m) : ∀ l : List ExpandedSR, receiverLoop env m l = receiverLoop env m0 l
  | [] => rfl
  | e :: es => by
    have ih := receiverLoop_apart (env := env) h es
    simp only [receiverLoop, ih]
    obtain ⟨x, y, rfl⟩ := h
    rfl

theorem testParts_apart {env : Env} {rule : Rule} {m0 m : Msg} (h : Apart m0 m) : testParts env rule m = testParts env rule m0 := by
  unfold testParts testSender testReceiver
  rw [senderLoop_apart h, receiverLoop_apart h]
  obtain ⟨x, y, rfl⟩ := h
  rfl

theorem fixed_ruleCheck {env : Env} {g : Predef} {r : RuleObj} (h : AbsoluteRule env g r) (m0 : Msg) (p : List Nat) :
    Fixed m0 (r.checkP env g p) := by
  refine fixed_done_bind fun r1 h1 => fixed_done_bind fun rule hrule => ?_
  have hp : r1.prepared = some rule := by
    cases hp : r1.prepared with
    | none => rw [hp] at hrule; cases hrule
    | some x => rw [hp] at hrule; cases hrule; rfl
  have hready := ensure_settled h.1 h1 hp
  dsimp only
  apply fixed_read
  · intro m hm
    rw [testParts_apart hm]
  · refine fixed_bind (fixed_done _) fun b => ?_
    split
    · exact fixed_done _
    · refine fixed_bind ?_ fun o => ?_
      · split
        · rename_i n hn
          refine fixed_done_bind fun r2 h2 => fixed_done_bind fun rule' hrule' => ?_
          rw [RuleObj.ensure, if_pos hready] at h2
          cases h2
          cases hrule'
          rw [hn]
          rw [convertOnUse_conditions] at hn
          exact fixed_eval _ _ _ _ (h.2 _ _ _ _ h1 hp hn)
        · exact fixed_done _
      · split <;> exact fixed_done _

theorem fixed_checkRules {env : Env} {g : Predef} (m0 : Msg) : ∀ (rules : List RuleObj) (i : Nat), (∀ r ∈ rules, AbsoluteRule env g r) →
    Fixed m0 (checkRulesP env g i rules)
  | [], _, _ => fixed_done _
  | r :: rs, i, h => fixed_bind (fixed_ruleCheck (h r (by simp)) m0 _) fun _ =>
      fixed_bind (fixed_checkRules m0 rs _ fun r' hr => h r' (by simp [hr])) fun _ => fixed_done _

/-- A program that ends with one of the answers of `R`, whatever the two fields hold. -/
def Ends (m0 : Msg) (R : Go α → Prop) : Prog α → Prop
  | .done x => R x
  | .read k => ∀ m, Apart m0 m → Ends m0 R (k m)
  | .write _ k => Ends m0 R k

theorem ends_bind {m0 : Msg} {x : Prog α} {f : α → Prog β} {r : Go α} {R : Go β → Prop} (hx : Gives m0 r x)
    (hok : ∀ a, r = .ok a → Ends m0 R (f a)) (herr : ∀ e, r = .error e → R (.error e)) : Ends m0 R (x.bind f) := by
  induction x with
  | done y => cases y with
    | error e => exact herr e hx.symm
    | ok a => exact hok a hx.symm
  | read k ih => exact fun m hm => ih m (hx m hm)
  | write g k ih => exact ih hx

/-- The returned values do not depend on the two fields. -/
theorem ends_check {env : Env} {g : Predef} {rules : List RuleObj} (m0 : Msg) (h : ∀ r ∈ rules, AbsoluteRule env g r) :
    ∃ v, Ends m0 (fun r => r.map CheckOut.values = v) (checkP env g rules) := by
  obtain ⟨r, hr⟩ := fixed_checkRules (env := env) (g := g) m0 rules 0 h
  cases r with
  | error e => exact ⟨.error e, ends_bind hr (fun a h => by cases h) (fun e' h => by cases h; rfl)⟩
  | ok outs =>
    cases hd : decisionNames[(aggregate 0 {} ((outs.map (·.1)).zip (rules.map describe))).maxDecision]? with
    | none =>
      refine ⟨.error (.panic .outOfRange), ends_bind hr (fun a h => ?_) (fun e h => by cases h)⟩
      cases h
      simp only [hd]
      rfl
    | some name =>
      let a := aggregate 0 {} ((outs.map (·.1)).zip (rules.map describe))
      refine ⟨.ok (a.maxDecision, name, a.relevant, outs.map (·.1), a.applied, a.description, outs.map (·.2)), ends_bind hr (fun a h => ?_) (fun e h => by cases h)⟩
      cases h
      simp only [hd]
      exact fun m _ => rfl

theorem ends_run {m0 : Msg} {R : Go α → Prop} {x : Prog α} (h : Ends m0 R x) (ht : Tame m0 x) : ∀ m, Apart m0 m → R ((x.run m).map (·.1)) := by
  induction x with
  | done r =>
    intro m _
    cases r <;> exact h
  | read k ih => exact fun m hm => ih m (h m hm) (ht m) m hm
  | write f k ih => exact fun m hm => ih h ht.2 _ (ht.1 m hm)

/-- Goroutine `i` is such a program, and no goroutine writes anything else to its message. -/
structure Undisturbed (i : Nat) (m0 : Msg) (R : Go α → Prop) (c : Config α) : Prop where
  heap : ∀ t, c.threads[i]? = some t → Apart m0 (c.heap t.addr)
  ends : ∀ t, c.threads[i]? = some t → Ends m0 R t.prog
  tame : ∀ t ∈ c.threads, Tame m0 t.prog

theorem undisturbed_step {i : Nat} {m0 : Msg} {R : Go α → Prop} (c : Config α) (j : Nat) (h : Undisturbed i m0 R c) : Undisturbed i m0 R (c.step j) := by
  have htame : ∀ {t u : Thread α}, c.threads[j]? = some t → (Tame m0 t.prog → Tame m0 u.prog) → ∀ t' ∈ c.threads.set j u, Tame m0 t'.prog := by
    intro t u ht htu t' ht'
    rcases List.mem_or_eq_of_mem_set ht' with h1 | h1
    · exact h.tame _ h1
    · rw [h1]; exact htu (h.tame _ (List.mem_of_getElem? ht))
  rcases step_cases c j with h1 | ⟨a, k, h1, h2⟩ | ⟨a, f, k, h1, h2⟩
  · rw [h1]; exact h
  · rw [h2]
    refine ⟨fun t ht => ?_, fun t ht => ?_, htame h1 fun h => h _⟩
    · rcases get_set ht with ⟨rfl, rfl⟩ | ⟨_, ht⟩
      · exact (h.heap _ h1 :)
      · exact h.heap _ ht
    · rcases get_set ht with ⟨rfl, rfl⟩ | ⟨_, ht⟩
      · exact (h.ends _ h1 :) _ (h.heap _ h1)
      · exact h.ends _ ht
  · rw [h2]
    have ht1 := (h.tame _ (List.mem_of_getElem? h1)).1
    refine ⟨fun t ht => ?_, fun t ht => ?_, htame h1 fun h => h.2⟩
    · have hh : Apart m0 (c.heap t.addr) := by
        rcases get_set ht with ⟨rfl, rfl⟩ | ⟨_, ht⟩
        · exact (h.heap _ h1 :)
        · exact h.heap _ ht
      show Apart m0 (if t.addr = a then f (c.heap t.addr) else c.heap t.addr)
      split
      · exact ht1 _ hh
      · exact hh
    · rcases get_set ht with ⟨rfl, rfl⟩ | ⟨_, ht⟩
      · exact (h.ends _ h1 :)
      · exact h.ends _ ht

/-- **C59** for a check whose rules have no path starting at the current element: in every interleaving with any other checks, of the same message
or of others, it returns what it returns alone. -/
theorem C59_partial (heap : Nat → Msg) (jobs : List Job) (schedule : List Nat) {i : Nat} {j : Job} {r : Go CheckOut}
    (hj : jobs[i]? = some j) (ha : ∀ rule ∈ j.rules, AbsoluteRule j.env j.global rule)
    (h : ((start heap jobs).exec schedule).result i = some r) : r.map CheckOut.values = (j.alone heap).map CheckOut.values := by
  obtain ⟨v, hv⟩ := ends_check (heap j.addr) ha
  have h0 : (start heap jobs).threads[i]? = some ⟨j.addr, checkP j.env j.global j.rules⟩ := by simp [start, hj]
  have hu : Undisturbed i (heap j.addr) (fun r => r.map CheckOut.values = v) ((start heap jobs).exec schedule) := by
    apply exec_inv _ (fun c k => undisturbed_step c k)
    refine ⟨fun t ht => ?_, fun t ht => ?_, fun t ht => ?_⟩
    · rw [h0] at ht; cases ht; exact Apart.refl _
    · rw [h0] at ht; cases ht; exact hv
    · simp only [start, List.mem_map] at ht
      obtain ⟨j', _, rfl⟩ := ht
      exact tame_check _ _ _ _
  obtain ⟨a, hres⟩ := result_some h
  have h1 : r.map CheckOut.values = v := hu.ends _ hres
  have h2 := ends_run hv (tame_check _ _ _ _) (heap j.addr) (Apart.refl _)
  rw [C59_alone] at h2
  rw [h1, ← h2]
  unfold Job.alone
  cases check j.env j.global (heap j.addr) j.rules <;> rfl

/-! ## Violations -/

/-- Two calls of `Check` with the same rules and the same message. -/
def twice (rules : List RuleObj) : List Job := [⟨Demo.env, {}, rules, 0⟩, ⟨Demo.env, {}, rules, 0⟩]

/-- What goroutine `i` decided after a schedule, and whether the message is as before. -/
def outcome (rules : List RuleObj) (schedule : List Nat) (i : Nat) : Option (Option (Nat × List Nat × Int × List Nat)) :=
  (((start (fun _ => Demo.msgI) (twice rules)).exec schedule).result i).map Demo.summary

/-- Block when some container has the image nginx. -/
def blockNginx : List RuleObj := [Demo.rule gs"block" (some (Demo.anyOf gs"jsonpath:$.containers" (Demo.cond gs"jsonpath:$RELATIVE.image" gs"EQ" gs"nginx")))]

/-- Allow when all containers have the image nginx. -/
def allowNginx : List RuleObj := [Demo.rule gs"allow" (some (Demo.allOf gs"jsonpath:$.containers" (Demo.cond gs"jsonpath:$RELATIVE.image" gs"EQ" gs"nginx")))]

/-- Violation of C59: two checks of one message with one rule that blocks it. There is an interleaving in which one of them lets it pass. -/
theorem C59_violated_block : ∃ schedule : List Nat,
    outcome blockNginx schedule 0 = some (some (0, [0], -1, [])) ∧ outcome blockNginx schedule 1 = some (some (3, [3], 0, [0])) ∧
    Demo.summary (check Demo.env {} Demo.msgI blockNginx) = some (3, [3], 0, [0]) :=
  ⟨List.replicate 6 1 ++ List.replicate 4 0 ++ List.replicate 2 1 ++ List.replicate 5 0, by decide +kernel, by decide +kernel, by decide +kernel⟩

/-- Violation of C59: two checks of one message with one rule that allows only other messages. There is an interleaving in which one of
them allows it. -/
theorem C59_violated_allow : ∃ schedule : List Nat,
    outcome allowNginx schedule 0 = some (some (1, [1], 0, [0])) ∧
    Demo.summary (check Demo.env {} Demo.msgI allowNginx) = some (0, [0], -1, []) :=
  ⟨List.replicate 6 0 ++ List.replicate 4 1 ++ List.replicate 3 0, by decide +kernel⟩

/-- Violation of C59: after both checks have ended, the message is not as it was before. -/
theorem C59_violated_message : ∃ schedule : List Nat, let c := (start (fun _ => Demo.msgI) (twice blockNginx)).exec schedule
    (c.result 0).isSome ∧ (c.result 1).isSome ∧ (c.heap 0).rawIRel.isSome ∧ Demo.msgI.rawIRel.isNone :=
  ⟨List.replicate 6 1 ++ List.replicate 4 0 ++ List.replicate 2 1 ++ List.replicate 5 0, by decide +kernel⟩

/-- Rules with absolute paths only meet the hypothesis of `C59_partial`. -/
example : AbsoluteRule Demo.env {} (Demo.rule gs"block" (some (Demo.cond gs"jsonpath:$.kind" gs"EQ" gs"Pod"))) := by
  refine ⟨.inr rfl, fun p r' rule n h hp hn => ?_⟩
  have h1 : (Demo.rule gs"block" (some (Demo.cond gs"jsonpath:$.kind" gs"EQ" gs"Pod"))).ensure Demo.env p {} = .ok r' := h
  obtain ⟨r1, rule1, n1, e1, e2, e3, e4⟩ : ∃ r1 rule1 c1, (Demo.rule gs"block" (some (Demo.cond gs"jsonpath:$.kind" gs"EQ" gs"Pod"))).ensure Demo.env p {} = .ok r1 ∧
      r1.prepared = some rule1 ∧ rule1.conditions = some (.cond c1) ∧ (c1.attrIsJsonpathRelative = false ∧ c1.ret = none) :=
    ⟨_, _, _, rfl, rfl, rfl, rfl, rfl⟩
  rw [e1] at h1
  cases h1
  rw [e2] at hp
  cases hp
  rw [e3] at hn
  cases hn
  rw [AbsoluteTree]
  exact ⟨e4.1, fun ret h => by rw [e4.2] at h; cases h⟩

end Mapl.Props

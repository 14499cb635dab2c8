import Verif.Lemmas.OnlyPanics
import Verif.Lemmas.Panics

/-!
# C32: exactly when checking panics

Props/Crash gives conditions under which checking returns, and some under which it panics. Here the two meet: `Crashes`, `SelectFails`, `CrashesAt` and `RuleCrashes`
(Spec/Panics.lean) say exactly for which conditions, trees, rules and messages it panics.
-/

namespace Mapl.Props

open Spec

variable {env : Env} {g t : Predef} {a m v : Str} {r : Option (List RetVal)} {c : Condition} {msg : Msg} {p : List Nat} {rs : List RuleObj} {n : Node}

/-- A call that fails, but not with an error, panics. -/
theorem panics_iff {α : Type} {x : Go α} (h : OnlyPanics x) : (∃ k, x = .error (.panic k)) ↔ Errs x := by
  constructor
  · rintro ⟨k, hk⟩
    exact ⟨_, hk⟩
  · rintro ⟨e, he⟩
    cases e with
    | err e => exact absurd he (h e)
    | panic k => exact ⟨k, he⟩

/-- **C32**, conditions: an accepted condition panics on a message exactly if it `Crashes`. -/
theorem C32_condition_exact (hn : NumbersOk env) (h : (parsed env a m v r).prepare env t = .ok c) :
    (∃ k, testOneCondition env p c msg = .error (.panic k)) ↔ Crashes env p c msg := by
  rw [panics_iff onlyPanics_condition, errs_condition hn ⟨t, a, m, v, r, h⟩]

/-- **C32**, trees: the evaluation panics exactly if the tree `CrashesAt` the message. -/
theorem C32_tree_exact (hn : NumbersOk env) (hc : ∀ c ∈ leaves n, FromText env c) :
    (∃ k, eval env n p msg = .error (.panic k)) ↔ CrashesAt env n p msg := by
  rw [panics_iff (onlyPanics_eval env n p msg), errs_eval env hn n p msg hc]

/-- **C32**, a prepared rule: checking it panics exactly if sender, receiver, operation and resource agree with the message and the conditions panic. -/
theorem C32_rule_exact (ho : env.OrdOk) (hn : NumbersOk env) {r : RuleObj} {rule : Rule} (h : ReadyAs env r rule) :
    (∃ k, r.check env g p msg = .error (.panic k)) ↔ PreparedCrashes env rule p msg := by
  rw [panics_iff onlyPanics_rule, errs_rule ho hn h]

/-- **C32**, `Check`: it panics exactly if one of the rules does. Rules are prepared or as they come from the parser. -/
theorem C32_check_exact (ho : env.OrdOk) (hn : NumbersOk env) (h : ∀ r ∈ rs, Fresh r ∨ ∃ rule, ReadyAs env r rule) :
    (∃ k, check env g msg rs = .error (.panic k)) ↔ ∃ i r, rs[i]? = some r ∧ RuleCrashes env g i msg r := by
  rw [panics_iff onlyPanics_check, errs_check]
  exact exists_congr fun i => exists_congr fun r => and_congr_right fun hr => errs_ruleAt ho hn (h r (List.mem_of_getElem? hr))

/-- **C32**: `Check` returns or panics, whatever it is given. There is no third way. -/
theorem C32_returns_or_panics (rs : List RuleObj) : (∃ out, check env g msg rs = .ok out) ∨ ∃ k, check env g msg rs = .error (.panic k) := by
  cases h : check env g msg rs with
  | ok out => exact .inl ⟨out, rfl⟩
  | error e =>
    cases e with
    | err e => exact absurd h (onlyPanics_check e)
    | panic k => exact .inr ⟨k, rfl⟩

/-- **C32**: one rule that cannot be prepared takes `Check` down, whatever the message. -/
theorem C32_refused (ho : env.OrdOk) (hn : NumbersOk env) {r : RuleObj} (hr : r ∈ rs) (hf : ∀ r ∈ rs, Fresh r) (hp : ∀ p, ¬ ∃ r', r.setPredefined env p g = .ok (r', none)) :
    ∃ k, check env g msg rs = .error (.panic k) := by
  obtain ⟨i, hi⟩ := List.mem_iff_getElem?.1 hr
  exact (C32_check_exact ho hn fun r h => .inl (hf r h)).2 ⟨i, r, hi, .refused (hf r hr) (hp _)⟩

/-! ## Consequences -/

/-- **C32**: a condition that compares a number is guarded by one before it: an AND does not panic where its first part does not hold. -/
theorem C32_guarded (hn : NumbersOk env) {n' : Node} (hc : ∀ c ∈ leaves n, FromText env c) (hc' : ∀ c ∈ leaves n', FromText env c)
    (h : ∃ o, eval env n (1 :: p) msg = .ok o ∧ o.flag = false) : ∃ o, eval env (.and [n, n']) p msg = .ok o ∧ o.flag = false := by
  obtain ⟨o, ho, hf⟩ := h
  have hno : ¬ Holds env n (1 :: p) msg := fun hh => by
    rw [← eval_holds env n _ _ _ ho, hf] at hh
    cases hh
  have hx : ¬ CrashesAt env (.and [n, n']) p msg := by
    rw [CrashesAt, AndCrashes]
    rintro (h | ⟨h, -⟩)
    · obtain ⟨e, he⟩ := (errs_eval env hn n _ _ hc).2 h
      rw [ho] at he
      cases he
    · exact hno h
  obtain ⟨o', ho'⟩ := (errs_returns _).1 fun h => hx ((errs_eval env hn (.and [n, n']) p msg (by
    intro c h
    simp only [leaves, leavesOf, List.append_nil, List.mem_append] at h
    exact h.elim (hc c) (hc' c))).1 h)
  refine ⟨o', ho', ?_⟩
  cases hf' : o'.flag with
  | false => rfl
  | true =>
    have := (eval_holds env _ _ _ _ ho').1 hf'
    rw [Holds, HoldsAll] at this
    exact absurd this.1 hno

/-- **C32**: an OR guards nothing. If one part panics then so does the OR, even where another part holds. -/
theorem C32_or_guards_nothing (hn : NumbersOk env) {ns : List Node} {i : Nat} (hc : ∀ c ∈ leavesOf ns, FromText env c) (hi : ns[i]? = some n)
    (h : ∃ k, eval env n ((i + 1) :: p) msg = .error (.panic k)) : ∃ k, eval env (.or ns) p msg = .error (.panic k) := by
  have key : ∀ (ns : List Node) (i j : Nat), ns[i]? = some n → CrashesAt env n ((j + i) :: p) msg → OrCrashes env ns p j msg := by
    intro ns
    induction ns with
    | nil => intro i j h; simp at h
    | cons x xs ih =>
      intro i j h hx
      rw [OrCrashes]
      cases i with
      | zero => simp at h; subst h; exact .inl hx
      | succ i => exact .inr (ih i (j + 1) (by simpa using h) (by rw [show j + 1 + i = j + (i + 1) by omega]; exact hx))
  have hl : ∀ c ∈ leaves n, FromText env c := by
    intro c hcn
    refine hc c ?_
    clear key h hc
    induction ns generalizing i with
    | nil => simp at hi
    | cons x xs ih =>
      simp only [leavesOf, List.mem_append]
      cases i with
      | zero => simp at hi; subst hi; exact .inl hcn
      | succ i => exact .inr (ih (by simpa using hi))
  refine (C32_tree_exact hn (by simpa [leaves] using hc)).2 ?_
  rw [CrashesAt]
  exact key ns i 1 hi (by rw [Nat.add_comm 1 i]; exact (C32_tree_exact hn hl).1 h)

/-! ## Examples -/

/-- A rule with a size that is no integer behind a guard. -/
def guardedRule : Node := .and [Demo.cond gs"jsonpath:$.kind" gs"EQ" gs"Service", Demo.cond gs"payloadSize" gs"GT" gs"1Ki"]

/-- The same with OR. -/
def unguardedRule : Node := .or [Demo.cond gs"jsonpath:$.kind" gs"EQ" gs"Pod", Demo.cond gs"payloadSize" gs"GT" gs"1Ki"]

set_option maxRecDepth 100000 in
/-- Both are accepted; on the example message, a Pod, the first is checked and the second panics. -/
example : Demo.isOk (validateRule Demo.env [] (Demo.rule gs"block" (some guardedRule)).body) = true ∧
    Demo.isOk (check Demo.env {} Demo.msgI [Demo.rule gs"block" (some guardedRule)]) = true ∧
    AcceptedButPanics (Demo.rule gs"block" (some unguardedRule)) Demo.msgI := by decide +kernel

/-- The hypotheses of `C32_check_exact` are met, by rules that come from the parser and by prepared ones. -/
example : Demo.env.OrdOk ∧ NumbersOk Demo.env ∧ ∀ r ∈ [safeRule, Demo.rule gs"block" (some unguardedRule)], Fresh r ∨ ∃ rule, ReadyAs Demo.env r rule :=
  ⟨Demo.env_ordOk, demo_numbers, by
    intro r hr
    simp only [List.mem_cons, List.not_mem_nil, or_false] at hr
    rcases hr with rfl | rfl <;> exact .inl ⟨rfl, rfl, rfl⟩⟩

example : ∃ r rule, ReadyAs Demo.env r rule := by
  obtain ⟨r', rule, _, _, _, _, h1, h2, _⟩ := safeRule_prepared []
  exact ⟨r', rule, h2, safeRule, [], {}, rfl, h1⟩

/-- A rule that cannot be prepared: its list is not defined. -/
def undefinedRule : RuleObj := Demo.rule gs"block" (some (.and [Demo.cond gs"domain" gs"IN" gs"#undefined"]))

set_option maxRecDepth 100000 in
theorem undefinedRule_refused (p : List Nat) : ∃ r' e, undefinedRule.setPredefined Demo.env p {} = .ok (r', some e) := by
  refine ⟨?r, ?e, ?h⟩
  case h => with_unfolding_all rfl

/-- The hypotheses of `C32_refused` are met. -/
example : ∀ p, ¬ ∃ r', undefinedRule.setPredefined Demo.env p {} = .ok (r', none) := by
  rintro p ⟨r', h⟩
  obtain ⟨r'', e, h'⟩ := undefinedRule_refused p
  rw [h] at h'
  cases h'

end Mapl.Props

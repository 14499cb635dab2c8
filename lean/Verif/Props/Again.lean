import Verif.Lemmas.InPlace
import Verif.Props.Documents
import Verif.Props.InPlace

/-!
# C94: a preparation that failed, and the next one

`PrepareRulesWithPredefinedStrings` (rules_load.go:204-235) changes the rules of the caller while it goes. When a rule refers to an entry that the tables do not define,
it stops with an error. The user adds the entry and tries again, or has the rules checked with the completed tables.
-/

namespace Mapl.Props
open Spec

variable {env : Env}

/-- **C94**, success: no error is reported exactly if every rule could be prepared by itself, and then the rules of the caller are the prepared ones, in their order. -/
theorem C94_success {t : Predef} {rs rs' : List Rule} :
    prepareRulesWithPredefinedStrings env t rs = (rs', none) ↔ List.Forall₂ (fun r r' => prepareOneRule env t r = .ok r') rs rs' := by
  unfold prepareRulesWithPredefinedStrings
  rw [prepareEach_ok]
  constructor <;> intro h <;> refine h.imp fun r r' h => ?_
  · rw [← rule_outcome]; exact outcome_ok.2 h
  · exact outcome_ok.1 (by rw [rule_outcome]; exact h)

/-- **C94**, failure: an error is the one of the first rule that cannot be prepared. The rules before it have been prepared, those behind it are as before;
the rule itself is what `PrepareOneRuleWithPredefinedStrings` leaves of it. -/
theorem C94_failure {t : Predef} {rs rs' : List Rule} {e : Fail} (h : prepareRulesWithPredefinedStrings env t rs = (rs', some e)) :
    ∃ pre pre' r r' post, rs = pre ++ r :: post ∧ rs' = pre' ++ r' :: post ∧ List.Forall₂ (fun r r' => prepareOneRule env t r = .ok r') pre pre' ∧ prepareOneRule env t r = .error e ∧
      prepareOneRuleIn env t r = (r', some e) := by
  obtain ⟨pre, pre', r, r', post, h1, h2, h3, h4⟩ := prepareEach_error.1 h
  refine ⟨pre, pre', r, r', post, h1, h2, h3.imp fun r r' h => ?_, ?_, h4⟩
  · rw [← rule_outcome]; exact outcome_ok.2 h
  · rw [← rule_outcome, h4]; rfl

/-- **C94**, the part that holds for the rule that failed. Missing: preparing in place again (`C94_violated_again`), tables that define an entry differently than at the first attempt
(`C94_violated_stale`), and the rules before the one that failed (`C94_violated_partly`).
Let the first attempt with the tables `t` fail for a rule as it was read. If `SetPredefinedStringsAndLists` with tables `t'`, that define at least what `t` defines and the same way, accepts
the rule as it was read, it accepts the rule as the first attempt left it, and prepares the same. -/
theorem C94_retry_partial {t t' : Predef} {r r1 : Rule} {e : Fail} {x : RuleObj} (ho : env.OrdOk) (hn : NumbersOk env.toExt) (hx : Extends t t') (ht : SettledTables t) (hconv : r.converted = false)
    (hc : ∀ n, r.conditions = some n → Copyable env n ∧ ∀ c ∈ leaves n, c.method = gs"IS" → c.value ≠ []) (h1 : prepareOneRuleIn env t r = (r1, some e))
    (hs : ({ body := r } : RuleObj).setPredefined env p t' = .ok (x, none)) :
    ({ body := r1 } : RuleObj).setPredefined env p t' = .ok ({ x with body := r1 }, none) := by
  obtain ⟨copy, rule, h2, h3, rfl⟩ := setPredefined_ok hs
  obtain ⟨copy1, h4, h5⟩ := retry_rule ho hn hx ht hconv hc h1 h2 h3
  simp [RuleObj.setPredefined, h4, h5]

/-- **C94**, as above for checking: with the completed tables in force, checking the rule that the failed attempt left behind gives what checking the rule as it was read gives: the same decision,
the same extra data, the same effect on the message. -/
theorem C94_check_partial {t t' : Predef} {r r1 : Rule} {e : Fail} {x : RuleObj} (ho : env.OrdOk) (hn : NumbersOk env.toExt) (hx : Extends t t') (ht : SettledTables t) (hconv : r.converted = false)
    (hc : ∀ n, r.conditions = some n → Copyable env n ∧ ∀ c ∈ leaves n, c.method = gs"IS" → c.value ≠ []) (h1 : prepareOneRuleIn env t r = (r1, some e))
    (hs : ({ body := r } : RuleObj).setPredefined env (0 :: p) t' = .ok (x, none)) (m : Msg) :
    (({ body := r1 } : RuleObj).check env t' p m).map (fun o => (o.result, o.extra, o.msg)) = (({ body := r } : RuleObj).check env t' p m).map (fun o => (o.result, o.extra, o.msg)) := by
  have hs1 := C94_retry_partial ho hn hx ht hconv hc h1 hs
  obtain ⟨copy, rule, -, hprep, rfl⟩ := setPredefined_ok hs
  have hconv := prepareOneRule_converted hprep
  have key : ∀ b : Rule, ({ body := b } : RuleObj).setPredefined env (0 :: p) t' = .ok (({ body := b, ready := true, predefined := t', prepared := some rule } : RuleObj), none) →
      ({ body := b } : RuleObj).check env t' p m = ({ body := b, ready := true, predefined := t', prepared := some rule } : RuleObj).check env t' p m := by
    intro b hb
    have e1 : ({ body := b } : RuleObj).ensure env (0 :: p) t' = .ok { body := b, ready := true, predefined := t', prepared := some rule } := by
      simp only [RuleObj.ensure, Bool.false_eq_true, if_false, hb]; rfl
    have e2 : ({ body := b, ready := true, predefined := t', prepared := some rule } : RuleObj).ensure env (0 :: p) t' = .ok { body := b, ready := true, predefined := t', prepared := some rule } := by
      simp [RuleObj.ensure]
    unfold RuleObj.check
    rw [e1, e2]
  rw [key r hs, key r1 hs1, check_judge rfl rfl hconv, check_judge rfl rfl hconv]
  cases judge env rule (1 :: 1 :: p) m <;> rfl

/-- **C94** for `SetPredefinedStringsAndLists` itself, which works on a copy: after it has returned an error, the next attempt, with whatever tables, succeeds exactly if it would have
without the failed one, and leaves the same rule. -/
theorem C94_set {t t' : Predef} {r r1 x : RuleObj} {e : Err} (h : r.setPredefined env p t = .ok (r1, some e)) :
    r1.setPredefined env q t' = .ok (x, none) ↔ r.setPredefined env q t' = .ok (x, none) := by
  have hb : r1 = { r with ready := r1.ready, predefined := r1.predefined } := by
    obtain ⟨-, h2, h3⟩ := setPredefined_failed h
    cases r; cases r1; simp_all
  rw [hb]
  simp only [RuleObj.setPredefined]
  cases copyRule env q r.body with
  | error e => cases e <;> simp
  | ok c =>
    cases prepareOneRule env t' c with
    | error e => cases e <;> simp
    | ok c' => simp

/-! ## Where the property fails -/

/-- `kind` is `Pod`, and the host is the one called `h` in the tables. -/
def podAtHost : Node := .and [condNode Demo.env gs"jsonpath:$.kind" gs"EQ" gs"#kind" none, condNode Demo.env gs"domain" gs"EQ" gs"#h" none]

/-- A rule that blocks what is described so. -/
def podRule : Rule := (Demo.rule gs"block" (some podAtHost)).body

def firstTables : Predef := { strings := [(gs"kind", gs"Pod")] }

/-- The entry that was missing is added. -/
def laterTables : Predef := { strings := [(gs"kind", gs"Pod"), (gs"h", gs"b.example")] }

/-- Another meaning of the first entry. -/
def changedTables : Predef := { strings := [(gs"kind", gs"Job"), (gs"h", gs"b.example")] }

def podMsg : Msg := { Demo.msgI with domain := gs"b.example" }

/-- The result of a check that returns. -/
def resultOf (x : Go RuleOut) : Option Nat := x.toOption.map (·.result)

theorem resultOf_eq {x : Go RuleOut} {n : Nat} (h : resultOf x = some n) : ∃ o, x = .ok o ∧ o.result = n := by
  cases x with
  | error e => simp [resultOf, Except.toOption] at h
  | ok o => exact ⟨o, rfl, by simpa [resultOf, Except.toOption] using h⟩

theorem first_later : Extends firstTables laterTables := by
  refine ⟨by simp [firstTables, lookup], fun k s _ hk => ?_⟩
  simp only [firstTables, lookup] at hk
  split at hk
  · rename_i h; cases hk; subst h; exact ⟨rfl, rfl⟩
  · cases hk

/-- Violation of C94: after a failed attempt the same rules cannot be prepared in place any more, although the missing entry has been added and preparing them at once with the completed tables is
accepted: the attributes of conditions on the document have been replaced by names that are not accepted. -/
theorem C94_violated_again : ∃ (t t' : Predef) (rs rs1 : List Rule) (e e' : Fail) (rs' : List Rule), Extends t t' ∧ prepareRulesWithPredefinedStrings Demo.env t rs = (rs1, some e) ∧
    prepareRulesWithPredefinedStrings Demo.env t' rs = (rs', none) ∧ (prepareRulesWithPredefinedStrings Demo.env t' rs1).2 = some e' := by
  have h1 : (prepareRulesWithPredefinedStrings Demo.env firstTables [podRule]).2.isSome = true := by decide +kernel
  have h2 : (prepareRulesWithPredefinedStrings Demo.env laterTables [podRule]).2 = none := by decide +kernel
  have h3 : (prepareRulesWithPredefinedStrings Demo.env laterTables (prepareRulesWithPredefinedStrings Demo.env firstTables [podRule]).1).2.isSome = true := by decide +kernel
  obtain ⟨e, h1⟩ := Option.isSome_iff_exists.1 h1
  obtain ⟨e', h3⟩ := Option.isSome_iff_exists.1 h3
  exact ⟨firstTables, laterTables, [podRule], _, e, e', _, first_later, Prod.ext rfl h1, Prod.ext rfl h2, h3⟩

/-- Violation of C94: what the first attempt has looked up stays, also when the next tables say something else. The rule as read, with the later tables, does not apply to the message; the rule that
the failed attempt left behind blocks it. -/
theorem C94_violated_stale : ∃ (t t' : Predef) (b b1 : Rule) (e : Fail) (m : Msg) (o o1 : RuleOut), prepareOneRuleIn Demo.env t b = (b1, some e) ∧
    ({ body := b } : RuleObj).check Demo.env t' [] m = .ok o ∧ o.result = Decision.default.rank ∧
    ({ body := b1 } : RuleObj).check Demo.env t' [] m = .ok o1 ∧ o1.result = Decision.block.rank := by
  have h1 : (prepareOneRuleIn Demo.env firstTables podRule).2.isSome = true := by decide +kernel
  obtain ⟨e, h1⟩ := Option.isSome_iff_exists.1 h1
  obtain ⟨o, h2, h2'⟩ := resultOf_eq (x := ({ body := podRule } : RuleObj).check Demo.env changedTables [] podMsg) (n := 0) (by decide +kernel)
  obtain ⟨o1, h3, h3'⟩ := resultOf_eq (x := ({ body := (prepareOneRuleIn Demo.env firstTables podRule).1 } : RuleObj).check Demo.env changedTables [] podMsg) (n := 3) (by decide +kernel)
  exact ⟨firstTables, changedTables, podRule, _, e, podMsg, o, o1, Prod.ext rfl h1, h2, h2', h3, h3'⟩

/-- Violation of C94: an attempt that fails for one rule has changed others. The first rule, as read, blocks the message, with the tables of the attempt as well as with the completed ones;
after the attempt, which fails because of the second rule, checking it does not return any more (see C60), with either. -/
theorem C94_violated_partly : ∃ (t t' : Predef) (b b1 b' : Rule) (e : Fail) (m : Msg), Extends t t' ∧ prepareRulesWithPredefinedStrings Demo.env t [b, b'] = ([b1, b'], some e) ∧
    (∀ g ∈ [t, t'], resultOf (({ body := b } : RuleObj).check Demo.env g [] m) = some Decision.block.rank) ∧
    ∀ g ∈ [t, t'], resultOf (({ body := b1 } : RuleObj).check Demo.env g [] m) = none := by
  let b' : Rule := { (Demo.rule gs"block").body with senderName := gs"#h" }
  have h1 : (prepareRulesWithPredefinedStrings Demo.env firstTables [blockPod, b']).2.isSome = true := by decide +kernel
  obtain ⟨e, h1⟩ := Option.isSome_iff_exists.1 h1
  refine ⟨firstTables, laterTables, blockPod, (prepareOneRuleIn Demo.env firstTables blockPod).1, b', e, podMsg, first_later, Prod.ext rfl h1, ?_, ?_⟩
  · simp only [List.mem_cons, List.not_mem_nil, or_false]
    rintro g (rfl | rfl) <;> decide +kernel
  · simp only [List.mem_cons, List.not_mem_nil, or_false]
    rintro g (rfl | rfl) <;> decide +kernel

/-- What the conditions of a rule say, as text. -/
def textOf (b : Rule) : Option Str := (marshalConditions Demo.env b.conditions).toOption

set_option maxRecDepth 20000 in
/-- The hypotheses are met: with the completed tables the rule that the failed attempt left behind blocks the message, as the rule as it was read. -/
example : ∃ b1 e x, Demo.env.OrdOk ∧ NumbersOk Demo.env.toExt ∧ Extends firstTables laterTables ∧ SettledTables firstTables ∧ podRule.converted = false ∧
    (∀ n, podRule.conditions = some n → Copyable Demo.env n ∧ ∀ c ∈ leaves n, c.method = gs"IS" → c.value ≠ []) ∧ prepareOneRuleIn Demo.env firstTables podRule = (b1, some e) ∧
    ({ body := podRule } : RuleObj).setPredefined Demo.env [0] laterTables = .ok (x, none) ∧ b1 ≠ podRule ∧
    resultOf (({ body := b1 } : RuleObj).check Demo.env laterTables [] podMsg) = some Decision.block.rank := by
  have h1 : (prepareOneRuleIn Demo.env firstTables podRule).2.isSome = true := by decide +kernel
  obtain ⟨e, h1⟩ := Option.isSome_iff_exists.1 h1
  have ok : ∀ a m v, (∃ c', validateOneCondition Demo.env { attr := a, method := m, value := v } = .ok c') → NoControl a → NoControl v →
      Copyable Demo.env (condNode Demo.env a m v none) := by
    rintro a m v ⟨c', h⟩ ha hv
    exact .cond (validateOneCondition_iff.1 h).1 ha hv (by simp)
  refine ⟨_, e, _, Demo.env_ordOk, demo_numbers, first_later, ⟨by simp [firstTables, lookup], ?_⟩, rfl, ?_, Prod.ext rfl h1, rfl, ?_, by decide +kernel⟩
  · intro k s hk
    simp only [firstTables, lookup] at hk
    split at hk
    · cases hk; exact ⟨by simp, by unfold NoControl; decide, by simp⟩
    · cases hk
  · rintro n h
    cases h
    refine ⟨.and (by simp) ?_, by
      simp only [podAtHost, leaves, leavesOf, condNode, List.append_nil, List.cons_append, List.nil_append, List.mem_cons, List.not_mem_nil, or_false]
      rintro c (rfl | rfl) h <;> (rw [parsed_texts.2.1] at h; simp at h)⟩
    simp only [List.mem_cons, List.not_mem_nil, or_false]
    rintro n (rfl | rfl)
    · exact ok _ _ _ ⟨_, rfl⟩ (by unfold NoControl; decide) (by unfold NoControl; decide)
    · exact ok _ _ _ ⟨_, rfl⟩ (by unfold NoControl; decide) (by unfold NoControl; decide)
  · exact fun h => absurd (congrArg textOf h) (by decide +kernel)

end Mapl.Props

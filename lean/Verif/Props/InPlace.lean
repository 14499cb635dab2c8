import Verif.Lemmas.State
import Verif.Lemmas.Match
import Verif.Demo

/-!
# C60: rules prepared in place

`PrepareRulesWithPredefinedStrings` (rules_load.go:204-235) prepares the rules of the caller themselves. `Check` does not notice: it copies
the rule and prepares the copy. The copy has no regular expressions any more (see `copySR`: with the Go version of go.mod, 1.18, a compiled
expression does not survive the copying through JSON), but it still has the mark that its fields are converted.
-/

namespace Mapl.Props
open Spec

variable {env : Env}

theorem prepareOneRule_regex {env : Ext} {t : Predef} {r r' : Rule} (hc : r.converted = true) (h : prepareOneRule env t r = .ok r') :
    r'.operationRegex = r.operationRegex ∧ r'.converted = true := by
  simp only [prepareOneRule, Go.bind_eq_ok] at h
  obtain ⟨r1, h1, r2, h2, h3⟩ := h
  have e1 : r1.operationRegex = r.operationRegex ∧ r1.converted = r.converted := by
    unfold prepareConditions at h1
    split at h1
    · cases h1; exact ⟨rfl, rfl⟩
    · simp only [Go.bind_eq_ok] at h1
      obtain ⟨n, _, h1⟩ := h1
      cases h1; exact ⟨rfl, rfl⟩
  have e2 : r2.operationRegex = r1.operationRegex ∧ r2.converted = r1.converted := by
    simp only [replaceStringsAndListsInOneRule, Go.bind_eq_ok] at h2
    obtain ⟨_, _, _, _, h2⟩ := h2
    cases h2; exact ⟨rfl, rfl⟩
  have e3 : r' = r2 := by
    unfold convertFields convertFieldsToRegex at h3
    rw [e2.2, e1.2, hc] at h3
    simpa using h3.symm
  rw [e3, e2.1, e1.1, e2.2, e1.2]
  exact ⟨rfl, hc⟩

/-- Violation of C60: a rule that was prepared in place applies to no message at all; when its check returns, the answer is the default (and often it
does not return, see below). -/
theorem C60_violated {t g : Predef} {b b' : Rule} (hp : prepareOneRule env t b = .ok b')
    (h : ({ body := b' } : RuleObj).check env g p m = .ok o) : o.result = Decision.default.rank ∧ o.extra = [] := by
  have hc := prepareOneRule_converted hp
  simp only [RuleObj.check, Go.bind_eq_ok] at h
  obtain ⟨r1, h1, rule, h2, h⟩ := h
  have hrule : rule.operationRegex = none ∧ rule.converted = true := by
    simp only [RuleObj.ensure, Bool.false_eq_true, if_false] at h1
    cases hs : ({ body := b' } : RuleObj).setPredefined env (0 :: p) g with
    | error e => rw [hs] at h1; cases h1
    | ok x =>
      obtain ⟨r2, e⟩ := x
      rw [hs] at h1
      cases h1
      cases e with
      | some e =>
        have := (setPredefined_failed hs).2.1
        rw [this] at h2
        cases h2
      | none =>
        obtain ⟨copy, rule', hcopy, hprep, rfl⟩ := setPredefined_ok hs
        cases h2
        simp only [copyRule, Go.bind_eq_ok] at hcopy
        obtain ⟨n, _, hcopy⟩ := hcopy
        cases hcopy
        exact prepareOneRule_regex (by exact hc) hprep
  rw [convertOnUse_converted hrule.2] at h
  obtain ⟨b1, _, h⟩ := h
  refine ite_elim h (fun _ h => by cases h; exact ⟨rfl, rfl⟩) fun _ h => ?_
  rw [Go.bind_eq_ok] at h
  obtain ⟨b2, _, h⟩ := h
  refine ite_elim h (fun _ h => by cases h; exact ⟨rfl, rfl⟩) fun _ h => ?_
  rw [hrule.1] at h
  cases h

/-- C60, the part that holds. Preparing in place leaves a rule alone that has already been given its table with `SetPredefinedStringsAndLists`: the
result, the extra data and the message afterwards are those of the rule before. Missing: rules that have not been given their table (every rule
read by `YamlReadRulesFromString`, or from JSON), for which the statement is false. -/
theorem C60_partial {t t' g : Predef} {r r1 : RuleObj} {b' : Rule} (hs : r.setPredefined env q t = .ok (r1, none))
    (_hp : prepareOneRule env t' r1.body = .ok b') :
    (({ r1 with body := b' } : RuleObj).check env g p m).map (fun o => (o.result, o.extra, o.msg)) =
      (r1.check env g p m).map (fun o => (o.result, o.extra, o.msg)) := by
  obtain ⟨copy, rule, _, hprep, rfl⟩ := setPredefined_ok hs
  have hc := prepareOneRule_converted hprep
  rw [check_judge rfl rfl hc, check_judge (r := { r with ready := true, predefined := t, prepared := some rule }) rfl rfl hc]
  cases judge env rule (1 :: 1 :: p) m <;> rfl

/-- Prepare in place, then check the message of the examples: `none` for a panic, otherwise the result. -/
def prepareThenCheck (b : Rule) : Option (Option Nat) :=
  match prepareOneRule Demo.env {} b with
  | .error _ => none
  | .ok b' => match ({ body := b' } : RuleObj).check Demo.env {} [] Demo.msgI with
    | .error (.panic _) => some none
    | .error (.err _) => none
    | .ok o => some (some o.result)

/-- A rule that blocks the message of the examples. -/
def blockPod : Rule := (Demo.rule gs"block" (some (Demo.cond gs"jsonpath:$.kind" gs"EQ" gs"Pod"))).body

/-- Violation of C60: as parsed, the rule blocks the message. Prepared in place, its check does not return: nil dereference. -/
theorem C60_violated_panic : ∃ b b' : Rule, prepareOneRule Demo.env {} b = .ok b' ∧
    (∃ o, ({ body := b } : RuleObj).check Demo.env {} [] Demo.msgI = .ok o ∧ o.result = Decision.block.rank) ∧
    ∃ e, ({ body := b' } : RuleObj).check Demo.env {} [] Demo.msgI = .error (.panic e) := by
  have h : prepareThenCheck blockPod = some none := by decide +kernel
  unfold prepareThenCheck at h
  cases hp : prepareOneRule Demo.env {} blockPod with
  | error e => rw [hp] at h; cases h
  | ok b' =>
    rw [hp] at h
    dsimp only at h
    refine ⟨blockPod, b', hp, ⟨_, rfl, by decide +kernel⟩, ?_⟩
    cases hc : ({ body := b' } : RuleObj).check Demo.env {} [] Demo.msgI with
    | ok o => rw [hc] at h; cases h
    | error e =>
      cases e with
      | err e => rw [hc] at h; cases h
      | panic e => exact ⟨e, rfl⟩

/-- A rule that is given its table and then prepared in place. -/
example : ∃ r1 b', ({ body := blockPod } : RuleObj).setPredefined Demo.env [] {} = .ok (r1, none) ∧ prepareOneRule Demo.env {} r1.body = .ok b' ∧
    ∃ o, r1.check Demo.env {} [] Demo.msgI = .ok o ∧ o.result = Decision.block.rank := by
  obtain ⟨b', hb⟩ := Demo.isOk_ok (x := prepareOneRule Demo.env {} blockPod) (by decide +kernel)
  exact ⟨_, b', rfl, hb, _, rfl, by decide +kernel⟩

/-- A rule prepared in place whose check returns: it is about another kind of sender. -/
example : prepareThenCheck { blockPod with senderType := gs"subnet", senderName := gs"10.0.0.0/8" } = some (some 0) := by decide +kernel

end Mapl.Props

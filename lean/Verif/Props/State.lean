import Verif.Lemmas.State
import Verif.Demo

/-!
# C36–C41: predefined tables and the preparation state of rules, over histories of calls

Histories are sequences of calls (Model/State.lean) that all return; a panic ends a program.
-/

namespace Mapl.Props

open Spec

variable {env : Env} {i k : Nat} {b : Rule} {t : Predef} {w w' : World} {ops : List Op} {as : List Answer} {r : RuleObj} {m : Msg}
  {p : List Nat}

/-! ## C36 -/

/-- **C36.** A table is accepted exactly if every element of its lists stands for a text; every list, and every list element,
is replaced in place. -/
theorem C36_accepted (t t' : Predef) : validatePredefinedString t = .ok t' ↔ Validated t t' := validatePredefined_ok

/-- **C36.** It is refused, with an error, exactly if some list has a `#name` for which there is no string. -/
theorem C36_refused (t : Predef) : (∃ e, validatePredefinedString t = .error (.err e)) ↔
    ∃ l ∈ t.lists, ∃ k, '#' :: k ∈ l.2 ∧ lookup k t.strings = none := by
  rw [← validated_iff]
  constructor
  · rintro ⟨e, h⟩
    exact (validatePredefined_error h).2
  · intro h
    cases hv : validatePredefinedString t with
    | ok t' => exact absurd ⟨t', validatePredefined_ok.1 hv⟩ h
    | error e =>
      obtain ⟨⟨x, rfl⟩, _⟩ := validatePredefined_error hv
      exact ⟨x, rfl⟩

/-- **C36.** The validated table is unique, and validation never crashes. -/
theorem C36_unique {t t' t'' : Predef} (h : Validated t t') (h' : Validated t t'') : t' = t'' := by
  have h1 := validatePredefined_ok.2 h
  rw [validatePredefined_ok.2 h'] at h1
  simpa using h1.symm

theorem C36_no_crash (t : Predef) (x : Panic) : validatePredefinedString t ≠ .error (.panic x) := by
  intro h
  obtain ⟨⟨y, h⟩, _⟩ := validatePredefined_error h
  simp at h

/-- A list with two references between texts. -/
def table : Predef where
  strings := [(gs"a", gs"x"), (gs"b", gs"#a")]
  lists := [(gs"l", [gs"u", gs"#b", gs"#a", gs"v"])]

example : ∃ t', Validated table t' ∧ t'.listsNoRefs = [(gs"l", [gs"u", gs"#a", gs"x", gs"v"])] :=
  ⟨_, validatePredefined_ok.1 rfl, rfl⟩

example : ∃ e, validatePredefinedString { table with lists := (gs"m", [gs"u", gs"#c"]) :: table.lists } = .error (.err e) :=
  (C36_refused _).2 ⟨(gs"m", [gs"u", gs"#c"]), by simp, gs"c", by simp, rfl⟩

/-! ## C37 -/

/-- **C37.** Setting the global table installs the validated table and reports success, or keeps the table in force and reports
an error; nothing in between. -/
theorem C37_atomic (g t : Predef) : (∃ t', Validated t t' ∧ setGlobal g t = (t', none)) ∨
    (¬ ∃ t', Validated t t') ∧ ∃ e, setGlobal g t = (g, some (.err e)) := setGlobal_spec g t

/-- **C37**, histories: at every point the global table is the last one that could be validated, or the first one if there was
none, whatever else was called. -/
theorem C37_histories (h : run env k w ops = .ok (w', as)) : GlobalAfter w.global ops w'.global := run_global h

/-- **C37.** The call tells which of the two happened. -/
theorem C37_answers (h : run env k w (.setGlobal t :: ops) = .ok (w', as)) :
    as.head? = some (.status true) ∧ (∃ t', Validated t t') ∨ as.head? = some (.status false) ∧ ¬ ∃ t', Validated t t' := by
  simp only [run, Go.bind_eq_ok] at h
  obtain ⟨⟨w1, a⟩, hs, ⟨w2, as'⟩, hr, hx⟩ := h
  simp only [Go.pure_eq, Except.ok.injEq, Prod.mk.injEq] at hx
  obtain ⟨rfl, rfl⟩ := hx
  rcases step_global hs with ⟨t', t'', h1, hv, _, rfl⟩ | ⟨t', h1, hv, _, rfl⟩ | ⟨ho, _⟩
  · simp at h1; subst h1; exact .inl ⟨rfl, _, hv⟩
  · simp at h1; subst h1; exact .inr ⟨rfl, hv⟩
  · exact absurd rfl (ho t)

example : ∃ w' as, run Demo.env 0 {} [.setGlobal table, .setGlobal { table with strings := [] }] = .ok (w', as) ∧
    w'.global.listsNoRefs = [(gs"l", [gs"u", gs"#a", gs"x", gs"v"])] ∧ as = [.status true, .status false] :=
  ⟨_, _, rfl, rfl, rfl⟩

/-! ## C38 -/

/-- **C38.** After `SetPredefinedStringsAndLists(t)` succeeded on a rule, whatever its state was before, every answer about
this rule is the one that table `t` gives, until the table of the rule is set again: other rules and the global table may be
set and used, successfully or not, in any order. -/
theorem C38_frozen (ho : env.OrdOk) (hw : w.rules[i]? = some r)
    (h : run env k w (.setRule i t :: ops) = .ok (w', .status true :: as)) (hn : ∀ t', Op.setRule i t' ∉ ops) :
    List.Forall₂ (SpeaksFor env i r.body t) ops as := by
  simp only [run, Go.bind_eq_ok] at h
  obtain ⟨⟨w1, a⟩, hs, ⟨w2, as'⟩, hr, hx⟩ := h
  simp only [Go.pure_eq, Except.ok.injEq, Prod.mk.injEq, List.cons.injEq] at hx
  obtain ⟨rfl, rfl, rfl⟩ := hx
  simp only [step, Go.bind_eq_ok] at hs
  obtain ⟨r0, hr0, ⟨r', e⟩, hset, hx⟩ := hs
  simp only [Go.pure_eq, Except.ok.injEq, Prod.mk.injEq] at hx
  obtain ⟨rfl, hx⟩ := hx
  simp at hx; subst hx
  have := rule_of hw hr0; subst this
  obtain ⟨rule, hm, rfl⟩ := setPredefined_made (run_call ho k) hset
  refine run_frozen ho hr (put_rule hw hr0) ?_ hn
  rw [if_pos rfl]
  exact ⟨rfl, rfl, rule, rfl, hm⟩

/-! ## C39 -/

/-- **C39.** `Check` on a rule that was never prepared nor checked by itself uses the global table of that moment, at every
call. -/
theorem C39_check_list (ho : env.OrdOk) (hw : w.rules[i]? = some (parsedRule b))
    (h : run env k w (ops ++ [.checkAll m]) = .ok (w', as)) (hn : ∀ op ∈ ops, ¬ Touches i op) :
    ∃ g a, GlobalAfter w.global ops g ∧ as.getLast? = some a ∧ SpeaksFor env i b g (.checkAll m) a := by
  obtain ⟨w1, as1, as2, h1, h2, rfl, _⟩ := run_append h
  have hw1 := run_untouched h1 hw hn
  obtain ⟨a, hs, rfl⟩ := run_one h2
  obtain ⟨h3, _⟩ := step_speaks (b := b) (own := none) (run_call ho _) hs hw1 ⟨rfl, rfl, rfl⟩
  exact ⟨w1.global, a, run_global h1, by simp, h3⟩

/-- **C39.** A rule that is used by itself (`rule.Check`, `rule.TestConditions` or `rule.ToMongoQuery`) for the first time uses the global table of
that moment, and keeps it. -/
theorem C39_first_use (ho : env.OrdOk) {op : Op} (hw : w.rules[i]? = some (parsedRule b)) (ht : Touches i op)
    (hop : ∀ t, op ≠ .setRule i t) (h : run env k w (op :: ops) = .ok (w', as)) (hn : ∀ t', Op.setRule i t' ∉ ops) :
    List.Forall₂ (SpeaksFor env i b w.global) (op :: ops) as := by
  simp only [run, Go.bind_eq_ok] at h
  obtain ⟨⟨w1, a⟩, hs, ⟨w2, as'⟩, hr, hx⟩ := h
  simp only [Go.pure_eq, Except.ok.injEq, Prod.mk.injEq] at hx
  obtain ⟨rfl, rfl⟩ := hx
  obtain ⟨h1, h2⟩ := step_speaks (b := b) (own := none) (run_call ho k) hs hw ⟨rfl, rfl, rfl⟩
  obtain ⟨r', own', hw', hk', ho1, _⟩ := h2 hop
  have := ho1 ht; subst this
  exact .cons h1 (run_frozen ho hr hw' hk' hn)

/-- **C38, C39** together, as a refinement: a history on freshly parsed rules in which no preparation failed is explained by
the small state machine `Tables`, which only records the tables. -/
theorem C39_histories (ho : env.OrdOk) (bodies : List Rule) (g : Predef)
    (h : run env k { global := g, rules := bodies.map parsedRule } ops = .ok (w', as)) (hf : NoFailure ops as) :
    ∃ s, Tables.Explains env bodies { global := g } ops as s ∧ w'.global = s.global := by
  obtain ⟨s, h1, h2⟩ := run_explained ho (agrees_start bodies g) h hf
  exact ⟨s, h1, h2.global⟩

/-! ## C40 -/

/-- Rule for senders in the predefined list `team`. -/
def teamRule : Rule := { (Demo.rule gs"allow").body with senderName := gs"#team", senderType := gs"workload" }

/-- A table in which the sender of `Demo.msgI` is in the team. -/
def teamTable : Predef := { strings := [(gs"team", gs"a")] }

/-- A table in which it is not. -/
def otherTable : Predef := { strings := [(gs"team", gs"z")] }

/-- Non-vacuity of C38 and C39: the rule is prepared, the global table is changed, and the rule still uses its own table. -/
example : ∃ w' as, run Demo.env 0 { rules := [parsedRule teamRule] }
      [.setRule 0 teamTable, .setGlobal otherTable, .checkRule 0 Demo.msgI, .checkAll Demo.msgI] = .ok (w', as) ∧
    as[2]? = some (.verdict 1 []) := ⟨_, _, rfl, rfl⟩

/-- The global table is used by `Check` at every call, by `rule.Check` at the first. -/
example : ∃ w' as out, run Demo.env 0 { rules := [parsedRule teamRule] }
      [.setGlobal teamTable, .checkAll Demo.msgI, .setGlobal otherTable, .checkAll Demo.msgI, .checkRule 0 Demo.msgI,
       .setGlobal teamTable, .checkRule 0 Demo.msgI] = .ok (w', as) ∧
    as[3]? = some (.report out) ∧ out.decision = 0 ∧ as[4]? = some (.verdict 0 []) ∧ as[6]? = some (.verdict 0 []) :=
  ⟨_, _, _, rfl, rfl, rfl, rfl, rfl⟩

/-- Rule with a condition that refers to the table. -/
def kindRule : Rule := (Demo.rule gs"block" (some (Demo.cond gs"jsonpath:$.kind" gs"EQ" gs"#team"))).body

/-- The same for translations: the rule is translated with its own table; without one, with the global table of the first time. -/
example : ∃ w' as, run Demo.env 0 { rules := [parsedRule kindRule, parsedRule kindRule] }
      [.setRule 0 teamTable, .setGlobal otherTable, .toMongo 0 gs"doc", .toMongo 1 gs"doc", .setGlobal teamTable, .toMongo 1 gs"doc"] = .ok (w', as) ∧
    as[2]? = some (.query (.ok (.simple (.field gs"doc.kind" (.eq (.str gs"a")))))) ∧
    as[3]? = some (.query (.ok (.simple (.field gs"doc.kind" (.eq (.str gs"z")))))) ∧
    as[5]? = some (.query (.ok (.simple (.field gs"doc.kind" (.eq (.str gs"z")))))) := ⟨_, _, rfl, rfl, rfl, rfl⟩

/-- **C40 is violated.** A rule is prepared with one table; preparing it with another one fails; a check of the rule goes on
using the first table, although the table in force then gives no verdict at all. -/
theorem C40_violated : ∃ w' as,
    run Demo.env 0 { rules := [parsedRule teamRule] } [.setRule 0 teamTable, .setRule 0 {}, .checkRule 0 Demo.msgI] = .ok (w', as) ∧
    as = [.status true, .status false, .verdict 1 []] ∧ w'.global = {} ∧
    ¬ ∃ d e, Verdict Demo.env w'.global Demo.msgI (parsedRule teamRule) d e := by
  refine ⟨_, _, rfl, rfl, rfl, ?_⟩
  rintro ⟨d, e, env', p, o, hrun, hck, _⟩
  have hx : (parsedRule teamRule).check env' {} p Demo.msgI = .error (.panic .nilDeref) := by
    obtain ⟨ext, ord⟩ := env'
    have : ext = Demo.ext := hrun.ext
    subst this
    rfl
  have hx' : (parsedRule teamRule).check env' ({} : World).global p Demo.msgI = .error (.panic .nilDeref) := hx
  exact absurd (hck.symm.trans hx') (by simp)

/-- **C40**, what holds (`_partial`): after `SetPredefinedStringsAndLists` failed on a rule and until the rule is used again,
its next check answers with the global table of that moment, unless preparing the rule with the global table fails as well.
In that case the answer, if there is one, comes from an earlier preparation of the rule (the gap: C40 asks that it is never used). -/
theorem C40_partial (ho : env.OrdOk) (hw : w.rules[i]? = some r)
    (h : run env k w (.setRule i t :: ops ++ [.checkRule i m]) = .ok (w', .status false :: as)) (hn : ∀ op ∈ ops, ¬ Touches i op) :
    ∃ g a, GlobalAfter w.global ops g ∧ as.getLast? = some a ∧
      (SpeaksFor env i r.body g (.checkRule i m) a ∨
        (∃ env' q r' e, Run env env' ∧ (parsedRule r.body).setPredefined env' q g = .ok (r', some e)) ∧ r.prepared.isSome) := by
  simp only [List.cons_append, run, Go.bind_eq_ok] at h
  obtain ⟨⟨w1, a⟩, hs, ⟨w2, as'⟩, hr, hx⟩ := h
  simp only [Go.pure_eq, Except.ok.injEq, Prod.mk.injEq, List.cons.injEq] at hx
  obtain ⟨rfl, rfl, rfl⟩ := hx
  simp only [step, Go.bind_eq_ok] at hs
  obtain ⟨r0, hr0, ⟨r1, e⟩, hset, hx⟩ := hs
  simp only [Go.pure_eq, Except.ok.injEq, Prod.mk.injEq] at hx
  obtain ⟨rfl, hx⟩ := hx
  have := rule_of hw hr0; subst this
  cases e with
  | none => simp at hx
  | some e =>
  obtain ⟨hready, hprep, hbody⟩ := setPredefined_failed hset
  have hw1 := put_rule (r' := r1) hw hr0
  rw [if_pos rfl] at hw1
  obtain ⟨w3, as1, as2, h1, h2, rfl, _⟩ := run_append hr
  have hw3 := run_untouched h1 hw1 hn
  obtain ⟨a, hs, rfl⟩ := run_one h2
  have hg : GlobalAfter (w.put i r1).global ops w3.global := run_global h1
  refine ⟨w3.global, a, hg, by simp, ?_⟩
  simp only [step, Go.bind_eq_ok] at hs
  obtain ⟨x, hx, o, hck, hs⟩ := hs
  simp only [Go.pure_eq, Except.ok.injEq, Prod.mk.injEq] at hs
  obtain ⟨_, rfl⟩ := hs
  have := rule_of hw3 hx; subst this
  obtain ⟨r2, rule, he, hp, _⟩ := ruleCheck_inv hck
  have hrun := run_call ho (k + 1 + ops.length)
  simp only [RuleObj.ensure, hready] at he
  rw [if_neg (by simp), Go.map_eq_ok] at he
  obtain ⟨⟨r3, e'⟩, hset', rfl⟩ := he
  cases e' with
  | none =>
    left
    obtain ⟨rule', hm, hr3⟩ := setPredefined_made hrun hset'
    dsimp only at hp
    have hready3 : r3.ready = true := setPredefined_ready hset'
    rw [hr3] at hp; simp at hp; subst hp
    rw [check_unready hready hset' hready3, check_judge hready3 (by rw [hr3]) hm.converted, Go.map_eq_ok] at hck
    obtain ⟨y, hj, rfl⟩ := hck
    obtain ⟨d, hd, hv⟩ := hm.verdict hrun hj
    rw [hbody] at hv
    exact fun _ => ⟨d, y.2.1, by rw [hd], hv⟩
  | some e' =>
    right
    obtain ⟨_, hp3, _⟩ := setPredefined_failed hset'
    obtain ⟨r4, h4⟩ := setPredefined_parsed hset'
    rw [hbody] at h4
    exact ⟨⟨_, _, r4, e', hrun, h4⟩, by rw [← hprep, ← hp3, hp]; rfl⟩

/-- **C40**: a rule that was never prepared and cannot be prepared with the global table either makes its check crash, so the
failure is not ignored silently. -/
theorem C40_never_prepared_crashes {g : Predef} {r' : RuleObj} {e : Err} (hr : r.ready = false) (hp : r.prepared = none)
    (h : r.setPredefined env (0 :: p) g = .ok (r', some e)) : r.check env g p m = .error (.panic .nilDeref) := by
  obtain ⟨h1, h2, h3⟩ := setPredefined_failed h
  unfold RuleObj.check
  rw [ensure_of_unready hr h, Go.ok_bind, h2, hp]
  rfl

/-! ## C41 -/

/-- **C41**, what is true: preparing with empty tables succeeds exactly if `ValidateRule` accepts the rule and neither the
sender nor the receiver is a reference. -/
theorem C41_partial (b : Rule) : (∃ r', (parsedRule b).setPredefined env p {} = .ok (r', none)) ↔
    validateRule env p b = .ok () ∧ (∀ k, b.senderName ≠ '#' :: k) ∧ ∀ k, b.receiverName ≠ '#' :: k := prepared_iff_validated

/-- **C41 is violated.** A rule that `ValidateRule` accepts and that cannot be prepared with empty tables. -/
theorem C41_violated : validateRule Demo.env p teamRule = .ok () ∧
    ∃ r' e, (parsedRule teamRule).setPredefined Demo.env p {} = .ok (r', some e) := ⟨rfl, _, _, rfl⟩

set_option maxRecDepth 100000 in
/-- A rule with a tree of conditions that is accepted and can be prepared. -/
example : validateRule Demo.env [] (Demo.rule gs"block" (some (.and [Demo.cond gs"jsonpath:$.kind" gs"EQ" gs"Pod",
    Demo.anyOf gs"jsonpath:$.containers" (Demo.cond gs"jsonpath:$RELATIVE.cpu" gs"GT" gs"5")]))).body = .ok () := by
  with_unfolding_all rfl

end Mapl.Props

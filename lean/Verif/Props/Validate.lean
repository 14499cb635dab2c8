import Verif.Lemmas.Convert
import Verif.Demo

/-!
# C42, C43, C35 (values): which conditions are accepted, and what preparation does

`parsed env a m v r` is the condition the parser builds from the texts `a` (attribute), `m` (method), `v` (value) and
the returned values `r`. `Acceptable` (Spec/Validate.lean) is the grammar of conditions.
-/

namespace Mapl.Props

open Spec

variable {env : Ext} {t : Predef} {a m v : Str} {r : Option (List RetVal)}

/-- **C42.** A condition passes validation exactly when it belongs to the grammar of conditions. -/
theorem C42_accepted_iff (c : Condition) :
    (∃ c', validateOneCondition env c = .ok c') ↔ Acceptable env c.attr c.method c.value := by
  constructor
  · rintro ⟨c', h⟩
    exact (validateOneCondition_iff.1 h).1
  · intro h
    exact ⟨_, validateOneCondition_iff.2 ⟨h, rfl⟩⟩

/-- **C42.** Whatever is not accepted is rejected with an error. -/
theorem C42_rejected_iff (c : Condition) :
    (∃ e, validateOneCondition env c = .error (.err e)) ↔ ¬ Acceptable env c.attr c.method c.value := by
  rw [← C42_accepted_iff]
  cases h : validateOneCondition env c with
  | ok c' => simp
  | error f =>
    cases f with
    | err e => simp
    | panic p => exact absurd h (noPanic_validate env c p)

/-- **C42.** Validation changes nothing but the two numbers of the value. -/
theorem C42_numbers {c c' : Condition} (h : validateOneCondition env c = .ok c') :
    c' = { c with valueInt := (parseInt c.value).or c.valueInt, valueFloat := (parseNumber env c.value).or c.valueFloat } := by
  rw [(validateOneCondition_iff.1 h).2, setNumbers_eq]

/-- What preparation requires beyond validation: the value as a pattern is a regular expression, and the path, unless
it speaks of the key or value of an entry, is a query of the json path library. -/
structure Preparable (env : Ext) (a m w : Str) : Prop where
  list : m = gs"IS" → env.reOk (listPattern w) = true
  whole : (∀ q, a ≠ gs"jsonpath:" ++ q) →
    env.reOk (if m = gs"IN" ∨ m = gs"NIN" then convertStringToRegex (listPattern w) m
      else if m = gs"IS" then gs"^" ++ listPattern w ++ gs"$" else gs"^" ++ w ++ gs"$") = true
  query : ∀ q, a = gs"jsonpath:" ++ q → ∃ j, prepareJsonpathQuery env (pathQuery q) = .ok j

/-- **C42.** A parsed condition can be prepared exactly when its reference is defined, the resolved condition belongs to
the grammar, and its value and path can be compiled. -/
theorem C42_prepared_iff :
    (∃ c, (parsed env a m v r).prepare env t = .ok c) ↔
      ∃ w, ValueResolves env t m v w ∧ Acceptable env a m w ∧ Preparable env a m w := by
  have hwhole : ∀ w, m ∈ allMethods → ((baseOf env a m v w r).valueStringRegex.isSome ↔
      env.reOk (if m = gs"IN" ∨ m = gs"NIN" then convertStringToRegex (listPattern w) m
      else if m = gs"IS" then gs"^" ++ listPattern w ++ gs"$" else gs"^" ++ w ++ gs"$") = true) := by
    intro w hm
    show (compile env (convertStringToRegex (finalValue m w) m)).isSome ↔ _
    have : convertStringToRegex (finalValue m w) m = (if m = gs"IN" ∨ m = gs"NIN" then convertStringToRegex (listPattern w) m
      else if m = gs"IS" then gs"^" ++ listPattern w ++ gs"$" else gs"^" ++ w ++ gs"$" : Str) := by
      have h0 : m ≠ gs"WithWildcards" := by rintro rfl; revert hm; decide
      by_cases h1 : m = gs"IN"
      · subst h1; rfl
      by_cases h2 : m = gs"NIN"
      · subst h2; rfl
      by_cases h3 : m = gs"IS"
      · subst h3; rfl
      simp [convertStringToRegex, finalValue, h0, h1, h2, h3]
    rw [this, compile]
    split <;> simp_all
  constructor
  · rintro ⟨c, h⟩
    obtain ⟨w, e, hw, hacc, hre, he, hfin⟩ := prepare_iff.1 h
    refine ⟨w, hw, hacc, ⟨?_, ?_, ?_⟩⟩
    · rintro rfl
      exact hre (by decide)
    · intro hq
      cases hfin with
      | plain _ hr => exact (hwhole w hacc.method).1 hr
      | path => exact absurd rfl (hq _)
    · rintro q rfl
      cases hfin with
      | plain hp _ => exact absurd rfl (hp q)
      | path hj => exact ⟨_, hj⟩
  · rintro ⟨w, hw, hacc, hp⟩
    obtain ⟨e, he, _⟩ := handleAll_attr (d := baseOf env a m v w r) hacc.attr (finalValue_label hacc.value.label)
    have hre : finalMethod m ∈ patternMethods → env.reOk (finalValue m w) = true := by
      intro hm
      by_cases h1 : m = gs"IN"
      · subst h1; exact (hacc.value.list (.inl rfl)).2
      by_cases h2 : m = gs"NIN"
      · subst h2; exact (hacc.value.list (.inr rfl)).2
      by_cases h3 : m = gs"IS"
      · exact h3 ▸ hp.list h3
      simp only [finalMethod, finalValue, h1, h2, h3, or_self, if_false] at hm ⊢
      exact hacc.value.pattern hm
    by_cases hq : ∃ q, a = gs"jsonpath:" ++ q
    · obtain ⟨q, rfl⟩ := hq
      obtain ⟨j, hj⟩ := hp.query q rfl
      exact ⟨_, prepare_iff.2 ⟨w, e, hw, hacc, hre, he, .path hj⟩⟩
    · have hq' : ∀ q, a ≠ gs"jsonpath:" ++ q := fun q h => hq ⟨q, h⟩
      exact ⟨_, prepare_iff.2 ⟨w, e, hw, hacc, hre, he, .plain hq' ((hwhole w hacc.method).2 (hp.whole hq'))⟩⟩

/-- A condition that is accepted and can be prepared. -/
example : ∃ c, (parsed Demo.ext gs"jsonpath:$RELATIVE.spec[0].x" gs"GE" gs"5Mi").prepare Demo.ext {} = .ok c :=
  Demo.isOk_ok (by decide +kernel)

/-- Rejected: order comparison of a label, an unknown attribute, a number method without a number. -/
example : ¬ Acceptable Demo.ext gs"senderLabel[x]" gs"GT" gs"1" ∧ ¬ Acceptable Demo.ext gs"payload" gs"EQ" gs"1" ∧
    ¬ Acceptable Demo.ext gs"payloadSize" gs"LT" gs"abc" := by
  refine ⟨?_, ?_, ?_⟩ <;>
  · intro h
    obtain ⟨c', hc⟩ := (C42_accepted_iff { attr := _, method := _, value := _ }).2 h
    cases hc

/-- **C43.** Preparing a condition, whatever its texts and derived fields are, never crashes. -/
theorem C43_condition (c : Condition) (p : Panic) : c.prepare env t ≠ .error (.panic p) := noPanic_prepare env t c p

/-- **C43.** The steps of preparation one by one never crash either, in the order in which they run. -/
theorem C43_validation (c : Condition) (p : Panic) : validateOneCondition env c ≠ .error (.panic p) := noPanic_validate env c p

/-- **C43.** A tree without missing branches is prepared or rejected. -/
theorem C43_tree {n : Node} (h : Complete n) (p : Panic) : n.prepare env t ≠ .error (.panic p) := noPanic_node env t n h p

/-- **C43.** Preparing a rule whose tree is complete never crashes. -/
theorem C43_rule {rule : Rule} (h : ∀ n, rule.conditions = some n → Complete n) (p : Panic) :
    prepareOneRule env t rule ≠ .error (.panic p) := noPanic_rule env t rule h p

/-- The slices do go out of range without the checks of validation before them. -/
example : convertCondition Demo.ext { attr := gs"senderLabel[x", method := gs"EQ", value := gs"1" } = .error (.panic .outOfRange) :=
  rfl

example : Complete (.and [.cond { attr := gs"domain", method := gs"EQ", value := gs"x" }, .not .tt]) := by simp [Complete]

/-- **C35** for values: preparation replaces the value by what it stands for and fails exactly if it stands for nothing. -/
theorem C35_values (c c' : Condition) :
    replaceStringsAndListsInCondition env c t = .ok c' ↔
      ∃ w, ValueResolves env t c.method c.value w ∧ c' = { c with value := w } := replaceCondition_iff

/-- **C35.** A value stands for at most one text. -/
theorem C35_values_unique {w w' : Str} (h : ValueResolves env t m v w) (h' : ValueResolves env t m v w') : w = w' := by
  cases h <;> cases h' <;> simp_all

/-- **C35.** `#key` with `key` in neither table stands for nothing. -/
theorem C35_values_undefined {k : Str} (hl : lookup k t.listsNoRefs = none) (hs : lookup k t.strings = none) :
    ¬ ∃ c, (parsed env a m ('#' :: k) r).prepare env t = .ok c := by
  rw [C42_prepared_iff]
  rintro ⟨w, hw, -⟩
  cases hw <;> simp_all

/-- **C35.** The prepared condition remembers the resolved value. -/
theorem C35_prepared_value {c : Condition} (h : (parsed env a m v r).prepare env t = .ok c) :
    ValueResolves env t m v c.origValue ∧ c.origAttr = a ∧ c.origMethod = m := by
  obtain ⟨w, e, hw, -, -, hpart, hfin⟩ := prepare_inv h
  have hv : (valuePart (baseOf env a m v w r)).origValue = w ∧ (valuePart (baseOf env a m v w r)).origAttr = a ∧
      (valuePart (baseOf env a m v w r)).origMethod = m := by
    unfold valuePart; split
    · exact ⟨rfl, rfl, rfl⟩
    · split <;> exact ⟨rfl, rfl, rfl⟩
  have he : e.origValue = w ∧ e.origAttr = a ∧ e.origMethod = m := by cases hpart <;> exact hv
  have hc : c.origValue = w ∧ c.origAttr = a ∧ c.origMethod = m := by cases hfin <;> exact he
  rw [hc.1]
  exact ⟨hw, hc.2⟩

example : ValueResolves Demo.ext ⟨[], [], [(gs"web", [gs"a", gs"b"])]⟩ gs"RE" gs"#web" gs"a|b" ∧
    ValueResolves Demo.ext ⟨[], [], [(gs"web", [gs"a", gs"b"])]⟩ gs"IN" gs"#web" gs"a,b" :=
  ⟨.alternatives (l := [gs"a", gs"b"]) rfl (by decide) rfl, .list (l := [gs"a", gs"b"]) rfl (by decide)⟩

end Mapl.Props

import Verif.Spec.Harmless
import Verif.Props.Panics
import Verif.Lemmas.Bare
import Verif.Lemmas.Elements
import Verif.Lemmas.Shuffle

/-!
# C100: rules that no message can crash

`Harmless` (Spec/Harmless.lean) looks at a condition as it is written. For conditions it is exact: a condition that is not harmless crashes on some message.
-/

namespace Mapl.Props

open Spec

variable {env : Env} {g t : Predef} {a m v : Str} {c : Condition} {msg : Msg} {p : List Nat} {rs : List RuleObj} {n n' : Node}

theorem harmless_crashes (h : (parsed env a m v).prepare env t = .ok c) (hh : Harmless env t a m v) : ¬ Crashes env p c msg := by
  obtain ⟨hw, ha, hm⟩ := prepared_origin h
  intro hc
  cases hc with
  | size k1 k2 k3 =>
    rw [ha] at k1; rw [hm] at k2
    obtain ⟨n, hn⟩ := hh.size k1 k2 _ hw
    exact k3 n hn
  | hours k1 k2 k3 =>
    rw [ha] at k1; rw [hm] at k2
    obtain ⟨n, hn⟩ := hh.hours k1 k2 _ hw
    rw [k3] at hn; cases hn
  | noVersion k1 => exact hh.version (ha ▸ k1)
  | version k1 => exact hh.version (ha ▸ k1)
  | entry k1 k2 k3 => exact hh.entry _ (ha ▸ k1) ⟨k2, k3⟩
  | number k1 k2 k3 k4 k5 =>
    rw [ha] at k1; rw [hm] at k2
    rcases hh.number _ k1 k2 _ hw with ⟨x, hx⟩ | hx
    · rw [k3] at hx; cases hx
    · cases k4 with
      | path _ hd => exact hx _ hd.2.1 k5
      | entry hr hq => exact hh.entry _ k1 ⟨hr, hq⟩
      | field hr hq => exact hh.entry _ k1 ⟨hr, .inr ⟨_, hq⟩⟩
  | report k1 k2 =>
    rw [(prepare_leaf h hw).ret] at k2
    cases k2

/-- **C100**, conditions: an accepted condition without return values returns an answer for every message exactly if it is harmless. -/
theorem C100_condition (hn : NumbersOk env) (h : (parsed env a m v).prepare env t = .ok c) :
    (∀ p msg, ∃ x, testOneCondition env p c msg = .ok x) ↔ Harmless env t a m v := by
  obtain ⟨hw, ha, hm⟩ := prepared_origin h
  have no : (∀ p msg, ∃ x, testOneCondition env p c msg = .ok x) → ∀ p msg, ¬ Crashes env p c msg := by
    intro hx p msg hc
    obtain ⟨k, hk⟩ := (C32_condition_exact hn h).2 hc
    obtain ⟨x, hx⟩ := hx p msg
    rw [hx] at hk; cases hk
  constructor
  · intro hx
    have hno := no hx
    refine ⟨fun h1 h2 w h3 => ?_, fun h1 h2 w h3 => ?_, fun h1 => ?_, fun q h1 h2 => ?_, fun q h1 h2 w h3 => ?_⟩
    · by_contra hc
      rw [← resolves_unique hw h3] at hc
      exact hno [] {} (.size (ha.trans h1) (hm ▸ h2) fun n hn => hc ⟨n, hn⟩)
    · by_contra hc
      rw [← resolves_unique hw h3] at hc
      refine hno [] {} (.hours (ha.trans h1) (hm ▸ h2) ?_)
      cases hp : parseNumber env c.origValue with
      | none => rfl
      | some x => exact absurd ⟨x, hp⟩ hc
    · exact hno [] {} (.noVersion (ha.trans h1) rfl)
    · exact hno [] { rawI := some .null, rawIRel := some .null } (.entry (ha.trans h1) h2.1 h2.2 rfl rfl (by rintro _ ⟨⟩))
    · by_contra hc
      rw [← resolves_unique hw h3] at hc
      simp only [not_or, not_forall] at hc
      obtain ⟨hc1, d, hd, hc2⟩ := hc
      have he : ¬ (pathRel q = true ∧ AsksEntry q) := fun h2 =>
        hno [] { rawI := some .null, rawIRel := some .null } (.entry (ha.trans h1) h2.1 h2.2 rfl rfl (by rintro _ ⟨⟩))
      refine hno [] { jsonRaw := some d, jsonRawRel := some d } (.number (ha.trans h1) (hm ▸ h2) ?_ (.path he (d := d) ⟨rfl, hd, by split <;> rfl⟩) (by simpa using hc2))
      cases hp : parseNumber env c.origValue with
      | none => rfl
      | some x => exact absurd ⟨x, hp⟩ hc1
  · intro hh p msg
    exact (errs_returns _).1 fun hx => harmless_crashes h hh ((errs_condition hn ⟨_, _, _, _, _, h⟩).1 hx)

theorem andCrashes_mem {ns : List Node} {i : Nat} (h : AndCrashes env ns p i msg) : ∃ n ∈ ns, ∃ j, CrashesAt env n (j :: p) msg := by
  induction ns generalizing i with
  | nil => cases h
  | cons x xs ih =>
    rw [AndCrashes] at h
    rcases h with h | ⟨-, h⟩
    · exact ⟨x, by simp, i, h⟩
    · obtain ⟨n, hn, j, h⟩ := ih h
      exact ⟨n, by simp [hn], j, h⟩

theorem orCrashes_mem {ns : List Node} {i : Nat} (h : OrCrashes env ns p i msg) : ∃ n ∈ ns, ∃ j, CrashesAt env n (j :: p) msg := by
  induction ns generalizing i with
  | nil => cases h
  | cons x xs ih =>
    rw [OrCrashes] at h
    rcases h with h | h
    · exact ⟨x, by simp, i, h⟩
    · obtain ⟨n, hn, j, h⟩ := ih h
      exact ⟨n, by simp [hn], j, h⟩

theorem harmless_selects (ht : HarmlessTree env t n) : ∀ {n' : Node} {p : List Nat} {msg : Msg}, n.prepare env t = .ok n' → CrashesAt env n' p msg →
    ∃ b m', Comes env n' msg b m' ∧ SelectFails env b m' := by
  induction ht with
  | cond hh =>
    intro n' p msg h hc
    simp only [condNode, Node.prepare, Go.bind_eq_ok, Option.map_none] at h
    obtain ⟨c, hc1, h⟩ := h
    simp at h; subst h
    rw [CrashesAt] at hc
    exact absurd hc (harmless_crashes hc1 hh)
  | and hns ih =>
    intro n' p msg h hc
    simp only [Node.prepare, Go.bind_eq_ok] at h
    obtain ⟨ns', h1, h⟩ := h
    simp at h; subst h
    rw [CrashesAt] at hc
    obtain ⟨x', hx', j, hj⟩ := andCrashes_mem hc
    obtain ⟨x, hx, hp⟩ := prepareNodes_mem h1 x' hx'
    obtain ⟨b, m', hb, hs⟩ := ih x hx hp hj
    exact ⟨b, m', .and hx' hb, hs⟩
  | or hns ih =>
    intro n' p msg h hc
    simp only [Node.prepare, Go.bind_eq_ok] at h
    obtain ⟨ns', h1, h⟩ := h
    simp at h; subst h
    rw [CrashesAt] at hc
    obtain ⟨x', hx', j, hj⟩ := orCrashes_mem hc
    obtain ⟨x, hx, hp⟩ := prepareNodes_mem h1 x' hx'
    obtain ⟨b, m', hb, hs⟩ := ih x hx hp hj
    exact ⟨b, m', .or hx' hb, hs⟩
  | not hn ih =>
    intro n' p msg h hc
    simp only [Node.prepare, Go.bind_eq_ok] at h
    obtain ⟨x', h1, h⟩ := h
    simp at h; subst h
    rw [CrashesAt] at hc
    obtain ⟨b, m', hb, hs⟩ := ih h1 hc
    exact ⟨b, m', .not hb, hs⟩
  | any hn ih =>
    intro n' p msg h hc
    simp only [Node.prepare, Go.bind_eq_ok] at h
    obtain ⟨x', h1, a', h2, h⟩ := h
    simp at h; subst h
    rw [CrashesAt] at hc
    have hr := anyall_keeps h2
    simp only [anyFields, List.map_nil] at hr
    rcases hc with hc | ⟨l, hl, i, m1, hi, -, hc | ⟨-, r, hr', -⟩⟩
    · exact ⟨a', msg, .any, hc⟩
    · obtain ⟨b, m', hb, hs⟩ := ih h1 hc
      exact ⟨b, m', .inAny hl (List.mem_of_getElem? hi) hb, hs⟩
    · rw [hr] at hr'; cases hr'
  | all hn ih =>
    intro n' p msg h hc
    simp only [Node.prepare, Go.bind_eq_ok] at h
    obtain ⟨x', h1, a', h2, h⟩ := h
    simp at h; subst h
    rw [CrashesAt] at hc
    rcases hc with hc | ⟨l, hl, i, m1, hi, -, hc⟩
    · exact ⟨a', msg, .all, hc⟩
    · obtain ⟨b, m', hb, hs⟩ := ih h1 hc
      exact ⟨b, m', .inAll hl (List.mem_of_getElem? hi) hb, hs⟩

theorem harmless_leaves (ht : HarmlessTree env t n) : ∀ {n' : Node}, n.prepare env t = .ok n' → ∀ c ∈ leaves n', FromText env c := by
  have key : ∀ c0 ∈ leaves n, ∃ a m v, c0 = parsed env a m v := by
    induction ht with
    | cond hh => intro c0 h; simp only [condNode, leaves, List.mem_singleton, Option.map_none] at h; exact ⟨_, _, _, h⟩
    | @and ns hns ih =>
      simp only [leaves]
      intro c0 h
      have : ∀ ns : List Node, c0 ∈ leavesOf ns → ∃ n ∈ ns, c0 ∈ leaves n := by
        intro ns
        induction ns with
        | nil => intro h; simp [leavesOf] at h
        | cons x xs ih =>
          intro h
          simp only [leavesOf, List.mem_append] at h
          rcases h with h | h
          · exact ⟨x, by simp, h⟩
          · obtain ⟨n, hn, h⟩ := ih h
            exact ⟨n, by simp [hn], h⟩
      obtain ⟨n, hn, h⟩ := this ns h
      exact ih n hn c0 h
    | @or ns hns ih =>
      simp only [leaves]
      intro c0 h
      have : ∀ ns : List Node, c0 ∈ leavesOf ns → ∃ n ∈ ns, c0 ∈ leaves n := by
        intro ns
        induction ns with
        | nil => intro h; simp [leavesOf] at h
        | cons x xs ih =>
          intro h
          simp only [leavesOf, List.mem_append] at h
          rcases h with h | h
          · exact ⟨x, by simp, h⟩
          · obtain ⟨n, hn, h⟩ := ih h
            exact ⟨n, by simp [hn], h⟩
      obtain ⟨n, hn, h⟩ := this ns h
      exact ih n hn c0 h
    | not _ ih => simpa only [leaves] using ih
    | any _ ih => simpa only [leaves] using ih
    | all _ ih => simpa only [leaves] using ih
  intro n' h c hc
  obtain ⟨c0, h0, hp⟩ := prepare_leaves h c hc
  obtain ⟨a, m, v, rfl⟩ := key c0 h0
  exact ⟨t, a, m, v, none, hp⟩

/-- **C100**, trees: the only way in which a tree of harmless conditions, accepted and prepared, can panic is that an ANY or ALL cannot select its elements. -/
theorem C100_tree (hn : NumbersOk env) (ht : HarmlessTree env t n) (h : n.prepare env t = .ok n')
    (hs : ∀ b m', Comes env n' msg b m' → ¬ SelectFails env b m') : ∃ o, eval env n' p msg = .ok o :=
  (errs_returns _).1 fun hx => by
    obtain ⟨b, m', hb, hf⟩ := harmless_selects ht h ((errs_eval env hn n' p msg (harmless_leaves ht h)).1 hx)
    exact hs b m' hb hf

theorem flat_prepare (hf : Flat n) : ∀ {n' : Node}, n.prepare env t = .ok n' → Flat n' := by
  induction hf with
  | cond =>
    intro n' h
    simp only [Node.prepare, Go.bind_eq_ok] at h
    obtain ⟨c, hc1, h⟩ := h
    simp at h; subst h
    exact .cond
  | and _ ih =>
    intro n' h
    simp only [Node.prepare, Go.bind_eq_ok] at h
    obtain ⟨ns', h1, h⟩ := h
    simp at h; subst h
    refine .and fun x' hx' => ?_
    obtain ⟨x, hx, hp⟩ := prepareNodes_mem h1 x' hx'
    exact ih x hx hp
  | or _ ih =>
    intro n' h
    simp only [Node.prepare, Go.bind_eq_ok] at h
    obtain ⟨ns', h1, h⟩ := h
    simp at h; subst h
    refine .or fun x' hx' => ?_
    obtain ⟨x, hx, hp⟩ := prepareNodes_mem h1 x' hx'
    exact ih x hx hp
  | not _ ih =>
    intro n' h
    simp only [Node.prepare, Go.bind_eq_ok] at h
    obtain ⟨x', h1, h⟩ := h
    simp at h; subst h
    exact .not (ih h1)

theorem flat_comes {b : AnyAll} {m' : Msg} (hf : Flat n) : ¬ Comes env n msg b m' := by
  induction hf with
  | cond => rintro ⟨⟩
  | and _ ih => intro h; cases h with | and hn h => exact ih _ hn h
  | or _ ih => intro h; cases h with | or hn h => exact ih _ hn h
  | not _ ih => intro h; cases h with | not h => exact ih h

/-- **C100**, trees without ANY and ALL: if the conditions are harmless then no message makes the evaluation panic. -/
theorem C100_flat (hn : NumbersOk env) (ht : HarmlessTree env t n) (hf : Flat n) (h : n.prepare env t = .ok n') : ∃ o, eval env n' p msg = .ok o :=
  C100_tree hn ht h fun _ _ hb => absurd hb (flat_comes (flat_prepare hf h))

theorem harmless_rule (ho : env.OrdOk) (hn : NumbersOk env) {r : RuleObj} {b : Rule} (hl : Loaded env g r b t) (hh : RuleHarmless env t b) (k : Nat) :
    ¬ Errs (r.check env g [k] msg) := by
  obtain ⟨copy, rule, h1, h2⟩ := hh.accepted
  rw [copyRule_copyable ho hh.copyable] at h1
  have h1' : ∀ p, copyRule env p b = .ok copy := fun p => by rw [copyRule_copyable ho hh.copyable]; exact h1
  have hcase : Fresh r ∨ ∃ rule, ReadyAs env r rule := by
    cases hl with
    | parsed hf => exact .inl hf
    | prepared hf hs =>
      obtain ⟨c', rule', k1, k2, rfl⟩ := setPredefined_ok hs
      exact .inr ⟨rule', rfl, _, _, _, hf.converted, hs⟩
  have quiet : ∀ {rule' : Rule} {q : List Nat}, prepareOneRule env t copy = .ok rule' → ¬ PreparedCrashes env rule' q msg := by
    intro rule' q h2 hc
    obtain ⟨-, n', hn', hc⟩ := hc
    have hconv : copy.converted = false := by
      have := loaded_body hl
      cases h1
      cases hl with
      | parsed hf => exact hf.converted
      | prepared hf hs => exact hf.converted
    obtain ⟨s, v, sl, rl, op, re, _, _, _, _, _, _, h7, -⟩ := prepareOneRule_ok hconv h2
    rcases h7 with ⟨_, h7⟩ | ⟨n0, n1, e1, e2, e3⟩
    · rw [h7] at hn'; cases hn'
    · rw [e3] at hn'; cases hn'
      have e1' : b.conditions = some n0 := by cases h1; exact e1
      obtain ⟨ht, hf⟩ := hh.harmless n0 e1'
      obtain ⟨b', m', hb, -⟩ := harmless_selects ht e2 hc
      exact flat_comes (flat_prepare hf e2) hb
  rw [errs_ruleAt ho hn hcase]
  intro hc
  cases hc with
  | prepared h hc =>
    cases hl with
    | parsed hf => have := h.prepared; rw [hf.prepared] at this; cases this
    | prepared hf hs =>
      obtain ⟨c', rule', k1, k2, rfl⟩ := setPredefined_ok hs
      rw [h1'] at k1; cases k1
      have := h.prepared
      simp at this; subst this
      exact quiet k2 hc
  | refused h hp =>
    cases hl with
    | parsed hf => exact hp ⟨{ r with predefined := g, prepared := some rule, ready := true }, by simp only [RuleObj.setPredefined, h1', h2]⟩
    | prepared hf hs =>
      have := setPredefined_ready hs
      rw [h.ready] at this; cases this
  | fresh h hp hr hc =>
    cases hl with
    | parsed hf =>
      obtain ⟨c', rule', k1, k2, rfl⟩ := setPredefined_ok hp
      rw [h1'] at k1; cases k1
      simp at hr; subst hr
      exact quiet k2 hc
    | prepared hf hs =>
      have := setPredefined_ready hs
      rw [h.ready] at this; cases this

/-- **C100**: a list of rules with harmless conditions, without ANY and ALL, is checked against every message: `Check` returns. The rules are parsed or prepared, with any tables. -/
theorem C100_check (ho : env.OrdOk) (hn : NumbersOk env) (h : ∀ r ∈ rs, ∃ b t, Loaded env g r b t ∧ RuleHarmless env t b) :
    ∀ msg, ∃ out, check env g msg rs = .ok out := by
  intro msg
  refine (errs_returns _).1 fun hx => ?_
  rw [errs_check] at hx
  obtain ⟨i, r, hr, he⟩ := hx
  obtain ⟨b, t, hl, hh⟩ := h r (List.mem_of_getElem? hr)
  exact harmless_rule ho hn hl hh i he

/-! ## Examples -/

/-- Conditions with numbers and with texts. -/
def harmlessConditions : Node :=
  .and [condNode Demo.env gs"payloadSize" gs"GT" gs"1000" none, .not (condNode Demo.env gs"jsonpath:$.spec.replicas" gs"GE" gs"3" none), condNode Demo.env gs"jsonpath:$.kind" gs"IN" gs"Pod,Job" none]

def harmlessRule : RuleObj := Demo.rule gs"block" (some harmlessConditions)

theorem demo_plain {m v : Str} (h : ∀ y, v ≠ '#' :: y) {w : Str} (hw : ValueResolves Demo.env {} m v w) : w = v :=
  resolves_unique hw (.plain h)

theorem harmlessConditions_harmless : HarmlessTree Demo.env {} harmlessConditions ∧ Flat harmlessConditions := by
  have pl : ∀ {m v : Str}, v.head? ≠ some '#' → ∀ {w : Str}, ValueResolves Demo.env {} m v w → w = v := by
    intro m v h w hw
    refine demo_plain ?_ hw
    rintro y rfl
    exact h rfl
  refine ⟨.and ?_, .and ?_⟩ <;> simp only [List.mem_cons, List.not_mem_nil, or_false]
  · rintro n (rfl | rfl | rfl)
    · refine .cond ⟨fun _ _ w hw => ?_, ?_, ?_, ?_, ?_⟩
      · rw [pl (by decide) hw]
        exact ⟨1000, intText_iff.2 (by decide)⟩
      all_goals simp
    · refine .not (.cond ⟨by simp, by simp, by simp, ?_, fun _ _ _ w hw => .inl ?_⟩)
      · rintro q h ⟨h1, -⟩
        obtain rfl : gs"$.spec.replicas" = q := by simpa using h
        revert h1; decide
      · rw [pl (by decide) hw]
        exact ⟨_, rfl⟩
    · refine .cond ⟨by simp, by simp, by simp, ?_, fun _ _ h _ _ => ?_⟩
      · rintro q h ⟨h1, -⟩
        obtain rfl : gs"$.kind" = q := by simpa using h
        revert h1; decide
      · obtain ⟨k, hk⟩ := h
        exact absurd hk (by cases k <;> decide)
  · rintro n (rfl | rfl | rfl)
    · exact .cond
    · exact .not .cond
    · exact .cond

theorem harmlessRule_harmless : RuleHarmless Demo.env {} harmlessRule.body := by
  have acc : ∀ {a m v}, (∃ c', validateOneCondition Demo.env { attr := a, method := m, value := v } = .ok c') → Acceptable Demo.env a m v := by
    rintro a m v ⟨c', h⟩
    exact (validateOneCondition_iff.1 h).1
  have hc : ∀ n, harmlessRule.body.conditions = some n → Copyable Demo.env n := by
    intro n hn
    obtain rfl := Option.some.inj hn
    refine .and (by simp) ?_
    simp only [List.mem_cons, List.not_mem_nil, or_false]
    rintro n (rfl | rfl | rfl)
    · exact .cond (acc ⟨_, rfl⟩) (by unfold NoControl; decide) (by unfold NoControl; decide) (by simp)
    · exact .not (.cond (acc ⟨_, rfl⟩) (by unfold NoControl; decide) (by unfold NoControl; decide) (by simp))
    · exact .cond (acc ⟨_, rfl⟩) (by unfold NoControl; decide) (by unfold NoControl; decide) (by simp)
  refine ⟨?_, hc, fun n hn => ?_⟩
  · exact ⟨_, _, copyRule_copyable Demo.env_ordOk hc [], rfl⟩
  · obtain rfl := Option.some.inj hn
    exact harmlessConditions_harmless

/-- The hypotheses of `C100_check` are met; `Check` returns for all messages. -/
example : ∀ msg, ∃ out, check Demo.env {} msg [harmlessRule] = .ok out :=
  C100_check Demo.env_ordOk demo_numbers fun r hr => by
    obtain rfl := List.mem_singleton.1 hr
    exact ⟨_, _, .parsed ⟨rfl, rfl, rfl⟩, harmlessRule_harmless⟩

/-- A size in Ki is accepted and not harmless: there is a message that makes the condition panic. -/
example : ∃ c, (parsed Demo.env gs"payloadSize" gs"GT" gs"1Ki").prepare Demo.env {} = .ok c ∧ ¬ ∀ p msg, ∃ x, testOneCondition Demo.env p c msg = .ok x := by
  refine ⟨_, rfl, ?_⟩
  rw [C100_condition demo_numbers (a := gs"payloadSize") (m := gs"GT") (v := gs"1Ki") (t := {}) rfl]
  intro h
  obtain ⟨n, hn⟩ := h.size rfl ⟨.gt, by decide⟩ gs"1Ki" (.plain (by intro y hy; cases hy))
  rw [intText_iff, show parseInt gs"1Ki" = none by decide] at hn
  cases hn

end Mapl.Props

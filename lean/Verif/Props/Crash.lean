import Verif.Lemmas.Crash
import Verif.Props.Documents

/-!
# C32: crashes while checking

`.error (.panic _)` is a Go panic. The full statement of C32, that checking validated rules never panics, is false: see the
theorems `C32_violated_…` and the general crash theorems. What holds is the implication from `Safe` (Spec/Crash.lean).
-/

namespace Mapl.Props

open Spec

variable {env : Env} {g t : Predef} {a m v w : Str} {r : Option (List RetVal)} {c : Condition} {msg : Msg} {p : List Nat}
  {rs : List RuleObj} {n : Node}

/-- **C32**, conditions: a condition that was prepared from its text and is safe on the message is judged. -/
theorem C32_condition_partial (hn : NumbersOk env) (h : (parsed env a m v r).prepare env t = .ok c) (hs : CondSafe env c msg) :
    ∃ x, testOneCondition env p c msg = .ok x := returns_condition hn ⟨t, a, m, v, r, h⟩ hs

/-- **C32**, trees: evaluation returns on every message on which the tree is safe. -/
theorem C32_tree_partial (hn : NumbersOk env) (hc : ∀ c ∈ leaves n, FromText env c) (hs : Safe env n msg) :
    ∃ o, eval env n p msg = .ok o := returns_eval env hn n p msg hc hs

/-- **C32**, `Check`: it returns if every rule is safe on the message. -/
theorem C32_check_partial (ho : env.OrdOk) (hn : NumbersOk env) (h : ∀ r ∈ rs, RuleSafe env g msg r) :
    ∃ out, check env g msg rs = .ok out :=
  returns_check.2 fun _ r hr => returns_ruleSafe ho hn (h r (List.mem_of_getElem? hr))

/-- **C32**. One rule on which checking does not return takes the whole of `Check` down, wherever it is in the list: `Check`
returns exactly if checking every single rule does. -/
theorem C32_one_rule_is_enough :
    (∃ out, check env g msg rs = .ok out) ↔ ∀ (k : Nat) (r : RuleObj), rs[k]? = some r → ∃ o, r.check env g [k] msg = .ok o :=
  returns_check

/-! ## Rules that are safe -/

/-- Three conditions under ANY and NOT. -/
def safeRule : RuleObj :=
  Demo.rule gs"block" (some (.and [Demo.cond gs"payloadSize" gs"GT" gs"100", .not (Demo.cond gs"jsonpath:$.kind" gs"EQ" gs"Service"),
    Demo.anyOf gs"jsonpath:$.containers" (Demo.cond gs"jsonpath:$RELATIVE.image" gs"RE" gs"nginx")]))

set_option maxRecDepth 100000 in
/-- Its prepared form. -/
theorem safeRule_prepared (p : List Nat) : ∃ r' rule a c1 c2 c3, safeRule.setPredefined Demo.env p {} = .ok (r', none) ∧ r'.prepared = some rule ∧
    rule.conditions = some (.and [.cond c1, .not (.cond c2), .any a (.cond c3)]) ∧
    (c1.origAttr = gs"payloadSize" ∧ c1.origMethod = gs"GT" ∧ c1.origValue = gs"100" ∧ c1.ret = none) ∧
    (c2.origAttr = gs"jsonpath:$.kind" ∧ c2.origMethod = gs"EQ" ∧ c2.origValue = gs"Service" ∧ c2.ret = none) ∧
    (c3.origAttr = gs"jsonpath:$RELATIVE.image" ∧ c3.origMethod = gs"RE" ∧ c3.origValue = gs"nginx" ∧ c3.ret = none) ∧
    a.parent = gs"$.containers" ∧ a.queries = [⟨gs"$.containers"⟩] ∧ a.ret = [] := by
  refine ⟨?r, ?rule, ?a, ?c1, ?c2, ?c3, ?h1, ?h2, ?h3, ?h4⟩
  case h1 => with_unfolding_all rfl
  case h2 => with_unfolding_all rfl
  case h3 => with_unfolding_all rfl
  case h4 => with_unfolding_all exact ⟨⟨rfl, rfl, rfl, rfl⟩, ⟨rfl, rfl, rfl, rfl⟩, ⟨rfl, rfl, rfl, rfl⟩, rfl, rfl, rfl⟩

/-- A path condition that does not ask for entries and reports nothing is safe on parsed documents. -/
theorem path_safe {q : Str} (hI : msg.rawI.isSome) (ha : c.origAttr = gs"jsonpath:" ++ q) (hr : c.ret = none) (he : ¬ AsksEntry q) :
    CondSafe env c msg where
  size h := by rw [ha] at h; simp at h
  hours h := by rw [ha] at h; simp at h
  version h := by rw [ha] at h; simp at h
  path q' h := by
    rw [ha] at h
    simp at h; subst h
    exact ⟨fun _ h => absurd h he, fun h => by rw [h] at hI; simp at hI⟩
  report ret h := by rw [hr] at h; simp at h

theorem safeRule_safe : RuleSafe Demo.env {} Demo.msgI safeRule := by
  refine .unprepared rfl rfl fun p => ?_
  obtain ⟨r', rule, a, c1, c2, c3, h1, h2, h3, k1, k2, k3, e1, e2, e3⟩ := safeRule_prepared p
  refine ⟨r', rule, h1, h2, fun n hn => ?_⟩
  rw [h3] at hn
  simp at hn; subst hn
  have hu : usesParsed a Demo.msgI = true := by rw [usesParsed_iff, e2]; simp [Demo.msgI]
  have notEntry : ∀ q, pathQuery q ≠ gs"$KEY" → hasPrefix (pathQuery q) gs"$VALUE" = false → ¬ AsksEntry q := by
    rintro q h1 h2 (h | h)
    · exact h1 h
    · rw [hasPrefix_iff.2 h] at h2; simp at h2
  refine ⟨?_, path_safe (q := gs"$.kind") rfl k2.1 k2.2.2.2 (notEntry _ (by decide) (by decide)), ⟨?_, fun p' l hl m' hm => ⟨?_, ?_⟩⟩, trivial⟩
  · refine ⟨fun _ _ => ⟨100, by rw [k1.2.2.1, intText_iff]; rfl⟩, fun h => ?_, fun h => ?_, fun q h => ?_, fun ret h => ?_⟩
    · rw [k1.1] at h; simp at h
    · rw [k1.1] at h; simp at h
    · rw [k1.1] at h; simp at h
    · rw [k1.2.2.2] at h; simp at h
  · unfold SelectSafe
    rw [if_pos hu, e1, if_neg (by decide)]
    refine ⟨Demo.doc, by rw [parentDoc, e1]; rfl, ?_⟩
    rw [e2]
    simp only [List.mem_singleton, forall_eq]
    exact .array _
  · have hc := usesParsed_iff.1 hu
    rw [scopes, if_pos hc] at hl
    simp only [Go.map_eq_ok] at hl
    obtain ⟨js, _, hl⟩ := hl
    simp at hl; subst hl
    obtain ⟨j, _, rfl⟩ := List.mem_map.1 hm
    exact path_safe (q := gs"$RELATIVE.image") rfl k3.1 k3.2.2.2 (notEntry _ (by decide) (by decide))
  · rw [e3]; simp

/-- The hypotheses of `C32_check_partial` are met, with a message that has the document parsed. -/
example : Demo.env.OrdOk ∧ NumbersOk Demo.env ∧ ∀ r ∈ [safeRule, safeRule], RuleSafe Demo.env {} Demo.msgI r :=
  ⟨Demo.env_ordOk, demo_numbers, by simpa using safeRule_safe⟩

/-! ## Rules that crash -/

theorem compareInt_crash (h : Compares m) (x : Int) : compareInt x m none = .error (.panic .nilDeref) := by
  rw [compares_iff] at h
  simp only [List.mem_cons, List.not_mem_nil, or_false] at h
  rcases h with rfl | rfl | rfl | rfl | rfl | rfl | rfl | rfl | rfl | rfl | rfl | rfl | rfl | rfl <;> rfl

theorem compareFloat_crash (h : Compares m) (x : F64) : compareFloat x m none = .error (.panic .nilDeref) := by
  rw [compares_iff] at h
  simp only [List.mem_cons, List.not_mem_nil, or_false] at h
  rcases h with rfl | rfl | rfl | rfl | rfl | rfl | rfl | rfl | rfl | rfl | rfl | rfl | rfl | rfl <;> rfl

/-- **C32.** An accepted comparison of the payload size with something that is not an integer crashes on every message. -/
theorem C32_size_crashes (h : (parsed env gs"payloadSize" m v r).prepare env t = .ok c) (hw : ValueResolves env t m v w) (hm : Compares m)
    (hn : ∀ n, ¬ IntText w n) : testOneCondition env p c msg = .error (.panic .nilDeref) := by
  have hl := prepare_leaf h hw
  rw [intText_none] at hn
  obtain ⟨k, hk⟩ := hm
  obtain ⟨f1, f2⟩ := spelling_final hk
  have hv : parseInt v = none := by
    cases hw with
    | plain _ => exact hn
    | list => rfl
    | alternatives => rfl
    | string => rfl
  rw [test_payload hl, f1, hl.valueInt, f2, hn, hv]
  simp [compareInt_crash ⟨k, hk⟩]

/-- A size written with a unit is accepted. -/
example : (∃ c, (parsed Demo.env gs"payloadSize" gs"GT" gs"1Ki" none).prepare Demo.env {} = .ok c) ∧ (∀ n, ¬ IntText gs"1Ki" n) ∧
    Compares gs"GT" := ⟨Demo.isOk_ok (by decide +kernel), intText_none.2 (by decide), .gt, by decide⟩

/-- **C32.** An accepted comparison of the time of day with something that is not a number crashes on every message. -/
theorem C32_hours_crashes (hnum : NumbersOk env) (h : (parsed env gs"utcHoursFromMidnight" m v r).prepare env t = .ok c)
    (hw : ValueResolves env t m v w) (hm : Compares m) (hn : parseNumber env w = none) :
    testOneCondition env p c msg = .error (.panic .nilDeref) := by
  have hl := prepare_leaf h hw
  obtain ⟨k, hk⟩ := hm
  obtain ⟨f1, f2⟩ := spelling_final hk
  obtain ⟨-, -, g3⟩ := hnum.value hw hn
  rw [test_hours hl, f1, hl.valueFloat, f2, hn, g3]
  simp [compareFloat_crash ⟨k, hk⟩]

/-- **C32.** Every accepted condition on the encryption version crashes on messages that have none. -/
theorem C32_version_crashes (h : (parsed env gs"encryptionVersion" m v r).prepare env t = .ok c) (hw : ValueResolves env t m v w)
    (hv : msg.encryptionVersion = none) : testOneCondition env p c msg = .error (.panic .nilDeref) := by
  rw [test_version (prepare_leaf h hw), hv]
  rfl

example : (∃ c, (parsed Demo.env gs"encryptionVersion" gs"GE" gs"1" none).prepare Demo.env {} = .ok c) ∧
    Demo.msgI.encryptionVersion = none := ⟨Demo.isOk_ok (by decide +kernel), rfl⟩

/-- **C32.** In a text document, an accepted comparison with a value that is not a number crashes whenever the path shows a
number. -/
theorem C32_text_crashes {q s : Str} (hnum : NumbersOk env) (h : (parsed env (gs"jsonpath:" ++ q) m v r).prepare env t = .ok c)
    (hw : ValueResolves env t m v w) (hm : Compares m) (hn : parseNumber env w = none) {d : Str} (he : ¬ EntryPath q) (hd : DocumentB msg q d)
    (hs : env.jsGet d (pathQuery q) = (s, false)) (hc : Clean s) (hx : ∃ x, parseNumber env s = some x) :
    testOneCondition env p c msg = .error (.panic .nilDeref) := by
  have hl := prepare_leaf h hw
  obtain ⟨k, hk⟩ := hm
  obtain ⟨f1, f2⟩ := spelling_final hk
  obtain ⟨-, -, g3⟩ := hnum.value hw hn
  obtain ⟨x, hx⟩ := hx
  have hf : c.valueFloat = none := by rw [hl.valueFloat, f2, hn, g3]; rfl
  have hflag : testJsonpathFlag env p c msg = .error (.panic .nilDeref) := by
    rw [flag_bytes hl (.path he hd hs), judge_raw (.inl rfl) hc]
    unfold compareBytesText
    rw [hx, hf, hl.method, f1]
    dsimp only
    rw [compareFloat_crash ⟨k, hk⟩, if_pos]
    clear hx h hl hs
    cases k <;> simp only [NumMethod.spellings, List.mem_cons, List.not_mem_nil, or_false] at hk <;>
      rcases hk with rfl | rfl | rfl | rfl <;> simp [toUpper]
  obtain ⟨-, h1, -⟩ := leafAttr_path hl.attr
  unfold testOneCondition
  rw [h1, hflag]
  simp

/-- **C32.** Asking for the key or value of an entry where the scope is not an object crashes (parsed documents). -/
theorem C32_entry_crashes {q : Str} {d : Json} (h : (parsed env (gs"jsonpath:" ++ q) m v r).prepare env t = .ok c)
    (hw : ValueResolves env t m v w) (hr : pathRel q = true) (hq : AsksEntry q) (hI : msg.rawI.isSome) (hd : msg.rawIRel = some d) (hno : ∀ kvs, d ≠ .obj kvs) :
    testOneCondition env p c msg = .error (.panic .typeAssertion) := by
  have hl := prepare_leaf h hw
  obtain ⟨hok, h1, h2, h3, h4, j, h5, hj⟩ := leafAttr_path hl.attr
  have hflag : ∀ p, testJsonpathFlag env p c msg = .error (.panic .typeAssertion) := by
    intro p
    unfold testJsonpathFlag testJsonpathOnInterface getKeyValueFromInterface
    rw [h5, if_pos ⟨hI, rfl⟩, h2, h3, h4, hr, hd, if_neg (by simp), if_pos rfl]
    dsimp only
    rw [if_pos (hq.imp id hasPrefix_iff.2)]
    cases d with
    | obj kvs => exact absurd rfl (hno kvs)
    | _ => rfl
  unfold testOneCondition
  rw [h1, hflag]
  simp

theorem elements_crash {d : Json} : ∀ {qs : List JPath} {j : Nat}, (∃ q ∈ qs, ¬ Ranged (env.jpGet q.src d).1) →
    queryElements env p (some d) j qs = .error (.panic .typeAssertion)
  | [], _, ⟨_, h, _⟩ => by simp at h
  | q :: qs, j, h => by
    unfold queryElements
    simp only [deref, Go.ok_bind]
    by_cases hq : Ranged (env.jpGet q.src d).1
    · obtain ⟨l, hl⟩ := returns_arrange (env := env) (p := 0 :: j :: p) hq
      obtain ⟨q', hm, h'⟩ := h
      rcases List.mem_cons.1 hm with rfl | hm
      · exact absurd hq h'
      · rw [hl, Go.ok_bind, elements_crash ⟨q', hm, h'⟩]; rfl
    · have : arrangeArray env (0 :: j :: p) (env.jpGet q.src d).1 = .error (.panic .typeAssertion) := by
        generalize (env.jpGet q.src d).1 = x at hq
        cases x with
        | null => exact absurd .null hq
        | arr l => exact absurd (.array l) hq
        | obj l => exact absurd (.object l) hq
        | _ => rfl
      rw [this]; rfl

/-- **C32.** ANY and ALL over a path that selects a text, a number or a boolean crash (parsed documents), whatever the
condition inside. -/
theorem C32_range_crashes {q : AnyAll} {d : Json} (hu : usesParsed q msg = true) (hp : q.parent ≠ gs"$RELATIVE*") (hd : parentDoc q msg = some d)
    (hq : ∃ x ∈ q.queries, ¬ Ranged (env.jpGet x.src d).1) :
    eval env (.any q n) p msg = .error (.panic .typeAssertion) ∧ eval env (.all q n) p msg = .error (.panic .typeAssertion) := by
  have hc := usesParsed_iff.1 hu
  have key : getArrayOfInterfaces env p q msg = .error (.panic .typeAssertion) := by
    unfold getArrayOfInterfaces
    rw [parentDoc] at hd
    split at hd
    · next hr => rw [if_pos hr, if_neg hp, hd]; exact elements_crash hq
    · next hr => rw [if_neg hr, hd]; exact elements_crash hq
  constructor
  · unfold eval evalAny
    rw [if_pos hc, key]; rfl
  · unfold eval evalAll
    rw [if_pos hc, key]; rfl

/-- The path `$.kind` of the example document is a text. -/
example : ¬ Ranged (Demo.env.jpGet gs"$.kind" Demo.doc).1 := by
  intro h
  have : (Demo.env.jpGet gs"$.kind" Demo.doc).1 = .str gs"Pod" := rfl
  rw [this] at h
  cases h

/-! ## Counterexamples to the full statement -/

/-- Whether a call panics. -/
def panics {α : Type} : Go α → Bool
  | .error (.panic _) => true
  | _ => false

/-- `ValidateRule` accepts the rule, and checking it on the message panics. -/
def AcceptedButPanics (r : RuleObj) (m : Msg) : Prop :=
  Demo.isOk (validateRule Demo.env [] r.body) = true ∧ panics (check Demo.env {} m [r]) = true

instance (r : RuleObj) (m : Msg) : Decidable (AcceptedButPanics r m) := inferInstanceAs (Decidable (_ ∧ _))

/-- **C32 is violated**: a size that is not an integer. -/
theorem C32_violated_size : AcceptedButPanics (Demo.rule gs"block" (some (.and [Demo.cond gs"payloadSize" gs"GT" gs"1Ki"]))) Demo.msgI := by
  decide +kernel

/-- **C32 is violated**: a message without encryption version. -/
theorem C32_violated_version :
    AcceptedButPanics (Demo.rule gs"block" (some (.and [Demo.cond gs"encryptionVersion" gs"GE" gs"1"]))) Demo.msgI := by
  decide +kernel

/-- **C32 is violated**: a number in a text document compared with a word. -/
theorem C32_violated_text :
    AcceptedButPanics (Demo.rule gs"block" (some (.and [Demo.cond gs"jsonpath:$.replicas" gs"EQ" gs"many"]))) Demo.msgB := by
  decide +kernel

/-- **C32 is violated**: ANY over a scalar. -/
theorem C32_violated_range :
    AcceptedButPanics (Demo.rule gs"block" (some (Demo.anyOf gs"jsonpath:$.kind" (Demo.cond gs"jsonpath:$RELATIVE.x" gs"EQ" gs"y")))) Demo.msgI := by
  decide +kernel

/-- **C32 is violated**: the key of an element that is a text. -/
theorem C32_violated_entry :
    AcceptedButPanics (Demo.rule gs"block" (some (Demo.anyOf gs"jsonpath:$.names" (Demo.cond gs"jsonpath:$KEY" gs"EQ" gs"y"))))
      { rawI := some (.obj [(gs"names", .arr [.str gs"a"])]) } := by
  decide +kernel

/-- **C32 is violated**: ranging over the element in scope where there is none. -/
theorem C32_violated_scope :
    AcceptedButPanics (Demo.rule gs"block" (some (Demo.anyOf gs"jsonpath:$RELATIVE*" (Demo.cond gs"jsonpath:$KEY" gs"EQ" gs"y")))) Demo.msgI := by
  decide +kernel

end Mapl.Props

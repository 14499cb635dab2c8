import Verif.Props.Leaf
import Verif.Lemmas.Words

/-!
# C29 and C30: spellings of methods, lists
-/

namespace Mapl.Props

open Spec

variable {env : Env} {t : Predef} {a v w : Str} {r : Option (List RetVal)} {c c' : Condition} {msg : Msg} {p : List Nat} {s s' : Str}

theorem leafText_same (env : Ext) {s s' : Str} (h : ∃ g ∈ realSynonyms, s ∈ g ∧ s' ∈ g) (w x : Str) :
    leafText env s w x = leafText env s' w x ∧ leafLabel env s w x = leafLabel env s' w x ∧ finalValue s w = w ∧ finalValue s' w = w ∧
    isRegexMethod (finalMethod s) = isRegexMethod (finalMethod s') ∧
    (∀ u u', compareString u (finalMethod s) u' = compareString u (finalMethod s') u') ∧
    (∀ u o, compareInt u (finalMethod s) o = compareInt u (finalMethod s') o) ∧
    (∀ u o, compareFloat u (finalMethod s) o = compareFloat u (finalMethod s') o) := by
  obtain ⟨g, hg, h1, h2⟩ := h
  simp only [realSynonyms, List.mem_cons, List.not_mem_nil, or_false] at hg
  rcases hg with rfl | rfl | rfl | rfl | rfl | rfl | rfl | rfl | rfl | rfl <;>
    simp only [List.mem_cons, List.not_mem_nil, or_false] at h1 h2
  case inr.inl =>
    rcases h1 with rfl | rfl | rfl | rfl <;> rcases h2 with rfl | rfl | rfl | rfl <;>
      exact ⟨rfl, rfl, rfl, rfl, rfl, fun _ _ => rfl, fun _ _ => rfl, fun _ _ => rfl⟩
  all_goals
    rcases h1 with rfl | rfl <;> rcases h2 with rfl | rfl <;>
      exact ⟨rfl, rfl, rfl, rfl, rfl, fun _ _ => rfl, fun _ _ => rfl, fun _ _ => rfl⟩


/-- **C29**, attributes that are not json paths. The full statement is about all groups of `synonyms`; it fails for IN and
NIN (`C29_violated_in`) and for RE with lists (`C29_violated_list`, which is excluded here since the two values have to
resolve to the same text). -/
theorem C29_partial {g : List Str} (hg : g ∈ realSynonyms) (hs : s ∈ g) (hs' : s' ∈ g) (ha : ¬ ∃ q, a = gs"jsonpath:" ++ q)
    (h : (parsed env a s v r).prepare env t = .ok c) (h' : (parsed env a s' v r).prepare env t = .ok c')
    (hw : ValueResolves env t s v w) (hw' : ValueResolves env t s' v w) :
    testOneCondition env p c msg = testOneCondition env p c' msg := by
  have hl := prepare_leaf h hw
  have hl' := prepare_leaf h' hw'
  have hsame := leafText_same env ⟨g, hg, hs, hs'⟩ w
  obtain ⟨-, -, hv, hv', hre, hstr, hint, hflt⟩ := hsame []
  have htext : ∀ x, compareText env c x = compareText env c' x := fun x => by
    rw [compareText_leaf hl, compareText_leaf hl', (hsame x).1]
  have hvi : c.valueInt = c'.valueInt := by rw [hl.valueInt, hl'.valueInt, hv, hv']
  have hvf : c.valueFloat = c'.valueFloat := by rw [hl.valueFloat, hl'.valueFloat, hv, hv']
  have ho : c.valueIsReceiverObject = c'.valueIsReceiverObject := by rw [hl.object, hl'.object, hv, hv']
  have hlb : c.valueIsReceiverLabel = c'.valueIsReceiverLabel := by rw [hl.label, hl'.label, hv, hv']
  have hlab : ∀ x, (if isRegexMethod c.method then compareRegex env x c.method c.valueRegex
        else if c.method = gs"EX" ∨ c.method = gs"ex" then true
        else compareStringWithWildcards env x c.method c.valueStringRegex) =
      (if isRegexMethod c'.method then compareRegex env x c'.method c'.valueRegex
        else if c'.method = gs"EX" ∨ c'.method = gs"ex" then true
        else compareStringWithWildcards env x c'.method c'.valueStringRegex) := by
    intro x
    have hx : ∀ (n : Str) (re re' : Option Re), (if isRegexMethod n then compareRegex env x n re
        else if n = gs"EX" ∨ n = gs"ex" then true else compareStringWithWildcards env x n re') =
        if n = gs"EX" ∨ n = gs"ex" then true else if isRegexMethod n then compareRegex env x n re
          else compareStringWithWildcards env x n re' := by
      intro n re re'
      by_cases h1 : n = gs"EX" ∨ n = gs"ex"
      · rw [if_pos h1, if_pos h1]
        rcases h1 with rfl | rfl <;> rfl
      · rw [if_neg h1, if_neg h1]
    rw [hx, hx]
    have h2 := (hsame x).2.1
    unfold leafLabel at h2
    rw [← compareText_leaf hl, ← compareText_leaf hl', ← hl.method, ← hl'.method] at h2
    exact h2
  have hint' : ∀ x, compareInt x c.method c'.valueInt = compareInt x c'.method c'.valueInt := fun x => by
    rw [hl.method, hl'.method, hint]
  have hflt' : ∀ x, compareFloat x c.method c'.valueFloat = compareFloat x c'.method c'.valueFloat := fun x => by
    rw [hl.method, hl'.method, hflt]
  generalize hat : a = a' at ha
  have hattr := hl.attr
  rw [hat] at hattr
  cases hattr with
  | simple hm hc =>
    subst hat
    have hc' := leafAttr_simple hm hl'.attr
    unfold testOneCondition
    rw [hc, hc']
    simp only [simpleAttributes, List.mem_cons, List.not_mem_nil, or_false] at hm
    clear hl hl' h h' ha hc hc' hlab
    rcases hm with rfl | rfl | rfl | rfl | rfl | rfl | rfl | rfl | rfl | rfl <;>
      simp [htext, hvi, hvf, hint', hflt']
  | senderField hc hx =>
    subst hat
    obtain ⟨hc', hx'⟩ := leafAttr_sender hl'.attr
    unfold testOneCondition testSenderAttribute
    rw [hc, hc', hx, hx', ← ho]
    simp only [List.cons.injEq, reduceCtorEq, and_false, or_self, Char.reduceEq, if_false, if_true]
    by_cases hob : c.valueIsReceiverObject = true
    · rw [if_pos hob, if_pos hob]
      have e := hl.objectName hob
      have e' := hl'.objectName (ho ▸ hob)
      rw [hv] at e
      rw [hv'] at e'
      rw [e, e', hl.method, hl'.method, hre, hstr]
    · rw [if_neg hob, if_neg hob, htext]
  | receiverField hc hx =>
    subst hat
    obtain ⟨hc', hx'⟩ := leafAttr_receiver hl'.attr
    have e : testReceiverAttribute env c msg = testReceiverAttribute env c' msg := by
      unfold testReceiverAttribute
      rw [hx, hx', htext]
    unfold testOneCondition
    rw [hc, hc', e]
    simp
  | senderLabel hc hf hx hk =>
    subst hat
    obtain ⟨hc', hf', hx'⟩ := leafAttr_senderLabel hl'.attr
    have e : testSenderLabel env c msg = testSenderLabel env c' msg := by
      unfold testSenderLabel
      simp only [hlab]
      rw [hf, hf', hx, hx', ← hlb]
      by_cases hob : c.valueIsReceiverLabel = true
      · have e := hl.labelName hob
        have e' := hl'.labelName (hlb ▸ hob)
        rw [hv] at e
        rw [hv'] at e'
        simp only [hob, if_true, e, e', hl.method, hl'.method, hre, hstr]
      · simp only [hob, if_false]
        rfl
    unfold testOneCondition
    rw [hc, hc', e]
    simp
  | receiverLabel hc hf hx hk =>
    subst hat
    obtain ⟨hc', hf', hx'⟩ := leafAttr_receiverLabel hl'.attr
    have e : testReceiverLabel env c msg = testReceiverLabel env c' msg := by
      unfold testReceiverLabel
      rw [hf, hf', hx, hx']
      simp only [hlab]
    unfold testOneCondition
    rw [hc, hc', e]
    simp
  | path => exact absurd ⟨_, rfl⟩ ha

theorem pathMethods (env : Ext) {g : List Str} (hg : g ∈ pathSynonyms) (hs : s ∈ g) (hs' : s' ∈ g) :
    toUpper s = toUpper s' ∧ finalMethod s = s ∧ finalMethod s' = s' ∧ (∀ w, finalValue s w = w) ∧ (∀ w, finalValue s' w = w) ∧
    (∀ u u', compareString u s u' = compareString u s' u') ∧ (∀ u o, compareFloat u s o = compareFloat u s' o) ∧
    (∀ u o, compareRegex env u s o = compareRegex env u s' o) ∧ ((s = gs"NEX" ∨ s = gs"nex") ↔ (s' = gs"NEX" ∨ s' = gs"nex")) := by
  simp only [pathSynonyms, List.mem_cons, List.not_mem_nil, or_false] at hg
  rcases hg with rfl | rfl | rfl | rfl | rfl | rfl | rfl | rfl | rfl | rfl | rfl <;>
    simp only [List.mem_cons, List.not_mem_nil, or_false] at hs hs' <;>
    rcases hs with rfl | rfl <;> rcases hs' with rfl | rfl <;>
      exact ⟨rfl, rfl, rfl, fun _ => rfl, fun _ => rfl, fun _ _ => rfl, fun _ _ => rfl, fun _ _ => rfl, by simp⟩

/-- **C29**, json paths. Here NE and NEQ are two methods (`C29_violated_ne`). -/
theorem C29_path_partial {g : List Str} {q : Str} (hg : g ∈ pathSynonyms) (hs : s ∈ g) (hs' : s' ∈ g)
    (h : (parsed env (gs"jsonpath:" ++ q) s v r).prepare env t = .ok c) (h' : (parsed env (gs"jsonpath:" ++ q) s' v r).prepare env t = .ok c')
    (hw : ValueResolves env t s v w) (hw' : ValueResolves env t s' v w) :
    testOneCondition env p c msg = testOneCondition env p c' msg := by
  have hl := prepare_leaf h hw
  have hl' := prepare_leaf h' hw'
  obtain ⟨hu, hm, hm', hv, hv', hstr, hflt, hre, hnex⟩ := pathMethods env.toExt hg hs hs'
  have em : c.method = s := by rw [hl.method, hm]
  have em' : c'.method = s' := by rw [hl'.method, hm']
  have hvi : c.valueInt = c'.valueInt := by rw [hl.valueInt, hl'.valueInt, hv, hv']
  have hvf : c.valueFloat = c'.valueFloat := by rw [hl.valueFloat, hl'.valueFloat, hv, hv']
  have hvr : c.valueRegex = c'.valueRegex := by rw [hl.regex, hl'.regex, hv, hv']
  have hvv : c.value = c'.value := by rw [hl.value, hl'.value, hv, hv']
  have hemp : emptyResult c = emptyResult c' := by unfold emptyResult; rw [em, em']; simp only [decide_eq_decide]; exact hnex
  have hi : ∀ x, judgeInterfaceValue env c x = judgeInterfaceValue env c' x := by
    have : ∀ x, compareInterfaceText env c x = compareInterfaceText env c' x := fun x => by
      unfold compareInterfaceText
      rw [em, em', hu, hvi, hvf, hvr, hvv]
      simp only [hstr, hflt, hre]
    intro x
    unfold judgeInterfaceValue
    simp only [hemp, this]
  have hb : ∀ x, judgeBytesValue env c x = judgeBytesValue env c' x := by
    have : ∀ x, compareBytesText env c x = compareBytesText env c' x := fun x => by
      unfold compareBytesText
      rw [em, em', hu, hvf, hvr, hvv]
      simp only [hstr, hflt, hre]
    intro x
    unfold judgeBytesValue
    simp only [hemp, this]
  obtain ⟨-, h1, h2, h3, h4, j, h5, h6⟩ := leafAttr_path hl.attr
  obtain ⟨-, h1', h2', h3', h4', j', h5', h6'⟩ := leafAttr_path hl'.attr
  have hj : j = j' := by rw [h6] at h6'; simpa using h6'
  subst hj
  have hflag : testJsonpathFlag env p c msg = testJsonpathFlag env p c' msg := by
    unfold testJsonpathFlag testJsonpathOnInterface testJsonpath getKeyValueFromInterface
    rw [h2, h2', h3, h3', h4, h4', h5, h5']
    simp only [hi, hb]
  unfold testOneCondition
  rw [h1, h1', hflag, hl.ret, hl'.ret]
  simp only [List.cons.injEq, reduceCtorEq, and_false, false_and, or_self, Char.reduceEq, if_false]

/-- **C29.** Acceptance does not depend on the spelling either. -/
theorem C29_accepted {g : List Str} (hg : g ∈ realSynonyms) (hs : s ∈ g) (hs' : s' ∈ g) :
    Acceptable env a s w ↔ Acceptable env a s' w := by
  have key : ∀ g ∈ realSynonyms, ∀ s ∈ g, ∀ s' ∈ g, (s ∈ orderMethods → s' ∈ orderMethods) ∧ (s ∈ patternMethods → s' ∈ patternMethods) ∧
      (s = gs"IN" ∨ s = gs"NIN" → s' = gs"IN" ∨ s' = gs"NIN") ∧ s' ∈ allMethods ∧ (s = gs"EQ" ∨ s = gs"eq" → s' = gs"EQ" ∨ s' = gs"eq") := by
    simp [realSynonyms, orderMethods, patternMethods, allMethods]
  have mono : ∀ s ∈ g, ∀ s' ∈ g, Acceptable env a s w → Acceptable env a s' w := by
    intro s hs s' hs' h
    obtain ⟨k1, k2, k3, k4, k5⟩ := key g hg s hs s' hs'
    obtain ⟨b1, b2, b3, -, -⟩ := key g hg s' hs' s hs
    refine ⟨?_, k4, fun h' => h.value.number (b1 h'), fun h' => h.value.pattern (b2 h'), fun h' => h.value.list (b3 h'), h.value.label⟩
    cases h.attr with
    | simple h hv => exact .simple h hv
    | version h => exact .version (h.imp k1 k5)
    | senderField h => exact .senderField (fun h' => h (b1 h'))
    | receiverField h => exact .receiverField (fun h' => h (b1 h'))
    | senderLabel ha h => exact .senderLabel ha (fun h' => h (b1 h'))
    | receiverLabel ha h => exact .receiverLabel ha (fun h' => h (b1 h'))
    | path hp => exact .path hp
  exact ⟨mono s hs s' hs', mono s' hs' s hs⟩

/-- **C29** is violated by the lower case spellings of IN and NIN: they are accepted but never hold. -/
theorem C29_violated_in : ∃ (env : Env) (msg : Msg), msg.domain = gs"a" ∧
    Answers env {} [] msg gs"domain" gs"IN" gs"a,b" true ∧ Answers env {} [] msg gs"domain" gs"in" gs"a,b" false ∧
    Answers env {} [] msg gs"domain" gs"NIN" gs"b" true ∧ Answers env {} [] msg gs"domain" gs"nin" gs"b" false :=
  ⟨Demo.env, { domain := gs"a" }, rfl, answers_of (by decide +kernel), answers_of (by decide +kernel), answers_of (by decide +kernel),
   answers_of (by decide +kernel)⟩

/-- **C29** is violated by NE and NEQ on json paths. -/
theorem C29_violated_ne : ∃ (env : Env) (msg : Msg), SelectsText env msg gs"$.kind" gs"Pod" ∧
    Answers env {} [] msg gs"jsonpath:$.kind" gs"NEQ" gs"Job" true ∧ Answers env {} [] msg gs"jsonpath:$.kind" gs"NE" gs"Job" false :=
  ⟨Demo.env, Demo.msgI, .parsed (j := .str gs"Pod") (.path (d := Demo.doc) (by rintro (⟨x, h⟩ | ⟨x, h⟩) <;> simp at h) ⟨rfl, rfl⟩ (.found rfl)) .string ⟨by simp, by decide, by decide, by decide⟩ (by simp),
   answers_of (by decide +kernel), answers_of (by decide +kernel)⟩

/-- **C29** is violated by RE and re with a predefined list: RE joins its elements with bars, re with commas. -/
theorem C29_violated_list : ∃ (env : Env) (t : Predef) (msg : Msg), lookup gs"l" t.listsNoRefs = some [gs"a", gs"b"] ∧
    Answers env t [] msg gs"domain" gs"RE" gs"#l" true ∧ Answers env t [] msg gs"domain" gs"re" gs"#l" false :=
  ⟨Demo.env, { listsNoRefs := [(gs"l", [gs"a", gs"b"])] }, { domain := gs"a" }, rfl, answers_of (by decide +kernel), answers_of (by decide +kernel)⟩

example : Answers Demo.env {} [] { domain := gs"x.org" } gs"domain" gs"NEQ" gs"y" true ∧
    Answers Demo.env {} [] { domain := gs"x.org" } gs"domain" gs"ne" gs"y" true ∧ [gs"NEQ", gs"neq", gs"NE", gs"ne"] ∈ realSynonyms ∧
    ValueResolves Demo.env {} gs"NEQ" gs"y" gs"y" ∧ ValueResolves Demo.env {} gs"ne" gs"y" gs"y" :=
  ⟨answers_of (by decide +kernel), answers_of (by decide +kernel), by decide, .plain (by simp), .plain (by simp)⟩

example : Answers Demo.env {} [] Demo.msgI gs"jsonpath:$.kind" gs"RE" gs"Pod" true ∧
    Answers Demo.env {} [] Demo.msgI gs"jsonpath:$.kind" gs"re" gs"Pod" true :=
  ⟨answers_of (by decide +kernel), answers_of (by decide +kernel)⟩

/-! ## C30 -/

variable {m : Str} {words : List Str}

/-- The answer of a pattern built from a list of words. -/
theorem words_answer (hre : RegexpOk env) (hl : ∀ x ∈ words, PlainWord x) (hn : words ≠ []) (hw : Written words w) (x : Str) :
    (m = gs"IN" ∨ m = gs"IS" → compareRegex env x (finalMethod m) (compile env (finalValue m w)) = decide (x ∈ words)) ∧
    (m = gs"NIN" → compareRegex env x (finalMethod m) (compile env (finalValue m w)) = decide (x ∉ words)) := by
  obtain ⟨re, h1, h2⟩ := readPattern_words hl hn hw
  obtain ⟨hok, hmatch⟩ := hre _ _ h1
  have hm : ∀ x, env.reMatch (listPattern w) x = decide (x ∈ words) := fun x => by
    rw [Bool.eq_iff_iff, hmatch, h2, decide_eq_true_iff]
  constructor
  · rintro (rfl | rfl) <;> simp [finalMethod, finalValue, compareRegex, compile, hok, Re.matches, hm]
  · rintro rfl
    simp [finalMethod, finalValue, compareRegex, compile, hok, Re.matches, hm]

theorem list_regex : (m = gs"IN" ∨ m = gs"IS" ∨ m = gs"NIN") → isRegexMethod (finalMethod m) = true := by
  rintro (rfl | rfl | rfl) <;> rfl

theorem written_start (hl : ∀ x ∈ words, PlainWord x) (hw : Written words w) :
    (¬ ∃ y, w = gs"$receiver." ++ y) ∧ ¬ ∃ y, w = gs"receiverLabel[" ++ y := by
  constructor
  · rintro ⟨y, rfl⟩
    rcases hw with h | h
    · exact join_clean hl (c := '$') (by simp [special]) (by rw [← h]; simp)
    · simp at h
  · rintro ⟨y, rfl⟩
    rcases hw with h | h
    · exact join_clean hl (c := '[') (by simp [special]) (by rw [← h]; simp)
    · simp at h

/-- **C30**, attributes that are texts. -/
theorem C30_text {f : Msg → Str} (hre : RegexpOk env) (ht : TextAttr a f) (hl : ∀ x ∈ words, PlainWord x) (hn : words ≠ [])
    (h : (parsed env a m v r).prepare env t = .ok c) (hv : ValueResolves env t m v w) (hw : Written words w) :
    (m = gs"IN" ∨ m = gs"IS" → testOneCondition env p c msg = .ok (decide (f msg ∈ words), [])) ∧
    (m = gs"NIN" → testOneCondition env p c msg = .ok (decide (f msg ∉ words), [])) := by
  rw [test_text (prepare_leaf h hv) ht (fun _ => (written_start hl hw).1)]
  have ha := words_answer (m := m) hre hl hn hw (f msg)
  unfold leafText
  constructor <;> intro hm
  · rw [if_pos (list_regex (by tauto)), ha.1 hm]
  · rw [if_pos (list_regex (by tauto)), ha.2 hm]

/-- **C30**, labels: a missing label is neither in the list nor outside it. -/
theorem C30_label {f : Msg → Option Str} (hre : RegexpOk env) (ht : LabelAttr a f) (hl : ∀ x ∈ words, PlainWord x) (hn : words ≠ [])
    (h : (parsed env a m v r).prepare env t = .ok c) (hv : ValueResolves env t m v w) (hw : Written words w) :
    (m = gs"IN" ∨ m = gs"IS" → testOneCondition env p c msg = .ok (decide (∃ x ∈ words, f msg = some x), [])) ∧
    (m = gs"NIN" → testOneCondition env p c msg = .ok (decide (∃ x, f msg = some x ∧ x ∉ words), [])) := by
  rw [test_label (prepare_leaf h hv) ht (fun _ => (written_start hl hw).2)]
  cases hf : f msg with
  | none => simp
  | some x =>
    have ha := words_answer (m := m) hre hl hn hw x
    unfold leafLabel leafText
    dsimp only
    constructor <;> intro hm
    · rw [if_neg (by rcases hm with rfl | rfl <;> decide), if_pos (list_regex (by tauto)), ha.1 hm]
      simp
    · rw [if_neg (by subst hm; decide), if_pos (list_regex (by tauto)), ha.2 hm]
      simp

/-- **C30**, json values that are scalars. -/
theorem C30_json {q x : Str} (hre : RegexpOk env) (hord : env.OrdOk) (hl : ∀ x ∈ words, PlainWord x) (hn : words ≠ [])
    (h : (parsed env (gs"jsonpath:" ++ q) m v none).prepare env t = .ok c) (hv : ValueResolves env t m v w) (hw : Written words w)
    (hx : SelectsText env msg q x) :
    (m = gs"IN" ∨ m = gs"IS" → testOneCondition env p c msg = .ok (decide (x ∈ words), [])) ∧
    (m = gs"NIN" → testOneCondition env p c msg = .ok (decide (x ∉ words), [])) := by
  have hlf := prepare_leaf h hv
  rw [test_scalar hord hlf hx, compareScalar]
  have ha := words_answer (m := m) hre hl hn hw x
  have key : ∀ b, (m = gs"IN" ∨ m = gs"IS" ∨ m = gs"NIN") → compareRegex env x (finalMethod m) (compile env (finalValue m w)) = b →
      compareInterfaceText env c x = .ok b ∧ compareBytesText env c x = .ok b := by
    intro b hm hb
    have hu : toUpper (finalMethod m) = finalMethod m ∧ (finalMethod m = gs"RE" ∨ finalMethod m = gs"NRE") := by
      rcases hm with rfl | rfl | rfl <;> decide
    unfold compareInterfaceText compareBytesText
    rw [hlf.method, hlf.regex, hb, hu.1]
    rcases hu.2 with e | e <;> rw [e] <;> exact ⟨rfl, rfl⟩
  constructor <;> intro hm
  · obtain ⟨k1, k2⟩ := key _ (by tauto) (ha.1 hm)
    rw [k1, k2, ite_self]; rfl
  · obtain ⟨k1, k2⟩ := key _ (by tauto) (ha.2 hm)
    rw [k1, k2, ite_self]; rfl

/-- **C30.** Lists of words are accepted. -/
theorem C30_accepted (hre : RegexpOk env) (hl : ∀ x ∈ words, PlainWord x) (hn : words ≠ []) (hw : Written words w) (hne : w ≠ [])
    (hm : m = gs"IN" ∨ m = gs"NIN") (ha : AttributeOk a m) : Acceptable env a m w := by
  obtain ⟨re, h1, h2⟩ := readPattern_words hl hn hw
  obtain ⟨hok, -⟩ := hre _ _ h1
  refine ⟨ha, by rcases hm with rfl | rfl <;> decide, ?_, ?_, fun _ => ⟨hne, hok⟩, fun hr => absurd hr (written_start hl hw).2⟩
  · intro h; rcases hm with rfl | rfl <;> exact absurd h (by decide)
  · intro h; rcases hm with rfl | rfl <;> exact absurd h (by decide)

example : Written [gs"a", gs"b"] gs"[a,b]" ∧ (∀ x ∈ [gs"a", gs"b"], PlainWord x) ∧
    Answers Demo.env {} [] { domain := gs"b" } gs"domain" gs"IN" gs"[a,b]" true ∧
    Answers Demo.env {} [] { domain := gs"ab" } gs"domain" gs"IN" gs"[a,b]" false ∧
    Answers Demo.env {} [] { domain := gs"ab" } gs"domain" gs"NIN" gs"[a,b]" true :=
  ⟨.inr rfl, by simp [PlainWord, special], answers_of (by decide +kernel), answers_of (by decide +kernel), answers_of (by decide +kernel)⟩

/-- The predefined list `l`. -/
example : ValueResolves Demo.env { listsNoRefs := [(gs"l", [gs"a", gs"b"])] } gs"IN" gs"#l" gs"a,b" ∧ Written [gs"a", gs"b"] gs"a,b" ∧
    Answers Demo.env { listsNoRefs := [(gs"l", [gs"a", gs"b"])] } [] { sourceLabels := [(gs"app", gs"a")] } gs"senderLabel[app]" gs"IN" gs"#l" true :=
  ⟨.list (l := [gs"a", gs"b"]) rfl (by simp), .inl rfl, answers_of (by decide +kernel)⟩

end Mapl.Props

import Verif.Lemmas.Leaf
import Verif.Demo

/-!
# C25–C28: what single conditions mean

The theorems are about a condition `a m v` that the parser built (`parsed`), that was prepared with the tables `t`, and
whose value stands for the text `w` (`ValueResolves`).
-/

namespace Mapl.Props

open Spec

variable {env : Env} {t : Predef} {a m v w : Str} {r : Option (List RetVal)} {c c' : Condition} {msg : Msg} {p : List Nat}

theorem answers_of (h : Demo.answer env t msg a m v = some b) : Answers env t [] msg a m v b := by
  unfold Demo.answer at h
  split at h
  · next c hc =>
    split at h
    · next b' h' => simp at h; subst h; exact ⟨c, hc, h'⟩
    · simp at h
  · simp at h

/-! ## C25 -/

/-- **C25.** `payloadSize` is compared as an integer. -/
theorem C25_payload {k : NumMethod} {s : Str} {x : Int} (hs : s ∈ k.spellings)
    (h : (parsed env gs"payloadSize" s v r).prepare env t = .ok c) (hw : ValueResolves env t s v w) (hx : IntText w x) :
    testOneCondition env p c msg = .ok (decide (k.holds msg.requestSize x), []) := by
  have hl := prepare_leaf h hw
  rw [test_payload hl, hl.valueInt, (spelling_final hs).1, (spelling_final hs).2, intText_iff.1 hx]
  rw [Option.some_or, compareInt_spec hs]
  rfl

/-- **C25.** `utcHoursFromMidnight` is compared as a float. -/
theorem C25_hours {k : NumMethod} {s : Str} {x : F64} (hs : s ∈ k.spellings)
    (h : (parsed env gs"utcHoursFromMidnight" s v r).prepare env t = .ok c) (hw : ValueResolves env t s v w)
    (hx : parseNumber env w = some x) :
    testOneCondition env p c msg = .ok (decide (k.holdsF msg.hoursFromMidnight x), []) := by
  have hl := prepare_leaf h hw
  rw [test_hours hl, hl.valueFloat, (spelling_final hs).1, (spelling_final hs).2, hx]
  rw [Option.some_or, compareFloat_spec hs]
  rfl

/-- **C25.** `encryptionVersion` is compared as a float. -/
theorem C25_version {k : NumMethod} {s : Str} {x y : F64} (hs : s ∈ k.spellings)
    (h : (parsed env gs"encryptionVersion" s v r).prepare env t = .ok c) (hw : ValueResolves env t s v w)
    (hx : parseNumber env w = some x) (hy : msg.encryptionVersion = some y) :
    testOneCondition env p c msg = .ok (decide (k.holdsF y x), []) := by
  have hl := prepare_leaf h hw
  rw [test_version hl, hl.valueFloat, (spelling_final hs).1, (spelling_final hs).2, hx, hy]
  rw [deref, Go.ok_bind, Option.some_or, compareFloat_spec hs]
  rfl

/-- **C25.** A json value that is a number is compared with a number as a float, in parsed documents and in texts. -/
theorem C25_json {k : NumMethod} {q s text : Str} {x y : F64} (hord : env.OrdOk) (hs : s ∈ k.spellings)
    (h : (parsed env (gs"jsonpath:" ++ q) s v none).prepare env t = .ok c) (hw : ValueResolves env t s v w)
    (hx : parseNumber env w = some x) (hsel : SelectsText env msg q text) (hy : parseNumber env text = some y) :
    testOneCondition env p c msg = .ok (decide (k.holdsF y x), []) := by
  have hl := prepare_leaf h hw
  have hm : c.method = s := by rw [hl.method, (spelling_final hs).1]
  have hf : c.valueFloat = some x := by rw [hl.valueFloat, (spelling_final hs).2, hx]; rfl
  have hu : toUpper s = gs"GE" ∨ toUpper s = gs"GT" ∨ toUpper s = gs"LE" ∨ toUpper s = gs"LT" ∨ toUpper s = gs"EQ" ∨
      toUpper s = gs"NEQ" ∨ toUpper s = gs"NE" := by
    revert hs
    cases k <;> simp only [NumMethod.spellings, List.mem_cons, List.not_mem_nil, or_false] <;>
      intro hs <;> rcases hs with rfl | rfl | rfl | rfl <;> decide
  rw [test_scalar hord hl hsel]
  have h1 : compareInterfaceText env c text = .ok (decide (k.holdsF y x)) := by
    unfold compareInterfaceText
    rw [hm, hf]
    dsimp only
    rw [if_pos hu, if_pos (.inr rfl), hy]
    exact compareFloat_spec hs _ _
  have h2 : compareBytesText env c text = .ok (decide (k.holdsF y x)) := by
    unfold compareBytesText
    rw [hm, hf]
    dsimp only
    rw [if_pos hu, hy]
    exact compareFloat_spec hs _ _
  rw [compareScalar, h1, h2, ite_self]
  rfl

/-- The laws of comparison for the answers to the six methods. -/
structure Laws (flag : NumMethod → Bool) : Prop where
  ne : flag .ne = !flag .eq
  ge : flag .ge = !flag .lt
  gt : flag .gt = !flag .le
  le : flag .le = (flag .lt || flag .eq)
  one : (flag .lt = true ∧ flag .eq = false ∧ flag .gt = false) ∨ (flag .lt = false ∧ flag .eq = true ∧ flag .gt = false) ∨
    (flag .lt = false ∧ flag .eq = false ∧ flag .gt = true)

theorem laws_order {α : Type} [LinearOrder α] (a b : α) : Laws fun k => decide (k.holds a b) := by
  have hd : ∀ (P : Prop) [Decidable P], decide P = true ↔ P := fun P _ => decide_eq_true_iff
  have hd' : ∀ (P : Prop) [Decidable P], decide P = false ↔ ¬ P := fun P _ => decide_eq_false_iff_not
  refine ⟨?_, ?_, ?_, ?_, ?_⟩
  · rw [Bool.eq_iff_iff, Bool.not_eq_true', hd, hd']; exact Iff.rfl
  · rw [Bool.eq_iff_iff, Bool.not_eq_true', hd, hd']; exact not_lt.symm
  · rw [Bool.eq_iff_iff, Bool.not_eq_true', hd, hd']; exact not_le.symm
  · rw [Bool.eq_iff_iff, Bool.or_eq_true, hd, hd, hd]; exact le_iff_lt_or_eq
  · simp only [hd, hd']
    rcases lt_trichotomy a b with h | h | h
    · exact .inl ⟨h, h.ne, h.not_gt⟩
    · exact .inr (.inl ⟨h.not_lt, h, h.not_gt⟩)
    · exact .inr (.inr ⟨h.not_gt, h.ne', h⟩)

/-- **C25.** The answers to conditions on `payloadSize` that differ only in the method obey the laws of comparison. -/
theorem C25_laws_payload {flag : NumMethod → Bool} {spell : NumMethod → Str} {x : Int} (hs : ∀ k, spell k ∈ k.spellings)
    (hf : ∀ k, Answers env t p msg gs"payloadSize" (spell k) v (flag k)) (hw : ∀ k, ValueResolves env t (spell k) v w)
    (hx : IntText w x) : Laws flag := by
  have : flag = fun k => decide (k.holds msg.requestSize x) := by
    funext k
    obtain ⟨c, hc, h⟩ := hf k
    rw [C25_payload (hs k) hc (hw k) hx] at h
    simp at h
    exact h.symm
  rw [this]
  exact laws_order _ _

theorem laws_float {x y : F64} (hx : x ≠ .nan) (hy : y ≠ .nan) : Laws fun k => decide (k.holdsF x y) := by
  have hp : ∀ z : F64, z ≠ .nan → ∃ u, place z = some u := by
    intro z hz
    cases z <;> simp [place] at hz ⊢
  obtain ⟨u, hu⟩ := hp x hx
  obtain ⟨u', hu'⟩ := hp y hy
  have : (fun k : NumMethod => decide (k.holdsF x y)) = fun k => decide (k.holds u u') := by
    funext k
    rw [decide_eq_decide, NumMethod.holdsF, hu, hu']
  rw [this]
  exact laws_order _ _

/-- **C25**, floats. The full statement includes NaN; there it fails (`C25_violated_nan`). Without NaN the answers to
conditions on the hour obey the laws of comparison. -/
theorem C25_laws_hours_partial {flag : NumMethod → Bool} {spell : NumMethod → Str} {x : F64} (hs : ∀ k, spell k ∈ k.spellings)
    (hf : ∀ k, Answers env t p msg gs"utcHoursFromMidnight" (spell k) v (flag k)) (hw : ∀ k, ValueResolves env t (spell k) v w)
    (hx : parseNumber env w = some x) (hn : x ≠ .nan) (hm : msg.hoursFromMidnight ≠ .nan) : Laws flag := by
  have : flag = fun k => decide (k.holdsF msg.hoursFromMidnight x) := by
    funext k
    obtain ⟨c, hc, h⟩ := hf k
    rw [C25_hours (hs k) hc (hw k) hx] at h
    simp at h
    exact h.symm
  rw [this]
  exact laws_float hm hn

/-- **C25**, json numbers without NaN. -/
theorem C25_laws_json_partial {flag : NumMethod → Bool} {spell : NumMethod → Str} {x y : F64} {q text : Str} (hord : env.OrdOk)
    (hs : ∀ k, spell k ∈ k.spellings)
    (hf : ∀ k, Answers env t p msg (gs"jsonpath:" ++ q) (spell k) v (flag k)) (hw : ∀ k, ValueResolves env t (spell k) v w)
    (hx : parseNumber env w = some x) (hn : x ≠ .nan) (hsel : SelectsText env msg q text) (hy : parseNumber env text = some y)
    (hm : y ≠ .nan) : Laws flag := by
  have : flag = fun k => decide (k.holdsF y x) := by
    funext k
    obtain ⟨c, hc, h⟩ := hf k
    rw [C25_json hord (hs k) hc (hw k) hx hsel hy] at h
    simp at h
    exact h.symm
  rw [this]
  exact laws_float hm hn

/-- **C25.** EQ and NEQ are complementary for all floats, NaN included. -/
theorem C25_eq_ne {x y : F64} : decide (NumMethod.ne.holdsF x y) = !decide (NumMethod.eq.holdsF x y) := by
  rw [← f64_eq, ← f64_ne]

/-- **C25** is violated for NaN, which `strconv.ParseFloat` accepts: neither LT nor GE nor EQ holds. -/
theorem C25_violated_nan : ∃ (env : Env) (msg : Msg) (v : Str), parseNumber env v = some .nan ∧
    Answers env {} [] msg gs"utcHoursFromMidnight" gs"LT" v false ∧ Answers env {} [] msg gs"utcHoursFromMidnight" gs"GE" v false ∧
    Answers env {} [] msg gs"utcHoursFromMidnight" gs"EQ" v false ∧ Answers env {} [] msg gs"utcHoursFromMidnight" gs"GT" v false :=
  ⟨{ Demo.env with parseFloat := fun s => if s = gs"NaN" then some .nan else Demo.parseNum s }, { hoursFromMidnight := .fin 3 }, gs"NaN", by decide +kernel,
   answers_of (by decide +kernel), answers_of (by decide +kernel), answers_of (by decide +kernel), answers_of (by decide +kernel)⟩

/-- Conditions on the size of a request. -/
example : Answers Demo.env {} [] { requestSize := 7 } gs"payloadSize" gs"GE" gs"7" true ∧
    Answers Demo.env {} [] { requestSize := 7 } gs"payloadSize" gs"lt" gs"7" false ∧
    ValueResolves Demo.env {} gs"GE" gs"7" gs"7" ∧ IntText gs"7" 7 :=
  ⟨answers_of (by decide +kernel), answers_of (by decide +kernel), .plain (by simp), intText_iff.2 (by decide)⟩

/-- A number inside a document. -/
example : SelectsText Demo.env Demo.msgI gs"$.replicas" gs"3" ∧ SelectsText Demo.env Demo.msgB gs"$.replicas" gs"3" ∧
    Answers Demo.env {} [] Demo.msgI gs"jsonpath:$.replicas" gs"GE" gs"3" true ∧
    Answers Demo.env {} [] Demo.msgB gs"jsonpath:$.replicas" gs"LT" gs"3" false := by
  refine ⟨.parsed (j := .num (.fin 3)) (.path (d := Demo.doc) (by rintro (⟨x, h⟩ | ⟨x, h⟩) <;> simp at h) ⟨rfl, ?_⟩ (.found ?_)) (by
      have := ScalarText.number (env := Demo.env) (x := .fin 3); exact this) ⟨by simp, by decide, by decide, by decide⟩ (by simp),
    .text (x := gs"3") (.path (d := Demo.render Demo.doc) (by rintro (⟨x, h⟩ | ⟨x, h⟩) <;> simp at h) ⟨rfl, by decide +kernel, ?_⟩ ?_) (.inl rfl) ⟨by simp, by decide, by decide, by decide⟩,
    answers_of (by decide +kernel), answers_of (by decide +kernel)⟩
  · rfl
  · rfl
  · rfl
  · decide +kernel

/-! ## C26 -/

theorem leafText_opposite (env : Ext) {pos neg : Str} (h : Opposite pos neg) (w s : Str) : leafText env neg w s = !leafText env pos w s := by
  obtain ⟨pr, hpr, hp, hn⟩ := h
  simp only [oppositePairs, List.mem_cons, List.not_mem_nil, or_false] at hpr
  rcases hpr with rfl | rfl | rfl | rfl <;> simp only [List.mem_cons, List.not_mem_nil, or_false] at hp hn
  · rcases hp with rfl | rfl <;> rcases hn with rfl | rfl <;>
      simp only [leafText, finalMethod, finalValue, isRegexMethod, compareRegex] <;> simp <;>
      cases compile env w <;> rfl
  · rcases hp with rfl | rfl <;> rcases hn with rfl | rfl | rfl | rfl <;>
      simp only [leafText, finalMethod, finalValue, isRegexMethod, compareStringWithWildcards, convertStringToRegex] <;> simp <;>
      cases compile env _ <;> rfl
  · rcases hp with rfl | rfl <;> rcases hn with rfl | rfl <;>
      simp only [leafText, finalMethod, finalValue, isRegexMethod, compareStringWithWildcards] <;> simp <;>
      cases s <;> simp
  · rcases hp with rfl | rfl <;> subst hn <;>
      simp only [leafText, finalMethod, finalValue, isRegexMethod, compareRegex] <;> simp <;>
      cases compile env _ <;> rfl

/-- **C26.** On every attribute that stands for a text, a method and its negative counterpart with the same value give
opposite answers; not so if a field of the sender is compared with a field of the receiver (`C26_violated_fields`). -/
theorem C26_text {f : Msg → Str} {pos neg v' : Str} (ht : TextAttr a f) (ho : Opposite pos neg)
    (h : (parsed env a pos v r).prepare env t = .ok c) (h' : (parsed env a neg v' r).prepare env t = .ok c')
    (hw : ValueResolves env t pos v w) (hw' : ValueResolves env t neg v' w)
    (hn : (∃ x, a = gs"$sender." ++ x) → ¬ ∃ y, w = gs"$receiver." ++ y) :
    ∃ b, testOneCondition env p c msg = .ok (b, []) ∧ testOneCondition env p c' msg = .ok (!b, []) :=
  ⟨_, test_text (prepare_leaf h hw) ht hn, by rw [test_text (prepare_leaf h' hw') ht hn, leafText_opposite env ho]⟩

/-- **C26**, labels. The full statement includes labels whose value is the empty text; there EX and NEX both hold
(`C26_violated_label`). A label that is present and not empty gives opposite answers. -/
theorem C26_label_partial {f : Msg → Option Str} {s pos neg v' : Str} (ht : LabelAttr a f) (ho : Opposite pos neg)
    (h : (parsed env a pos v r).prepare env t = .ok c) (h' : (parsed env a neg v' r).prepare env t = .ok c')
    (hw : ValueResolves env t pos v w) (hw' : ValueResolves env t neg v' w) (hf : f msg = some s)
    (hs : s ≠ [] ∨ (pos ≠ gs"EX" ∧ pos ≠ gs"ex"))
    (hn : (∃ x, a = gs"senderLabel[" ++ x) → ¬ ∃ y, w = gs"receiverLabel[" ++ y) :
    ∃ b, testOneCondition env p c msg = .ok (b, []) ∧ testOneCondition env p c' msg = .ok (!b, []) := by
  refine ⟨_, test_label (prepare_leaf h hw) ht hn, ?_⟩
  rw [test_label (prepare_leaf h' hw') ht hn, hf]
  have hx : ¬ (finalMethod neg = gs"EX" ∨ finalMethod neg = gs"ex") := by
    obtain ⟨pr, hpr, -, hn⟩ := ho
    simp only [oppositePairs, List.mem_cons, List.not_mem_nil, or_false] at hpr
    rcases hpr with rfl | rfl | rfl | rfl <;> simp only [List.mem_cons, List.not_mem_nil, or_false] at hn
    · rcases hn with rfl | rfl <;> decide
    · rcases hn with rfl | rfl | rfl | rfl <;> decide
    · rcases hn with rfl | rfl <;> decide
    · subst hn; decide
  simp only [leafLabel]
  rw [if_neg hx, leafText_opposite env ho]
  by_cases hp : finalMethod pos = gs"EX" ∨ finalMethod pos = gs"ex"
  · rw [if_pos hp]
    have hp' : pos = gs"EX" ∨ pos = gs"ex" := by
      unfold finalMethod at hp
      split at hp
      · simp at hp
      · split at hp
        · simp at hp
        · exact hp
    have hs' : s ≠ [] := by
      rcases hs with hs | hs
      · exact hs
      · rcases hp' with e | e
        · exact absurd e hs.1
        · exact absurd e hs.2
    rcases hp' with rfl | rfl <;> simp [leafText, finalMethod, isRegexMethod, compareStringWithWildcards, List.length_pos_iff, hs']
  · rw [if_neg hp]

/-- **C26**, sender against receiver. Of the pairs only EQ and NEQ are opposite. -/
theorem C26_fields_partial {x y pos neg v' : Str} (hp : pos ∈ [gs"EQ", gs"eq"]) (hng : neg ∈ [gs"NEQ", gs"neq", gs"NE", gs"ne"])
    (h : (parsed env (gs"$sender." ++ x) pos v r).prepare env t = .ok c) (h' : (parsed env (gs"$sender." ++ x) neg v' r).prepare env t = .ok c')
    (hw : ValueResolves env t pos v (gs"$receiver." ++ y)) (hw' : ValueResolves env t neg v' (gs"$receiver." ++ y)) :
    ∃ b, testOneCondition env p c msg = .ok (b, []) ∧ testOneCondition env p c' msg = .ok (!b, []) := by
  have f1 : finalValue pos (gs"$receiver." ++ y) = gs"$receiver." ++ y := by
    simp only [List.mem_cons, List.not_mem_nil, or_false] at hp
    rcases hp with rfl | rfl <;> rfl
  have f2 : finalValue neg (gs"$receiver." ++ y) = gs"$receiver." ++ y := by
    simp only [List.mem_cons, List.not_mem_nil, or_false] at hng
    rcases hng with rfl | rfl | rfl | rfl <;> rfl
  refine ⟨_, test_fields (prepare_leaf h hw) f1, ?_⟩
  rw [test_fields (prepare_leaf h' hw') f2]
  simp only [List.mem_cons, List.not_mem_nil, or_false] at hp hng
  rcases hp with rfl | rfl <;> rcases hng with rfl | rfl | rfl | rfl <;>
    simp [finalMethod, isRegexMethod, compareString, bne]

/-- The methods that are opposite on json values; NE is not among them (`C26_violated_json`). -/
def jsonPairs : List (List Str × List Str) :=
  [([gs"RE", gs"re"], [gs"NRE", gs"nre"]), ([gs"EQ", gs"eq"], [gs"NEQ", gs"neq"]), ([gs"EX", gs"ex"], [gs"NEX", gs"nex"]),
   ([gs"IN", gs"IS"], [gs"NIN"])]

theorem opposite_text {env : Ext} {s x : Str} {o : Option F64} {b b' : Bool}
    (hb : (match parseNumber env s with
      | none => Except.ok (s == x)
      | some y => do let z ← deref o; Except.ok (y.eq z) : Go Bool) = .ok b)
    (hb' : (match parseNumber env s with
      | none => Except.ok (s != x)
      | some y => do let z ← deref o; Except.ok !y.eq z : Go Bool) = .ok b') : b' = !b := by
  cases hp : parseNumber env s with
  | none => rw [hp] at hb hb'; simp at hb hb'; rw [← hb, ← hb']; rfl
  | some y =>
    rw [hp] at hb hb'
    cases o with
    | none => simp [deref] at hb
    | some z => simp [deref] at hb hb'; rw [← hb, hb']; simp

theorem opposite_number {env : Ext} {s x : Str} {i : Option Int} {o : Option F64} {b b' : Bool}
    (hb : (if i.isSome = true ∨ o.isSome = true then match parseNumber env s with
      | none => Except.ok false
      | some y => do let z ← deref o; Except.ok (y.eq z)
      else Except.ok (s == x) : Go Bool) = .ok b)
    (hb' : (if i.isSome = true ∨ o.isSome = true then match parseNumber env s with
      | none => Except.ok true
      | some y => do let z ← deref o; Except.ok !y.eq z
      else Except.ok (s != x) : Go Bool) = .ok b') : b' = !b := by
  by_cases hc : i.isSome = true ∨ o.isSome = true
  · rw [if_pos hc] at hb hb'
    cases hp : parseNumber env s with
    | none => rw [hp] at hb hb'; simp at hb hb'; rw [hb, hb']; rfl
    | some y =>
      rw [hp] at hb hb'
      cases o with
      | none => simp [deref] at hb
      | some z => simp [deref] at hb hb'; rw [← hb, hb']; simp
  · rw [if_neg hc] at hb hb'
    simp only [Except.ok.injEq] at hb hb'
    rw [← hb, ← hb']; rfl

theorem scalar_opposite (env : Ext) {pos neg s : Str} (ho : ∃ pr ∈ jsonPairs, pos ∈ pr.1 ∧ neg ∈ pr.2) (hs : s ≠ []) (i : Bool)
    {c c' : Condition} (f1 : c.method = finalMethod pos) (g1 : c'.method = finalMethod neg) (f2 : c.valueInt = c'.valueInt)
    (f3 : c.valueFloat = c'.valueFloat) (f4 : c.valueRegex = c'.valueRegex) (f5 : c.value = c'.value) {b b' : Bool}
    (hb : compareScalar env i c s = .ok b) (hb' : compareScalar env i c' s = .ok b') : b' = !b := by
  obtain ⟨pr, hpr, hp, hn⟩ := ho
  have hlen : s.length ≠ 0 := by simpa using hs
  simp only [jsonPairs, List.mem_cons, List.not_mem_nil, or_false] at hpr
  rcases hpr with rfl | rfl | rfl | rfl <;> simp only [List.mem_cons, List.not_mem_nil, or_false] at hp hn
  · rcases hp with rfl | rfl <;> rcases hn with rfl | rfl <;> cases i <;>
      simp [compareScalar, compareInterfaceText, compareBytesText, f1, g1, finalMethod, toUpper, compareRegex, f4] at hb hb' <;>
      subst hb <;> subst hb' <;> cases c'.valueRegex <;> rfl
  · rcases hp with rfl | rfl <;> rcases hn with rfl | rfl <;> cases i <;>
      simp [compareScalar, compareInterfaceText, compareBytesText, f1, g1, finalMethod, toUpper, compareFloat, compareString, f2, f3, f5] at hb hb' <;>
      first | exact opposite_text hb hb' | exact opposite_number hb hb'
  · rcases hp with rfl | rfl <;> rcases hn with rfl | rfl <;> cases i <;>
      simp [compareScalar, compareInterfaceText, compareBytesText, f1, g1, finalMethod, toUpper, hs] at hb hb' <;>
      subst hb <;> subst hb' <;> rfl
  · rcases hp with rfl | rfl <;> subst hn <;> cases i <;>
      simp [compareScalar, compareInterfaceText, compareBytesText, f1, g1, finalMethod, toUpper, compareRegex, f4] at hb hb' <;>
      subst hb <;> subst hb' <;> cases c'.valueRegex <;> rfl

/-- **C26**, json values, without the spellings NE and ne: where both conditions have an answer, the answers are opposite. -/
theorem C26_json_partial {q s pos neg : Str} (ho : ∃ pr ∈ jsonPairs, pos ∈ pr.1 ∧ neg ∈ pr.2) (hord : env.OrdOk)
    (h : (parsed env (gs"jsonpath:" ++ q) pos v none).prepare env t = .ok c)
    (h' : (parsed env (gs"jsonpath:" ++ q) neg v none).prepare env t = .ok c')
    (hw : ValueResolves env t pos v w) (hw' : ValueResolves env t neg v w) (hsel : SelectsText env msg q s) {b b' : Bool} {e e' : List Extra}
    (hb : testOneCondition env p c msg = .ok (b, e)) (hb' : testOneCondition env p c' msg = .ok (b', e')) : b' = !b := by
  have hl := prepare_leaf h hw
  have hl' := prepare_leaf h' hw'
  have hs0 : s ≠ [] := selectsText_nonempty hsel
  rw [test_scalar hord hl hsel, Go.bind_eq_ok] at hb
  rw [test_scalar hord hl' hsel, Go.bind_eq_ok] at hb'
  obtain ⟨b1, hb1, hb⟩ := hb
  obtain ⟨b2, hb2, hb'⟩ := hb'
  simp at hb hb'
  obtain ⟨rfl, -⟩ := hb
  obtain ⟨rfl, -⟩ := hb'
  have hf : finalValue pos w = finalValue neg w := by
    obtain ⟨pr, hpr, hp, hn⟩ := ho
    simp only [jsonPairs, List.mem_cons, List.not_mem_nil, or_false] at hpr
    rcases hpr with rfl | rfl | rfl | rfl <;> simp only [List.mem_cons, List.not_mem_nil, or_false] at hp hn
    · rcases hp with rfl | rfl <;> rcases hn with rfl | rfl <;> rfl
    · rcases hp with rfl | rfl <;> rcases hn with rfl | rfl <;> rfl
    · rcases hp with rfl | rfl <;> rcases hn with rfl | rfl <;> rfl
    · rcases hp with rfl | rfl <;> subst hn <;> rfl
  refine scalar_opposite env ho hs0 _ hl.method hl'.method ?_ ?_ ?_ ?_ hb1 hb2
  · rw [hl.valueInt, hl'.valueInt, hf]
  · rw [hl.valueFloat, hl'.valueFloat, hf]
  · rw [hl.regex, hl'.regex, hf]
  · rw [hl.value, hl'.value, hf]

/-- **C26**, label of the sender against label of the receiver, both present: EQ and NEQ are opposite. -/
theorem C26_labels_partial {k k' x y pos neg v' : Str} (hp : pos ∈ [gs"EQ", gs"eq"]) (hng : neg ∈ [gs"NEQ", gs"neq", gs"NE", gs"ne"])
    (h : (parsed env (gs"senderLabel[" ++ k ++ gs"]") pos v r).prepare env t = .ok c)
    (h' : (parsed env (gs"senderLabel[" ++ k ++ gs"]") neg v' r).prepare env t = .ok c')
    (hw : ValueResolves env t pos v (gs"receiverLabel[" ++ k' ++ gs"]")) (hw' : ValueResolves env t neg v' (gs"receiverLabel[" ++ k' ++ gs"]"))
    (hx : lookup k msg.sourceLabels = some x) (hy : lookup k' msg.destinationLabels = some y) :
    testOneCondition env p c msg = .ok (x == y, []) ∧ testOneCondition env p c' msg = .ok (x != y, []) := by
  have f1 : ∀ w, finalValue pos w = w := fun w => by
    simp only [List.mem_cons, List.not_mem_nil, or_false] at hp
    rcases hp with rfl | rfl <;> rfl
  have f2 : ∀ w, finalValue neg w = w := fun w => by
    simp only [List.mem_cons, List.not_mem_nil, or_false] at hng
    rcases hng with rfl | rfl | rfl | rfl <;> rfl
  rw [test_labels (prepare_leaf h hw) (f1 _), test_labels (prepare_leaf h' hw') (f2 _), hx, hy]
  simp only [List.mem_cons, List.not_mem_nil, or_false] at hp hng
  constructor
  · rcases hp with rfl | rfl <;> simp [finalMethod, isRegexMethod, compareString]
  · rcases hng with rfl | rfl | rfl | rfl <;> simp [finalMethod, isRegexMethod, compareString]

/-- **C26** is violated when a field of the sender is compared with a field of the receiver: RE and NRE are both false,
and so are EX and NEX. -/
theorem C26_violated_fields : ∃ (env : Env) (msg : Msg) (v : Str),
    Answers env {} [] msg gs"$sender.namespace" gs"RE" v false ∧ Answers env {} [] msg gs"$sender.namespace" gs"NRE" v false ∧
    Answers env {} [] msg gs"$sender.namespace" gs"EX" v false ∧ Answers env {} [] msg gs"$sender.namespace" gs"NEX" v false :=
  ⟨Demo.env, { sourceNamespace := gs"a", destinationNamespace := gs"a" }, gs"$receiver.namespace", answers_of (by decide +kernel),
   answers_of (by decide +kernel), answers_of (by decide +kernel), answers_of (by decide +kernel)⟩

/-- **C26** is violated for a label that is present with an empty value: EX and NEX are both true. -/
theorem C26_violated_label : ∃ (env : Env) (msg : Msg), lookup gs"app" msg.sourceLabels = some [] ∧
    Answers env {} [] msg gs"senderLabel[app]" gs"EX" [] true ∧ Answers env {} [] msg gs"senderLabel[app]" gs"NEX" [] true :=
  ⟨Demo.env, { sourceLabels := [(gs"app", [])] }, rfl, answers_of (by decide +kernel), answers_of (by decide +kernel)⟩

/-- **C26** is violated for NE on a json value: EQ and NE are both false. -/
theorem C26_violated_json : ∃ (env : Env) (msg : Msg), SelectsText env msg gs"$.kind" gs"Pod" ∧
    Answers env {} [] msg gs"jsonpath:$.kind" gs"EQ" gs"Job" false ∧ Answers env {} [] msg gs"jsonpath:$.kind" gs"NE" gs"Job" false :=
  ⟨Demo.env, Demo.msgI, .parsed (j := .str gs"Pod") (.path (d := Demo.doc) (by rintro (⟨x, h⟩ | ⟨x, h⟩) <;> simp at h) ⟨rfl, rfl⟩ (.found rfl)) .string ⟨by simp, by decide, by decide, by decide⟩ (by simp),
   answers_of (by decide +kernel), answers_of (by decide +kernel)⟩

example : Answers Demo.env {} [] { domain := gs"x.org" } gs"domain" gs"EQ" gs"x.org" true ∧
    Answers Demo.env {} [] { domain := gs"x.org" } gs"domain" gs"NE" gs"x.org" false ∧ Opposite gs"EQ" gs"NE" :=
  ⟨answers_of (by decide +kernel), answers_of (by decide +kernel), by decide⟩

example : Answers Demo.env {} [] { sourceLabels := [(gs"app", gs"web")] } gs"senderLabel[app]" gs"EX" [] true ∧
    Answers Demo.env {} [] { sourceLabels := [(gs"app", gs"web")] } gs"senderLabel[app]" gs"NEX" [] false ∧
    LabelAttr gs"senderLabel[app]" (fun m => lookup gs"app" m.sourceLabels) :=
  ⟨answers_of (by decide +kernel), answers_of (by decide +kernel), .sender gs"app"⟩

/-! ## C27 -/

/-- **C27**, parsed documents: if the path selects nothing, null or an empty value, the condition is true exactly for NEX. -/
theorem C27_interface {q : Str} {x : Option Json} (hord : env.OrdOk)
    (h : (parsed env (gs"jsonpath:" ++ q) m v none).prepare env t = .ok c) (hj : env.jsonMarshal (.arr []) = gs"[]")
    (hs : SelectsI env msg q x) (hx : NoValue x) :
    testOneCondition env p c msg = .ok (decide (m = gs"NEX" ∨ m = gs"nex"), []) := by
  obtain ⟨w, -, hw, -⟩ := prepare_inv h
  have hl := prepare_leaf h hw
  rw [test_path hl, flag_interface hord hl hs, judge_noValue hl hj hx]
  rfl

/-- **C27**, documents as texts: an error, no result, or an empty value. The full statement includes null; there it fails
(`C27_violated_null`). -/
theorem C27_bytes_partial {q : Str} {x : Str × Bool}
    (h : (parsed env (gs"jsonpath:" ++ q) m v none).prepare env t = .ok c)
    (hs : SelectsB env msg q x) (hx : NoText x) :
    testOneCondition env p c msg = .ok (decide (m = gs"NEX" ∨ m = gs"nex"), []) := by
  obtain ⟨w, -, hw, -⟩ := prepare_inv h
  have hl := prepare_leaf h hw
  rw [test_path hl, flag_bytes hl hs, judge_noText hl hx]
  rfl

/-- Conditions with returned values have the same answer, whenever the values can be computed. -/
theorem C27_returned {q : Str} {b : Bool} {e : List Extra} (h : (parsed env (gs"jsonpath:" ++ q) m v r).prepare env t = .ok c)
    (hb : testOneCondition env p c msg = .ok (b, e)) : testJsonpathFlag env p c msg = .ok b := by
  obtain ⟨w, -, hw, -⟩ := prepare_inv h
  have hl := prepare_leaf h hw
  obtain ⟨-, h1, -⟩ := leafAttr_path hl.attr
  unfold testOneCondition at hb
  rw [h1] at hb
  simp only [reduceIte, List.cons.injEq, reduceCtorEq, and_false, or_self, Char.reduceEq] at hb
  rw [Go.bind_eq_ok] at hb
  obtain ⟨f, hf, hb⟩ := hb
  rw [hf]
  split at hb
  · rw [Go.bind_eq_ok] at hb
    obtain ⟨_, _, hb⟩ := hb
    simp at hb
    rw [hb.1]
  · simp at hb
    rw [hb.1]

/-- **C27** is violated for null in a document given as text: EX holds and NEX does not. -/
theorem C27_violated_null : ∃ (env : Env) (msg : Msg), msg.rawI = none ∧ msg.jsonRaw = some gs"{\"x\":null}" ∧
    env.jsonUnmarshal gs"{\"x\":null}" = some (.obj [(gs"x", .null)]) ∧
    Answers env {} [] msg gs"jsonpath:$.x" gs"EX" [] true ∧ Answers env {} [] msg gs"jsonpath:$.x" gs"NEX" [] false :=
  ⟨Demo.env, { jsonRaw := some gs"{\"x\":null}" }, rfl, rfl, rfl, answers_of (by decide +kernel), answers_of (by decide +kernel)⟩

example : Answers Demo.env {} [] Demo.msgI gs"jsonpath:$.absent" gs"NEX" [] true ∧
    Answers Demo.env {} [] Demo.msgI gs"jsonpath:$.absent" gs"NEQ" gs"x" false ∧
    Answers Demo.env {} [] Demo.msgB gs"jsonpath:$.absent" gs"nex" [] true ∧
    Answers Demo.env {} [] Demo.msgB gs"jsonpath:$.absent" gs"NRE" gs"x" false ∧
    DocumentI Demo.msgI gs"$.absent" Demo.doc ∧ Selected Demo.env (queryText gs"$.absent") Demo.doc (some .null) ∧
    DocumentB Demo.msgB gs"$.absent" (Demo.render Demo.doc) ∧ NoText (Demo.env.jsGet (Demo.render Demo.doc) (pathQuery gs"$.absent")) :=
  ⟨answers_of (by decide +kernel), answers_of (by decide +kernel), answers_of (by decide +kernel), answers_of (by decide +kernel),
   ⟨rfl, rfl⟩, .notFound (e := gs"child not found in JSON object at 0") rfl ⟨gs"child ", gs" 0", rfl⟩, ⟨rfl, by decide +kernel, rfl⟩,
   by rw [show Demo.env.jsGet (Demo.render Demo.doc) (pathQuery gs"$.absent") = ([], false) by decide +kernel]; exact .nothing⟩

/-! ## C28 -/

/-- **C28.** A label condition looks only at the named label. -/
theorem C28_only_named {f : Msg → Option Str} {msg' : Msg} {p' : List Nat} (ht : LabelAttr a f)
    (h : (parsed env a m v r).prepare env t = .ok c) (hw : ValueResolves env t m v w)
    (hn : (∃ x, a = gs"senderLabel[" ++ x) → ¬ ∃ y, w = gs"receiverLabel[" ++ y) (hf : f msg = f msg') :
    testOneCondition env p c msg = testOneCondition env p' c msg' := by
  rw [test_label (prepare_leaf h hw) ht hn, test_label (prepare_leaf h hw) ht hn, hf]

/-- **C28.** A label of the sender compared with a label of the receiver: only these two matter. -/
theorem C28_two_labels {k k' : Str} {msg' : Msg} {p' : List Nat}
    (h : (parsed env (gs"senderLabel[" ++ k ++ gs"]") m v r).prepare env t = .ok c) (hw : ValueResolves env t m v (gs"receiverLabel[" ++ k' ++ gs"]"))
    (h1 : lookup k msg.sourceLabels = lookup k msg'.sourceLabels) (h2 : lookup k' msg.destinationLabels = lookup k' msg'.destinationLabels) :
    testOneCondition env p c msg = testOneCondition env p' c msg' := by
  by_cases hf : finalValue m (gs"receiverLabel[" ++ k' ++ gs"]") = gs"receiverLabel[" ++ k' ++ gs"]"
  · rw [test_labels (prepare_leaf h hw) hf, test_labels (prepare_leaf h hw) hf, h1, h2]
  · have hl := prepare_leaf h hw
    obtain ⟨e1, e2, e3⟩ := leafAttr_senderLabel hl.attr
    have ho : c.valueIsReceiverLabel = false := by
      rw [hl.label]
      unfold finalValue at hf ⊢
      split at hf
      · next hc => rw [if_pos hc]; simp [listPattern, hasPrefix, List.isPrefixOf]
      · exact absurd rfl hf
    unfold testOneCondition testSenderLabel
    simp only [e1, e2, e3, ho, h1]
    simp

/-- **C28.** EX holds exactly when the label exists (whatever its value is). -/
theorem C28_ex {f : Msg → Option Str} (ht : LabelAttr a f) (hm : m = gs"EX" ∨ m = gs"ex")
    (h : (parsed env a m v r).prepare env t = .ok c) (hw : ValueResolves env t m v w)
    (hn : (∃ x, a = gs"senderLabel[" ++ x) → ¬ ∃ y, w = gs"receiverLabel[" ++ y) :
    testOneCondition env p c msg = .ok ((f msg).isSome, []) := by
  rw [test_label (prepare_leaf h hw) ht hn]
  rcases hm with rfl | rfl <;> cases f msg <;> simp [leafLabel, finalMethod]

/-- **C28.** A condition on a missing label is false for every method. -/
theorem C28_missing {f : Msg → Option Str} (ht : LabelAttr a f) (h : (parsed env a m v r).prepare env t = .ok c)
    (hw : ValueResolves env t m v w) (hn : (∃ x, a = gs"senderLabel[" ++ x) → ¬ ∃ y, w = gs"receiverLabel[" ++ y)
    (hf : f msg = none) : testOneCondition env p c msg = .ok (false, []) := by
  rw [test_label (prepare_leaf h hw) ht hn, hf]

/-- **C28**, NEX. Stated: NEX holds exactly when the label does not exist. What the code does instead: NEX holds exactly
when the label exists and is empty. -/
theorem C28_nex_partial {f : Msg → Option Str} (ht : LabelAttr a f) (hm : m = gs"NEX" ∨ m = gs"nex")
    (h : (parsed env a m v r).prepare env t = .ok c) (hw : ValueResolves env t m v w)
    (hn : (∃ x, a = gs"senderLabel[" ++ x) → ¬ ∃ y, w = gs"receiverLabel[" ++ y) :
    testOneCondition env p c msg = .ok (decide (f msg = some []), []) := by
  rw [test_label (prepare_leaf h hw) ht hn]
  rcases hm with rfl | rfl <;> cases f msg with
  | none => simp
  | some s => simp [leafLabel, finalMethod, leafText, isRegexMethod, compareStringWithWildcards]

/-- **C28** is violated: NEX on a label that does not exist is false. -/
theorem C28_violated : ∃ (env : Env) (msg : Msg), lookup gs"app" msg.sourceLabels = none ∧
    Answers env {} [] msg gs"senderLabel[app]" gs"NEX" [] false :=
  ⟨Demo.env, { sourceLabels := [(gs"tier", gs"front")] }, rfl, answers_of (by decide +kernel)⟩

example : Answers Demo.env {} [] { sourceLabels := [(gs"app", gs"web")], destinationLabels := [(gs"x", gs"web")] }
    gs"senderLabel[app]" gs"EQ" gs"receiverLabel[x]" true := answers_of (by decide +kernel)

end Mapl.Props

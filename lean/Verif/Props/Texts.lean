import Verif.Props.Synonyms
import Verif.Props.Validate
import Verif.Props.Documents
import Verif.Lemmas.Crash
import Verif.Props.Names
import Verif.Spec.Texts

/-!
# C73: equality, patterns and existence on texts

`(parsed env a m v r).prepare env t = .ok c` reads "the condition `a m v` prepares to `c` with the tables `t`".
-/

namespace Mapl.Props

open Spec

variable {env : Env} {t : Predef} {a m v w s : Str} {r : Option (List RetVal)} {c c' : Condition} {msg : Msg} {p : List Nat} {re : RE}

theorem readPattern_word (hw : PlainWord w) : ∃ re, readPattern (gs"^" ++ w ++ gs"$") = some re ∧ ∀ s, Finds re s ↔ s = w := by
  obtain ⟨re, h1, h2⟩ := readPattern_words (l := [w]) (by simpa using hw) (by simp) (.inl rfl)
  refine ⟨re, ?_, fun s => by simpa using h2 s⟩
  rw [listPattern_words (l := [w]) (by simpa using hw) (.inl rfl)] at h1
  have := barred_plain hw []
  rw [List.append_nil] at this
  rw [show join gs"," [w] = w from rfl, this] at h1
  simpa [barred] using h1

/-- The answers of the text methods, in terms of what the value finds. -/
theorem leafText_answers (hre : RegexpOk env) (x : Str) :
    (m ∈ NumMethod.eq.spellings → readPattern (gs"^" ++ w ++ gs"$") = some re → (leafText env m w x = true ↔ Finds re x)) ∧
    (m ∈ NumMethod.ne.spellings → readPattern (gs"^" ++ w ++ gs"$") = some re → (leafText env m w x = true ↔ ¬ Finds re x)) ∧
    (m ∈ [gs"RE", gs"re"] → readPattern w = some re → (leafText env m w x = true ↔ Finds re x)) ∧
    (m ∈ [gs"NRE", gs"nre"] → readPattern w = some re → (leafText env m w x = true ↔ ¬ Finds re x)) ∧
    (m ∈ [gs"EX", gs"ex"] → (leafText env m w x = true ↔ x ≠ [])) ∧
    (m ∈ [gs"NEX", gs"nex"] → (leafText env m w x = true ↔ x = [])) := by
  have key : ∀ {pat : Str}, readPattern pat = some re → compile env pat = some ⟨pat⟩ ∧ (env.reMatch pat x = true ↔ Finds re x) :=
    fun h => ⟨by simp [compile, (hre _ _ h).1], (hre _ _ h).2 x⟩
  refine ⟨fun hm h => ?_, fun hm h => ?_, fun hm h => ?_, fun hm h => ?_, fun hm => ?_, fun hm => ?_⟩
  · obtain ⟨k1, k2⟩ := key h
    have hc : ∀ m, m ∈ NumMethod.eq.spellings → convertStringToRegex w m = gs"^" ++ w ++ gs"$" := by
      intro m hm; simp only [NumMethod.spellings, List.mem_cons, List.not_mem_nil, or_false] at hm
      rcases hm with rfl | rfl <;> rfl
    have hf := hc m hm
    rw [← k2]
    simp only [NumMethod.spellings, List.mem_cons, List.not_mem_nil, or_false] at hm
    rcases hm with rfl | rfl <;> simp [leafText, isRegexMethod, finalMethod, finalValue, compareStringWithWildcards, Re.matches] <;>
      simp only [List.cons_append, List.nil_append] at hf k1 ⊢ <;> rw [hf, k1]
  · obtain ⟨k1, k2⟩ := key h
    have hc : ∀ m, m ∈ NumMethod.ne.spellings → convertStringToRegex w m = gs"^" ++ w ++ gs"$" := by
      intro m hm; simp only [NumMethod.spellings, List.mem_cons, List.not_mem_nil, or_false] at hm
      rcases hm with rfl | rfl | rfl | rfl <;> rfl
    have hf := hc m hm
    rw [← k2]
    simp only [NumMethod.spellings, List.mem_cons, List.not_mem_nil, or_false] at hm
    rcases hm with rfl | rfl | rfl | rfl <;> simp [leafText, isRegexMethod, finalMethod, finalValue, compareStringWithWildcards, Re.matches] <;>
      simp only [List.cons_append, List.nil_append] at hf k1 ⊢ <;> rw [hf, k1] <;> simp
  · obtain ⟨k1, k2⟩ := key h
    rw [← k2]
    simp only [List.mem_cons, List.not_mem_nil, or_false] at hm
    rcases hm with rfl | rfl <;> simp [leafText, isRegexMethod, finalMethod, finalValue, compareRegex, Re.matches, k1]
  · obtain ⟨k1, k2⟩ := key h
    rw [← k2]
    simp only [List.mem_cons, List.not_mem_nil, or_false] at hm
    rcases hm with rfl | rfl <;> simp [leafText, isRegexMethod, finalMethod, finalValue, compareRegex, Re.matches, k1]
  · simp only [List.mem_cons, List.not_mem_nil, or_false] at hm
    rcases hm with rfl | rfl <;> simp [leafText, isRegexMethod, finalMethod, compareStringWithWildcards, List.length_pos_iff]
  · simp only [List.mem_cons, List.not_mem_nil, or_false] at hm
    rcases hm with rfl | rfl <;> simp [leafText, isRegexMethod, finalMethod, compareStringWithWildcards, List.length_eq_zero_iff]

/-- The answer of a method that says something about texts. -/
theorem leafText_means (hre : RegexpOk env) {P : Str → Prop} (hP : TextMeans m w P) (x : Str) : leafText env m w x = true ↔ P x := by
  have key := fun re => leafText_answers (m := m) (w := w) (re := re) hre x
  cases hP with
  | eq hm hw =>
    obtain ⟨re, h1, h2⟩ := readPattern_word hw
    rw [(key re).1 (by simpa [NumMethod.spellings] using hm) h1, h2]
  | ne hm hw =>
    obtain ⟨re, h1, h2⟩ := readPattern_word hw
    rw [(key re).2.1 (by simpa [NumMethod.spellings] using hm) h1, h2]
  | fits hm hw => exact (key _).1 (by simpa [NumMethod.spellings] using hm) hw
  | differs hm hw => exact (key _).2.1 (by simpa [NumMethod.spellings] using hm) hw
  | found hm hw => exact (key _).2.2.1 hm hw
  | notFound hm hw => exact (key _).2.2.2.1 hm hw
  | nonempty hm => exact (key .eps).2.2.2.2.1 hm
  | empty hm => exact (key .eps).2.2.2.2.2 hm
  | isIn hm hl hn hw =>
    have hm' : m = gs"IN" ∨ m = gs"IS" := by simpa using hm
    unfold leafText
    rw [if_pos (list_regex (by tauto)), (words_answer hre hl hn hw x).1 hm', decide_eq_true_iff]
  | notIn hm hl hn hw =>
    unfold leafText
    rw [if_pos (list_regex (by tauto)), (words_answer hre hl hn hw x).2 hm, decide_eq_true_iff]

/-- **C73**, attributes that are texts. -/
theorem C73_text {f : Msg → Str} {P : Str → Prop} (hre : RegexpOk env) (ht : TextAttr a f) (hP : TextMeans m w P)
    (h : (parsed env a m v r).prepare env t = .ok c) (hv : ValueResolves env t m v w)
    (hn : (∃ x, a = gs"$sender." ++ x) → ¬ ∃ y, w = gs"$receiver." ++ y) :
    ∃ b, testOneCondition env p c msg = .ok (b, []) ∧ (b = true ↔ P (f msg)) :=
  ⟨_, test_text (prepare_leaf h hv) ht hn, leafText_means hre hP _⟩

/-- **C73**, labels: what is said is false of a label that is not there. (EX and NEX: `C28_ex`, `C28_nex_partial`.) -/
theorem C73_label {f : Msg → Option Str} {P : Str → Prop} (hre : RegexpOk env) (ht : LabelAttr a f) (hP : TextMeans m w P)
    (hm : m ∉ [gs"EX", gs"ex"]) (h : (parsed env a m v r).prepare env t = .ok c) (hv : ValueResolves env t m v w)
    (hn : (∃ x, a = gs"senderLabel[" ++ x) → ¬ ∃ y, w = gs"receiverLabel[" ++ y) :
    ∃ b, testOneCondition env p c msg = .ok (b, []) ∧ (b = true ↔ ∃ x, f msg = some x ∧ P x) := by
  refine ⟨_, test_label (prepare_leaf h hv) ht hn, ?_⟩
  have hm' : ¬ (finalMethod m = gs"EX" ∨ finalMethod m = gs"ex") := by
    unfold finalMethod
    split
    · simp
    · split
      · simp
      · simpa using hm
  cases hf : f msg with
  | none => simp
  | some x =>
    simp only [leafLabel, if_neg hm', leafText_means hre hP, Option.some.injEq, exists_eq_left']

/-- **C73**, what json paths select: scalars, and lists and objects as they are compared. -/
theorem C73_json {q : Str} {P : Str → Prop} (hre : RegexpOk env) (hord : env.OrdOk) (hnum : NumbersOk env) (hP : ScalarMeans m w P)
    (h : (parsed env (gs"jsonpath:" ++ q) m v none).prepare env t = .ok c) (hv : ValueResolves env t m v w)
    (hx : SelectsText env msg q s) (hs : (∃ k : NumMethod, m ∈ k.spellings) → parseNumber env s = none) :
    ∃ b, testOneCondition env p c msg = .ok (b, []) ∧ (b = true ↔ P s) := by
  have hl := prepare_leaf h hv
  rw [test_scalar hord hl hx, compareScalar]
  have done : ∀ b, compareInterfaceText env c s = .ok b → compareBytesText env c s = .ok b → (b = true ↔ P s) →
      ∃ b, (do let b ← (if msg.rawI.isSome then compareInterfaceText env c s else compareBytesText env c s); pure (b, []) : Go (Bool × List Extra)) = .ok (b, []) ∧
        (b = true ↔ P s) := by
    intro b h1 h2 h3
    refine ⟨b, ?_, h3⟩
    rw [h1, h2, ite_self]; rfl
  have regex : ∀ b, (finalMethod m = gs"RE" ∨ finalMethod m = gs"NRE" ∨ finalMethod m = gs"re" ∨ finalMethod m = gs"nre") →
      compareRegex env s (finalMethod m) (compile env (finalValue m w)) = b →
      compareInterfaceText env c s = .ok b ∧ compareBytesText env c s = .ok b := by
    intro b hm hb
    unfold compareInterfaceText compareBytesText
    rw [hl.method, hl.regex, hb]
    rcases hm with e | e | e | e <;> rw [e] <;> exact ⟨rfl, rfl⟩
  have pattern : ∀ {re}, m ∈ [gs"RE", gs"re"] ∨ m ∈ [gs"NRE", gs"nre"] → readPattern w = some re →
      ∀ b, leafText env m w s = b → compareInterfaceText env c s = .ok b ∧ compareBytesText env c s = .ok b := by
    intro re hm hw b hb
    refine regex b ?_ ?_
    · rcases hm with hm | hm <;> simp only [List.mem_cons, List.not_mem_nil, or_false] at hm <;> rcases hm with rfl | rfl <;> decide
    · rw [← hb, leafText, if_pos]
      rcases hm with hm | hm <;> simp only [List.mem_cons, List.not_mem_nil, or_false] at hm <;> rcases hm with rfl | rfl <;> rfl
  have key := fun re => leafText_answers (m := m) (w := w) (re := re) hre s
  have equal : ∀ {k : NumMethod}, m ∈ k.spellings → toUpper m = gs"EQ" ∨ toUpper m = gs"NEQ" → NoReference w →
      compareInterfaceText env c s = .ok (compareString s m w) ∧ compareBytesText env c s = .ok (compareString s m w) := by
    intro k hk hu hw
    have hs := hs ⟨k, hk⟩
    obtain ⟨f1, f2⟩ := spelling_final hk
    rw [compare_same hnum hl hv (by rintro ⟨-, -, x, hx⟩; rw [hs] at hx; cases hx), and_self]
    have hval : c.value = w := by
      rw [hl.value, f2, if_neg, if_neg]
      · rw [hasPrefix_iff]; exact fun ⟨y, hy⟩ => hw.1 ⟨y, hy⟩
      · rw [hasPrefix_iff]; exact fun ⟨y, hy⟩ => hw.2 ⟨y, hy⟩
    unfold compareBytesText
    rw [hl.method, f1, hs, hval]
    rcases hu with e | e <;> rw [e] <;> rfl
  cases hP with
  | found hm hw =>
    obtain ⟨k1, k2⟩ := pattern (.inl hm) hw _ rfl
    exact done _ k1 k2 ((key _).2.2.1 hm hw)
  | notFound hm hw =>
    obtain ⟨k1, k2⟩ := pattern (.inr hm) hw _ rfl
    exact done _ k1 k2 ((key _).2.2.2.1 hm hw)
  | there hm =>
    have hne : ¬ s.length = 0 := by simpa [List.length_eq_zero_iff] using selectsText_nonempty hx
    have hm' : finalMethod m = gs"EX" ∨ finalMethod m = gs"ex" := by
      simp only [List.mem_cons, List.not_mem_nil, or_false] at hm
      rcases hm with rfl | rfl <;> decide
    refine done true ?_ ?_ (by simp)
    · unfold compareInterfaceText; rw [hl.method]; rcases hm' with e | e <;> rw [e] <;> simp [toUpper, hne]
    · unfold compareBytesText; rw [hl.method]; rcases hm' with e | e <;> rw [e] <;> simp [toUpper, hne]
  | notThere hm =>
    have hne : ¬ s.length = 0 := by simpa [List.length_eq_zero_iff] using selectsText_nonempty hx
    have hm' : finalMethod m = gs"NEX" ∨ finalMethod m = gs"nex" := by
      simp only [List.mem_cons, List.not_mem_nil, or_false] at hm
      rcases hm with rfl | rfl <;> decide
    refine done false ?_ ?_ (by simp)
    · unfold compareInterfaceText; rw [hl.method]; rcases hm' with e | e <;> rw [e] <;> simp [toUpper, hne]
    · unfold compareBytesText; rw [hl.method]; rcases hm' with e | e <;> rw [e] <;> simp [toUpper, hne]
  | isIn hm hl' hn hw =>
    have hm' : m = gs"IN" ∨ m = gs"IS" := by simpa using hm
    have e := (C30_json (p := p) hre hord hl' hn h hv hw hx).1 hm'
    rw [test_scalar hord hl hx, compareScalar] at e
    exact ⟨_, e, by simp⟩
  | notIn hm hl' hn hw =>
    have e := (C30_json (p := p) hre hord hl' hn h hv hw hx).2 hm
    rw [test_scalar hord hl hx, compareScalar] at e
    exact ⟨_, e, by simp⟩
  | eq hm hw =>
    obtain ⟨k1, k2⟩ := equal (k := .eq) (by simpa [NumMethod.spellings] using hm) (by left; simp only [List.mem_cons, List.not_mem_nil, or_false] at hm; rcases hm with rfl | rfl <;> rfl) hw
    refine done _ k1 k2 ?_
    simp only [List.mem_cons, List.not_mem_nil, or_false] at hm
    rcases hm with rfl | rfl <;> simp [compareString]
  | ne hm hw =>
    obtain ⟨k1, k2⟩ := equal (k := .ne) (by simp only [List.mem_cons, List.not_mem_nil, or_false] at hm; rcases hm with rfl | rfl <;> simp [NumMethod.spellings])
      (by right; simp only [List.mem_cons, List.not_mem_nil, or_false] at hm; rcases hm with rfl | rfl <;> rfl) hw
    refine done _ k1 k2 ?_
    simp only [List.mem_cons, List.not_mem_nil, or_false] at hm
    rcases hm with rfl | rfl <;> simp [compareString]

/-- **C73** is violated by EQ on attributes that are texts: the value is a pattern, so that a dot in it is any character. -/
theorem C73_violated_dot (hre : RegexpOk env) : Answers env {} p { domain := gs"axb" } gs"domain" gs"EQ" gs"a.b" true := by
  have hr : readPattern (gs"^" ++ gs"a.b" ++ gs"$") = some (.seq (.seq (.seq (.seq (.seq .eps .bol) (.chr 'a')) .dot) (.chr 'b')) .eol) := by
    simp [readPattern, tokens, readToks, Reading.flush, Reading.close, special]
  have hv : ValueResolves env {} gs"EQ" gs"a.b" gs"a.b" := .plain (by simp)
  obtain ⟨c, hc⟩ := C42_prepared_iff (env := env.toExt) (t := {}) (a := gs"domain") (m := gs"EQ") (v := gs"a.b") (r := none) |>.2
    ⟨gs"a.b", hv, ⟨.simple (by decide) (by simp), by decide, by simp [orderMethods], by simp [patternMethods], by simp, by simp⟩,
      by simp, fun _ => by simpa using (hre _ _ hr).1, by simp⟩
  refine ⟨c, hc, ?_⟩
  rw [test_text (prepare_leaf hc hv) .domain (by simp)]
  congr 2
  rw [(leafText_answers hre _).1 (by simp [NumMethod.spellings]) hr]
  refine ⟨[], gs"axb", [], rfl, ?_⟩
  have h1 : MatchesAt .bol [] [] gs"axb" := .bol
  have h2 : MatchesAt (.chr 'a') [] gs"a" gs"xb" := .chr
  have h3 : MatchesAt .dot gs"a" gs"x" gs"b" := .dot (by decide)
  have h4 : MatchesAt (.chr 'b') gs"ax" gs"b" [] := .chr
  have h5 : MatchesAt .eol gs"axb" [] [] := .eol
  exact .seq (x := gs"axb") (y := []) (.seq (x := gs"ax") (y := gs"b") (.seq (x := gs"a") (y := gs"x") (.seq (x := []) (y := gs"a") (.seq (x := []) (y := []) .eps h1) h2) h3) h4) h5

/-- **C73** is violated by EQ on json paths: a value that begins like a field of the receiver is cut. -/
theorem C73_violated_reference : ∃ (env : Env) (msg : Msg), SelectsText env msg gs"$.kind" gs"$receiver.cluster" ∧
    Answers env {} [] msg gs"jsonpath:$.kind" gs"EQ" gs"$receiver.cluster" false ∧
    Answers env {} [] msg gs"jsonpath:$.kind" gs"NEQ" gs"$receiver.cluster" true :=
  ⟨Demo.env, { rawI := some (.obj [(gs"kind", .str gs"$receiver.cluster")]) },
   .parsed (j := .str gs"$receiver.cluster") (.path (d := .obj [(gs"kind", .str gs"$receiver.cluster")]) (by rintro (⟨x, h⟩ | ⟨x, h⟩) <;> simp at h) ⟨rfl, rfl⟩ (.found rfl)) .string
     ⟨by simp, by decide, by decide, by decide⟩ (by simp),
   answers_of (by decide +kernel), answers_of (by decide +kernel)⟩

example : RegexpOk regexExt ∧ TextMeans gs"EQ" gs"x-org" (· = gs"x-org") ∧ ScalarMeans gs"NEQ" gs"a.b" (· ≠ gs"a.b") ∧
    TextMeans gs"RE" gs"a.*" (Finds (.seq (.seq .eps (.chr 'a')) (.star .dot))) :=
  ⟨regexExt_ok, .eq (by simp) (by unfold PlainWord; decide), .ne (by simp) ⟨by simp, by simp⟩,
   .found (by simp) (by simp [readPattern, tokens, readToks, Reading.flush, Reading.close, special])⟩

/-- EQ with a value that has a dot: any character fits. -/
example : ∃ re, TextMeans gs"EQ" gs"a.b" (Finds re) ∧ TextMeans gs"NEQ" gs"a.b" (¬ Finds re ·) ∧ Finds re gs"axb" ∧ Finds re gs"a.b" := by
  have h : readPattern (gs"^" ++ gs"a.b" ++ gs"$") = some (.seq (.seq (.seq (.seq (.seq .eps .bol) (.chr 'a')) .dot) (.chr 'b')) .eol) := by
    simp [readPattern, tokens, readToks, Reading.flush, Reading.close, special]
  have key : ∀ c, c ≠ '\n' → Finds (.seq (.seq (.seq (.seq (.seq .eps .bol) (.chr 'a')) .dot) (.chr 'b')) .eol) ['a', c, 'b'] := fun c hc =>
    ⟨[], ['a', c, 'b'], [], rfl, 
      .seq (x := ['a', c, 'b']) (y := []) (.seq (x := ['a', c]) (y := ['b']) (.seq (x := ['a']) (y := [c]) (.seq (x := []) (y := ['a']) (.seq (x := []) (y := []) .eps .bol) .chr) (.dot hc)) .chr) .eol⟩
  exact ⟨_, .fits (by simp) h, .differs (by simp) h, key 'x' (by decide), key '.' (by decide)⟩

end Mapl.Props

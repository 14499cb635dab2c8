import Verif.Props.Texts

/-!
# C80: conditions about lists and objects

A path may select a list or an object. The condition is then about its JSON text, with two exceptions that make a list with one value count as that
value: quotes and brackets that meet are dropped. The full statement fails: see `C80_violated_number`, `C80_violated_inside`, `C80_violated_text`.
-/

namespace Mapl.Props

open Spec

variable {env : Env} {t : Predef} {m v w q : Str} {c : Condition} {msg msg' : Msg} {p p' : List Nat}

/-- A path selects a list of texts, in the parsed document or in the text of the document. -/
inductive SelectsTexts (env : Ext) (msg : Msg) (q : Str) (l : List Str) : Prop
  | parsed (hs : SelectsI env msg q (some (.arr (l.map .str)))) (hj : env.jsonMarshal (.arr (l.map .str)) = gs"[\"" ++ join gs"\",\"" l ++ gs"\"]")
  | text (hs : SelectsB env msg q (gs"[\"" ++ join gs"\",\"" l ++ gs"\"]", false))

theorem selectsTexts {l : List Str} (hl : SelectsTexts env msg q l) (hne : l ≠ []) (hc : ∀ s ∈ l, Clean s) : SelectsText env msg q (join gs"\",\"" l) := by
  cases hl with
  | parsed hs hj => exact .compound hs trivial (hj ▸ .texts hne hc)
  | text hs => exact .compoundText hs (.texts hne hc)

/-- **C80**, partial: a condition does with a list of one text what it does with the text. -/
theorem C80_single_partial {s : Str} (hord : env.OrdOk) (h : (parsed env (gs"jsonpath:" ++ q) m v none).prepare env t = .ok c) (hv : ValueResolves env t m v w)
    (hc : Clean s) (hl : SelectsTexts env msg q [s]) (hs : SelectsText env msg' q s) (hI : msg.rawI.isSome = msg'.rawI.isSome) :
    testOneCondition env p c msg = testOneCondition env p' c msg' := by
  have hl : SelectsText env msg q s := selectsTexts hl (by simp) (by simpa using hc)
  rw [test_scalar hord (prepare_leaf h hv) hl, test_scalar hord (prepare_leaf h hv) hs, hI]

/-- **C80.** With two or more texts in the list, EQ fails and NEQ holds whatever the value, if it has no quote in it; EX holds and NEX fails; RE looks for
the pattern in the texts, written with `","` between them. -/
theorem C80_several {l : List Str} (hre : RegexpOk env) (hord : env.OrdOk) (hnum : NumbersOk env)
    (h : (parsed env (gs"jsonpath:" ++ q) m v none).prepare env t = .ok c) (hv : ValueResolves env t m v w) (hw : '"' ∉ w ∧ NoReference w)
    (h2 : 2 ≤ l.length) (hc : ∀ s ∈ l, Clean s) (hl : SelectsTexts env msg q l) (hx : parseNumber env (join gs"\",\"" l) = none) :
    (m ∈ [gs"EQ", gs"eq", gs"NEX", gs"nex"] → testOneCondition env p c msg = .ok (false, [])) ∧
    (m ∈ [gs"NEQ", gs"neq", gs"EX", gs"ex"] → testOneCondition env p c msg = .ok (true, [])) ∧
    (m ∈ [gs"RE", gs"re"] → ∀ re, readPattern w = some re → ∃ b, testOneCondition env p c msg = .ok (b, []) ∧ (b = true ↔ Finds re (join gs"\",\"" l))) := by
  have hsel : SelectsText env msg q (join gs"\",\"" l) := selectsTexts hl (by rintro rfl; simp at h2) hc
  have hq : '"' ∈ join gs"\",\"" l := by
    match l, h2 with
    | a :: b :: l, _ => simp [join]
  have key := fun P hP => C73_json (p := p) (P := P) hre hord hnum hP h hv hsel fun _ => hx
  have no : ∀ P, ScalarMeans m w P → ¬ P (join gs"\",\"" l) → testOneCondition env p c msg = .ok (false, []) := fun P hP hn => by
    obtain ⟨b, e, hb⟩ := key P hP
    rw [e]; cases b with
    | false => rfl
    | true => exact absurd (hb.1 rfl) hn
  have yes : ∀ P, ScalarMeans m w P → P (join gs"\",\"" l) → testOneCondition env p c msg = .ok (true, []) := fun P hP hn => by
    obtain ⟨b, e, hb⟩ := key P hP
    rw [e, hb.2 hn]
  have hne : join gs"\",\"" l ≠ w := fun e => hw.1 (e ▸ hq)
  refine ⟨fun hm => ?_, fun hm => ?_, fun hm re hr => key _ (.found hm hr)⟩
  · rcases (by simpa using hm : m = gs"EQ" ∨ m = gs"eq" ∨ m = gs"NEX" ∨ m = gs"nex") with e | e | e | e
    · exact no _ (.eq (by simp [e]) hw.2) hne
    · exact no _ (.eq (by simp [e]) hw.2) hne
    · exact no _ (.notThere (by simp [e])) (fun x => x)
    · exact no _ (.notThere (by simp [e])) (fun x => x)
  · rcases (by simpa using hm : m = gs"NEQ" ∨ m = gs"neq" ∨ m = gs"EX" ∨ m = gs"ex") with e | e | e | e
    · exact yes _ (.ne (by simp [e]) hw.2) hne
    · exact yes _ (.ne (by simp [e]) hw.2) hne
    · exact yes _ (.there (by simp [e])) trivial
    · exact yes _ (.there (by simp [e])) trivial

/-- **C80**, partial: other lists, and objects, are compared by their JSON text, if quotes and brackets do not meet in it. -/
theorem C80_text_partial {j : Json} {s : Str} {P : Str → Prop} (hre : RegexpOk env) (hord : env.OrdOk) (hnum : NumbersOk env) (hP : ScalarMeans m w P)
    (h : (parsed env (gs"jsonpath:" ++ q) m v none).prepare env t = .ok c) (hv : ValueResolves env t m v w)
    (hx : (SelectsI env msg q (some j) ∧ Compound j ∧ env.jsonMarshal j = s) ∨ SelectsB env msg q (s, false))
    (hb : (∃ t, s = gs"{" ++ t ++ gs"}") ∨ ∃ t, t ≠ [] ∧ s = gs"[" ++ t ++ gs"]") (hm : ∀ k ∈ [gs"[[", gs"]]", gs"[\"", gs"\"]"], ¬ ∃ a b, s = a ++ k ++ b)
    (hs : (∃ k : NumMethod, m ∈ k.spellings) → parseNumber env s = none) : ∃ b, testOneCondition env p c msg = .ok (b, []) ∧ (b = true ↔ P s) := by
  have ht : CompoundText s s := by
    refine .whole ?_ (hb.imp id fun ⟨t, _, e⟩ => ⟨t, e⟩) hm
    rintro rfl
    rcases hb with ⟨t, e⟩ | ⟨t, hne, e⟩
    · simp at e
    · have := congrArg List.length e
      simp only [List.length_append, List.length_cons, List.length_nil] at this
      exact hne (List.length_eq_zero_iff.1 (by omega))
  refine C73_json hre hord hnum hP h hv ?_ hs
  rcases hx with ⟨h1, h2, h3⟩ | h1
  · exact .compound h1 h2 (h3 ▸ ht)
  · exact .compoundText h1 ht

/-! ## Documents -/

/-- A message with one field. -/
def tagged (j : Json) : Msg := { rawI := some (.obj [(gs"tags", j)]) }

/-- The same as a text. -/
def taggedText (s : Str) : Msg := { jsonRaw := some (gs"{\"tags\":" ++ s ++ gs"}") }

theorem tagged_selects (j : Json) : SelectsI Demo.env (tagged j) gs"$.tags" (some j) :=
  .path (d := .obj [(gs"tags", j)]) (by rintro (⟨x, h⟩ | ⟨x, h⟩) <;> simp at h) ⟨rfl, rfl⟩ (.found rfl)

/-- Hypotheses of C80: lists of one and of two texts. -/
example : SelectsTexts Demo.env (tagged (.arr [.str gs"db"])) gs"$.tags" [gs"db"] ∧ SelectsTexts Demo.env (taggedText gs"[\"db\"]") gs"$.tags" [gs"db"] ∧
    SelectsTexts Demo.env (tagged (.arr [.str gs"db", .str gs"web"])) gs"$.tags" [gs"db", gs"web"] ∧
    Answers Demo.env {} [] (tagged (.arr [.str gs"db"])) gs"jsonpath:$.tags" gs"EQ" gs"db" true ∧
    Answers Demo.env {} [] (taggedText gs"[\"db\"]") gs"jsonpath:$.tags" gs"EQ" gs"db" true ∧
    Answers Demo.env {} [] (tagged (.arr [.str gs"db", .str gs"web"])) gs"jsonpath:$.tags" gs"EQ" gs"db" false := by
  refine ⟨.parsed (tagged_selects _) (by decide +kernel), .text ?_, .parsed (tagged_selects _) (by decide +kernel), answers_of (by decide +kernel),
    answers_of (by decide +kernel), answers_of (by decide +kernel)⟩
  exact .path (d := gs"{\"tags\":[\"db\"]}") (by rintro (⟨x, h⟩ | ⟨x, h⟩) <;> simp at h) ⟨rfl, by simp, rfl⟩ (by decide +kernel)

/-- An object, compared by its JSON text. -/
example : CompoundText gs"{\"a\":1}" gs"{\"a\":1}" ∧ Demo.env.jsonMarshal (.obj [(gs"a", .num (.fin 1))]) = gs"{\"a\":1}" ∧
    Answers Demo.env {} [] (tagged (.obj [(gs"a", .num (.fin 1))])) gs"jsonpath:$.tags" gs"EQ" gs"{\"a\":1}" true ∧
    Answers Demo.env {} [] (tagged (.obj [(gs"a", .num (.fin 1))])) gs"jsonpath:$.tags" gs"EX" [] true := by
  refine ⟨.whole (by simp) (.inl ⟨gs"\"a\":1", rfl⟩) ?_, by decide +kernel, answers_of (by decide +kernel), answers_of (by decide +kernel)⟩
  intro k hk
  have : contains gs"{\"a\":1}" k = false := by
    simp only [List.mem_cons, List.not_mem_nil, or_false] at hk
    rcases hk with rfl | rfl | rfl | rfl <;> decide
  intro h
  rw [contains_iff.2 h] at this
  cases this

/-! ## Where the code differs -/

/-- **C80 fails** for numbers: a list with the number 3 does not count as 3, though one with the text 3 does. -/
theorem C80_violated_number : ∃ (env : Env), Answers env {} [] (tagged (.num (.fin 3))) gs"jsonpath:$.tags" gs"EQ" gs"3" true ∧
    Answers env {} [] (tagged (.arr [.str gs"3"])) gs"jsonpath:$.tags" gs"EQ" gs"3" true ∧
    Answers env {} [] (tagged (.arr [.num (.fin 3)])) gs"jsonpath:$.tags" gs"EQ" gs"3" false ∧
    Answers env {} [] (taggedText gs"[3]") gs"jsonpath:$.tags" gs"EQ" gs"3" false :=
  ⟨Demo.env, answers_of (by decide +kernel), answers_of (by decide +kernel), answers_of (by decide +kernel), answers_of (by decide +kernel)⟩

/-- **C80 fails** inside objects: one with a list of one text equals the JSON text of another one. -/
theorem C80_violated_inside : ∃ (env : Env) (s : Str), env.jsonMarshal (.obj [(gs"a", .str gs"x")]) = s ∧ env.jsonMarshal (.obj [(gs"a", .arr [.str gs"x"])]) ≠ s ∧
    Answers env {} [] (tagged (.obj [(gs"a", .arr [.str gs"x"])])) gs"jsonpath:$.tags" gs"EQ" s true :=
  ⟨Demo.env, gs"{\"a\":\"x\"}", by decide +kernel, by decide +kernel, answers_of (by decide +kernel)⟩

/-- **C80 fails** for texts that look like lists: the text `[]` does not exist. -/
theorem C80_violated_text : ∃ (env : Env), Answers env {} [] (tagged (.str gs"[]")) gs"jsonpath:$.tags" gs"EX" [] false :=
  ⟨Demo.env, answers_of (by decide +kernel)⟩

end Mapl.Props

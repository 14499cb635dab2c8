import Verif.Lemmas.Documents
import Verif.Props.Tree
import Verif.Props.Leaf
import Verif.Props.Synonyms

/-!
# C33, C34: parsed documents and texts, keys and values of entries
-/

namespace Mapl.Props

open Spec

variable {env : Env} {t : Predef} {a m v w : Str} {r : Option (List RetVal)} {c c' : Condition} {msg msg' : Msg} {p p' : List Nat}

/-! ## C33 -/

/-- **C33**, one condition. The full statement is about every document; it fails for null (`C33_violated_null`), for a
number compared with a text (`C33_differs`), and for `$VALUE.x` (`C33_violated_field`). What holds: where the path shows the
same scalar in both representations, or nothing in either, the condition does the same in both. -/
theorem C33_partial {q : Str} {o : Option Str} (hn : NumbersOk env) (hord : env.OrdOk) (hj : env.jsonMarshal (.arr []) = gs"[]")
    (h : (parsed env (gs"jsonpath:" ++ q) m v none).prepare env t = .ok c) (hw : ValueResolves env t m v w)
    (hs : SameValue env msg msg' q o) (hv : ∀ s, o = some s → ¬ NumberAgainstText env m w s) :
    testOneCondition env p c msg = testOneCondition env p' c msg' := by
  cases hs with
  | @scalar s hI hB h1 h2 =>
    have hl := prepare_leaf h hw
    rw [test_scalar hord hl h1, test_scalar hord hl h2, compareScalar, compareScalar, hI, hB, compare_same hn hl hw (hv s rfl)]
    rfl
  | nothing h1 hx h2 hy => rw [C27_interface hord h hj h1 hx, C27_bytes_partial h h2 hy]

/-- **C33.** In the remaining case, a number compared with a value that is not one, the representations always differ: the
text representation crashes and the parsed one answers (for EQ and NEQ by comparing the texts, otherwise with no). -/
theorem C33_differs {q s : Str} (hn : NumbersOk env) (hord : env.OrdOk) (h : (parsed env (gs"jsonpath:" ++ q) m v none).prepare env t = .ok c)
    (hw : ValueResolves env t m v w) (hs : SameValue env msg msg' q (some s)) (hv : NumberAgainstText env m w s) :
    (∃ b, testOneCondition env p c msg = .ok (b, [])) ∧ testOneCondition env p' c msg' = .error (.panic .nilDeref) := by
  cases hs with
  | scalar hI hB h1 h2 =>
    have hl := prepare_leaf h hw
    obtain ⟨⟨k, hk⟩, hwn, x, hx⟩ := hv
    obtain ⟨f1, f2⟩ := spelling_final hk
    obtain ⟨g1, g2, g3⟩ := hn.value hw hwn
    have e2 : c.valueInt = none := by rw [hl.valueInt, f2, g1, g2]; rfl
    have e3 : c.valueFloat = none := by rw [hl.valueFloat, f2, hwn, g3]; rfl
    rw [test_scalar hord hl h1, test_scalar hord hl h2, compareScalar, compareScalar, hI, hB]
    unfold compareInterfaceText compareBytesText
    rw [e2, e3, hl.method, f1, hx]
    clear h1 h2 hl h hw
    cases k <;> simp only [NumMethod.spellings, List.mem_cons, List.not_mem_nil, or_false] at hk <;>
      rcases hk with rfl | rfl | rfl | rfl <;> simp [toUpper, compareFloat, deref]

/-- **C33**, trees. If every condition of the tree answers the same, and every ANY and ALL selects matching elements, on
matching messages, then the trees have the same flag. -/
theorem C33_tree_partial {R : Msg → Msg → Prop} {n : Node} {o o' : EvalOut}
    (hl : ∀ c ∈ leaves n, ∀ m m', R m m' → SameAnswer env c m m') (hq : ∀ a ∈ quantifiers n, ∀ m m', R m m' → SameScopes env R a m m')
    (hR : R msg msg') (h : eval env n p msg = .ok o) (h' : eval env n p' msg' = .ok o') : o.flag = o'.flag := by
  rw [Bool.eq_iff_iff, eval_holds env n p msg o h, eval_holds env n p' msg' o' h']
  exact holds_same n hl hq p p' msg msg' hR

/-- **C33** is violated for null: EX is false of the parsed document and true of the text. -/
theorem C33_violated_null : ∃ (env : Env) (raw : Str) (d : Json), env.jsonUnmarshal raw = some d ∧
    Answers env {} [] { rawI := some d } gs"jsonpath:$.x" gs"EX" [] false ∧
    Answers env {} [] { jsonRaw := some raw } gs"jsonpath:$.x" gs"EX" [] true :=
  ⟨Demo.env, gs"{\"x\":null}", .obj [(gs"x", .null)], rfl, answers_of (by decide +kernel), answers_of (by decide +kernel)⟩

/-- **C33** is violated for `$VALUE.x`: in the scope of the entry `k` with value `{"y":1}` the field `x` exists in the parsed
document and does not exist in the text. -/
theorem C33_violated_field : ∃ (env : Env) (raw : Str) (d : Json), env.jsonUnmarshal raw = some d ∧ d = .obj [(gs"k", .obj [(gs"y", .num (.fin 1))])] ∧
    Answers env {} [] { rawI := some d, rawIRel := some d } gs"jsonpath:$VALUE.x" gs"EX" [] true ∧
    Answers env {} [] { jsonRaw := some raw, jsonRawRel := some raw } gs"jsonpath:$VALUE.x" gs"EX" [] false :=
  ⟨Demo.env, gs"{\"k\":{\"y\":1}}", .obj [(gs"k", .obj [(gs"y", .num (.fin 1))])], by rfl, rfl,
   answers_of (by decide +kernel), answers_of (by decide +kernel)⟩

theorem demo_numbers : NumbersOk Demo.env where
  int s n h := ⟨.fin n, by simp [Demo.env, Demo.ext, Demo.ext0, Demo.parseNum, intText_iff.1 h]⟩
  start c s x h := by
    have hn : ∃ n, parseInt (c :: s) = some n := by
      cases hp : parseInt (c :: s) with
      | none => simp [Demo.env, Demo.ext, Demo.ext0, Demo.parseNum, hp] at h
      | some n => exact ⟨n, rfl⟩
    obtain ⟨n, hn⟩ := hn
    have := parseInt_chars hn c (by simp)
    refine ⟨?_, ?_, ?_⟩ <;> rintro rfl <;> simp [digitVal] at this

/-- Both representations of the example document. -/
example : SameValue Demo.env Demo.msgI Demo.msgB gs"$.kind" (some gs"Pod") ∧ SameValue Demo.env Demo.msgI Demo.msgB gs"$.absent" none ∧
    ¬ NumberAgainstText Demo.env gs"EQ" gs"Pod" gs"Pod" ∧ Demo.env.jsonMarshal (.arr []) = gs"[]" := by
  refine ⟨.scalar rfl rfl
    (.parsed (j := .str gs"Pod") (.path (d := Demo.doc) (by rintro (⟨x, h⟩ | ⟨x, h⟩) <;> simp at h) ⟨rfl, rfl⟩ (.found rfl)) .string ⟨by simp, by decide, by decide, by decide⟩ (by simp))
    (.text (x := gs"\"Pod\"") (.path (d := Demo.render Demo.doc) (by rintro (⟨x, h⟩ | ⟨x, h⟩) <;> simp at h) ⟨rfl, by decide +kernel, rfl⟩ (by decide +kernel)) (.inr rfl) ⟨by simp, by decide, by decide, by decide⟩),
    .nothing (x := some .null) (y := ([], false))
      (.path (d := Demo.doc) (by rintro (⟨x, h⟩ | ⟨x, h⟩) <;> simp at h) ⟨rfl, rfl⟩ (.notFound (e := gs"child not found in JSON object at 0") rfl ⟨gs"child ", gs" 0", rfl⟩)) .null
      (.path (d := Demo.render Demo.doc) (by rintro (⟨x, h⟩ | ⟨x, h⟩) <;> simp at h) ⟨rfl, by decide +kernel, rfl⟩ (by decide +kernel)) .nothing, ?_, by decide +kernel⟩
  rintro ⟨-, -, x, hx⟩
  rw [show parseNumber Demo.env gs"Pod" = none by decide +kernel] at hx
  cases hx

/-- A number and the value "abc": an answer in one representation, a crash in the other. -/
example : SameValue Demo.env Demo.msgI Demo.msgB gs"$.replicas" (some gs"3") ∧ NumberAgainstText Demo.env gs"EQ" gs"abc" gs"3" := by
  refine ⟨.scalar rfl rfl
    (.parsed (j := .num (.fin 3)) (.path (d := Demo.doc) (by rintro (⟨x, h⟩ | ⟨x, h⟩) <;> simp at h) ⟨rfl, rfl⟩ (.found rfl)) (by
      have := ScalarText.number (env := Demo.env) (x := .fin 3); exact this) ⟨by simp, by decide, by decide, by decide⟩ (by simp))
    (.text (x := gs"3") (.path (d := Demo.render Demo.doc) (by rintro (⟨x, h⟩ | ⟨x, h⟩) <;> simp at h) ⟨rfl, by decide +kernel, rfl⟩ (by decide +kernel)) (.inl rfl) ⟨by simp, by decide, by decide, by decide⟩),
    ⟨.eq, by simp [NumMethod.spellings]⟩, by decide +kernel, .fin 3, by decide +kernel⟩

/-- Matching messages for the tree `demoTree`: the two representations of the document, and of its containers in scope. -/
inductive DemoMatch : Msg → Msg → Prop
  | whole : DemoMatch Demo.msgI Demo.msgB
  | first : DemoMatch { Demo.msgI with rawIRel := some (.obj [(gs"image", .str gs"nginx"), (gs"cpu", .num (.fin 2))]) }
      { Demo.msgB with jsonRawRel := some gs"{\"image\":\"nginx\",\"cpu\":2}" }
  | second : DemoMatch { Demo.msgI with rawIRel := some (.obj [(gs"image", .str gs"redis"), (gs"cpu", .num (.fin 7))]) }
      { Demo.msgB with jsonRawRel := some gs"{\"image\":\"redis\",\"cpu\":7}" }

/-- The ANY node of `demoTree`. -/
def demoQuantifier : AnyAll :=
  match quantifiers demoTree with
  | a :: _ => a
  | [] => {}

set_option maxRecDepth 20000 in
/-- The hypotheses on ANY nodes are met there: two pairs of matching elements. -/
example : quantifiers demoTree = [demoQuantifier] ∧ SameScopes Demo.env DemoMatch demoQuantifier Demo.msgI Demo.msgB := by
  refine ⟨rfl, ?_⟩
  intro p p'
  have h1 : scopes Demo.env p demoQuantifier Demo.msgI = .ok (some [{ Demo.msgI with rawIRel := some (.obj [(gs"image", .str gs"nginx"), (gs"cpu", .num (.fin 2))]) },
    { Demo.msgI with rawIRel := some (.obj [(gs"image", .str gs"redis"), (gs"cpu", .num (.fin 7))]) }]) := by rfl
  have h2 : scopes Demo.env p' demoQuantifier Demo.msgB = .ok (some [{ Demo.msgB with jsonRawRel := some gs"{\"image\":\"nginx\",\"cpu\":2}" },
    { Demo.msgB with jsonRawRel := some gs"{\"image\":\"redis\",\"cpu\":7}" }]) := by rfl
  have hm := And.intro DemoMatch.first DemoMatch.second
  constructor
  · intro l hl
    rw [h1] at hl
    simp only [Except.ok.injEq, Option.some.injEq] at hl
    subst hl
    refine ⟨_, h2, ?_, ?_⟩
    · simp [hm]
    · simp [hm]
  · intro l hl
    rw [h2] at hl
    simp only [Except.ok.injEq, Option.some.injEq] at hl
    subst hl
    refine ⟨_, h1, ?_, ?_⟩
    · simp [hm]
    · simp [hm]

/-! ## C34 -/

theorem judge_congr {a a' : Str} {r r' : Option (List RetVal)} (h : Leaf env a m v w r c) (h' : Leaf env a' m v w r' c') :
    (∀ x, judgeInterfaceValue env c x = judgeInterfaceValue env c' x) ∧ ∀ x, judgeBytesValue env c x = judgeBytesValue env c' x := by
  have e1 : c.method = c'.method := by rw [h.method, h'.method]
  have e2 : c.valueInt = c'.valueInt := by rw [h.valueInt, h'.valueInt]
  have e3 : c.valueFloat = c'.valueFloat := by rw [h.valueFloat, h'.valueFloat]
  have e4 : c.valueRegex = c'.valueRegex := by rw [h.regex, h'.regex]
  have e5 : c.value = c'.value := by rw [h.value, h'.value]
  constructor
  · intro x
    unfold judgeInterfaceValue emptyResult compareInterfaceText
    rw [e1, e2, e3, e4, e5]
  · intro x
    unfold judgeBytesValue emptyResult compareBytesText
    rw [e1, e3, e4, e5]

/-- Conditions with the same method and value that look at the same thing in parsed documents have the same answer. -/
theorem same_selection {q q' : Str} {x : Option Json} (hord : env.OrdOk)
    (h : (parsed env (gs"jsonpath:" ++ q) m v none).prepare env t = .ok c)
    (h' : (parsed env (gs"jsonpath:" ++ q') m v none).prepare env t = .ok c')
    (hs : SelectsI env msg q x) (hs' : SelectsI env msg' q' x) : testOneCondition env p c msg = testOneCondition env p' c' msg' := by
  obtain ⟨w, -, hw, -⟩ := prepare_inv h
  have hl := prepare_leaf h hw
  have hl' := prepare_leaf h' hw
  rw [test_path hl, test_path hl', flag_interface hord hl hs, flag_interface hord hl' hs', (judge_congr hl hl').1]

/-- The same for texts. -/
theorem same_selection_text {q q' : Str} {x : Str × Bool}
    (h : (parsed env (gs"jsonpath:" ++ q) m v none).prepare env t = .ok c)
    (h' : (parsed env (gs"jsonpath:" ++ q') m v none).prepare env t = .ok c')
    (hs : SelectsB env msg q x) (hs' : SelectsB env msg' q' x) : testOneCondition env p c msg = testOneCondition env p' c' msg' := by
  obtain ⟨w, -, hw, -⟩ := prepare_inv h
  have hl := prepare_leaf h hw
  have hl' := prepare_leaf h' hw
  rw [test_path hl, test_path hl', flag_bytes hl hs, flag_bytes hl' hs', (judge_congr hl hl').2]

/-- **C34**, `$KEY` on parsed documents: in the scope of the entry `k : j`, a condition on `$KEY` answers like the same
condition on a path that selects the string `k` in some document. -/
theorem C34_key {q k : Str} {j d : Json} (hord : env.OrdOk) (h : (parsed env gs"jsonpath:$KEY" m v none).prepare env t = .ok c)
    (h' : (parsed env (gs"jsonpath:" ++ q) m v none).prepare env t = .ok c') (hI : msg.rawI.isSome) (hr : msg.rawIRel = some (.obj [(k, j)]))
    (hq : ¬ EntryPath q) (hd : DocumentI msg' q d) (hs : Selected env (queryText q) d (some (.str k))) :
    testOneCondition env p c msg = testOneCondition env p' c' msg' :=
  same_selection (q := gs"$KEY") hord h h' (.key rfl hI hr) (.path hq hd hs)

/-- **C34**, `$VALUE` on parsed documents: the same with the value `j`. -/
theorem C34_value {q k : Str} {j d : Json} (hord : env.OrdOk) (h : (parsed env gs"jsonpath:$VALUE" m v none).prepare env t = .ok c)
    (h' : (parsed env (gs"jsonpath:" ++ q) m v none).prepare env t = .ok c') (hI : msg.rawI.isSome) (hr : msg.rawIRel = some (.obj [(k, j)]))
    (hq : ¬ EntryPath q) (hd : DocumentI msg' q d) (hs : Selected env (queryText q) d (some j)) :
    testOneCondition env p c msg = testOneCondition env p' c' msg' :=
  same_selection (q := gs"$VALUE") hord h h' (.value rfl hI hr) (.path hq hd hs)

/-- **C34**, on texts: an object with several entries or none has no key and no value, so that only NEX and nex hold. -/
theorem C34_several_text {q raw : Str} {kvs : List (Str × Json)} (hq : q = gs"$KEY" ∨ q = gs"$VALUE")
    (h : (parsed env (gs"jsonpath:" ++ q) m v none).prepare env t = .ok c) (hI : msg.rawI = none) (hr : msg.jsonRawRel = some raw) (hn : raw ≠ [])
    (hj : env.jsonUnmarshal raw = some (.obj kvs)) (hk : kvs.length ≠ 1) :
    testOneCondition env p c msg = .ok (decide (m = gs"NEX" ∨ m = gs"nex"), []) :=
  C27_bytes_partial h (.several hq hI hr hn hj hk) .nothing

/-- **C34**, `$KEY` on texts. -/
theorem C34_key_text {q k raw d : Str} {j : Json} (h : (parsed env gs"jsonpath:$KEY" m v none).prepare env t = .ok c)
    (h' : (parsed env (gs"jsonpath:" ++ q) m v none).prepare env t = .ok c') (hI : msg.rawI = none) (hr : msg.jsonRawRel = some raw)
    (hn : raw ≠ []) (hj : env.jsonUnmarshal raw = some (.obj [(k, j)])) (hq : ¬ EntryPath q) (hd : DocumentB msg' q d)
    (hs : env.jsGet d (pathQuery q) = (k, false)) : testOneCondition env p c msg = testOneCondition env p' c' msg' :=
  same_selection_text (q := gs"$KEY") h h' (.key rfl hI hr hn hj) (.path hq hd hs)

/-- **C34**, `$VALUE` on texts. -/
theorem C34_value_text {q k raw d : Str} {j : Json} (h : (parsed env gs"jsonpath:$VALUE" m v none).prepare env t = .ok c)
    (h' : (parsed env (gs"jsonpath:" ++ q) m v none).prepare env t = .ok c') (hI : msg.rawI = none) (hr : msg.jsonRawRel = some raw)
    (hn : raw ≠ []) (hj : env.jsonUnmarshal raw = some (.obj [(k, j)])) (hq : ¬ EntryPath q) (hd : DocumentB msg' q d)
    (hs : env.jsGet d (pathQuery q) = (env.jsonMarshal j, false)) : testOneCondition env p c msg = testOneCondition env p' c' msg' :=
  same_selection_text (q := gs"$VALUE") h h' (.value rfl hI hr hn hj) (.path hq hd hs)

/-- **C34**, `$VALUE.x` on texts: a condition on `$VALUE.x` answers like the same condition on the path `$.x` in a document that
consists of the value of the entry. -/
theorem C34_field_text {q q' y k raw : Str} {j : Json} (h : (parsed env (gs"jsonpath:" ++ q) m v none).prepare env t = .ok c)
    (h' : (parsed env (gs"jsonpath:" ++ q') m v none).prepare env t = .ok c') (hI : msg.rawI = none) (hr : msg.jsonRawRel = some raw)
    (hn : raw ≠ []) (hj : env.jsonUnmarshal raw = some (.obj [(k, j)])) (hv : ∃ z, q = gs"$VALUE" ++ z) (hy : pathQuery q = gs"$VALUE." ++ y)
    (hq : ¬ EntryPath q') (hy' : pathQuery q' = gs"$." ++ y) (hd : DocumentB msg' q' (env.jsonMarshal j)) :
    testOneCondition env p c msg = testOneCondition env p' c' msg' :=
  same_selection_text h h' (.field hy hv hI hr hn hj rfl) (.path hq hd (by rw [hy']))

/-- What ANY and ALL range over when the parent path selects an object. -/
theorem entry_scopes {b : AnyAll} {q : JPath} {d : Json} {kvs : List (Str × Json)} {e : Option Str} {l : List Msg} (ho : env.OrdOk)
    (hm : msg.rawI.isSome) (hq : b.queries = [q]) (hs : b.parent ≠ gs"$RELATIVE*") (hd : parentDoc b msg = some d)
    (hsel : env.jpGet q.src d = (.obj kvs, e)) (h : scopes env p b msg = .ok (some l)) :
    l.Perm (kvs.map fun kv => { msg with rawIRel := some (.obj [kv]) }) := by
  have := C17_elements ho hm (by rw [hq]; simp) hs hd h
  rw [hq] at this
  simpa [hsel, elementsOf, List.map_map, Function.comp_def] using this

/-- **C34**, whole trees: ANY over an object with a condition that answers `P` on each entry is true exactly if `P` holds of
some entry. -/
theorem C34_any {b : AnyAll} {q : JPath} {d : Json} {kvs : List (Str × Json)} {e : Option Str} {o : EvalOut} (P : Str × Json → Prop)
    (ho : env.OrdOk) (hm : msg.rawI.isSome) (hq : b.queries = [q]) (hs : b.parent ≠ gs"$RELATIVE*") (hd : parentDoc b msg = some d)
    (hsel : env.jpGet q.src d = (.obj kvs, e))
    (hP : ∀ kv ∈ kvs, ∀ p, (∃ e, testOneCondition env p c { msg with rawIRel := some (.obj [kv]) } = .ok (true, e)) ↔ P kv)
    (h : eval env (.any b (.cond c)) p msg = .ok o) : o.flag = true ↔ ∃ kv ∈ kvs, P kv := by
  rw [eval_holds env _ p msg o h, Holds]
  constructor
  · rintro ⟨l, hl, i, x, hi, hx⟩
    have hp := entry_scopes ho hm hq hs hd hsel hl
    obtain ⟨kv, hkv, rfl⟩ := List.mem_map.1 (hp.subset (List.mem_of_getElem? hi))
    rw [Holds] at hx
    exact ⟨kv, hkv, (hP kv hkv _).1 hx⟩
  · rintro ⟨kv, hkv, hx⟩
    rw [eval] at h
    obtain ⟨l, hl⟩ : ∃ l, scopes env p b msg = .ok (some l) := by
      unfold evalAny at h
      unfold scopes
      rw [if_pos ⟨hm, by rw [hq]; simp⟩] at h ⊢
      rw [Go.bind_eq_ok] at h
      obtain ⟨l, hl, -⟩ := h
      exact ⟨_, by rw [hl]; rfl⟩
    have hp := entry_scopes ho hm hq hs hd hsel hl
    obtain ⟨i, hi⟩ := List.getElem?_of_mem (hp.symm.subset (List.mem_map.2 ⟨kv, hkv, rfl⟩))
    exact ⟨l, hl, i, _, hi, by rw [Holds]; exact (hP kv hkv _).2 hx⟩

/-- **C34**, whole trees: ALL over an object. -/
theorem C34_all {b : AnyAll} {q : JPath} {d : Json} {kvs : List (Str × Json)} {e : Option Str} {o : EvalOut} (P : Str × Json → Prop)
    (ho : env.OrdOk) (hm : msg.rawI.isSome) (hq : b.queries = [q]) (hs : b.parent ≠ gs"$RELATIVE*") (hd : parentDoc b msg = some d)
    (hsel : env.jpGet q.src d = (.obj kvs, e))
    (hP : ∀ kv ∈ kvs, ∀ p, (∃ e, testOneCondition env p c { msg with rawIRel := some (.obj [kv]) } = .ok (true, e)) ↔ P kv)
    (h : eval env (.all b (.cond c)) p msg = .ok o) : o.flag = true ↔ ∀ kv ∈ kvs, P kv := by
  rw [eval_holds env _ p msg o h, Holds]
  constructor
  · rintro ⟨l, hl, hx⟩ kv hkv
    have hp := entry_scopes ho hm hq hs hd hsel hl
    obtain ⟨i, hi⟩ := List.getElem?_of_mem (hp.symm.subset (List.mem_map.2 ⟨kv, hkv, rfl⟩))
    have := hx i _ hi
    rw [Holds] at this
    exact (hP kv hkv _).1 this
  · intro hx
    rw [eval] at h
    obtain ⟨l, hl⟩ : ∃ l, scopes env p b msg = .ok (some l) := by
      unfold evalAll at h
      unfold scopes
      rw [if_pos ⟨hm, by rw [hq]; simp⟩] at h ⊢
      rw [Go.bind_eq_ok] at h
      obtain ⟨l, hl, -⟩ := h
      exact ⟨_, by rw [hl]; rfl⟩
    have hp := entry_scopes ho hm hq hs hd hsel hl
    refine ⟨l, hl, fun i x hi => ?_⟩
    obtain ⟨kv, hkv, rfl⟩ := List.mem_map.1 (hp.subset (List.mem_of_getElem? hi))
    rw [Holds]
    exact (hP kv hkv _).2 (hx kv hkv)

theorem answers_iff {P : Prop} [Decidable P] {x : Go (Bool × List Extra)} (h : x = .ok (decide P, [])) : (∃ e, x = .ok (true, e)) ↔ P := by
  rw [h]
  simp

/-- **C34**, example of use: "some key is in the list" and "all keys are in the list". -/
theorem C34_keys_in {words : List Str} {b : AnyAll} {q : JPath} {d : Json} {kvs : List (Str × Json)} {e : Option Str} {o : EvalOut}
    (hre : RegexpOk env) (ho : env.OrdOk) (hl : ∀ x ∈ words, PlainWord x) (hn : words ≠ [])
    (hc : (parsed env gs"jsonpath:$KEY" gs"IN" v none).prepare env t = .ok c) (hv : ValueResolves env t gs"IN" v w) (hw : Written words w)
    (hm : msg.rawI.isSome) (hq : b.queries = [q]) (hs : b.parent ≠ gs"$RELATIVE*") (hd : parentDoc b msg = some d)
    (hsel : env.jpGet q.src d = (.obj kvs, e)) (hk : ∀ kv ∈ kvs, Clean kv.1 ∧ kv.1 ≠ gs"<nil>") :
    (eval env (.any b (.cond c)) p msg = .ok o → (o.flag = true ↔ ∃ kv ∈ kvs, kv.1 ∈ words)) ∧
    (eval env (.all b (.cond c)) p msg = .ok o → (o.flag = true ↔ ∀ kv ∈ kvs, kv.1 ∈ words)) := by
  have hP : ∀ kv ∈ kvs, ∀ p, (∃ e, testOneCondition env p c { msg with rawIRel := some (.obj [kv]) } = .ok (true, e)) ↔ kv.1 ∈ words := by
    intro kv hkv p
    have := (C30_json (p := p) (msg := { msg with rawIRel := some (.obj [kv]) }) (q := gs"$KEY") (x := kv.1) hre ho hl hn hc hv hw
      (.parsed (.key (j := kv.2) rfl hm rfl) .string (hk kv hkv).1 (hk kv hkv).2)).1 (.inl rfl)
    exact answers_iff this
  exact ⟨C34_any (fun kv => kv.1 ∈ words) ho hm hq hs hd hsel hP, C34_all (fun kv => kv.1 ∈ words) ho hm hq hs hd hsel hP⟩

/-- **C34**, example of use: comparison of the values with a number. -/
theorem C34_values_number {k : NumMethod} {s : Str} {x : F64} {num : Str × Json → F64} {text : Str × Json → Str} {b : AnyAll} {q : JPath} {d : Json}
    {kvs : List (Str × Json)} {e : Option Str} {o : EvalOut} (ho : env.OrdOk) (hsp : s ∈ k.spellings)
    (hc : (parsed env gs"jsonpath:$VALUE" s v none).prepare env t = .ok c) (hv : ValueResolves env t s v w) (hx : parseNumber env w = some x)
    (hm : msg.rawI.isSome) (hq : b.queries = [q]) (hs : b.parent ≠ gs"$RELATIVE*") (hd : parentDoc b msg = some d)
    (hsel : env.jpGet q.src d = (.obj kvs, e))
    (hk : ∀ kv ∈ kvs, ScalarText env kv.2 (text kv) ∧ Clean (text kv) ∧ text kv ≠ gs"<nil>" ∧ parseNumber env (text kv) = some (num kv)) :
    (eval env (.any b (.cond c)) p msg = .ok o → (o.flag = true ↔ ∃ kv ∈ kvs, k.holdsF (num kv) x)) ∧
    (eval env (.all b (.cond c)) p msg = .ok o → (o.flag = true ↔ ∀ kv ∈ kvs, k.holdsF (num kv) x)) := by
  have hP : ∀ kv ∈ kvs, ∀ p, (∃ e, testOneCondition env p c { msg with rawIRel := some (.obj [kv]) } = .ok (true, e)) ↔ k.holdsF (num kv) x := by
    intro kv hkv p
    obtain ⟨h1, h2, h3, h4⟩ := hk kv hkv
    have := C25_json (p := p) (msg := { msg with rawIRel := some (.obj [kv]) }) (q := gs"$VALUE") ho hsp hc hv hx
      (.parsed (.value (k := kv.1) rfl hm rfl) h1 h2 h3) h4
    exact answers_iff this
  exact ⟨C34_any (fun kv => k.holdsF (num kv) x) ho hm hq hs hd hsel hP, C34_all (fun kv => k.holdsF (num kv) x) ho hm hq hs hd hsel hP⟩

/-- The query of `$VALUE.x` begins with `$VALUE` and goes on. -/
theorem field_query (x : Str) : ∃ ch u, pathQuery (gs"$VALUE." ++ x) = gs"$VALUE" ++ ch :: u := by
  unfold pathQuery
  have h1 : sliceHasPrefix [gs"$RELATIVE.", gs"$KEY", gs"$VALUE"] (gs"$VALUE." ++ x) = true := by
    simp [sliceHasPrefix, hasPrefix, List.isPrefixOf]
  have h2 : ∃ x', replaceFirst gs"$RELATIVE." gs"$." (gs"$VALUE." ++ x) = gs"$VALUE." ++ x' :=
    ⟨replaceFirst gs"$RELATIVE." gs"$." x, by simp [replaceFirst, List.isPrefixOf]⟩
  obtain ⟨x', h2⟩ := h2
  simp only [h1, if_true, h2]
  have h3 : ∃ y, removeDotQuotes (gs"$VALUE." ++ x') = gs"$VALUE." ++ y :=
    ⟨removeDotQuotesAux false false '.' x', by simp [removeDotQuotes, removeDotQuotesAux]⟩
  obtain ⟨y, h3⟩ := h3
  have h4 : (gs"$VALUE." ++ x').head? ≠ some '.' := by simp
  rw [if_neg h4, h3]
  have h5 : replaceAll (gs"$VALUE." ++ y) gs"'" gs"\"" = gs"$VALUE." ++ replaceAll y gs"'" gs"\"" := by
    simp [replaceAll, replaceAux, List.isPrefixOf]
  rw [h5]
  generalize replaceAll y gs"'" gs"\"" = z
  cases z with
  | nil => exact ⟨'.', [], by decide⟩
  | cons z0 z =>
    by_cases hz : z0 = '['
    · subst hz
      exact ⟨'[', replaceAll z gs".[" gs"[", by simp [replaceAll, replaceAux, List.isPrefixOf]⟩
    · exact ⟨'.', replaceAll (z0 :: z) gs".[" gs"[", by
        simp only [replaceAll, replaceAux, List.cons_append, List.nil_append, List.isPrefixOf, beq_self_eq_true, Bool.true_and, Bool.and_true]
        have : ('[' == z0) = false := by simp; exact fun h => hz h.symm
        simp [this]⟩

/-- **C34**, `$VALUE.x` on parsed documents. Stated: it is the field `x` of the value. What the code does instead: the field is
ignored, a condition on `$VALUE.x` always answers like the same condition on `$VALUE.y`. -/
theorem C34_field_partial {x y : Str} (h : (parsed env (gs"jsonpath:" ++ (gs"$VALUE." ++ x)) m v none).prepare env t = .ok c)
    (h' : (parsed env (gs"jsonpath:" ++ (gs"$VALUE." ++ y)) m v none).prepare env t = .ok c') (hI : msg.rawI.isSome) :
    testOneCondition env p c msg = testOneCondition env p c' msg := by
  obtain ⟨w, -, hw, -⟩ := prepare_inv h
  have hl := prepare_leaf h hw
  have hl' := prepare_leaf h' hw
  rw [test_path hl, test_path hl']
  have src : ∀ (z : Str) (j : JPath), prepareJsonpathQuery env (pathQuery (gs"$VALUE." ++ z)) = .ok j → j = ⟨gs"$.*"⟩ := by
    intro z j hj
    obtain ⟨ch, u, hu⟩ := field_query z
    rw [hu] at hj
    unfold prepareJsonpathQuery at hj
    have h1 : ∃ u', replaceAll (gs"$VALUE" ++ ch :: u) gs"$RELATIVE" gs"$" = gs"$VALUE" ++ u' :=
      ⟨replaceAll (ch :: u) gs"$RELATIVE" gs"$", by simp [replaceAll, replaceAux, List.isPrefixOf]⟩
    obtain ⟨u', h1⟩ := h1
    simp only [h1] at hj
    rw [if_neg (show ¬ gs"$VALUE" ++ u' = gs"$*" by simp), if_pos (.inr (contains_iff.2 ⟨[], u', rfl⟩))] at hj
    cases hj
    rfl
  obtain ⟨-, -, h2, h3, h4, j, h5, hj⟩ := leafAttr_path hl.attr
  obtain ⟨-, -, h2', h3', h4', j', h5', hj'⟩ := leafAttr_path hl'.attr
  have := src _ _ hj
  subst this
  have := src _ _ hj'
  subst this
  obtain ⟨ch, u, hu⟩ := field_query x
  obtain ⟨ch', u', hu'⟩ := field_query y
  have rel : ∀ z : Str, pathRel (gs"$VALUE." ++ z) = true := fun z => by simp [pathRel, sliceHasPrefix, hasPrefix, List.isPrefixOf]
  unfold testJsonpathFlag testJsonpathOnInterface getKeyValueFromInterface
  rw [h5, h5', h2, h2', h3, h3', h4, h4', hu, hu', rel, rel]
  have hc : msg.rawI.isSome = true ∧ (some (⟨gs"$.*"⟩ : JPath)).isSome = true := ⟨hI, rfl⟩
  rw [if_pos hc, if_pos hc]
  simp only [List.cons_append, List.nil_append, List.cons.injEq, reduceCtorEq, and_false, Char.reduceEq, false_or, if_false, hasPrefix, List.isPrefixOf,
    (judge_congr hl hl').1]

/-- **C34** is violated: in the scope of the entry `k` with value `{"y":1}`, the field `x` of the value exists. -/
theorem C34_violated : ∃ (env : Env) (msg : Msg), msg.rawIRel = some (.obj [(gs"k", .obj [(gs"y", .num (.fin 1))])]) ∧
    Answers env {} [] msg gs"jsonpath:$VALUE.x" gs"EX" [] true ∧ Answers env {} [] msg gs"jsonpath:$VALUE.x" gs"NEX" [] false :=
  ⟨Demo.env, { rawI := some .null, rawIRel := some (.obj [(gs"k", .obj [(gs"y", .num (.fin 1))])]) }, rfl,
   answers_of (by decide +kernel), answers_of (by decide +kernel)⟩

/-- A tree over the labels of the example document, prepared. -/
def demoKeys : Node :=
  match (Demo.anyOf gs"jsonpath:$.labels" (.cond (parsed Demo.env gs"jsonpath:$KEY" gs"IN" gs"tier,zone"))).prepare Demo.env {} with
  | .ok n => n
  | .error _ => .nil

example : (eval Demo.env demoKeys [] Demo.msgI).map (·.flag) = .ok true := by decide +kernel

/-- The hypotheses of the theorems on entries are met there. -/
example : ∃ b c q, demoKeys = .any b (.cond c) ∧ b.queries = [q] ∧ b.parent ≠ gs"$RELATIVE*" ∧ parentDoc b Demo.msgI = some Demo.doc ∧
    Demo.env.jpGet q.src Demo.doc = (.obj [(gs"app", .str gs"web"), (gs"tier", .str gs"front")], none) :=
  ⟨_, _, _, rfl, rfl, by decide +kernel, rfl, rfl⟩

example : ∀ c, (parsed Demo.env gs"jsonpath:$KEY" gs"EQ" gs"k" none).prepare Demo.env {} = .ok c →
    testOneCondition Demo.env [] c { jsonRaw := some gs"{}", jsonRawRel := some gs"{\"k\":1,\"l\":2}" } = .ok (false, []) := fun c h =>
  C34_several_text (q := gs"$KEY") (.inl rfl) h rfl rfl (by simp) (kvs := [(gs"k", .num (.fin 1)), (gs"l", .num (.fin 2))]) (by rfl) (by simp)

example : Answers Demo.env {} [] { rawI := some .null, rawIRel := some (.obj [(gs"k", .num (.fin 1))]) } gs"jsonpath:$KEY" gs"EQ" gs"k" true ∧
    Answers Demo.env {} [] { rawI := some .null, rawIRel := some (.obj [(gs"k", .num (.fin 1))]) } gs"jsonpath:$VALUE" gs"LT" gs"1" false ∧
    Answers Demo.env {} [] { jsonRaw := some gs"{}", jsonRawRel := some gs"{\"k\":{\"x\":5}}" } gs"jsonpath:$VALUE.x" gs"GE" gs"5" true ∧
    pathQuery gs"$VALUE.x" = gs"$VALUE." ++ gs"x" ∧ pathQuery gs"$.x" = gs"$." ++ gs"x" :=
  ⟨answers_of (by decide +kernel), answers_of (by decide +kernel), answers_of (by decide +kernel), by decide +kernel, by decide +kernel⟩

end Mapl.Props

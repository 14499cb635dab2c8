import Verif.Lemmas.Mongo
import Verif.Lemmas.Decision
import Verif.Demo

/-!
# C51, C52, C53: translation to MongoDB queries
-/

namespace Mapl.Props
open Spec

variable {env : Ext} {t : Predef} {base ps : Str} {k : Nat}

/-! ## C51 -/

/-- **C51**, for trees whose paths stand where they can be translated (`Scoped`): the query of the tree selects a document exactly when the
formula of the tree holds for it, each condition being replaced by its own query. For every server and every document. Missing: paths
from the top of the document inside of ANY and ALL, and conditions on keys and values that do not stand directly below an ANY; the
claim is false for them (see below). -/
theorem C51_partial {D : Type} (S : Server D) {n : Node} {x : MQuery × List MStep} (hb : BaseOk base) (hs : Scoped base false n)
    (h : n.toMongo env base [] 0 = .ok x) (d : D) : selects S x.1 d = true ↔ Formula S env base d n d :=
  (formula_node hb hs h).2 d d fun _ => rfl

/-- **C51** for rules: the documents that the result of `ToMongoQuery` selects. The steps of an aggregation are applied first. -/
theorem C51_rule_partial {D : Type} (S : Server D) {env : Env} {g : Predef} {p : List Nat} {r r' : RuleObj} {rule : Rule} {n : Node} {res : MResult}
    (hb : BaseOk base) (h : r.toMongoQuery env g p base = .ok (r', .ok res)) (hr : r'.prepared = some rule) (hn : rule.conditions = some n)
    (hs : Scoped base false n) (d : D) : ∃ steps, (∀ q, res = .simple q → steps = []) ∧
      (resultSelects S res d = true ↔ Formula S env base (added S steps d) n (added S steps d)) := by
  simp only [RuleObj.toMongoQuery, Go.bind_eq_ok] at h
  obtain ⟨r1, _, rule', hd, h⟩ := h
  rw [deref_eq_ok] at hd
  split at h
  · simp at h
  · simp at h
  · next q hq =>
    simp at h
    obtain ⟨rfl, rfl⟩ := h
    rw [hr] at hd; cases hd
    simp only [Rule.toMongo, hn, Go.bind_eq_ok] at hq
    obtain ⟨x, hx, hq⟩ := hq
    simp only [Go.pure_eq, Except.ok.injEq] at hq
    refine ⟨x.2, ?_, ?_⟩
    · intro q hs
      subst hs
      by_contra hne
      rw [if_neg (by simpa using hne)] at hq
      cases hq
    · have := fun d => C51_partial S hb hs hx d
      by_cases h0 : x.2.length = 0
      · rw [if_pos h0] at hq
        subst hq
        rw [List.length_eq_zero_iff.1 h0]
        exact this d
      · rw [if_neg h0] at hq
        subst hq
        exact this _

/-- A tree for the examples: written conditions, prepared. -/
def prepared (n : Node) : Node := match n.prepare Demo.env {} with
  | .ok n' => n'
  | .error _ => .nil

/-- A condition, ANY and ALL as they are written. -/
def leaf (a m v : Str) : Node := condNode Demo.env a m v none
def anyIn (p : Str) (n : Node) : Node := .any (anyFields Demo.env p []) n
def allIn (p : Str) (n : Node) : Node := .all (anyFields Demo.env p []) n

/-- Both kinds of quantifiers, one in the other, and a condition on keys. -/
def sample : Node := .and [leaf gs"jsonpath:$.kind" gs"EQ" gs"Pod",
  anyIn gs"jsonpath:$.containers[:]" (.not (allIn gs"jsonpath:$RELATIVE.ports[:]" (leaf gs"jsonpath:$RELATIVE.port" gs"LT" gs"1024"))),
  anyIn gs"jsonpath:$.labels" (leaf gs"jsonpath:$KEY" gs"EQ" gs"app")]

example : ∃ x, (prepared sample).toMongo Demo.env gs"raw" [] 0 = .ok x := ⟨_, rfl⟩

example : BaseOk gs"raw" ∧ Scoped gs"raw" false (prepared sample) := by
  refine ⟨⟨by decide, by decide⟩, ?_⟩
  obtain ⟨c1, c2, c3, a1, a2, a3, hp, h1, h2, h3, h4, h5, h6⟩ : ∃ c1 c2 c3 a1 a2 a3, prepared sample =
      .and [.cond c1, .any a1 (.not (.all a2 (.cond c2))), .any a3 (.cond c3)] ∧ c1.origAttr = gs"jsonpath:$.kind" ∧
      c2.origAttr = gs"jsonpath:$RELATIVE.port" ∧ c3.origAttr = gs"jsonpath:$KEY" ∧ a1.parentOrig = gs"jsonpath:$.containers[:]" ∧
      a2.parentOrig = gs"jsonpath:$RELATIVE.ports[:]" ∧ a3.parentOrig = gs"jsonpath:$.labels" := ⟨_, _, _, _, _, _, rfl, rfl, rfl, rfl, rfl, rfl, rfl⟩
  rw [hp, Scoped]
  intro n hn
  simp only [List.mem_cons, List.not_mem_nil, or_false] at hn
  rcases hn with rfl | rfl | rfl
  · rw [Scoped, h1]; exact ⟨gs"kind", rfl⟩
  · simp only [Scoped, h2, h4, h5]
    exact ⟨.inl ⟨gs"containers[:]", rfl, by decide, rfl⟩, ⟨gs"containers[:]", rfl⟩, .inr ⟨rfl, .inr ⟨gs"ports[:]", rfl, rfl⟩,
      ⟨gs"ports[:]", rfl⟩, by simp [entryLeaf, h2, asksEntry, hasPrefix, List.isPrefixOf], ⟨gs"port", rfl⟩⟩⟩
  · simp only [Scoped, h6]
    exact ⟨.inl ⟨gs"labels", rfl, by decide, rfl⟩, ⟨gs"labels", rfl⟩, .inl ⟨trivial, by simp [entryLeaf, h3, asksEntry, hasPrefix, List.isPrefixOf]⟩⟩

/-! ### Where the claim is false -/

/-- The server for parsed documents, and what the translation of a written tree selects in it. -/
def server : Server Json := mongoDB Demo.env

def found (base : Str) (n : Node) (d : Json) : Option Bool := match (prepared n).toMongo Demo.env base [] 0 with
  | .ok x => some (selects server x.1 (added server x.2 d))
  | .error _ => none

/-- A document in the field `raw`. -/
def stored (kvs : List (Str × Json)) : Json := .obj [(gs"raw", .obj kvs)]

/-- Violation of C51: inside of an ANY a path from the top of the document is looked up in the element. The tree asks for a list `items` with an
element and the kind `Pod`; the formula holds, the query does not select the document. -/
theorem C51_violated_absolute : ∃ (n : Node) (d : Json) (x : MQuery × List MStep), n.toMongo Demo.env gs"raw" [] 0 = .ok x ∧ x.2 = [] ∧
    Formula server Demo.env gs"raw" d n d ∧ selects server x.1 d = false := by
  refine ⟨prepared (anyIn gs"jsonpath:$.items" (leaf gs"jsonpath:$.kind" gs"EQ" gs"Pod")),
    stored [(gs"kind", .str gs"Pod"), (gs"items", .arr [.obj []])], _, rfl, rfl, ?_, by decide +kernel⟩
  obtain ⟨a, c, hp, ha, hc, ho⟩ : ∃ a c, prepared (anyIn gs"jsonpath:$.items" (leaf gs"jsonpath:$.kind" gs"EQ" gs"Pod")) = .any a (.cond c) ∧
      a.parentOrig = gs"jsonpath:$.items" ∧ c.origAttr = gs"jsonpath:$.kind" ∧
      Own server Demo.env gs"raw" [] (stored [(gs"kind", .str gs"Pod"), (gs"items", .arr [.obj []])]) (.cond c) :=
    ⟨_, _, rfl, rfl, rfl, _, rfl, by decide +kernel⟩
  rw [hp, Formula, ha, if_neg (by simp [entryLeaf, hc, asksEntry, hasPrefix, List.isPrefixOf]), if_pos ⟨gs"items", rfl⟩]
  refine ⟨.obj [], ?_, ?_⟩
  · rw [show server.elems (parentName gs"raw" gs"jsonpath:$.items") (stored [(gs"kind", .str gs"Pod"), (gs"items", .arr [.obj []])]) = [.obj []] from rfl]
    exact List.mem_singleton.2 rfl
  · rw [Formula, hc, if_pos ⟨gs"kind", rfl⟩]
    exact ho

/-- The verdict of the engine for a rule with this tree that blocks. -/
def blocks (n : Node) (doc : Json) : Option Bool := match (Demo.rule gs"block" (some n)).check Demo.env {} [] { Demo.msgI with rawI := some doc } with
  | .ok o => some (o.result == 3)
  | .error _ => none

/-- Violation of C51: below AND, OR and NOT a condition on a key or a value loses the field of its ANY. An AND with one child selects something
else than the child. The engine takes both trees for the same. -/
theorem C51_violated_connective : ∃ (n n' : Node) (kvs : List (Str × Json)), n = anyIn gs"jsonpath:$.labels" n' ∧
    found gs"raw" n (stored kvs) = some true ∧ blocks n (.obj kvs) = some true ∧
    found gs"raw" (anyIn gs"jsonpath:$.labels" (.and [n'])) (stored kvs) = some false ∧
    blocks (anyIn gs"jsonpath:$.labels" (.and [n'])) (.obj kvs) = some true :=
  ⟨_, leaf gs"jsonpath:$KEY" gs"EQ" gs"app", [(gs"labels", .obj [(gs"app", .str gs"web")])], rfl, by decide +kernel, by decide +kernel,
    by decide +kernel, by decide +kernel⟩

/-- Violation of C51: `some key is not app` is translated to `no key is app`. -/
theorem C51_violated_negative : ∃ (n : Node) (kvs : List (Str × Json)), n = anyIn gs"jsonpath:$.labels" (leaf gs"jsonpath:$KEY" gs"NEQ" gs"app") ∧
    found gs"raw" n (stored kvs) = some false ∧ blocks n (.obj kvs) = some true :=
  ⟨_, [(gs"labels", .obj [(gs"app", .str gs"web"), (gs"tier", .str gs"front")])], rfl, by decide +kernel, by decide +kernel⟩

/-- Violation of C51: without a base field the parent of an ANY or ALL is looked up in a field with the empty name. -/
theorem C51_violated_base : ∃ (n : Node) (kvs : List (Str × Json)),
    n = anyIn gs"jsonpath:$.items" (leaf gs"jsonpath:$RELATIVE.kind" gs"EQ" gs"Pod") ∧ found [] n (.obj kvs) = some false ∧
    found gs"raw" n (stored kvs) = some true ∧ blocks n (.obj kvs) = some true :=
  ⟨_, [(gs"items", .arr [.obj [(gs"kind", .str gs"Pod")]])], rfl, by decide +kernel, by decide +kernel, by decide +kernel⟩

/-- Violation of C51: the step for one field spoils another one below it. The tree asks for a key `x` in `a` and a key `y` in `a.b`. -/
theorem C51_violated_steps : ∃ (n : Node) (kvs : List (Str × Json)),
    n = .and [anyIn gs"jsonpath:$.a.b" (leaf gs"jsonpath:$KEY" gs"EQ" gs"y"), anyIn gs"jsonpath:$.a" (leaf gs"jsonpath:$KEY" gs"EQ" gs"b")] ∧
    found gs"raw" n (stored kvs) = some false ∧ blocks n (.obj kvs) = some true :=
  ⟨_, [(gs"a", .obj [(gs"b", .obj [(gs"y", .str gs"1")])])], rfl, by decide +kernel, by decide +kernel⟩

/-! ### Field names -/

/-- **C51**, the field of a condition: a path of names, quoted names and indices is the field with these names, below the base field. -/
theorem C51_field {a m v first : Str} {segs : List Seg} {r : Option (List RetVal)} {c : Condition} {x : MQuery × List MStep}
    (hb : BaseNames base) (h1 : PathName first) (h : ∀ g ∈ segs, PathName g.name)
    (ha : a = gs"jsonpath:$." ++ pathText first segs) (hp : (parsed env a m v r).prepare env t = .ok c) (hx : c.toMongo env base ps k = .ok x) :
    x.2 = [] ∧ ∃ w, ValueResolves env t m v w ∧ (PlainText w → OperatorOf env (below base (dotted first segs)) w m x.1) := by
  obtain ⟨_, w, s, f, hw, hf, hq, ho⟩ := condition_query hp hx
  subst ha
  have hf' : mongoField base ps k (gs"jsonpath:$." ++ pathText first segs) = .ok (below base (pathText first segs), []) := by
    unfold mongoField below
    rw [replaceFirst_prefix]
    cases base with
    | nil => rfl
    | cons y b => rfl
  rw [hf'] at hf
  simp at hf
  rw [← hf.1, removeQuotes_base hb h1 h] at hq
  cases hq
  exact ⟨hf.2, w, hw, ho⟩

/-- The same for relative paths, where there is no base field. -/
theorem C51_field_relative {a m v first : Str} {segs : List Seg} {r : Option (List RetVal)} {c : Condition} {x : MQuery × List MStep}
    (h1 : PathName first) (h : ∀ g ∈ segs, PathName g.name)
    (ha : a = gs"jsonpath:$RELATIVE." ++ pathText first segs) (hp : (parsed env a m v r).prepare env t = .ok c) (hx : c.toMongo env base ps k = .ok x) :
    x.2 = [] ∧ ∃ w, ValueResolves env t m v w ∧ (PlainText w → OperatorOf env (dotted first segs) w m x.1) := by
  obtain ⟨_, w, s, f, hw, hf, hq, ho⟩ := condition_query hp hx
  subst ha
  have hf' : mongoField base ps k (gs"jsonpath:$RELATIVE." ++ pathText first segs) = .ok (pathText first segs, []) := by
    unfold mongoField
    rw [replaceFirst_prefix]
    rfl
  rw [hf'] at hf
  simp at hf
  rw [← hf.1, removeQuotes_path h1 h] at hq
  cases hq
  exact ⟨hf.2, w, hw, ho⟩

example : ∃ c x, (parsed Demo.env (gs"jsonpath:$." ++ pathText gs"a" [.quoted gs"b", .index gs"0", .dotQuoted gs"c d", .dot gs"e"]) gs"GE" gs"3").prepare Demo.env {} = .ok c ∧
    c.toMongo Demo.env gs"raw" [] 0 = .ok x ∧ x = (.field gs"raw.a.b.0.c d.e" (.gte (.num (.fin 3))), []) := by
  refine ⟨_, _, rfl, rfl, ?_⟩
  with_unfolding_all rfl

example : BaseNames gs"raw.data" ∧ PathName gs"c d" := ⟨.inr ⟨gs"raw", [gs"data"], by unfold PathName; decide, by unfold PathName; decide, rfl⟩, by unfold PathName; decide⟩

/-! ## C52 -/

theorem writable_leaves {n : Node} (h : Writable env n) : ParsedLeaves env (leaves n) := by
  have list : ∀ ns : List Node, (∀ n ∈ ns, ParsedLeaves env (leaves n)) → ParsedLeaves env (leavesOf ns) := by
    intro ns h
    induction ns with
    | nil => simp [leavesOf, ParsedLeaves]
    | cons n ns ih =>
      intro c hc
      simp only [leavesOf, List.mem_append] at hc
      rcases hc with hc | hc
      · exact h n (by simp) c hc
      · exact ih (fun n hn => h n (by simp [hn])) c hc
  induction h with
  | cond ok hr => intro c hc; simp [leaves, condNode] at hc; exact ⟨_, _, _, _, hc⟩
  | and h ih => rw [leaves]; exact list _ ih
  | or h ih => rw [leaves]; exact list _ ih
  | not h ih => rw [leaves]; exact ih
  | any _ _ _ h ih => rw [leaves]; exact ih
  | all _ _ _ h ih => rw [leaves]; exact ih

/-- **C52.** Which trees can be translated: exactly those of `Translatable`. -/
theorem C52_translatable {n n' : Node} (hw : Writable env n) (hb : BaseOk base) (hp : PlainParents base n) (h : n.prepare env t = .ok n') :
    (∃ x, n'.toMongo env base [] 0 = .ok x) ↔ Translatable base .top [] n :=
  node_translatable hb (writable_leaves hw) hp (.inl ⟨rfl, rfl⟩) h

/-- **C52**, partial: if a tree is translated, all its conditions are json paths, the path of no ANY or ALL starts with a deep scan, and conditions on keys and
values stand outside of ALL, inside of at most one ANY, whose path does not end in a list. Missing: lists and deep scans in the middle of a path
(`C52_violated_array`, `C52_violated_deep`). -/
theorem C52_rejects_partial {n : Node} {x : MQuery × List MStep} (h : n.toMongo env base [] 0 = .ok x) {qs : List (Bool × AnyAll)} {c : Condition}
    (hu : Under n qs c) : c.attr = gs"jsonpath" ∧ (∀ q ∈ qs, ¬ ∃ r, q.2.parentOrig = gs"jsonpath:$.." ++ r) ∧
      (asksEntry c.origAttr = true → qs = [] ∨ ∃ a, qs = [(false, a)] ∧ ¬ gs"[:]" <:+ a.parentOrig ∧ ¬ gs"[*]" <:+ a.parentOrig) := by
  obtain ⟨h1, ps', y, hy, h3⟩ := under_ok hu h
  refine ⟨?_, h1, fun ha => ?_⟩
  · by_contra hc
    simp [Condition.toMongo, hc, notTranslatable] at hy
  · have hd := entry_depth ha hy
    have hst : y.2 ≠ [] := by rw [toMongo_steps hy, if_pos ha]; simp
    obtain ⟨_, hall⟩ := h3 hst
    have hlen := depth_foldl 0 qs
    match qs, hall with
    | [], _ => exact .inl rfl
    | [(b, a)], hall =>
      right
      have hb : b = false := hall (b, a) (by simp)
      subst hb
      refine ⟨a, rfl, ?_⟩
      simp only [List.foldl_cons, List.foldl_nil, arrayDepth_eq] at hd
      rw [← not_or]
      intro hs
      rw [if_pos hs] at hd
      omega
    | _ :: _ :: _, _ =>
      simp only [List.length_cons] at hlen
      omega

/-- **C52.** A condition never loses its operator: its query is the one for its method and its value. -/
theorem C52_operator {a m v : Str} {r : Option (List RetVal)} {c : Condition} {x : MQuery × List MStep}
    (hp : (parsed env a m v r).prepare env t = .ok c) (hx : c.toMongo env base ps k = .ok x) :
    x.1 ≠ .empty ∧ ∃ w f, ValueResolves env t m v w ∧ (PlainText w → OperatorOf env f w m x.1) := by
  obtain ⟨h, w, s, f, hw, _, _, ho⟩ := condition_query hp hx
  exact ⟨h, w, f, hw, ho⟩

example : ∃ c x, (parsed Demo.env gs"jsonpath:$.kind" gs"NIN" gs"Pod,Job").prepare Demo.env {} = .ok c ∧ c.toMongo Demo.env gs"raw" [] 0 = .ok x ∧
    x = (.and [.field gs"raw.kind" (.notRegex gs"^Pod$|^Job$"), .field gs"raw.kind" (.exist true)], []) := by
  refine ⟨_, _, rfl, rfl, ?_⟩
  with_unfolding_all rfl


/-- The sample can be translated, and it is a tree as the theorem wants it. -/
example : PlainParents gs"raw" sample ∧ Writable Demo.env sample := by
  have path : ∀ a m v, (∃ c', validateOneCondition Demo.env { attr := a, method := m, value := v } = .ok c') → Writable Demo.env (leaf a m v) := by
    rintro a m v ⟨c', h⟩
    exact .cond (validateOneCondition_iff.1 h).1 (by simp)
  unfold sample anyIn allIn
  constructor
  · simp only [PlainParents, List.mem_cons, List.not_mem_nil, or_false]
    rintro n (rfl | rfl | rfl)
    · unfold leaf condNode; simp only [PlainParents]
    · unfold leaf condNode; simp only [PlainParents]
      exact ⟨.inl ⟨gs"containers[:]", rfl, by decide, rfl⟩, .inr ⟨gs"ports[:]", rfl, rfl⟩, trivial⟩
    · unfold leaf condNode; simp only [PlainParents]
      exact ⟨.inl ⟨gs"labels", rfl, by decide, rfl⟩, trivial⟩
  · refine .and ?_
    simp only [List.mem_cons, List.not_mem_nil, or_false]
    rintro n (rfl | rfl | rfl)
    · exact path _ _ _ ⟨_, rfl⟩
    · exact .any (.inr (.inl ⟨gs"containers[:]", rfl⟩)) (by simp) (by simp)
        (.not (.all (.inr (.inr ⟨gs".ports[:]", rfl⟩)) (by simp) (by simp) (path _ _ _ ⟨_, rfl⟩)))
    · exact .any (.inr (.inl ⟨gs"labels", rfl⟩)) (by simp) (by simp) (path _ _ _ ⟨_, rfl⟩)

/-- Not a json path; a deep scan; a value in ALL. -/
example : found gs"raw" (leaf gs"domain" gs"EQ" gs"x") (stored []) = none ∧
    found gs"raw" (anyIn gs"jsonpath:$..x" (leaf gs"jsonpath:$RELATIVE.y" gs"EX" [])) (stored []) = none ∧
    found gs"raw" (allIn gs"jsonpath:$.x" (leaf gs"jsonpath:$VALUE" gs"EQ" gs"1")) (stored []) = none := by
  refine ⟨?_, ?_, ?_⟩ <;> decide +kernel

/-- Violation of C52: keys and values inside a list are translated if the list is in the middle of the path of the ANY, although the plugin supports them only
outside of lists. The step of the query takes the entries of a field that is a list, not an object. -/
theorem C52_violated_array : ∀ a, a ∈ [gs"$KEY", gs"$VALUE"] → ∀ l, l ∈ [gs"[:]", gs"[*]"] →
    ∃ f, (prepared (anyIn (gs"jsonpath:$.spec.containers" ++ l ++ gs".labels") (leaf (gs"jsonpath:" ++ a) gs"EQ" gs"app"))).toMongo Demo.env gs"raw" [] 0 =
        .ok (.field f (.eq (.str gs"app")), [entryStep gs"raw.spec.containers.labels"]) ∧
      (prepared (anyIn (gs"jsonpath:$.spec.containers" ++ l) (leaf (gs"jsonpath:" ++ a) gs"EQ" gs"app"))).toMongo Demo.env gs"raw" [] 0 = .error (.err .notTranslatable) := by
  intro a ha l hl
  simp only [List.mem_cons, List.not_mem_nil, or_false] at ha hl
  rcases ha with rfl | rfl <;> rcases hl with rfl | rfl <;> exact ⟨_, by with_unfolding_all rfl, by with_unfolding_all rfl⟩

/-- Violation of C52: only a deep scan at the start of a path is refused. One further on becomes a field with an empty name in an ANY, and a condition with a
deep scan becomes a query about the field at the top: it finds the document with this field and not the document where it is deeper. -/
theorem C52_violated_deep :
    (prepared (anyIn gs"jsonpath:$.spec..containers[:]" (leaf gs"jsonpath:$RELATIVE.name" gs"EQ" gs"c"))).toMongo Demo.env gs"raw" [] 0 =
      .ok (.elem gs"raw.spec..containers" (.field gs"name" (.eq (.str gs"c"))), []) ∧
    (prepared (leaf gs"jsonpath:$..name" gs"EQ" gs"c")).toMongo Demo.env gs"raw" [] 0 = .ok (.field gs"raw.name" (.eq (.str gs"c")), []) ∧
    found gs"raw" (leaf gs"jsonpath:$..name" gs"EQ" gs"c") (stored [(gs"name", .str gs"c")]) = some true ∧
    found gs"raw" (leaf gs"jsonpath:$..name" gs"EQ" gs"c") (stored [(gs"metadata", .obj [(gs"name", .str gs"c")])]) = some false :=
  ⟨by with_unfolding_all rfl, by with_unfolding_all rfl, by decide +kernel, by decide +kernel⟩

/-- Violation of C61: a value that stands for a label or a field of the receiver is neither resolved nor refused. The query compares with the text
`receiverLabel` (or `$receiver`); the label or field that is asked for is lost. -/
theorem C61_violated : ∀ v s, (v = gs"receiverLabel[app]" ∧ s = gs"receiverLabel") ∨ (v = gs"$receiver.name" ∧ s = gs"$receiver") →
    ∃ c, (parsed Demo.env gs"jsonpath:$.kind" gs"EQ" v).prepare Demo.env {} = .ok c ∧
      c.toMongo Demo.env gs"raw" [] 0 = .ok (.field gs"raw.kind" (.eq (.str s)), []) := by
  rintro v s (⟨rfl, rfl⟩ | ⟨rfl, rfl⟩)
  · exact ⟨_, rfl, by with_unfolding_all rfl⟩
  · exact ⟨_, rfl, by with_unfolding_all rfl⟩

/-- **C61**, for values that do not refer to the receiver: the query compares with the value that the engine compares with. -/
theorem C61_partial {a m v : Str} {r : Option (List RetVal)} {c : Condition} {x : MQuery × List MStep}
    (hp : (parsed env a m v r).prepare env t = .ok c) (hx : c.toMongo env base ps k = .ok x) :
    ∃ w f, ValueResolves env t m v w ∧ (PlainText w → OperatorOf env f w m x.1) := (C52_operator hp hx).2

/-! ## C53 -/

/-- **C53.** The translation of a rule is simple exactly when none of its conditions asks for a key or a value of an entry. Otherwise it is a
list of steps, one for each such condition, followed by one match. -/
theorem C53_simple {env : Env} {g : Predef} {p : List Nat} {r r' : RuleObj} {rule : Rule} {res : MResult}
    (h : r.toMongoQuery env g p base = .ok (r', .ok res)) (hr : r'.prepared = some rule) :
    ((∃ q, res = .simple q) ↔ ∀ n, rule.conditions = some n → ∀ c ∈ leaves n, asksEntry c.origAttr = false) ∧
    ∀ steps q, res = .aggregate steps q → ∃ n, rule.conditions = some n ∧ steps.length = ((leaves n).filter fun c => asksEntry c.origAttr).length := by
  simp only [RuleObj.toMongoQuery, Go.bind_eq_ok] at h
  obtain ⟨r1, _, rule', hd, h⟩ := h
  rw [deref_eq_ok] at hd
  split at h
  · simp at h
  · simp at h
  · next y hy =>
    simp at h
    obtain ⟨rfl, rfl⟩ := h
    rw [hr] at hd; cases hd
    unfold Rule.toMongo at hy
    cases hn : rule.conditions with
    | none =>
      rw [hn] at hy
      cases hy
      exact ⟨iff_of_true ⟨_, rfl⟩ (by simp), by simp⟩
    | some n =>
      rw [hn] at hy
      simp only [Go.bind_eq_ok] at hy
      obtain ⟨x, hx, hy⟩ := hy
      have hc := node_count hx
      simp only [Go.pure_eq, Except.ok.injEq] at hy
      by_cases h0 : x.2.length = 0
      · rw [if_pos h0] at hy
        subst hy
        refine ⟨iff_of_true ⟨_, rfl⟩ ?_, by simp⟩
        rintro m hm c hcm
        cases hm
        rw [h0] at hc
        have := List.filter_eq_nil_iff.1 (List.length_eq_zero_iff.1 hc.symm) c hcm
        simpa using this
      · rw [if_neg h0] at hy
        subst hy
        refine ⟨iff_of_false (by simp) fun hall => h0 ?_, ?_⟩
        · rw [hc, List.length_eq_zero_iff, List.filter_eq_nil_iff]
          exact fun c hcm => by simp [hall n rfl c hcm]
        · intro steps q he
          cases he
          exact ⟨n, rfl, hc⟩

/-- **C53**, the steps: for each condition on a key or a value, in order, the one that lists the entries of the field of its ANY. -/
theorem C53_steps {env : Env} {g : Predef} {p : List Nat} {r r' : RuleObj} {rule : Rule} {n : Node} {steps : List MStep} {q : MQuery}
    (h : r.toMongoQuery env g p base = .ok (r', .ok (.aggregate steps q))) (hr : r'.prepared = some rule) (hn : rule.conditions = some n)
    (hb : BaseOk base) (hp : PlainParents base n) : steps = (entries base [] n).map entryStep ∧ n.toMongo env base [] 0 = .ok (q, steps) := by
  simp only [RuleObj.toMongoQuery, Go.bind_eq_ok] at h
  obtain ⟨r1, _, rule', hd, h⟩ := h
  rw [deref_eq_ok] at hd
  split at h
  · simp at h
  · simp at h
  · next y hy =>
    simp at h
    obtain ⟨rfl, rfl⟩ := h
    rw [hr] at hd; cases hd
    simp only [Rule.toMongo, hn, Go.bind_eq_ok] at hy
    obtain ⟨x, hx, hy⟩ := hy
    simp only [Go.pure_eq, Except.ok.injEq] at hy
    refine ite_elim hy (fun _ h => by cases h) fun _ h => ?_
    cases h
    exact ⟨node_steps hb hp hx, hx⟩

set_option maxRecDepth 20000 in
/-- A rule with a condition on keys. -/
example : ∃ r' rule q, (Demo.rule gs"block" (some sample)).toMongoQuery Demo.env {} [] gs"raw" =
    .ok (r', .ok (.aggregate [⟨gs"addedField.raw.labels", gs"raw.labels"⟩] q)) ∧ r'.prepared = some rule := by
  exact ⟨_, _, _, rfl, rfl⟩

/-- A rule without conditions. -/
example : ∃ r', (Demo.rule gs"block").toMongoQuery Demo.env {} [] gs"raw" = .ok (r', .ok (.simple .empty)) := ⟨_, rfl⟩

end Mapl.Props

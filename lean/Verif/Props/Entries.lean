import Verif.Props.Paths

/-!
# Conditions on the entries of an object

C98. ANY and ALL over an object, like the labels of a pod, are about its entries: `$KEY` is the name of an entry and `$VALUE` its value, whether the document is parsed or a text.
-/

namespace Mapl.Spec

/-- A text that can be compared with words: no number, no quotes or brackets around it, and printed as it is. -/
structure LabelText (env : Ext) (s : Str) : Prop where
  clean : Clean s
  notNil : s ≠ gs"<nil>"
  noNumber : parseNumber env s = none
  printed : Unescaped s

/-- The path leads to an object with these labels. -/
structure HasLabels (env : Ext) (root : Json) (cur : Option Json) (p : Path) (labels : List (Str × Str)) : Prop where
  leads : p.Leads root cur (some (.obj (labels.map fun x => (x.1, .str x.2))))
  texts : ∀ x ∈ labels, LabelText env x.1 ∧ LabelText env x.2

/-- There is a label with this name and this value. -/
def withLabel (p : Path) (k v : Str) : Claim := .anyEntry p (.and [.key gs"EQ" k, .value gs"EQ" v])

/-- There is no label with this name. -/
def withoutLabel (p : Path) (k : Str) : Claim := .not (.anyEntry p (.key gs"EQ" k))

/-- The values of all labels are among these. -/
def labelValues (p : Path) (w : Str) : Claim := .allEntries p (.value gs"IN" w)

/-- The pattern is found in the names of all labels. -/
def labelNames (p : Path) (w : Str) : Claim := .allEntries p (.key gs"RE" w)

end Mapl.Spec

namespace Mapl.Props

open Mapl.Spec

variable {env : Env} {g t : Predef} {base msg : Msg} {root : Json} {cur : Option Json} {p : Path} {f : Claim} {labels : List (Str × Str)}

/-! ## Rules -/

/-- **C98**, one condition: `$KEY` is the name of the entry in scope. -/
theorem C98_key_partial {k m v w : Str} {j : Json} {P : Prop} {c : Condition} (he : Assumed env) (hp : PathsOk env) (h : (parsed env gs"jsonpath:$KEY" m v none).prepare env t = .ok c)
    (hv : ValueResolves env t m v w) (hS : TestSays env (some (.str k)) m w P) (hc : Carries env base root msg (some (.obj [(k, j)]))) (l : List Nat) :
    ∃ b, testOneCondition env l c msg = .ok (b, []) ∧ (b = true ↔ P) :=
  says_answer he.regexp he.order he.numbers he.empty h hv (show Says env msg gs"jsonpath:$KEY" m w P from value_says hp (entry_key hp hc) hS) l

/-- **C98**, one condition: `$VALUE` is the value of the entry in scope. -/
theorem C98_value_partial {k m v w : Str} {j : Json} {P : Prop} {c : Condition} (he : Assumed env) (hp : PathsOk env) (h : (parsed env gs"jsonpath:$VALUE" m v none).prepare env t = .ok c)
    (hv : ValueResolves env t m v w) (hj : ShownValue j) (hS : TestSays env (some j) m w P) (hc : Carries env base root msg (some (.obj [(k, j)]))) (l : List Nat) :
    ∃ b, testOneCondition env l c msg = .ok (b, []) ∧ (b = true ↔ P) :=
  says_answer he.regexp he.order he.numbers he.empty h hv (show Says env msg gs"jsonpath:$VALUE" m w P from value_says hp (entry_value hp hc hj) hS) l

/-- **C98**, ANY: it holds of a message if what is claimed holds of some entry of the object in its document. -/
theorem C98_any_partial {kvs : List (Str × Json)} (he : Assumed env) (hp : PathsOk env) (hpl : (Claim.anyEntry p f).Plain) (hs : Sound env t (Claim.anyEntry p f).statement)
    (hl : p.Leads root cur (some (.obj kvs))) (hk : ∀ kv ∈ kvs, ShownEntry kv ∧ f.Clear env t base root (some (.obj [kv]))) (hc : Carries env base root msg cur) :
    Defined env t (Claim.anyEntry p f).statement msg ∧ (Meaning env t (Claim.anyEntry p f).statement msg ↔ ∃ kv ∈ kvs, f.Holds env t base root (some (.obj [kv]))) := by
  obtain ⟨h1, h2⟩ := claim_meaning he hp _ msg cur hpl hs hc (by rw [Claim.Clear]; exact .inl ⟨kvs, hl, hk⟩)
  refine ⟨h1, h2.trans ?_⟩
  rw [Claim.Holds]
  constructor
  · rintro ⟨kvs', hl', h⟩
    cases path_unique hl hl'
    exact h
  · exact fun h => ⟨kvs, hl, h⟩

/-- **C98**, ALL: it holds of a message if what is claimed holds of all entries of the object in its document. -/
theorem C98_all_partial {kvs : List (Str × Json)} (he : Assumed env) (hp : PathsOk env) (hpl : (Claim.allEntries p f).Plain) (hs : Sound env t (Claim.allEntries p f).statement)
    (hl : p.Leads root cur (some (.obj kvs))) (hk : ∀ kv ∈ kvs, ShownEntry kv ∧ f.Clear env t base root (some (.obj [kv]))) (hc : Carries env base root msg cur) :
    Defined env t (Claim.allEntries p f).statement msg ∧ (Meaning env t (Claim.allEntries p f).statement msg ↔ ∀ kv ∈ kvs, f.Holds env t base root (some (.obj [kv]))) := by
  obtain ⟨h1, h2⟩ := claim_meaning he hp _ msg cur hpl hs hc (by rw [Claim.Clear]; exact .inl ⟨kvs, hl, hk⟩)
  refine ⟨h1, h2.trans ?_⟩
  rw [Claim.Holds]
  constructor
  · exact fun h => h kvs hl
  · intro h kvs' hl'
    cases path_unique hl hl'
    exact h

/-- A rule with a claim as its conditions applies if the claim holds of the document. -/
theorem tells_result {r : RuleObj} {body : Rule} {s v : Str} (he : Assumed env) (hp : PathsOk env) (hm : MsgOk env base) (hl : Loaded env g r body t)
    (h : Tells env t base root body s v f) (hc : Carries env base root msg none) {H : Prop} (hH : f.Holds env t base root none ↔ H) (q : List Nat) :
    ∃ o, r.check env g q msg = .ok o ∧ (WrittenParts body s v base ∧ H → o.result = (decisionOf body.decision).rank) ∧
      (¬ (WrittenParts body s v base ∧ H) → o.result = Decision.default.rank) := by
  have hA : WrittenClaims env t base root body (WrittenParts body s v base ∧ ∀ f' ∈ some f, f'.Holds env t base root none) (decisionOf body.decision) :=
    .mk (c := some f) h.written h.sender h.receiver h.texts (by simp [h.sound]) (by simp [h.plain]) (by simp [h.clear])
  obtain ⟨o, ho, k1, k2⟩ := rule_says he (carries_msg hc hm) ⟨body, t, hl, writtenClaims he hp hc hA⟩ q
  refine ⟨o, ho, fun hx => k1 ⟨hx.1, by simpa [hH] using hx.2⟩, fun hx => (k2 fun h => hx ⟨h.1, by simpa [hH] using h.2⟩).1⟩

/-! ## Labels -/

theorem label_shown (h : HasLabels env root cur p labels) : ∀ kv ∈ labels.map fun x => (x.1, Json.str x.2), ShownEntry kv := by
  intro kv hkv
  obtain ⟨x, hx, rfl⟩ := List.mem_map.1 hkv
  exact ⟨(h.texts x hx).1.printed, .str (h.texts x hx).2.printed⟩

theorem label_says {s m w : Str} {P : Str → Prop} (h : LabelText env s) (hP : ScalarMeans m w P) : TestSays env (some (.str s)) m w (P s) :=
  .text hP (.str h.clean h.notNil) fun _ => h.noNumber

/-- A method with a value says one thing of texts. -/
theorem scalar_unique {m w : Str} {P P' : Str → Prop} (h : ScalarMeans m w P) (h' : ScalarMeans m w P') (s : Str) : P s ↔ P' s := by
  have words : ∀ {l l' : List Str}, (∀ x ∈ l, PlainWord x) → l ≠ [] → Written l w → (∀ x ∈ l', PlainWord x) → l' ≠ [] → Written l' w → (s ∈ l ↔ s ∈ l') := by
    intro l l' h1 h2 h3 h4 h5 h6
    obtain ⟨r, e, hr⟩ := readPattern_words h1 h2 h3
    obtain ⟨r', e', hr'⟩ := readPattern_words h4 h5 h6
    rw [e] at e'
    cases e'
    rw [← hr, ← hr']
  cases h <;> cases h'
  case eq.eq | ne.ne | there.there | notThere.notThere => exact Iff.rfl
  case found.found _ _ h1 _ _ h2 => rw [h1] at h2; cases h2; exact Iff.rfl
  case notFound.notFound _ _ h1 _ _ h2 => rw [h1] at h2; cases h2; exact Iff.rfl
  case isIn.isIn _ h1 h2 h3 _ _ h4 h5 h6 => exact words h1 h2 h3 h4 h5 h6
  case notIn.notIn _ h1 h2 h3 _ _ h4 h5 h6 => exact not_congr (words h1 h2 h3 h4 h5 h6)
  all_goals
    exfalso
    clear words
    simp only [List.mem_cons, List.not_mem_nil, or_false] at *
    aesop

theorem label_iff {s m w : Str} {P : Str → Prop} {Q : Prop} (h : LabelText env s) (hP : ScalarMeans m w P) (hQ : TestSays env (some (.str s)) m w Q) : Q ↔ P s := by
  generalize ho : some (Json.str s) = o at hQ
  cases hQ with
  | missing => cases ho
  | emptyText => cases ho; exact absurd rfl h.clean.1
  | emptyList => cases ho
  | number _ _ hv =>
    cases ho
    cases hv with
    | str _ _ hx => rw [h.noNumber] at hx; cases hx
  | text hP' hv hy =>
    cases ho
    cases hv with
    | str => exact scalar_unique hP' hP s
  | there => cases ho

/-- A claim about one label. -/
theorem label_key {k x m v w : Str} {P : Str → Prop} (h : LabelText env k) (hv : ValueResolves env t m v w) (hP : ScalarMeans m w P) :
    (Claim.key m v).Clear env t base root (some (.obj [(k, .str x)])) ∧ ((Claim.key m v).Holds env t base root (some (.obj [(k, .str x)])) ↔ P k) := by
  rw [Claim.Clear, Claim.Holds]
  refine ⟨⟨k, _, w, _, rfl, hv, label_says h hP⟩, ?_, fun hk => ⟨k, _, w, _, rfl, hv, label_says h hP, hk⟩⟩
  rintro ⟨k', j, w', Q, e, hv', hQ, hq⟩
  cases e
  cases resolves_unique hv hv'
  exact (label_iff h hP hQ).1 hq

theorem label_value {k x m v w : Str} {P : Str → Prop} (h : LabelText env x) (hv : ValueResolves env t m v w) (hP : ScalarMeans m w P) :
    (Claim.value m v).Clear env t base root (some (.obj [(k, .str x)])) ∧ ((Claim.value m v).Holds env t base root (some (.obj [(k, .str x)])) ↔ P x) := by
  rw [Claim.Clear, Claim.Holds]
  refine ⟨⟨k, _, w, _, rfl, .str h.printed, hv, label_says h hP⟩, ?_, fun hk => ⟨k, _, w, _, rfl, hv, label_says h hP, hk⟩⟩
  rintro ⟨k', j, w', Q, e, hv', hQ, hq⟩
  cases e
  cases resolves_unique hv hv'
  exact (label_iff h hP hQ).1 hq

theorem labels_any {P : Str × Str → Prop} (h : HasLabels env root cur p labels)
    (hf : ∀ x ∈ labels, f.Clear env t base root (some (.obj [(x.1, .str x.2)])) ∧ (f.Holds env t base root (some (.obj [(x.1, .str x.2)])) ↔ P x)) :
    (Claim.anyEntry p f).Clear env t base root cur ∧ ((Claim.anyEntry p f).Holds env t base root cur ↔ ∃ x ∈ labels, P x) := by
  rw [Claim.Clear, Claim.Holds]
  refine ⟨.inl ⟨_, h.leads, fun kv hkv => ⟨label_shown h kv hkv, ?_⟩⟩, ?_⟩
  · obtain ⟨x, hx, rfl⟩ := List.mem_map.1 hkv
    exact (hf x hx).1
  constructor
  · rintro ⟨kvs, hl, kv, hkv, hh⟩
    cases path_unique h.leads hl
    obtain ⟨x, hx, rfl⟩ := List.mem_map.1 hkv
    exact ⟨x, hx, (hf x hx).2.1 hh⟩
  · rintro ⟨x, hx, hh⟩
    exact ⟨_, h.leads, _, List.mem_map_of_mem hx, (hf x hx).2.2 hh⟩

theorem labels_all {P : Str × Str → Prop} (h : HasLabels env root cur p labels)
    (hf : ∀ x ∈ labels, f.Clear env t base root (some (.obj [(x.1, .str x.2)])) ∧ (f.Holds env t base root (some (.obj [(x.1, .str x.2)])) ↔ P x)) :
    (Claim.allEntries p f).Clear env t base root cur ∧ ((Claim.allEntries p f).Holds env t base root cur ↔ ∀ x ∈ labels, P x) := by
  rw [Claim.Clear, Claim.Holds]
  refine ⟨.inl ⟨_, h.leads, fun kv hkv => ⟨label_shown h kv hkv, ?_⟩⟩, ?_⟩
  · obtain ⟨x, hx, rfl⟩ := List.mem_map.1 hkv
    exact (hf x hx).1
  constructor
  · exact fun hh x hx => (hf x hx).2.1 (hh _ h.leads _ (List.mem_map_of_mem hx))
  · intro hh kvs hl kv hkv
    cases path_unique h.leads hl
    obtain ⟨x, hx, rfl⟩ := List.mem_map.1 hkv
    exact (hf x hx).2.2 (hh x hx)

/-- What is said of a label by its name and its value. -/
theorem withLabel_holds {k v k' v' : Str} (h : HasLabels env root cur p labels) (hk : ValueResolves env t gs"EQ" k k') (hv : ValueResolves env t gs"EQ" v v')
    (nk : NoReference k') (nv : NoReference v') :
    (withLabel p k v).Clear env t base root cur ∧ ((withLabel p k v).Holds env t base root cur ↔ (k', v') ∈ labels) := by
  have := labels_any (t := t) (base := base) (f := .and [.key gs"EQ" k, .value gs"EQ" v]) (P := fun x => x.1 = k' ∧ x.2 = v') h fun x hx => by
    obtain ⟨c1, h1⟩ := label_key (t := t) (base := base) (root := root) (x := x.2) (h.texts x hx).1 hk (.eq (by simp) nk)
    obtain ⟨c2, h2⟩ := label_value (t := t) (base := base) (root := root) (k := x.1) (h.texts x hx).2 hv (.eq (by simp) nv)
    rw [Claim.Clear, Claim.Holds, Claim.ClearInTurn, Claim.ClearInTurn, Claim.ClearInTurn, Claim.AllHold, Claim.AllHold, Claim.AllHold, h1, h2]
    exact ⟨⟨c1, fun _ => ⟨c2, fun _ => trivial⟩⟩, by simp⟩
  refine ⟨this.1, this.2.trans ⟨?_, fun h => ⟨_, h, rfl, rfl⟩⟩⟩
  rintro ⟨⟨a, b⟩, hx, rfl, rfl⟩
  exact hx

/-- **C98.** A rule with the condition that there is a label with a name and a value applies to the documents that have it. -/
theorem C98_label_partial {r : RuleObj} {body : Rule} {s s' k v k' v' : Str} (he : Assumed env) (hp : PathsOk env) (hm : MsgOk env base) (hl : Loaded env g r body t)
    (hb : body.conditions = some ((withLabel p k v).statement.tree env)) (hs : Resolves t body.senderName s) (hr : Resolves t body.receiverName s') (ht : TextsOk body s s')
    (hok : Sound env t (withLabel p k v).statement) (hpl : PlainSteps p.steps)
    (hk : ValueResolves env t gs"EQ" k k') (hv : ValueResolves env t gs"EQ" v v') (nk : NoReference k') (nv : NoReference v') (h : HasLabels env root none p labels)
    (hc : Carries env base root msg none) (q : List Nat) :
    ∃ o, r.check env g q msg = .ok o ∧ (WrittenParts body s s' base ∧ (k', v') ∈ labels → o.result = (decisionOf body.decision).rank) ∧
      (¬ (WrittenParts body s s' base ∧ (k', v') ∈ labels) → o.result = Decision.default.rank) := by
  obtain ⟨h1, h2⟩ := withLabel_holds (base := base) h hk hv nk nv
  exact tells_result he hp hm hl ⟨hb, hs, hr, ht, hok, by simp [withLabel, Claim.Plain, Claim.AllPlain, hpl], h1⟩ hc h2 q

/-- **C98.** A rule with the condition that there is no label with a name applies to the documents that do not have it. -/
theorem C98_missing_partial {r : RuleObj} {body : Rule} {s s' k k' : Str} (he : Assumed env) (hp : PathsOk env) (hm : MsgOk env base) (hl : Loaded env g r body t)
    (hb : body.conditions = some ((withoutLabel p k).statement.tree env)) (hs : Resolves t body.senderName s) (hr : Resolves t body.receiverName s') (ht : TextsOk body s s')
    (hok : Sound env t (withoutLabel p k).statement) (hpl : PlainSteps p.steps) (hk : ValueResolves env t gs"EQ" k k') (nk : NoReference k') (h : HasLabels env root none p labels)
    (hc : Carries env base root msg none) (q : List Nat) :
    ∃ o, r.check env g q msg = .ok o ∧ (WrittenParts body s s' base ∧ (∀ x ∈ labels, x.1 ≠ k') → o.result = (decisionOf body.decision).rank) ∧
      (¬ (WrittenParts body s s' base ∧ ∀ x ∈ labels, x.1 ≠ k') → o.result = Decision.default.rank) := by
  obtain ⟨h1, h2⟩ := labels_any (t := t) (base := base) (f := .key gs"EQ" k) (P := fun x => x.1 = k') h fun x hx =>
    label_key (x := x.2) (h.texts x hx).1 hk (.eq (by simp) nk)
  refine tells_result he hp hm hl (f := withoutLabel p k) ⟨hb, hs, hr, ht, hok, by simp [withoutLabel, Claim.Plain, hpl], ?_⟩ hc ?_ q
  · rw [withoutLabel, Claim.Clear]
    exact h1
  · rw [withoutLabel, Claim.Holds, h2]
    push Not
    rfl

/-- **C98.** A rule with the condition that the values of all labels are in a list applies to the documents of which this is true. -/
theorem C98_values_partial {r : RuleObj} {body : Rule} {s s' v w : Str} {words : List Str} (he : Assumed env) (hp : PathsOk env) (hm : MsgOk env base) (hl : Loaded env g r body t)
    (hb : body.conditions = some ((labelValues p v).statement.tree env)) (hs : Resolves t body.senderName s) (hr : Resolves t body.receiverName s') (ht : TextsOk body s s')
    (hok : Sound env t (labelValues p v).statement) (hpl : PlainSteps p.steps) (hv : ValueResolves env t gs"IN" v w) (hw : ∀ x ∈ words, PlainWord x) (hn : words ≠ [])
    (hww : Written words w) (h : HasLabels env root none p labels) (hc : Carries env base root msg none) (q : List Nat) :
    ∃ o, r.check env g q msg = .ok o ∧ (WrittenParts body s s' base ∧ (∀ x ∈ labels, x.2 ∈ words) → o.result = (decisionOf body.decision).rank) ∧
      (¬ (WrittenParts body s s' base ∧ ∀ x ∈ labels, x.2 ∈ words) → o.result = Decision.default.rank) := by
  obtain ⟨h1, h2⟩ := labels_all (t := t) (base := base) (f := .value gs"IN" v) (P := fun x => x.2 ∈ words) h fun x hx =>
    label_value (k := x.1) (h.texts x hx).2 hv (.isIn (by simp) hw hn hww)
  exact tells_result he hp hm hl (f := labelValues p v) ⟨hb, hs, hr, ht, hok, by simp [labelValues, Claim.Plain, hpl], h1⟩ hc h2 q

/-- **C98.** A rule with the condition that a pattern is found in the names of all labels applies to the documents of which this is true. -/
theorem C98_names_partial {r : RuleObj} {body : Rule} {s s' v w : Str} {re : RE} (he : Assumed env) (hp : PathsOk env) (hm : MsgOk env base) (hl : Loaded env g r body t)
    (hb : body.conditions = some ((labelNames p v).statement.tree env)) (hs : Resolves t body.senderName s) (hr : Resolves t body.receiverName s') (ht : TextsOk body s s')
    (hok : Sound env t (labelNames p v).statement) (hpl : PlainSteps p.steps) (hv : ValueResolves env t gs"RE" v w) (hre : readPattern w = some re)
    (h : HasLabels env root none p labels) (hc : Carries env base root msg none) (q : List Nat) :
    ∃ o, r.check env g q msg = .ok o ∧ (WrittenParts body s s' base ∧ (∀ x ∈ labels, Finds re x.1) → o.result = (decisionOf body.decision).rank) ∧
      (¬ (WrittenParts body s s' base ∧ ∀ x ∈ labels, Finds re x.1) → o.result = Decision.default.rank) := by
  obtain ⟨h1, h2⟩ := labels_all (t := t) (base := base) (f := .key gs"RE" v) (P := fun x => Finds re x.1) h fun x hx =>
    label_key (x := x.2) (h.texts x hx).1 hv (.found (by simp) hre)
  exact tells_result he hp hm hl (f := labelNames p v) ⟨hb, hs, hr, ht, hok, by simp [labelNames, Claim.Plain, hpl], h1⟩ hc h2 q

/-- **C96** for labels: the query of a rule with the condition that there is no label with a name is an aggregation, and finds the stored documents that do not have it. -/
theorem C96_missing_partial {names : List Str} {r : RuleObj} {body : Rule} {s s' k k' : Str} {q : List Nat} (he : Assumed env) (hp : PathsOk env) (hn : BaseField names) (hl : Loaded env g r body t)
    (hb : body.conditions = some ((withoutLabel p k).statement.tree env)) (hs : Resolves t body.senderName s) (hr : Resolves t body.receiverName s') (ht : TextsOk body s s')
    (hok : Sound env t (withoutLabel p k).statement) (hpl : PlainSteps p.steps) (h0 : p.start = .document) (h1 : ∀ x ∈ p.rest, ∃ n, x = .field n)
    (hk : ValueResolves env t gs"EQ" k k') (nk : NoReference k') :
    ∃ r' steps m, r.toMongoQuery env g q (join gs"." names) = .ok (r', .ok (.aggregate steps m)) ∧
      ∀ doc root labels, StoredIn names doc root → Leads doc [.field gs"addedField"] none → HasLabels env root none p labels → (∀ x ∈ labels, env.parseFloat x.1 = none) →
        (resultSelects (mongoDB env) (.aggregate steps m) doc = true ↔ ∀ x ∈ labels, x.1 ≠ k') := by
  obtain ⟨r', res, e, hi, hq⟩ := C96_query_partial (p := q) he hp hn hl (f := withoutLabel p k) (s := s) (v := s')
    ⟨hb, hs, hr, ht, hok, by simp [withoutLabel, Claim.Plain, hpl],
      by
        simp only [withoutLabel, Claim.Findable]
        exact ⟨trivial, h0, h1, .key (by unfold OneIsEnough; decide)⟩,
      by
        intro a ha b hb' _
        simp only [withoutLabel, Claim.entryPaths, List.mem_singleton] at ha hb'
        rw [ha, hb']⟩
  cases res with
  | simple m => exact absurd (hi.1 ⟨m, rfl⟩) (by simp [withoutLabel, Claim.entryPaths])
  | aggregate steps m =>
    refine ⟨r', steps, m, e, fun doc root labels hst hu h hnum => ?_⟩
    obtain ⟨c, hh⟩ := labels_any (t := t) (base := {}) (f := .key gs"EQ" k) (P := fun x => x.1 = k') h fun x hx =>
      label_key (x := x.2) (h.texts x hx).1 hk (.eq (by simp) nk)
    refine (hq doc root {} hst (fun _ => hu) ?_ ?_).trans ?_
    · rw [withoutLabel, Claim.Clear]
      exact c
    · simp only [withoutLabel, Claim.Typed]
      refine ⟨fun w hw => by cases resolves_unique hk hw; exact nk, fun kvs hkvs kv hkv k1 j w he' hw => ?_⟩
      cases path_unique h.leads hkvs
      obtain ⟨x, hx, rfl⟩ := List.mem_map.1 hkv
      cases he'
      exact .text (h.texts x hx).1.clean.1 fun _ => ⟨hnum x hx, (h.texts x hx).1.noNumber⟩
    · rw [withoutLabel, Claim.Holds, hh]
      push Not
      rfl

/-! ## Violations -/

/-- **C96** is violated for the name and the value of a label: the query of the rule that asks for a label with a name and a value does not find a document that has it. -/
theorem C96_violated_label : ∃ (n : Node) (kvs : List (Str × Json)),
    n = anyIn gs"jsonpath:$.labels" (.and [leaf gs"jsonpath:$KEY" gs"EQ" gs"app", leaf gs"jsonpath:$VALUE" gs"EQ" gs"web"]) ∧ kvs = [(gs"labels", .obj [(gs"app", .str gs"web")])] ∧
    found gs"raw" n (stored kvs) = some false ∧ blocks n (.obj kvs) = some true :=
  ⟨_, _, rfl, rfl, by decide +kernel, by decide +kernel⟩

/-- **C96** is violated for stored documents with a field `addedField` that is a list: the query puts the entries into its elements, of which there are none. -/
theorem C96_violated_field : ∃ (n : Node) (kvs : List (Str × Json)), n = anyIn gs"jsonpath:$.labels" (leaf gs"jsonpath:$KEY" gs"EQ" gs"app") ∧
    kvs = [(gs"labels", .obj [(gs"app", .str gs"web")])] ∧ found gs"raw" n (stored kvs) = some true ∧
    found gs"raw" n (.obj [(gs"raw", .obj kvs), (gs"addedField", .arr [])]) = some false ∧ blocks n (.obj kvs) = some true :=
  ⟨_, _, rfl, rfl, by decide +kernel, by decide +kernel, by decide +kernel⟩

/-- Libraries that cut the value of `labels` out of the text. -/
def cutEnv (labels : Str) : Env := { Demo.env with jsGet := fun s q => if q = gs"$.labels" then (labels, false) else Demo.env.jsGet s q }

/-- **C98** is violated for values with `&`, `<` or `>`: the entries of an object in a text are printed again, with escapes. The value of the label is `a&b`, written as such in the text; the rule that
blocks if a label has this value applies to the parsed document and not to the text. -/
theorem C98_violated_escape : ∃ (env : Env) (raw : Str) (d : Json) (r : RuleObj), JsonDoc env raw d ∧ raw = gs"{\"labels\":{\"x\":\"a&b\"}}" ∧
    env.jsGet raw gs"$.labels" = (gs"{\"x\":\"a&b\"}", false) ∧
    r = Demo.rule gs"block" (some (Demo.anyOf gs"jsonpath:$.labels" (Demo.cond gs"jsonpath:$VALUE" gs"EQ" gs"a&b"))) ∧
    Demo.summary (check env {} { rawI := some d } [r]) = some (3, [3], 0, [0]) ∧ Demo.summary (check env {} { jsonRaw := some raw } [r]) = some (0, [0], -1, []) :=
  ⟨cutEnv gs"{\"x\":\"a&b\"}", _, .obj [(gs"labels", .obj [(gs"x", .str gs"a&b")])], _, jsonScan_iff.1 (by rfl), rfl, by decide +kernel, rfl, by decide +kernel, by decide +kernel⟩

/-- **C97** and **C98** are violated for several paths to objects: the texts of the objects are joined to something that is no text of an object. The rule blocks if some label or some note has
the value `b`; it applies to the parsed document and not to the text. -/
theorem C98_violated_paths : ∃ (env : Env) (raw : Str) (d : Json) (r r' : RuleObj), JsonDoc env raw d ∧ raw = env.jsonMarshal d ∧
    r = Demo.rule gs"block" (some (Demo.anyOf gs"jsonpath:$.labels,$.notes" (Demo.cond gs"jsonpath:$VALUE" gs"EQ" gs"b"))) ∧
    r' = Demo.rule gs"block" (some (Demo.anyOf gs"jsonpath:$.notes" (Demo.cond gs"jsonpath:$VALUE" gs"EQ" gs"b"))) ∧
    Demo.summary (check env {} { rawI := some d } [r]) = some (3, [3], 0, [0]) ∧ Demo.summary (check env {} { jsonRaw := some raw } [r]) = some (0, [0], -1, []) ∧
    Demo.summary (check env {} { jsonRaw := some raw } [r']) = some (3, [3], 0, [0]) :=
  ⟨Demo.env, gs"{\"labels\":{\"x\":\"a\"},\"notes\":{\"y\":\"b\"}}", .obj [(gs"labels", .obj [(gs"x", .str gs"a")]), (gs"notes", .obj [(gs"y", .str gs"b")])], _, _,
    jsonScan_iff.1 (by rfl), by decide +kernel, rfl, rfl, by decide +kernel, by decide +kernel, by decide +kernel⟩

/-! ## Example -/

def labelPath : Path := { start := .document, name := gs"labels" }

def labelDoc : Json := .obj [(gs"labels", .obj [(gs"tier", .str gs"web"), (gs"zone", .str gs"east")])]

def labelRaw : Str := gs"{\"labels\": {\"tier\":\"web\", \"zone\": \"east\"}}"

theorem label_text : Plainly placeEnv.toExt labelRaw labelDoc := by
  have blank : Blank [] := blank_nil
  have space : Blank gs" " := by simp [Blank]
  have h := PlainMembers.oneMember (env := placeEnv.toExt) (w0 := gs" ") (w1 := []) (w2 := gs" ") (w3 := []) (k := gs"zone") space (by unfold PlainString; decide) blank space
    (.str (s := gs"east") (by unfold PlainString; decide)) blank
  have h1 := Plainly.obj (.moreMembers (w0 := []) (w1 := []) (w2 := []) (w3 := []) (k := gs"tier") blank (by unfold PlainString; decide) blank blank
    (.str (s := gs"web") (by unfold PlainString; decide)) blank h) (by decide)
  exact .obj (.oneMember (w0 := []) (w1 := []) (w3 := []) (k := gs"labels") blank (by unfold PlainString; decide) blank space h1 blank) (by decide)

theorem label_has : HasLabels placeEnv.toExt labelDoc none labelPath [(gs"tier", gs"web"), (gs"zone", gs"east")] where
  leads := .document rfl (.field rfl (.here _))
  texts := by
    have key : ∀ s ∈ [gs"tier", gs"web", gs"zone", gs"east"], LabelText placeEnv.toExt s := by
      intro s hs
      simp only [List.mem_cons, List.not_mem_nil, or_false] at hs
      rcases hs with rfl | rfl | rfl | rfl <;> exact ⟨by unfold Clean; decide, by decide, by rfl, by unfold Unescaped; decide⟩
    intro x hx
    simp only [List.mem_cons, List.not_mem_nil, or_false] at hx
    rcases hx with rfl | rfl
    · exact ⟨key _ (by simp), key _ (by simp)⟩
    · exact ⟨key _ (by simp), key _ (by simp)⟩

theorem label_both : ∀ msg ∈ [{ placeMsg with rawI := some labelDoc }, { placeMsg with jsonRaw := some labelRaw }], Carries placeEnv.toExt placeMsg labelDoc msg none := by
  intro msg hmsg
  simp only [List.mem_cons, List.not_mem_nil, or_false] at hmsg
  rcases hmsg with rfl | rfl
  · exact .parsed (r := placeMsg.rawIRel) (by simp)
  · exact .text (r := none) label_text (by simp)

noncomputable def labelRule (f : Claim) : Rule := { (Demo.rule gs"block").body with conditions := some (f.statement.tree placeEnv) }

theorem label_texts (f : Claim) : Resolves policyTables (labelRule f).senderName gs"*" ∧ Resolves policyTables (labelRule f).receiverName gs"*" ∧ TextsOk (labelRule f) gs"*" gs"*" := by
  refine ⟨.plain (by simp [labelRule, Demo.rule]), .plain (by simp [labelRule, Demo.rule]), ?_, ?_, ?_, ?_⟩
  · show PlainPattern _; decide
  · show PlainPattern _; decide
  · show PlainPattern gs"*"; decide
  · show PlainPattern gs"*"; decide

theorem label_parent : (parentOf [{ labelPath with }]).Ok placeEnv := by
  rw [parentOf_document fun p hp => by rw [List.mem_singleton.1 hp]; rfl]
  refine ⟨by simp, fun r hr => ?_⟩
  rw [List.map_cons, List.map_nil, List.mem_singleton] at hr
  subst hr
  exact ⟨⟨by unfold Verbatim; decide, by decide, by decide, by decide⟩, rfl⟩

theorem label_plain : PlainSteps labelPath.steps := one_plain (field_plain (by decide))

theorem label_parts (f : Claim) : WrittenParts (labelRule f) gs"*" gs"*" placeMsg :=
  ⟨⟨.inl rfl, gs"*", mem_split_iff.1 (by decide), by show Glob gs"*" gs"a"; simp [Glob]⟩, ⟨.inl rfl, gs"*", mem_split_iff.1 (by decide), by show Glob gs"*" gs"b"; simp [Glob]⟩, trivial, trivial⟩

/-- The hypotheses of the theorems are met; the rules apply to the document, parsed and as a text. -/
example : ∀ msg ∈ [{ placeMsg with rawI := some labelDoc }, { placeMsg with jsonRaw := some labelRaw }],
    ∃ o, ({ body := labelRule (withLabel labelPath gs"tier" gs"web") } : RuleObj).check placeEnv policyTables [] msg = .ok o ∧ o.result = 3 := by
  intro msg hmsg
  obtain ⟨h1, h2, h3⟩ := label_texts (withLabel labelPath gs"tier" gs"web")
  obtain ⟨o, ho, h, -⟩ := C98_label_partial (r := { body := labelRule (withLabel labelPath gs"tier" gs"web") }) (g := policyTables) (k' := gs"tier") (v' := gs"web") place_assumed place_ok
    placeMsg_ok (.parsed ⟨rfl, rfl, rfl⟩) rfl h1 h2 h3
    (by
      simp only [withLabel, Claim.statement, Claim.statements, Sound, SoundAll, and_true]
      refine ⟨label_parent, by simp, ⟨?_, by unfold NoControl; decide, by unfold NoControl; decide, ?_⟩, ?_, by unfold NoControl; decide, by unfold NoControl; decide, ?_⟩
      · exact (C42_accepted_iff { attr := _, method := _, value := _ }).1 ⟨_, rfl⟩
      · exact C42_prepared_iff (r := none) |>.1 ⟨_, rfl⟩
      · exact (C42_accepted_iff { attr := _, method := _, value := _ }).1 ⟨_, rfl⟩
      · exact C42_prepared_iff (r := none) |>.1 ⟨_, rfl⟩)
    label_plain (.plain (by simp)) (.plain (by simp)) ⟨by rintro ⟨y, h⟩; simp at h, by rintro ⟨y, h⟩; simp at h⟩ ⟨by rintro ⟨y, h⟩; simp at h, by rintro ⟨y, h⟩; simp at h⟩ label_has
    (label_both msg hmsg) []
  exact ⟨o, ho, h ⟨label_parts _, by simp⟩⟩

example : ∀ msg ∈ [{ placeMsg with rawI := some labelDoc }, { placeMsg with jsonRaw := some labelRaw }],
    ∃ o, ({ body := labelRule (withoutLabel labelPath gs"owner") } : RuleObj).check placeEnv policyTables [] msg = .ok o ∧ o.result = 3 := by
  intro msg hmsg
  obtain ⟨h1, h2, h3⟩ := label_texts (withoutLabel labelPath gs"owner")
  obtain ⟨o, ho, h, -⟩ := C98_missing_partial (r := { body := labelRule (withoutLabel labelPath gs"owner") }) (g := policyTables) (k' := gs"owner") place_assumed place_ok
    placeMsg_ok (.parsed ⟨rfl, rfl, rfl⟩) rfl h1 h2 h3
    (by
      simp only [withoutLabel, Claim.statement, Sound]
      refine ⟨label_parent, ?_, by unfold NoControl; decide, by unfold NoControl; decide, ?_⟩
      · exact (C42_accepted_iff { attr := _, method := _, value := _ }).1 ⟨_, rfl⟩
      · exact C42_prepared_iff (r := none) |>.1 ⟨_, rfl⟩)
    label_plain (.plain (by simp)) ⟨by rintro ⟨y, h⟩; simp at h, by rintro ⟨y, h⟩; simp at h⟩ label_has (label_both msg hmsg) []
  exact ⟨o, ho, h ⟨label_parts _, by simp⟩⟩

/-- The query of the rule finds the document. -/
example : ∃ r' res, ({ body := labelRule (withoutLabel labelPath gs"owner") } : RuleObj).toMongoQuery placeEnv policyTables [] gs"data.raw" = .ok (r', .ok res) ∧
    resultSelects (mongoDB placeEnv) res (.obj [(gs"data", .obj [(gs"raw", labelDoc)])]) = true := by
  obtain ⟨h1, h2, h3⟩ := label_texts (withoutLabel labelPath gs"owner")
  obtain ⟨r', steps, m, e, h⟩ := C96_missing_partial (r := { body := labelRule (withoutLabel labelPath gs"owner") }) (g := policyTables) (k' := gs"owner") (q := []) place_assumed place_ok
    (names := [gs"data", gs"raw"]) ⟨by simp, by simp; exact ⟨field_plain (by decide), field_plain (by decide)⟩⟩ (.parsed ⟨rfl, rfl, rfl⟩) rfl h1 h2 h3
    (by
      simp only [withoutLabel, Claim.statement, Sound]
      refine ⟨label_parent, ?_, by unfold NoControl; decide, by unfold NoControl; decide, ?_⟩
      · exact (C42_accepted_iff { attr := _, method := _, value := _ }).1 ⟨_, rfl⟩
      · exact C42_prepared_iff (r := none) |>.1 ⟨_, rfl⟩)
    label_plain rfl (by simp [labelPath]) (.plain (by simp)) ⟨by rintro ⟨y, h⟩; simp at h, by rintro ⟨y, h⟩; simp at h⟩
  refine ⟨r', _, e, (h _ labelDoc [(gs"tier", gs"web"), (gs"zone", gs"east")] ⟨.field rfl (.field rfl (.here _)), ?_⟩ (.noField rfl) label_has ?_).2 (by simp)⟩
  · refine noNumbers_obj fun y hy => ?_
    simp only [List.mem_cons, List.not_mem_nil, or_false] at hy
    subst hy
    refine ⟨⟨_, rfl, by decide⟩, noNumbers_obj fun y hy => ?_⟩
    simp only [List.mem_cons, List.not_mem_nil, or_false] at hy
    rcases hy with rfl | rfl <;> exact ⟨⟨_, rfl, by decide⟩, noNumbers_str _⟩
  · intro x hx
    simp only [List.mem_cons, List.not_mem_nil, or_false] at hx
    rcases hx with rfl | rfl <;> rfl

example : ∀ msg ∈ [{ placeMsg with rawI := some labelDoc }, { placeMsg with jsonRaw := some labelRaw }],
    ∃ o, ({ body := labelRule (labelValues labelPath gs"east,west,web") } : RuleObj).check placeEnv policyTables [] msg = .ok o ∧ o.result = 3 := by
  intro msg hmsg
  obtain ⟨h1, h2, h3⟩ := label_texts (labelValues labelPath gs"east,west,web")
  obtain ⟨o, ho, h, -⟩ := C98_values_partial (r := { body := labelRule (labelValues labelPath gs"east,west,web") }) (g := policyTables) (w := gs"east,west,web") (words := [gs"east", gs"west", gs"web"])
    place_assumed place_ok placeMsg_ok (.parsed ⟨rfl, rfl, rfl⟩) rfl h1 h2 h3
    (by
      simp only [labelValues, Claim.statement, Sound]
      refine ⟨label_parent, ?_, by unfold NoControl; decide, by unfold NoControl; decide, ?_⟩
      · exact (C42_accepted_iff { attr := _, method := _, value := _ }).1 ⟨_, rfl⟩
      · exact C42_prepared_iff (r := none) |>.1 ⟨_, rfl⟩)
    label_plain (.plain (by simp)) (by unfold PlainWord; decide) (by simp) (.inl rfl) label_has (label_both msg hmsg) []
  exact ⟨o, ho, h ⟨label_parts _, by simp⟩⟩

example : ∀ msg ∈ [{ placeMsg with rawI := some labelDoc }, { placeMsg with jsonRaw := some labelRaw }],
    ∃ o, ({ body := labelRule (labelNames labelPath gs"^tier$|^zone$") } : RuleObj).check placeEnv policyTables [] msg = .ok o := by
  intro msg hmsg
  obtain ⟨h1, h2, h3⟩ := label_texts (labelNames labelPath gs"^tier$|^zone$")
  obtain ⟨o, ho, -⟩ := C98_names_partial (r := { body := labelRule (labelNames labelPath gs"^tier$|^zone$") }) (g := policyTables) (w := gs"^tier$|^zone$")
    place_assumed place_ok placeMsg_ok (.parsed ⟨rfl, rfl, rfl⟩) rfl h1 h2 h3
    (by
      simp only [labelNames, Claim.statement, Sound]
      refine ⟨label_parent, ?_, by unfold NoControl; decide, by unfold NoControl; decide, ?_⟩
      · exact (C42_accepted_iff { attr := _, method := _, value := _ }).1 ⟨_, rfl⟩
      · exact C42_prepared_iff (r := none) |>.1 ⟨_, rfl⟩)
    label_plain (.plain (by simp)) rfl label_has (label_both msg hmsg) []
  exact ⟨o, ho⟩

end Mapl.Props

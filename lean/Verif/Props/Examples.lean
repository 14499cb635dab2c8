import Verif.Spec.Examples

/-!
# What the conditions of the manual say

C102. The examples of the manual about lists and objects hold of exactly the documents that the manual describes, and the two that it calls equivalent are. The documents are parsed or are
plainly written texts.
-/

namespace Mapl.Props

open Mapl.Spec

variable {env : Env} {g t : Predef} {base msg : Msg} {root : Json} {cur : Option Json} {r r' : RuleObj} {body body' : Rule} {s v : Str} {l : List Json}

/-! ## Claims -/

/-- `$RELATIVE.resources.limits.cpu` and the like. -/
def limitField (n : Str) : Path := { start := .element, name := gs"resources", rest := [.field gs"limits", .field n] }

theorem field_steps {l : List Str} (h : ∀ n ∈ l, FieldName n) : PlainSteps (l.map .field) := fun n hn => by
  obtain ⟨m, hm, e⟩ := List.mem_map.1 hn
  cases e
  exact h n hm

theorem limit_plain {n : Str} (h : n = gs"cpu" ∨ n = gs"memory") : PlainSteps (limitField n).steps := by
  rcases h with rfl | rfl
  · exact field_steps (l := [gs"resources", gs"limits", gs"cpu"]) (by unfold FieldName; decide)
  · exact field_steps (l := [gs"resources", gs"limits", gs"memory"]) (by unfold FieldName; decide)

theorem main_plain : PlainSteps mainPath.steps := field_steps (l := [gs"spec", gs"containers"]) (by unfold FieldName; decide)

theorem main_leads (h : HasContainers root l) : mainPath.Leads root none (some (.arr l)) := .document rfl h.list

/-- What EX and NEX say of what is there, and of what is not. -/
theorem exists_says {e : Ext} {o : Option Json} {w : Str} {P : Prop} (ho : ∀ x ∈ o, ∃ s, s ≠ [] ∧ TextIn x s) :
    (TestSays e o gs"EX" w P → (P ↔ o ≠ none)) ∧ (TestSays e o gs"NEX" w P → (P ↔ o = none)) := by
  have spell : ∀ k : NumMethod, gs"EX" ∉ k.spellings ∧ gs"NEX" ∉ k.spellings := by intro k; cases k <;> decide
  have clean : ∀ s, TextIn (.str []) s → s = [] := by intro s h; cases h; rfl
  have list : ∀ s, ¬ TextIn (.arr []) s := by intro s h; cases h
  constructor
  · intro h
    cases h with
    | missing => simp
    | emptyText => obtain ⟨s, h1, h2⟩ := ho _ rfl; exact absurd (clean s h2) h1
    | emptyList => obtain ⟨s, h1, h2⟩ := ho _ rfl; exact absurd h2 (list s)
    | number hm => exact absurd hm (spell _).1
    | text hP hv hy =>
      have := scalar_unique hP (.there (m := gs"EX") (w := w) (by decide)) (by assumption)
      simp [this]
    | there hm h => simp
  · intro h
    cases h with
    | missing => simp
    | emptyText => obtain ⟨s, h1, h2⟩ := ho _ rfl; exact absurd (clean s h2) h1
    | emptyList => obtain ⟨s, h1, h2⟩ := ho _ rfl; exact absurd h2 (list s)
    | number hm => exact absurd hm (spell _).2
    | text hP hv hy =>
      have := scalar_unique hP (.notThere (m := gs"NEX") (w := w) (by decide)) (by assumption)
      simp [this]
    | there hm h => simp

theorem exists_clear {e : Ext} {o : Option Json} {w m : Str} (ho : ∀ x ∈ o, ∃ s, s ≠ [] ∧ TextIn x s) (hm : m = gs"EX" ∨ m = gs"NEX") : ∃ P, TestSays e o m w P := by
  have spell : ∀ k : NumMethod, gs"EX" ∉ k.spellings ∧ gs"NEX" ∉ k.spellings := by intro k; cases k <;> decide
  cases o with
  | none => exact ⟨_, .missing⟩
  | some x =>
    obtain ⟨s, -, h⟩ := ho x rfl
    rcases hm with rfl | rfl
    · exact ⟨_, .text (.there (by decide)) h fun ⟨k, hk⟩ => absurd hk (spell k).1⟩
    · exact ⟨_, .text (.notThere (by decide)) h fun ⟨k, hk⟩ => absurd hk (spell k).2⟩

/-- A condition on a limit. -/
theorem limit_claim (h : Limits root l) {e : Json} (he : e ∈ l) {n m : Str} (hn : n = gs"cpu" ∨ n = gs"memory") (hm : m = gs"EX" ∨ m = gs"NEX") :
    (Claim.test (limitField n) m []).Clear env t base root (some e) ∧
    ((Claim.test (limitField n) m []).Holds env t base root (some e) ↔ if m = gs"EX" then ¬ Leads e (limitPath n) none else Leads e (limitPath n) none) := by
  obtain ⟨o, h1, h2⟩ := h.limits e he n (by simpa using hn)
  have hl : (limitField n).Leads root (some e) o := .element rfl rfl h1
  have hv : ValueResolves env t m [] [] := .plain (by simp)
  obtain ⟨P, hP⟩ := exists_clear (e := env.toExt) (w := []) h2 hm
  have ho : Leads e (limitPath n) none ↔ o = none := ⟨fun h' => leads_unique h1 h', fun h' => h' ▸ h1⟩
  rw [Claim.Clear, Claim.Holds, ho]
  refine ⟨⟨o, [], P, hl, hv, hP⟩, ?_⟩
  have key : ∀ Q, TestSays env.toExt o m [] Q → (Q ↔ if m = gs"EX" then o ≠ none else o = none) := by
    intro Q hQ
    rcases hm with rfl | rfl
    · rw [if_pos rfl]; exact (exists_says h2).1 hQ
    · rw [if_neg (by decide)]; exact (exists_says h2).2 hQ
  constructor
  · rintro ⟨o', w, Q, hl', hv', hQ, hq⟩
    cases path_unique hl hl'
    cases resolves_unique hv hv'
    exact (key Q hQ).1 hq
  · exact fun h => ⟨o, [], P, hl, hv, hP, (key P hP).2 h⟩

/-- The claim of example 6a. -/
def limitedClaim : Claim := .not (.all [mainPath] (.and [.test (limitField gs"cpu") gs"EX" [], .test (limitField gs"memory") gs"EX" []]))

/-- The claim of example 6b. -/
def unlimitedClaim : Claim := .any [mainPath] (.or [.test (limitField gs"cpu") gs"NEX" [], .test (limitField gs"memory") gs"NEX" []])

theorem limited_says (h : Limits root l) : limitedClaim.Clear env t base root none ∧
    (limitedClaim.Holds env t base root none ↔ ∃ e ∈ l, Leads e (limitPath gs"cpu") none ∨ Leads e (limitPath gs"memory") none) := by
  have h1 := fun e he => limit_claim (env := env) (t := t) (base := base) h (e := e) he (n := gs"cpu") (m := gs"EX") (.inl rfl) (.inl rfl)
  have h2 := fun e he => limit_claim (env := env) (t := t) (base := base) h (e := e) he (n := gs"memory") (m := gs"EX") (.inr rfl) (.inl rfl)
  have hl := main_leads h.toHasContainers
  constructor
  · rw [limitedClaim, Claim.Clear, Claim.Clear]
    refine ⟨fun p hp => ?_, .inl ⟨mainPath, rfl, l, hl, fun _ => h.nonempty⟩⟩
    cases List.mem_singleton.1 hp
    refine ⟨l, .there hl, fun e he => ⟨h.objects e he, ?_⟩⟩
    rw [Claim.Clear, Claim.ClearInTurn, Claim.ClearInTurn, Claim.ClearInTurn]
    exact ⟨(h1 e he).1, fun _ => ⟨(h2 e he).1, fun _ => trivial⟩⟩
  · have key : (∀ p ∈ [mainPath], ∀ l', p.Leads root none (some (.arr l')) →
        ∀ e ∈ l', (Claim.and [.test (limitField gs"cpu") gs"EX" [], .test (limitField gs"memory") gs"EX" []]).Holds env t base root (some e)) ↔
        ∀ e ∈ l, ¬ (Leads e (limitPath gs"cpu") none ∨ Leads e (limitPath gs"memory") none) := by
      have one : ∀ e ∈ l, ((Claim.and [.test (limitField gs"cpu") gs"EX" [], .test (limitField gs"memory") gs"EX" []]).Holds env t base root (some e) ↔
          ¬ (Leads e (limitPath gs"cpu") none ∨ Leads e (limitPath gs"memory") none)) := by
        intro e he
        rw [Claim.Holds, Claim.AllHold, Claim.AllHold, Claim.AllHold, (h1 e he).2, (h2 e he).2]
        simp [not_or]
      constructor
      · exact fun hh e he => (one e he).1 (hh mainPath (by simp) l hl e he)
      · intro hh p hp l' hl' e he
        cases List.mem_singleton.1 hp
        cases path_unique hl hl'
        exact (one e he).2 (hh e he)
    rw [limitedClaim, Claim.Holds, Claim.Holds, key]
    push Not
    rfl

theorem unlimited_says (h : Limits root l) : unlimitedClaim.Clear env t base root none ∧
    (unlimitedClaim.Holds env t base root none ↔ ∃ e ∈ l, Leads e (limitPath gs"cpu") none ∨ Leads e (limitPath gs"memory") none) := by
  have h1 := fun e he => limit_claim (env := env) (t := t) (base := base) h (e := e) he (n := gs"cpu") (m := gs"NEX") (.inl rfl) (.inr rfl)
  have h2 := fun e he => limit_claim (env := env) (t := t) (base := base) h (e := e) he (n := gs"memory") (m := gs"NEX") (.inr rfl) (.inr rfl)
  have hl := main_leads h.toHasContainers
  constructor
  · rw [unlimitedClaim, Claim.Clear]
    refine ⟨fun p hp => ?_, .inl ⟨mainPath, rfl, l, hl, fun _ => h.nonempty⟩⟩
    cases List.mem_singleton.1 hp
    refine ⟨l, .there hl, fun e he => ⟨h.objects e he, ?_⟩⟩
    rw [Claim.Clear, Claim.AllClear, Claim.AllClear, Claim.AllClear]
    exact ⟨(h1 e he).1, (h2 e he).1, trivial⟩
  · have one : ∀ e ∈ l, ((Claim.or [.test (limitField gs"cpu") gs"NEX" [], .test (limitField gs"memory") gs"NEX" []]).Holds env t base root (some e) ↔
        Leads e (limitPath gs"cpu") none ∨ Leads e (limitPath gs"memory") none) := by
      intro e he
      rw [Claim.Holds, Claim.SomeHolds, Claim.SomeHolds, Claim.SomeHolds, (h1 e he).2, (h2 e he).2, if_neg (by decide), if_neg (by decide)]
      simp
    rw [unlimitedClaim, Claim.Holds]
    constructor
    · rintro ⟨p, hp, l', hl', e, he, hh⟩
      cases List.mem_singleton.1 hp
      cases path_unique hl hl'
      exact ⟨e, he, (one e he).1 hh⟩
    · rintro ⟨e, he, hh⟩
      exact ⟨mainPath, by simp, l, hl, e, he, (one e he).2 hh⟩

/-! ## The theorems -/

theorem with_tells {f : Claim} {S : Statement} (hf : f.statement = S) (h : RuleWith env t body s v S) (hpl : f.Plain) (hc : f.Clear env t base root none) : Tells env t base root body s v f := by
  subst hf
  exact ⟨h.conditions, h.sender, h.receiver, h.texts, h.accepted, hpl, hc⟩

theorem limited_plain : limitedClaim.Plain := by
  simp only [limitedClaim, Claim.Plain, Claim.AllPlain]
  exact ⟨⟨.document, by simp [mainPath]; exact main_plain⟩, limit_plain (.inl rfl), limit_plain (.inr rfl), trivial⟩

theorem unlimited_plain : unlimitedClaim.Plain := by
  simp only [unlimitedClaim, Claim.Plain, Claim.AllPlain]
  exact ⟨⟨.document, by simp [mainPath]; exact main_plain⟩, limit_plain (.inl rfl), limit_plain (.inr rfl), trivial⟩

/-- **C102.** Example 6a: the rule applies exactly if there is a container without a limit on the cpu or on the memory. -/
theorem C102_not_all_partial (he : Assumed env) (hp : PathsOk env) (hm : MsgOk env base) (hl : Loaded env g r body t) (hr : RuleWith env t body s v notAllLimited) (hd : Limits root l) :
    AppliesIf env g r body s v base root (∃ e ∈ l, Leads e (limitPath gs"cpu") none ∨ Leads e (limitPath gs"memory") none) := fun _ hc p =>
  tells_result he hp hm hl (with_tells (f := limitedClaim) rfl hr limited_plain (limited_says hd).1) hc (limited_says hd).2 p

/-- **C102.** Example 6b: the same. -/
theorem C102_any_partial (he : Assumed env) (hp : PathsOk env) (hm : MsgOk env base) (hl : Loaded env g r body t) (hr : RuleWith env t body s v anyUnlimited) (hd : Limits root l) :
    AppliesIf env g r body s v base root (∃ e ∈ l, Leads e (limitPath gs"cpu") none ∨ Leads e (limitPath gs"memory") none) := fun _ hc p =>
  tells_result he hp hm hl (with_tells (f := unlimitedClaim) rfl hr unlimited_plain (unlimited_says hd).1) hc (unlimited_says hd).2 p

/-- **C102.** Examples 6a and 6b are equivalent: rules that are the same but for these conditions get the same result. -/
theorem C102_equivalent_partial (he : Assumed env) (hp : PathsOk env) (hm : MsgOk env base) (hl : Loaded env g r body t) (hl' : Loaded env g r' body' t) (hr : RuleWith env t body s v notAllLimited)
    (hr' : RuleWith env t body' s v anyUnlimited) (hb : body' = { body with conditions := body'.conditions }) (hd : Limits root l) (hc : Carries env base root msg none) (p p' : List Nat) :
    ∃ o o', r.check env g p msg = .ok o ∧ r'.check env g p' msg = .ok o' ∧ o.result = o'.result :=
  tells_same he hp hm hl hl' (with_tells (f := limitedClaim) rfl hr limited_plain (limited_says hd).1) (with_tells (f := unlimitedClaim) rfl hr' unlimited_plain (unlimited_says hd).1) hb
    ((unlimited_says hd).2.trans (limited_says hd).2.symm) hc p p'

/-! ### Lists in lists -/

/-- `$RELATIVE.volumeMounts[:]`. -/
def mountsPath : ListPath := { start := .element, name := gs"volumeMounts", mark := .slice }

/-- `$RELATIVE.name`. -/
def nameField : Path := { start := .element, name := gs"name" }

/-- The claim of example 6c. -/
def mountClaim : Claim := .all [mainPath] (.any [mountsPath] (.test nameField gs"EQ" gs"xxx"))

theorem mount_plain : mountClaim.Plain := by
  simp only [mountClaim, Claim.Plain]
  exact ⟨⟨.document, by simp [mainPath]; exact main_plain⟩, ⟨.element, by simp [mountsPath]; exact field_steps (l := [gs"volumeMounts"]) (by unfold FieldName; decide)⟩,
    field_steps (l := [gs"name"]) (by unfold FieldName; decide)⟩

theorem no_reference {w : Str} (h : '$' ∉ w ∧ '[' ∉ w) : NoReference w :=
  ⟨by rintro ⟨y, rfl⟩; exact h.1 (by simp), by rintro ⟨y, rfl⟩; exact h.2 (by simp)⟩

theorem name_claim {kvs : List (Str × Json)} {x : Str} (hk : lookup gs"name" kvs = some (.str x)) (hx : LabelText env x) :
    (Claim.test nameField gs"EQ" gs"xxx").Clear env t base root (some (.obj kvs)) ∧ ((Claim.test nameField gs"EQ" gs"xxx").Holds env t base root (some (.obj kvs)) ↔ x = gs"xxx") := by
  have hl : nameField.Leads root (some (.obj kvs)) (some (.str x)) := .element rfl rfl (.field hk (.here _))
  have hv : ValueResolves env t gs"EQ" gs"xxx" gs"xxx" := .plain (by simp)
  have hw : NoReference gs"xxx" := no_reference (by decide)
  have hP : ScalarMeans gs"EQ" gs"xxx" (· = gs"xxx") := .eq (by decide) hw
  rw [Claim.Clear, Claim.Holds]
  refine ⟨⟨_, _, _, hl, hv, label_says hx hP⟩, ?_, fun h => ⟨_, _, _, hl, hv, label_says hx hP, h⟩⟩
  rintro ⟨o', w, Q, hl', hv', hQ, hq⟩
  cases path_unique hl hl'
  cases resolves_unique hv hv'
  exact (label_iff hx hP hQ).1 hq

theorem mount_says (h : Mounts env root l) : mountClaim.Clear env t base root none ∧
    (mountClaim.Holds env t base root none ↔ ∀ e ∈ l, ∃ m, Leads e [.field gs"volumeMounts"] (some (.arr m)) ∧ ∃ x ∈ m, Leads x [.field gs"name"] (some (.str gs"xxx"))) := by
  have hl := main_leads h.toHasContainers
  have one : ∀ e ∈ l, (Claim.any [mountsPath] (.test nameField gs"EQ" gs"xxx")).Clear env t base root (some e) ∧
      ((Claim.any [mountsPath] (.test nameField gs"EQ" gs"xxx")).Holds env t base root (some e) ↔
        ∃ m, Leads e [.field gs"volumeMounts"] (some (.arr m)) ∧ ∃ x ∈ m, Leads x [.field gs"name"] (some (.str gs"xxx"))) := by
    intro e he
    obtain ⟨m, hm, hne, hx⟩ := h.mounts e he
    have hml : mountsPath.Leads root (some e) (some (.arr m)) := .element rfl rfl hm
    constructor
    · rw [Claim.Clear]
      refine ⟨fun p hp => ?_, .inl ⟨mountsPath, rfl, m, hml, fun _ => hne⟩⟩
      cases List.mem_singleton.1 hp
      refine ⟨m, .there hml, fun x hx' => ?_⟩
      obtain ⟨kvs, y, rfl, h1, h2⟩ := hx x hx'
      exact ⟨⟨kvs, rfl⟩, (name_claim h1 h2).1⟩
    · rw [Claim.Holds]
      constructor
      · rintro ⟨p, hp, m', hm', x, hx', hh⟩
        cases List.mem_singleton.1 hp
        cases path_unique hml hm'
        obtain ⟨kvs, y, rfl, h1, h2⟩ := hx x hx'
        rw [(name_claim h1 h2).2] at hh
        subst hh
        exact ⟨m, hm, _, hx', .field h1 (.here _)⟩
      · rintro ⟨m', hm', x, hx', hh⟩
        cases leads_unique hm hm'
        refine ⟨mountsPath, by simp, m, hml, x, hx', ?_⟩
        obtain ⟨kvs, y, rfl, h1, h2⟩ := hx x hx'
        rw [(name_claim h1 h2).2]
        cases leads_unique hh (.field h1 (.here _))
        rfl
  constructor
  · rw [mountClaim, Claim.Clear]
    refine ⟨fun p hp => ?_, .inl ⟨mainPath, rfl, l, hl, fun _ => h.nonempty⟩⟩
    cases List.mem_singleton.1 hp
    exact ⟨l, .there hl, fun e he => ⟨h.objects e he, (one e he).1⟩⟩
  · rw [mountClaim, Claim.Holds]
    constructor
    · exact fun hh e he => (one e he).2.1 (hh mainPath (by simp) l hl e he)
    · intro hh p hp l' hl' e he
      cases List.mem_singleton.1 hp
      cases path_unique hl hl'
      exact (one e he).2.2 (hh e he)

/-- **C102.** Example 6c: the rule applies exactly if every container has a mount with the name `xxx`. -/
theorem C102_mounts_partial (he : Assumed env) (hp : PathsOk env) (hm : MsgOk env base) (hl : Loaded env g r body t) (hr : RuleWith env t body s v allMount) (hd : Mounts env root l) :
    AppliesIf env g r body s v base root
      (∀ e ∈ l, ∃ m, Leads e [.field gs"volumeMounts"] (some (.arr m)) ∧ ∃ x ∈ m, Leads x [.field gs"name"] (some (.str gs"xxx"))) := fun _ hc p =>
  tells_result he hp hm hl (with_tells (f := mountClaim) rfl hr mount_plain (mount_says hd).1) hc (mount_says hd).2 p

/-! ### Labels -/

/-- `$.metadata.labels` and `$RELATIVE.metadata.labels`. -/
def labelsField (st : Start) : Path := { start := st, name := gs"metadata", rest := [.field gs"labels"] }

theorem labels_plain (st : Start) : PlainSteps (labelsField st).steps := field_steps (l := [gs"metadata", gs"labels"]) (by unfold FieldName; decide)

/-- `$.spec.containers`. -/
def containersField : ListPath := { start := .document, name := gs"spec", rest := [.field gs"containers"] }

/-- The claims of example 6d. -/
def keyClaim : Claim := .anyEntry (labelsField .document) (.key gs"EQ" gs"abc")

def valueClaim : Claim := .anyEntry (labelsField .document) (.value gs"EQ" gs"abc")

def containerClaim : Claim := .any [containersField] (.anyEntry (labelsField .element) (.value gs"EQ" gs"DEF"))

theorem key_says {labels : List (Str × Str)} (h : Labelled env root labels) :
    keyClaim.Clear env t base root none ∧ (keyClaim.Holds env t base root none ↔ ∃ x ∈ labels, x.1 = gs"abc") :=
  labels_any (p := labelsField .document) (f := .key gs"EQ" gs"abc") (P := fun x => x.1 = gs"abc") ⟨.document rfl h.leads, h.texts⟩ fun x hx =>
    label_key (h.texts x hx).1 (.plain (by simp)) (.eq (by decide) (no_reference (by decide)))

theorem value_says {e : Json} {labels : List (Str × Str)} {w : Str} {st : Start} (h : Labelled env e labels) (hw : '$' ∉ w ∧ '[' ∉ w ∧ '#' ∉ w)
    (hs : (labelsField st).Leads root cur (some (.obj (labels.map fun x => (x.1, .str x.2))))) :
    (Claim.anyEntry (labelsField st) (.value gs"EQ" w)).Clear env t base root cur ∧ ((Claim.anyEntry (labelsField st) (.value gs"EQ" w)).Holds env t base root cur ↔ ∃ x ∈ labels, x.2 = w) :=
  labels_any (p := labelsField st) (f := .value gs"EQ" w) (P := fun x => x.2 = w) ⟨hs, h.texts⟩ fun x hx =>
    label_value (h.texts x hx).2 (.plain (by rintro k rfl; exact hw.2.2 (by simp))) (.eq (by decide) (no_reference ⟨hw.1, hw.2.1⟩))

theorem container_says {labels : Json → List (Str × Str)} (h : HasContainers root l) (hd : ∀ e ∈ l, Labelled env e (labels e)) :
    containerClaim.Clear env t base root none ∧ (containerClaim.Holds env t base root none ↔ ∃ e ∈ l, ∃ x ∈ labels e, x.2 = gs"DEF") := by
  have hl : containersField.Leads root none (some (.arr l)) := .document rfl h.list
  have one := fun e he => value_says (t := t) (base := base) (root := root) (cur := some e) (st := .element) (w := gs"DEF") (hd e he) (by decide) (.element rfl rfl (hd e he).leads)
  constructor
  · rw [containerClaim, Claim.Clear]
    refine ⟨fun p hp => ?_, .inl ⟨containersField, rfl, l, hl, fun _ => h.nonempty⟩⟩
    cases List.mem_singleton.1 hp
    exact ⟨l, .there hl, fun e he => ⟨h.objects e he, (one e he).1⟩⟩
  · rw [containerClaim, Claim.Holds]
    constructor
    · rintro ⟨p, hp, l', hl', e, he, hh⟩
      cases List.mem_singleton.1 hp
      cases path_unique hl hl'
      exact ⟨e, he, (one e he).2.1 hh⟩
    · rintro ⟨e, he, hh⟩
      exact ⟨containersField, by simp, l, hl, e, he, (one e he).2.2 hh⟩

/-- **C102.** Example 6d: the rule applies exactly if there is a label with the key `abc`. -/
theorem C102_key_partial {labels : List (Str × Str)} (he : Assumed env) (hp : PathsOk env) (hm : MsgOk env base) (hl : Loaded env g r body t) (hr : RuleWith env t body s v hasKey)
    (hd : Labelled env root labels) : AppliesIf env g r body s v base root (∃ x ∈ labels, x.1 = gs"abc") := fun _ hc p =>
  tells_result he hp hm hl (with_tells (f := keyClaim) rfl hr (by simp only [keyClaim, Claim.Plain, and_true]; exact labels_plain _) (key_says hd).1) hc (key_says hd).2 p

/-- **C102.** Example 6d: the rule applies exactly if there is a label with the value `abc`, whatever its key is. -/
theorem C102_value_partial {labels : List (Str × Str)} (he : Assumed env) (hp : PathsOk env) (hm : MsgOk env base) (hl : Loaded env g r body t) (hr : RuleWith env t body s v hasValue)
    (hd : Labelled env root labels) : AppliesIf env g r body s v base root (∃ x ∈ labels, x.2 = gs"abc") := fun _ hc p =>
  have hs := value_says (t := t) (base := base) (cur := none) (st := .document) (w := gs"abc") hd (by decide) (.document rfl hd.leads)
  tells_result he hp hm hl (with_tells (f := valueClaim) rfl hr (by simp only [valueClaim, Claim.Plain, and_true]; exact labels_plain _) hs.1) hc hs.2 p

/-- **C102.** Example 6d, with two levels: the rule applies exactly if a container has a label with the value `DEF`. -/
theorem C102_container_partial {labels : Json → List (Str × Str)} (he : Assumed env) (hp : PathsOk env) (hm : MsgOk env base) (hl : Loaded env g r body t)
    (hr : RuleWith env t body s v containerHasValue) (hd : HasContainers root l) (hd' : ∀ e ∈ l, Labelled env e (labels e)) :
    AppliesIf env g r body s v base root (∃ e ∈ l, ∃ x ∈ labels e, x.2 = gs"DEF") := fun _ hc p =>
  tells_result he hp hm hl (with_tells (f := containerClaim) rfl hr
    (by
      simp only [containerClaim, Claim.Plain, and_true]
      exact ⟨⟨.document, by simp [containersField]; exact main_plain⟩, labels_plain _⟩) (container_says hd hd').1) hc (container_says hd hd').2 p

/-! ## Violation -/

/-- **C102** is violated where there are no containers: if the library reports an error for a path that leads to nothing, the rule of example 6a applies to the text of an empty document, and the
"equivalent" rule of example 6b does not. To the parsed document neither applies. -/
theorem C102_violated_missing : ∃ r r' : RuleObj, r = Demo.rule gs"block" (some (notAllLimited.tree loudEnv)) ∧ r' = Demo.rule gs"block" (some (anyUnlimited.tree loudEnv)) ∧
    JsonDoc loudEnv gs"{}" (.obj []) ∧
    Demo.summary (check loudEnv {} { jsonRaw := some gs"{}" } [r, r']) = some (3, [3, 0], 0, [0]) ∧
    Demo.summary (check loudEnv {} { rawI := some (.obj []) } [r, r']) = some (0, [0, 0], -1, []) :=
  ⟨_, _, rfl, rfl, jsonScan_iff.1 (by rfl), by decide +kernel, by decide +kernel⟩

/-! ## Example -/

/-- Two containers, the second without a limit on the memory. -/
def limitsDoc : Json := .obj [(gs"spec", .obj [(gs"containers", .arr [
  .obj [(gs"resources", .obj [(gs"limits", .obj [(gs"cpu", .str gs"500m"), (gs"memory", .str gs"1Gi")])])],
  .obj [(gs"resources", .obj [(gs"limits", .obj [(gs"cpu", .num (.fin 2))])])]])])]

/-- The containers. -/
def limitsContainers : List Json := [
  .obj [(gs"resources", .obj [(gs"limits", .obj [(gs"cpu", .str gs"500m"), (gs"memory", .str gs"1Gi")])])],
  .obj [(gs"resources", .obj [(gs"limits", .obj [(gs"cpu", .num (.fin 2))])])]]

theorem limits_ok : Limits limitsDoc limitsContainers where
  list := .field rfl (.field rfl (.here _))
  nonempty := by simp [limitsContainers]
  objects := by simp [limitsContainers]
  limits := by
    intro e he n hn
    simp only [limitsContainers, List.mem_cons, List.not_mem_nil, or_false] at he hn
    rcases he with rfl | rfl <;> rcases hn with rfl | rfl
    · exact ⟨_, .field rfl (.field rfl (.field rfl (.here _))), by rintro _ ⟨⟩; exact ⟨gs"500m", by simp, .str (by unfold Clean; decide) (by decide)⟩⟩
    · exact ⟨_, .field rfl (.field rfl (.field rfl (.here _))), by rintro _ ⟨⟩; exact ⟨gs"1Gi", by simp, .str (by unfold Clean; decide) (by decide)⟩⟩
    · exact ⟨_, .field rfl (.field rfl (.field rfl (.here _))), by rintro _ ⟨⟩; exact ⟨gs"2", by simp, .whole (n := 2) (by decide)⟩⟩
    · exact ⟨none, .field rfl (.field rfl (.noField rfl)), by simp⟩

noncomputable def manualRule (f : Statement) : Rule := { (Demo.rule gs"block").body with conditions := some (f.tree placeEnv) }

theorem manual_with {f : Statement} (h : Sound placeEnv policyTables f) : RuleWith placeEnv policyTables (manualRule f) gs"*" gs"*" f := by
  refine ⟨rfl, h, .plain (by simp [manualRule, Demo.rule]), .plain (by simp [manualRule, Demo.rule]), ?_, ?_, ?_, ?_⟩
  · show PlainPattern _; decide
  · show PlainPattern _; decide
  · show PlainPattern gs"*"; decide
  · show PlainPattern gs"*"; decide

theorem limits_sound : Sound placeEnv policyTables notAllLimited ∧ Sound placeEnv policyTables anyUnlimited := by
  have hp : (Parent.document [gs"spec.containers[:]"]).Ok placeEnv.toExt := ⟨by simp, fun r hr => by
    cases List.mem_singleton.1 hr
    exact ⟨⟨by unfold Verbatim; decide, by decide, by decide, by decide⟩, rfl⟩⟩
  constructor
  all_goals
    simp only [notAllLimited, anyUnlimited, Sound, SoundAll, and_true]
    refine ⟨hp, by simp, ⟨?_, by unfold NoControl; decide, by unfold NoControl; decide, ?_⟩, ?_, by unfold NoControl; decide, by unfold NoControl; decide, ?_⟩
    · exact (C42_accepted_iff { attr := _, method := _, value := _ }).1 ⟨_, rfl⟩
    · exact C42_prepared_iff (r := none) |>.1 ⟨_, rfl⟩
    · exact (C42_accepted_iff { attr := _, method := _, value := _ }).1 ⟨_, rfl⟩
    · exact C42_prepared_iff (r := none) |>.1 ⟨_, rfl⟩

/-- The rules of examples 6a and 6b block the document. -/
example : ∀ f ∈ [notAllLimited, anyUnlimited], ∃ o, ({ body := manualRule f } : RuleObj).check placeEnv policyTables [] { placeMsg with rawI := some limitsDoc } = .ok o ∧ o.result = 3 := by
  have hc : Carries placeEnv.toExt placeMsg limitsDoc { placeMsg with rawI := some limitsDoc } none := .parsed (r := placeMsg.rawIRel) (by simp)
  have hx : ∃ e ∈ limitsContainers, Leads e (limitPath gs"cpu") none ∨ Leads e (limitPath gs"memory") none :=
    ⟨_, .tail _ (.head _), .inr (.field rfl (.field rfl (.noField rfl)))⟩
  have hw : ∀ f, WrittenParts (manualRule f) gs"*" gs"*" placeMsg := fun f =>
    ⟨⟨.inl rfl, gs"*", mem_split_iff.1 (by decide), by show Glob gs"*" gs"a"; simp [Glob]⟩, ⟨.inl rfl, gs"*", mem_split_iff.1 (by decide), by show Glob gs"*" gs"b"; simp [Glob]⟩, trivial, trivial⟩
  intro f hf
  simp only [List.mem_cons, List.not_mem_nil, or_false] at hf
  rcases hf with rfl | rfl
  · obtain ⟨o, ho, h, -⟩ := C102_not_all_partial (r := { body := manualRule notAllLimited }) (g := policyTables) place_assumed place_ok placeMsg_ok (.parsed ⟨rfl, rfl, rfl⟩)
      (manual_with limits_sound.1) limits_ok _ hc []
    exact ⟨o, ho, h ⟨hw _, hx⟩⟩
  · obtain ⟨o, ho, h, -⟩ := C102_any_partial (r := { body := manualRule anyUnlimited }) (g := policyTables) place_assumed place_ok placeMsg_ok (.parsed ⟨rfl, rfl, rfl⟩)
      (manual_with limits_sound.2) limits_ok _ hc []
    exact ⟨o, ho, h ⟨hw _, hx⟩⟩

/-- A document for the other examples. -/
example : Mounts placeEnv (.obj [(gs"spec", .obj [(gs"containers", .arr [.obj [(gs"volumeMounts", .arr [.obj [(gs"name", .str gs"xxx")]])]])])])
      [.obj [(gs"volumeMounts", .arr [.obj [(gs"name", .str gs"xxx")]])]] ∧
    Labelled placeEnv (.obj [(gs"metadata", .obj [(gs"labels", .obj [(gs"abc", .str gs"web")])])]) [(gs"abc", gs"web")] := by
  have lt : ∀ x ∈ [gs"xxx", gs"abc", gs"web"], LabelText placeEnv.toExt x := by
    intro x hx
    simp only [List.mem_cons, List.not_mem_nil, or_false] at hx
    rcases hx with rfl | rfl | rfl <;> exact ⟨by unfold Clean; decide, by decide, rfl, by unfold Unescaped; decide⟩
  refine ⟨⟨⟨.field rfl (.field rfl (.here _)), by simp, by simp⟩, ?_⟩, .field rfl (.field rfl (.here _)), ?_⟩
  · intro e he
    cases List.mem_singleton.1 he
    refine ⟨_, .field rfl (.here _), by simp, fun x hx => ?_⟩
    cases List.mem_singleton.1 hx
    exact ⟨_, _, rfl, rfl, lt _ (by simp)⟩
  · intro x hx
    cases List.mem_singleton.1 hx
    exact ⟨lt _ (by simp), lt _ (by simp)⟩

end Mapl.Props

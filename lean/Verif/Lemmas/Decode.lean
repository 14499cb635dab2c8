import Verif.Spec.Decode
import Verif.Lemmas.Go
import Verif.Lemmas.Parse

/-!
# Decoding of documents, key by key
-/

namespace Mapl

open Spec

variable {env : Env} {kvs : List (Str × Yaml)} {k s : Str} {y : Yaml}

/-! ## Lookup -/

theorem lookup_mem_yaml {α : Type} {k : Str} {v : α} {l : List (Str × α)} (h : (l.map (·.1)).Nodup) : lookup k l = some v ↔ (k, v) ∈ l := by
  induction l with
  | nil => simp [lookup]
  | cons x xs ih =>
    obtain ⟨k', v'⟩ := x
    simp only [List.map_cons, List.nodup_cons] at h
    unfold lookup
    by_cases e : k = k'
    · subst e
      simp only [if_true, Option.some.injEq, List.mem_cons, Prod.mk.injEq, true_and]
      constructor
      · rintro rfl; exact .inl rfl
      · rintro (rfl | hm)
        · rfl
        · exact absurd (List.mem_map.2 ⟨_, hm, rfl⟩) h.1
    · simp [e, ih h.2]

theorem lookup_none_yaml {α : Type} {k : Str} {l : List (Str × α)} : lookup k l = none ↔ ¬ ∃ v, (k, v) ∈ l := by
  induction l with
  | nil => simp [lookup]
  | cons x xs ih =>
    obtain ⟨k', v'⟩ := x
    unfold lookup
    by_cases e : k = k'
    · subst e; simp
    · simp [e, ih]

/-! ## Structs -/

variable {α β : Type} {f : α → Str → Yaml → α × Bool}

/-- A field that only one key sets. -/
theorem decodeFields_proj {π : α → β} {key : Str} {d : β → Yaml → β} (h : ∀ r k y, π (f r k y).1 = if k = key then d (π r) y else π r) :
    ∀ {kvs : List (Str × Yaml)} {r : α}, (kvs.map (·.1)).Nodup →
      π (decodeFields f r kvs).1 = match lookup key kvs with | none => π r | some y => d (π r) y := by
  intro kvs
  induction kvs with
  | nil => intro r _; rfl
  | cons x xs ih =>
    obtain ⟨k, y⟩ := x
    intro r hn
    simp only [List.map_cons, List.nodup_cons] at hn
    simp only [decodeFields, ih hn.2, h, lookup]
    by_cases e : k = key
    · subst e
      have : lookup k xs = none := lookup_none_yaml.2 fun ⟨v, hv⟩ => hn.1 (List.mem_map.2 ⟨_, hv, rfl⟩)
      simp [this]
    · have e' : ¬ key = k := fun h => e h.symm
      simp [e, e']

/-- A field that no key sets. -/
theorem decodeFields_fixed {π : α → β} (h : ∀ r k y, π (f r k y).1 = π r) : ∀ {kvs : List (Str × Yaml)} {r : α}, π (decodeFields f r kvs).1 = π r := by
  intro kvs
  induction kvs with
  | nil => intro r; rfl
  | cons x xs ih => intro r; simp only [decodeFields, ih, h]

/-- The flag, if it does not depend on what was decoded before. -/
theorem decodeFields_flag {b : Str → Yaml → Bool} (h : ∀ r k y, (f r k y).2 = b k y) :
    ∀ {kvs : List (Str × Yaml)} {r : α}, (decodeFields f r kvs).2 = false ↔ ∀ x ∈ kvs, b x.1 x.2 = false := by
  intro kvs
  induction kvs with
  | nil => intro r; simp [decodeFields]
  | cons x xs ih => intro r; simp [decodeFields, ih, h]

/-! ## Texts -/

theorem decodeText_flag {old old' : Str} : (decodeText old y).2 = (decodeText old' y).2 := by
  unfold decodeText; split <;> rfl

theorem decodeText_iff {old : Str} : ((decodeText old y).2 = false ∧ (decodeText old y).1 = s) ↔ WritesText y s := by
  constructor
  · rintro ⟨h1, h2⟩
    unfold decodeText at h1 h2
    split at h1 <;> simp_all
    · subst h2; exact .null _
    · subst h2; exact .text (by rintro rfl; simp_all)
  · rintro (_ | h)
    · simp [decodeText]
    · unfold decodeText; split <;> simp_all

theorem decodeText_ok {old : Str} : (decodeText old y).2 = false ↔ ∃ s, WritesText y s := by
  constructor
  · intro h; exact ⟨_, decodeText_iff.1 ⟨h, rfl⟩⟩
  · rintro ⟨s, h⟩; exact (decodeText_iff.2 h).1

/-- The text of a key, found by lookup. -/
def textAt (k : Str) (kvs : List (Str × Yaml)) : Str := match lookup k kvs with | none => [] | some y => (decodeText [] y).1

theorem textUnder_iff (hn : (kvs.map (·.1)).Nodup) (hw : ∀ y, (k, y) ∈ kvs → (decodeText [] y).2 = false) : TextUnder kvs k s ↔ textAt k kvs = s := by
  unfold textAt TextUnder HasKey
  cases hl : lookup k kvs with
  | none =>
    have := lookup_none_yaml.1 hl
    constructor
    · rintro ⟨-, h⟩; exact (h this).symm
    · rintro rfl; exact ⟨fun y hy => absurd ⟨y, hy⟩ this, fun _ => rfl⟩
  | some y =>
    have hy := (lookup_mem_yaml hn).1 hl
    constructor
    · rintro ⟨h, -⟩; exact (decodeText_iff.2 (h y hy)).2
    · intro h
      refine ⟨fun y' hy' => ?_, fun h' => absurd ⟨y, hy⟩ h'⟩
      have : y' = y := by
        have := (lookup_mem_yaml hn).2 hy'
        rw [hl] at this; exact (Option.some.inj this).symm
      subst this
      exact decodeText_iff.1 ⟨hw _ hy', h⟩

theorem textUnder_ok (h : TextUnder kvs k s) (hy : (k, y) ∈ kvs) : (decodeText [] y).2 = false := (decodeText_iff.2 (h.1 y hy)).1

/-! ## Parts of a rule -/

/-- The flag of a part, and what it decodes to, from the entries. -/
theorem decodeStruct_iff {zero : α} {P : List (Str × Yaml) → α → Prop} (h0 : ∀ v, P [] v ↔ v = zero)
    (hP : ∀ l, y = .map l → ∀ v, ((decodeFields f zero l).2 = false ∧ (decodeFields f zero l).1 = v) ↔ P l v) (v : α) :
    ((decodeStruct f zero zero y).2 = false ∧ (decodeStruct f zero zero y).1 = v) ↔
      (∃ t, y = .scalar t .null) ∧ P [] v ∨ ∃ l, y = .map l ∧ P l v := by
  cases y with
  | scalar t w =>
    cases w <;> simp [decodeStruct, h0, eq_comm]
  | seq l => simp [decodeStruct]
  | map l =>
    simp only [decodeStruct, reduceCtorEq, exists_false, false_and, Yaml.map.injEq, false_or]
    rw [hP l rfl]
    constructor
    · intro h; exact ⟨l, rfl, h⟩
    · rintro ⟨l', rfl, h⟩; exact h

/-- A part under a key, found by lookup. -/
def partAt (f : α → Str → Yaml → α × Bool) (zero : α) (k : Str) (kvs : List (Str × Yaml)) : α :=
  match lookup k kvs with | none => zero | some y => (decodeStruct f zero zero y).1

theorem partUnder_iff {zero : α} {P : List (Str × Yaml) → α → Prop} (hn : (kvs.map (·.1)).Nodup) (h0 : ∀ v, P [] v ↔ v = zero)
    (hP : ∀ l, (k, .map l) ∈ kvs → ∀ v, ((decodeFields f zero l).2 = false ∧ (decodeFields f zero l).1 = v) ↔ P l v) (v : α) :
    ((∀ y, (k, y) ∈ kvs → (decodeStruct f zero zero y).2 = false) ∧ partAt f zero k kvs = v) ↔ ∃ l, PartUnder kvs k l ∧ P l v := by
  unfold partAt
  cases hl : lookup k kvs with
  | none =>
    have hno := lookup_none_yaml.1 hl
    constructor
    · rintro ⟨-, rfl⟩
      exact ⟨[], .missing hno, (h0 _).2 rfl⟩
    · rintro ⟨l, hp, hv⟩
      refine ⟨fun y hy => absurd ⟨y, hy⟩ hno, ?_⟩
      cases hp with
      | missing => exact ((h0 _).1 hv).symm
      | null h => exact absurd ⟨_, h⟩ hno
      | mapping h => exact absurd ⟨_, h⟩ hno
  | some y =>
    have hy := (lookup_mem_yaml hn).1 hl
    have huniq : ∀ y', (k, y') ∈ kvs → y' = y := fun y' hy' => by
      have := (lookup_mem_yaml hn).2 hy'
      rw [hl] at this; exact (Option.some.inj this).symm
    have := decodeStruct_iff (f := f) (y := y) h0 (fun l e => hP l (e ▸ hy)) v
    simp only
    constructor
    · rintro ⟨h1, h2⟩
      rcases this.1 ⟨h1 y hy, h2⟩ with ⟨⟨t, rfl⟩, h⟩ | ⟨l, rfl, h⟩
      · exact ⟨[], .null hy, h⟩
      · exact ⟨l, .mapping hy, h⟩
    · rintro ⟨l, hp, hv⟩
      have : (decodeStruct f zero zero y).2 = false ∧ (decodeStruct f zero zero y).1 = v := by
        refine this.2 ?_
        cases hp with
        | missing h => exact absurd ⟨y, hy⟩ h
        | null h => exact .inl ⟨⟨_, (huniq _ h).symm⟩, hv⟩
        | mapping h => exact .inr ⟨_, (huniq _ h).symm, hv⟩
      exact ⟨fun y' hy' => huniq y' hy' ▸ this.1, this.2⟩

/-! ### Sender and receiver -/

/-- What a sender or receiver with these entries is. -/
def PartyDoc (nk tk : Str) (l : List (Str × Yaml)) (v : Party) : Prop := TextUnder l nk v.name ∧ TextUnder l tk v.type ∧ v.list = []

theorem partyField_flag {nk tk : Str} (r : Party) (k : Str) (y : Yaml) :
    (partyField nk tk r k y).2 = (if k = nk ∨ k = tk then (decodeText [] y).2 else if k = gs"-" then (decodeHidden [] y).2 else false) := by
  unfold partyField
  by_cases h1 : k = nk
  · simp only [h1, if_true, true_or]; exact decodeText_flag
  · by_cases h2 : k = tk
    · subst h2; simp only [h1, if_true, if_false, or_true]; exact decodeText_flag
    · by_cases h3 : k = gs"-"
      · simp only [h1, h2, h3, if_true, if_false, or_false]
        rw [if_neg (by rw [← h3]; exact h1), if_neg (by rw [← h3]; exact h2), if_neg (by rw [← h3]; exact not_or.2 ⟨h1, h2⟩)]
        unfold decodeHidden; split <;> rfl
      · simp [h1, h2, h3]

theorem party_iff {nk tk : Str} (hne : nk ≠ tk) (hd1 : nk ≠ gs"-") (hd2 : tk ≠ gs"-") {l : List (Str × Yaml)} (hn : (l.map (·.1)).Nodup)
    (hdash : ¬ HasKey l gs"-") (v : Party) :
    ((decodeFields (partyField nk tk) {} l).2 = false ∧ (decodeFields (partyField nk tk) {} l).1 = v) ↔ PartyDoc nk tk l v := by
  have e1 := decodeFields_proj (f := partyField nk tk) (π := Party.name) (key := nk) (d := fun b y => (decodeText b y).1)
    (fun r k y => by unfold partyField; split <;> [rfl; (split <;> [rfl; (split <;> rfl)])]) (r := {}) hn
  have e2 := decodeFields_proj (f := partyField nk tk) (π := Party.type) (key := tk) (d := fun b y => (decodeText b y).1)
    (fun r k y => by
      unfold partyField
      split
      · next h => subst h; simp [hne]
      · split <;> [rfl; (split <;> rfl)]) (r := {}) hn
  have e3 := decodeFields_proj (f := partyField nk tk) (π := Party.list) (key := gs"-") (d := fun b y => (decodeHidden b y).1)
    (fun r k y => by
      unfold partyField
      split
      · next h => subst h; rw [if_neg hd1]
      · split
        · next h => subst h; rw [if_neg hd2]
        · split <;> rfl) (r := {}) hn
  have hf := decodeFields_flag (partyField_flag (nk := nk) (tk := tk)) (kvs := l) (r := {})
  rw [hf]
  have hl : lookup gs"-" l = none := lookup_none_yaml.2 hdash
  rw [hl] at e3
  have hflag : (∀ x ∈ l, (if x.1 = nk ∨ x.1 = tk then (decodeText [] x.2).2 else if x.1 = gs"-" then (decodeHidden [] x.2).2 else false) = false) ↔
      (∀ y, (nk, y) ∈ l → (decodeText [] y).2 = false) ∧ ∀ y, (tk, y) ∈ l → (decodeText [] y).2 = false := by
    constructor
    · intro h
      exact ⟨fun y hy => by simpa using h _ hy, fun y hy => by simpa using h _ hy⟩
    · rintro ⟨h1, h2⟩ ⟨k, y⟩ hx
      by_cases a : k = nk
      · subst a; simpa using h1 y hx
      · by_cases b : k = tk
        · subst b; simpa using h2 y hx
        · by_cases c : k = gs"-"
          · subst c; exact absurd ⟨y, hx⟩ hdash
          · simp [a, b, c]
  rw [hflag]
  have heq : (decodeFields (partyField nk tk) {} l).1 = v ↔ textAt nk l = v.name ∧ textAt tk l = v.type ∧ v.list = [] := by
    cases v with
    | mk n t li =>
      generalize hr : (decodeFields (partyField nk tk) {} l).1 = r at e1 e2 e3
      cases r with
      | mk n' t' li' =>
        simp only at e1 e2 e3
        simp only [Party.mk.injEq, textAt, e1, e2, e3]
        tauto
  rw [heq]
  constructor
  · rintro ⟨⟨h1, h2⟩, h3, h4, h5⟩
    exact ⟨(textUnder_iff hn h1).2 h3, (textUnder_iff hn h2).2 h4, h5⟩
  · rintro ⟨h1, h2, h3⟩
    have w1 : ∀ y, (nk, y) ∈ l → (decodeText [] y).2 = false := fun y hy => textUnder_ok h1 hy
    have w2 : ∀ y, (tk, y) ∈ l → (decodeText [] y).2 = false := fun y hy => textUnder_ok h2 hy
    exact ⟨⟨w1, w2⟩, (textUnder_iff hn w1).1 h1, (textUnder_iff hn w2).1 h2, h3⟩

/-! ### Resource -/

def ResourceDoc (l : List (Str × Yaml)) (v : Resource) : Prop :=
  TextUnder l gs"resourceType" v.type ∧ TextUnder l gs"resourceName" v.name ∧ v.regex = none

theorem resourceField_flag (r : Resource) (k : Str) (y : Yaml) :
    (resourceField r k y).2 = (if k = gs"resourceType" ∨ k = gs"resourceName" then (decodeText [] y).2 else false) := by
  unfold resourceField
  by_cases h1 : k = gs"resourceType"
  · simp only [h1, if_true, true_or]; exact decodeText_flag
  · by_cases h2 : k = gs"resourceName"
    · subst h2; simp only [h1, if_true, if_false, or_true]; exact decodeText_flag
    · simp [h1, h2]

theorem resource_iff {l : List (Str × Yaml)} (hn : (l.map (·.1)).Nodup) (v : Resource) :
    ((decodeFields resourceField {} l).2 = false ∧ (decodeFields resourceField {} l).1 = v) ↔ ResourceDoc l v := by
  have e1 := decodeFields_proj (f := resourceField) (π := Resource.type) (key := gs"resourceType") (d := fun b y => (decodeText b y).1)
    (fun r k y => by unfold resourceField; split <;> [rfl; (split <;> rfl)]) (r := {}) hn
  have e2 := decodeFields_proj (f := resourceField) (π := Resource.name) (key := gs"resourceName") (d := fun b y => (decodeText b y).1)
    (fun r k y => by
      unfold resourceField
      split
      · next h => subst h; rw [if_neg (by decide)]
      · split <;> rfl) (r := {}) hn
  have e3 := decodeFields_fixed (f := resourceField) (π := Resource.regex)
    (fun r k y => by unfold resourceField; split <;> [rfl; (split <;> rfl)]) (r := {}) (kvs := l)
  have hf := decodeFields_flag resourceField_flag (kvs := l) (r := {})
  rw [hf]
  have hflag : (∀ x ∈ l, (if x.1 = gs"resourceType" ∨ x.1 = gs"resourceName" then (decodeText [] x.2).2 else false) = false) ↔
      (∀ y, (gs"resourceType", y) ∈ l → (decodeText [] y).2 = false) ∧ ∀ y, (gs"resourceName", y) ∈ l → (decodeText [] y).2 = false := by
    constructor
    · intro h
      exact ⟨fun y hy => by simpa using h _ hy, fun y hy => by simpa using h _ hy⟩
    · rintro ⟨h1, h2⟩ ⟨k, y⟩ hx
      by_cases a : k = gs"resourceType"
      · subst a; simpa using h1 y hx
      · by_cases b : k = gs"resourceName"
        · subst b; simpa using h2 y hx
        · simp [a, b]
  rw [hflag]
  have heq : (decodeFields resourceField {} l).1 = v ↔ textAt gs"resourceType" l = v.type ∧ textAt gs"resourceName" l = v.name ∧ v.regex = none := by
    cases v with
    | mk n t li =>
      generalize hr : (decodeFields resourceField {} l).1 = r at e1 e2 e3
      cases r with
      | mk n' t' li' =>
        simp only at e1 e2 e3
        simp only [Resource.mk.injEq, textAt, e1, e2, e3]
        tauto
  rw [heq]
  constructor
  · rintro ⟨⟨h1, h2⟩, h3, h4, h5⟩
    exact ⟨(textUnder_iff hn h1).2 h3, (textUnder_iff hn h2).2 h4, h5⟩
  · rintro ⟨h1, h2, h3⟩
    have w1 : ∀ y, (gs"resourceType", y) ∈ l → (decodeText [] y).2 = false := fun y hy => textUnder_ok h1 hy
    have w2 : ∀ y, (gs"resourceName", y) ∈ l → (decodeText [] y).2 = false := fun y hy => textUnder_ok h2 hy
    exact ⟨⟨w1, w2⟩, (textUnder_iff hn w1).1 h1, (textUnder_iff hn w2).1 h2, h3⟩

/-! ### Maps of texts -/

theorem setKey_new {α : Type} {k : Str} {v : α} {l : List (Str × α)} (h : k ∉ l.map (·.1)) : setKey k v l = l ++ [(k, v)] := by
  induction l with
  | nil => rfl
  | cons x xs ih =>
    obtain ⟨k', v'⟩ := x
    simp only [List.map_cons, List.mem_cons, not_or] at h
    simp [setKey, h.1, ih h.2]

theorem decodeTextEntries_iff : ∀ {l : List (Str × Yaml)} {acc : List (Str × Str)}, (l.map (·.1)).Nodup → (∀ x ∈ l, x.1 ∉ acc.map (·.1)) → ∀ m,
    ((decodeTextEntries acc l).2 = false ∧ (decodeTextEntries acc l).1 = m) ↔
      ∃ new, m = acc ++ new ∧ List.Forall₂ (fun x z => x.1 = z.1 ∧ WritesText x.2 z.2) l new := by
  intro l
  induction l with
  | nil =>
    intro acc _ _ m
    simp only [decodeTextEntries, true_and]
    constructor
    · rintro rfl; exact ⟨[], by simp, .nil⟩
    · rintro ⟨_, h, hf⟩; cases hf; simpa using h.symm
  | cons x xs ih =>
    obtain ⟨k, y⟩ := x
    intro acc hn ha m
    simp only [List.map_cons, List.nodup_cons] at hn
    have hk : k ∉ acc.map (·.1) := ha _ (List.mem_cons_self ..)
    simp only [decodeTextEntries, Bool.or_eq_false_iff]
    cases hv : (decodeText [] y).2 with
    | true =>
      simp only [if_true, reduceCtorEq, false_and, false_iff]
      rintro ⟨new, -, h⟩
      cases h with
      | cons h _ => have := (decodeText_iff (old := []).2 h.2).1; rw [hv] at this; cases this
    | false =>
      simp only [Bool.false_eq_true, if_false, true_and]
      rw [ih hn.2 (by
        intro x hx
        rw [setKey_new hk]
        simp only [List.map_append, List.mem_append, not_or]
        refine ⟨ha _ (List.mem_cons_of_mem _ hx), ?_⟩
        simp only [List.map_cons, List.map_nil, List.mem_singleton]
        rintro e
        exact hn.1 (e ▸ List.mem_map.2 ⟨x, hx, rfl⟩)), setKey_new hk]
      constructor
      · rintro ⟨new, rfl, h⟩
        exact ⟨(k, (decodeText [] y).1) :: new, by simp, .cons ⟨rfl, decodeText_iff.1 ⟨hv, rfl⟩⟩ h⟩
      · rintro ⟨new, rfl, h⟩
        cases h with
        | @cons _ z _ zs h hs =>
          obtain ⟨k', s'⟩ := z
          obtain ⟨rfl, h⟩ := h
          refine ⟨zs, ?_, hs⟩
          have := (decodeText_iff (old := []).2 h).2
          simp [this]

/-! ## Rules -/

/-- The text map under a key, found by lookup. -/
def mapAt (k : Str) (kvs : List (Str × Yaml)) : List (Str × Str) := match lookup k kvs with | none => [] | some y => (decodeTextMap [] y).1

theorem textMap_iff (hn : (kvs.map (·.1)).Nodup) (hl : ∀ l, (k, .map l) ∈ kvs → (l.map (·.1)).Nodup) (m : List (Str × Str)) :
    ((∀ y, (k, y) ∈ kvs → (decodeTextMap [] y).2 = false) ∧ mapAt k kvs = m) ↔
      ∃ l, PartUnder kvs k l ∧ List.Forall₂ (fun x z => x.1 = z.1 ∧ WritesText x.2 z.2) l m := by
  unfold mapAt
  cases hlk : lookup k kvs with
  | none =>
    have hno := lookup_none_yaml.1 hlk
    constructor
    · rintro ⟨-, rfl⟩
      exact ⟨[], .missing hno, .nil⟩
    · rintro ⟨l, hp, hv⟩
      refine ⟨fun y hy => absurd ⟨y, hy⟩ hno, ?_⟩
      cases hp with
      | missing => cases hv; rfl
      | null h => exact absurd ⟨_, h⟩ hno
      | mapping h => exact absurd ⟨_, h⟩ hno
  | some y =>
    have hy := (lookup_mem_yaml hn).1 hlk
    have huniq : ∀ y', (k, y') ∈ kvs → y' = y := fun y' hy' => by
      have := (lookup_mem_yaml hn).2 hy'
      rw [hlk] at this; exact (Option.some.inj this).symm
    simp only
    constructor
    · rintro ⟨h1, h2⟩
      have h1 := h1 y hy
      cases y with
      | scalar t w =>
        cases w <;> simp [decodeTextMap] at h1 h2
        subst h2
        exact ⟨[], .null hy, .nil⟩
      | seq l => simp [decodeTextMap] at h1
      | map l =>
        obtain ⟨new, e, h⟩ := (decodeTextEntries_iff (acc := []) (hl l hy) (by simp) m).1 ⟨h1, h2⟩
        simp only [List.nil_append] at e
        subst e
        exact ⟨l, .mapping hy, h⟩
    · rintro ⟨l, hp, hv⟩
      suffices (decodeTextMap [] y).2 = false ∧ (decodeTextMap [] y).1 = m from ⟨fun y' hy' => huniq y' hy' ▸ this.1, this.2⟩
      cases hp with
      | missing h => exact absurd ⟨y, hy⟩ h
      | null h => cases hv; rw [← huniq _ h]; simp [decodeTextMap]
      | mapping h =>
        rw [← huniq _ h]
        exact (decodeTextEntries_iff (acc := []) (hl l h) (by simp) m).2 ⟨m, by simp, hv⟩

/-- Whether the value of a key of a rule has the wrong type. -/
def ruleBad (k : Str) (y : Yaml) : Bool :=
  if k ∈ [gs"ruleID", gs"protocol", gs"operation", gs"decision", gs"hash"] then (decodeText [] y).2
  else if k = gs"sender" then (decodeStruct (partyField gs"senderName" gs"senderType") {} {} y).2
  else if k = gs"receiver" then (decodeStruct (partyField gs"receiverName" gs"receiverType") {} {} y).2
  else if k = gs"resource" then (decodeStruct resourceField {} {} y).2
  else if k = gs"metadata" then (decodeTextMap [] y).2
  else if k = gs"operationRegex" then (decodeRegexp none y).2
  else if k = gs"-" then (decodeBool false y).2
  else false

theorem decodeStruct_flag {zero r r' : α} {b : Str → Yaml → Bool} (h : ∀ r k y, (f r k y).2 = b k y) :
    (decodeStruct f zero r y).2 = (decodeStruct f zero r' y).2 := by
  unfold decodeStruct
  split
  · rfl
  · rw [Bool.eq_iff_iff, ← not_iff_not, Bool.not_eq_true, Bool.not_eq_true, decodeFields_flag h, decodeFields_flag h]
  · rfl

theorem decodeTextEntries_flag : ∀ {l : List (Str × Yaml)} {acc acc' : List (Str × Str)}, (decodeTextEntries acc l).2 = (decodeTextEntries acc' l).2
  | [], _, _ => rfl
  | (k, y) :: rest, acc, acc' => by
    simp only [decodeTextEntries]
    rw [decodeTextEntries_flag]

/-- The keys of a rule, other than `conditions`. -/
def ruleKeys : List Str := [gs"ruleID", gs"sender", gs"receiver", gs"protocol", gs"resource", gs"operation", gs"decision", gs"metadata", gs"hash",
  gs"operationRegex", gs"-"]

theorem ruleField_other {k : Str} (h : k ∉ ruleKeys) (r : Rule) (y : Yaml) : ruleField r k y = (r, false) := by
  simp only [ruleKeys, List.mem_cons, List.not_mem_nil, or_false, not_or] at h
  obtain ⟨h1, h2, h3, h4, h5, h6, h7, h8, h9, h10, h11⟩ := h
  unfold ruleField
  rw [if_neg h1, if_neg h2, if_neg h3, if_neg h4, if_neg h5, if_neg h6, if_neg h7, if_neg h8, if_neg h9, if_neg h10, if_neg h11]

theorem ruleBad_other {k : Str} (h : k ∉ ruleKeys) (y : Yaml) : ruleBad k y = false := by
  simp only [ruleKeys, List.mem_cons, List.not_mem_nil, or_false, not_or] at h
  obtain ⟨h1, h2, h3, h4, h5, h6, h7, h8, h9, h10, h11⟩ := h
  unfold ruleBad
  rw [if_neg (by simp only [List.mem_cons, List.not_mem_nil, or_false, not_or]; exact ⟨h1, h4, h6, h7, h9⟩), if_neg h2, if_neg h3, if_neg h5, if_neg h8,
    if_neg h10, if_neg h11]

/-- A key of a rule. -/
theorem ruleKeys_cases {k : Str} (h : k ∈ ruleKeys) : k = gs"ruleID" ∨ k = gs"sender" ∨ k = gs"receiver" ∨ k = gs"protocol" ∨ k = gs"resource" ∨
    k = gs"operation" ∨ k = gs"decision" ∨ k = gs"metadata" ∨ k = gs"hash" ∨ k = gs"operationRegex" ∨ k = gs"-" := by
  simpa only [ruleKeys, List.mem_cons, List.not_mem_nil, or_false] using h

theorem ruleField_flag (r : Rule) (k : Str) (y : Yaml) : (ruleField r k y).2 = ruleBad k y := by
  by_cases hk : k ∈ ruleKeys
  · rcases ruleKeys_cases hk with rfl | rfl | rfl | rfl | rfl | rfl | rfl | rfl | rfl | rfl | rfl
    · exact decodeText_flag
    · exact decodeStruct_flag partyField_flag
    · exact decodeStruct_flag partyField_flag
    · exact decodeText_flag
    · exact decodeStruct_flag resourceField_flag
    · exact decodeText_flag
    · exact decodeText_flag
    · show (decodeTextMap r.metadata y).2 = (decodeTextMap [] y).2
      unfold decodeTextMap; split <;> [rfl; exact decodeTextEntries_flag; rfl]
    · exact decodeText_flag
    · show (decodeRegexp _ y).2 = (decodeRegexp none y).2; unfold decodeRegexp; split <;> rfl
    · show (decodeBool _ y).2 = (decodeBool false y).2; unfold decodeBool; split <;> rfl
  · rw [ruleField_other hk, ruleBad_other hk]

/-- The fields other than the conditions do not depend on them. -/
theorem ruleField_conditions (r : Rule) (c : Option Node) (k : Str) (y : Yaml) :
    (ruleField { r with conditions := c } k y).1 = { (ruleField r k y).1 with conditions := c } ∧ (ruleField r k y).1.conditions = r.conditions := by
  by_cases hk : k ∈ ruleKeys
  · rcases ruleKeys_cases hk with rfl | rfl | rfl | rfl | rfl | rfl | rfl | rfl | rfl | rfl | rfl <;> exact ⟨rfl, rfl⟩
  · rw [ruleField_other hk, ruleField_other hk]; exact ⟨rfl, rfl⟩

theorem ruleField_of_conditions (r : Rule) (y : Yaml) : ruleField r gs"conditions" y = (r, false) := rfl

theorem decodeFields_conditions : ∀ {kvs : List (Str × Yaml)} {r : Rule} (c : Option Node),
    (decodeFields ruleField { r with conditions := c } kvs).1 = { (decodeFields ruleField r kvs).1 with conditions := c } ∧
    (decodeFields ruleField { r with conditions := c } kvs).2 = (decodeFields ruleField r kvs).2
  | [], _, _ => ⟨rfl, rfl⟩
  | (k, y) :: rest, r, c => by
    simp only [decodeFields]
    rw [(ruleField_conditions r c k y).1, (decodeFields_conditions c).1, (decodeFields_conditions c).2, ruleField_flag, ruleField_flag]
    exact ⟨rfl, rfl⟩

/-- The conditions of a rule, found by lookup. -/
def conditionsAt (env : Env) (p : List Nat) (old : Option Node) (kvs : List (Str × Yaml)) : Go (Option Node × Bool) :=
  match lookup gs"conditions" kvs with | none => .ok (old, false) | some y => decodeConditions env p old y

theorem decodeRuleEntries_split {p : List Nat} : ∀ {kvs : List (Str × Yaml)} {r : Rule}, (kvs.map (·.1)).Nodup →
    decodeRuleEntries env p r kvs = (conditionsAt env p r.conditions kvs).map fun c =>
      ({ (decodeFields ruleField r kvs).1 with conditions := c.1 }, c.2 || (decodeFields ruleField r kvs).2) := by
  intro kvs
  induction kvs with
  | nil => intro r _; rfl
  | cons x xs ih =>
    obtain ⟨k, y⟩ := x
    intro r hn
    simp only [List.map_cons, List.nodup_cons] at hn
    unfold decodeRuleEntries
    by_cases e : k = gs"conditions"
    · subst e
      have hno : lookup gs"conditions" xs = none := lookup_none_yaml.2 fun ⟨v, hv⟩ => hn.1 (List.mem_map.2 ⟨_, hv, rfl⟩)
      simp only [if_true, conditionsAt, lookup, decodeFields, ruleField_of_conditions, Bool.false_or]
      cases hc : decodeConditions env p r.conditions y with
      | error _ => rfl
      | ok c =>
        show (do let b ← decodeRuleEntries env p { r with conditions := c.1 } xs; pure (b.1, c.2 || b.2)) = _
        rw [ih hn.2]
        simp only [conditionsAt, hno, (decodeFields_conditions c.1).1, (decodeFields_conditions c.1).2]
        rfl
    · have e' : ¬ gs"conditions" = k := fun h => e h.symm
      simp only [e, if_false, conditionsAt, lookup, e', decodeFields]
      rw [ih hn.2, (ruleField_conditions r none k y).2]
      unfold conditionsAt
      cases lookup gs"conditions" xs with
      | none => simp [Except.map, bind, Except.bind, pure, Except.pure]
      | some z =>
        simp only
        cases decodeConditions env p r.conditions z with
        | error _ => rfl
        | ok c => 
          simp only [Except.map, bind, Except.bind, pure, Except.pure]
          rw [← Bool.or_assoc, ← Bool.or_assoc, Bool.or_comm c.2]

/-- Value at a key by lookup. -/
theorem proj_rule {β : Type} {π : Rule → β} {key : Str} {d : β → Yaml → β} (hkey : key ∈ ruleKeys) (hn : (kvs.map (·.1)).Nodup) (r : Rule)
    (h : ∀ k ∈ ruleKeys, ∀ r y, π (ruleField r k y).1 = if k = key then d (π r) y else π r) :
    π (decodeFields ruleField r kvs).1 = match lookup key kvs with | none => π r | some y => d (π r) y := by
  refine decodeFields_proj (fun r k y => ?_) hn
  by_cases hk : k ∈ ruleKeys
  · exact h k hk r y
  · rw [ruleField_other hk, if_neg (fun e : k = key => hk (e ▸ hkey))]

local macro "each_key" : tactic =>
  `(tactic| (intro k hk r y; rcases ruleKeys_cases hk with h | h | h | h | h | h | h | h | h | h | h <;> subst h <;> rfl))

/-- The rule, apart from the conditions. -/
def ruleAt (kvs : List (Str × Yaml)) : Rule :=
  let s := partAt (partyField gs"senderName" gs"senderType") {} gs"sender" kvs
  let v := partAt (partyField gs"receiverName" gs"receiverType") {} gs"receiver" kvs
  let o := partAt resourceField {} gs"resource" kvs
  { ruleID := textAt gs"ruleID" kvs, senderName := s.name, senderType := s.type, senderList := s.list
    receiverName := v.name, receiverType := v.type, receiverList := v.list, protocol := textAt gs"protocol" kvs
    resourceType := o.type, resourceName := o.name, resourceNameRegex := o.regex, operation := textAt gs"operation" kvs
    decision := textAt gs"decision" kvs, metadata := mapAt gs"metadata" kvs, hash := textAt gs"hash" kvs
    operationRegex := match lookup gs"operationRegex" kvs with | none => none | some y => (decodeRegexp none y).1
    converted := match lookup gs"-" kvs with | none => false | some y => (decodeBool false y).1 }

theorem decodeFields_rule (hn : (kvs.map (·.1)).Nodup) : (decodeFields ruleField {} kvs).1 = ruleAt kvs := by
  have e1 := proj_rule (π := Rule.ruleID) (key := gs"ruleID") (d := fun b y => (decodeText b y).1) (by decide) hn {} (by each_key)
  have e2 := proj_rule (π := fun r => (⟨r.senderName, r.senderType, r.senderList⟩ : Party)) (key := gs"sender")
    (d := fun b y => (decodeStruct (partyField gs"senderName" gs"senderType") {} b y).1) (by decide) hn {} (by each_key)
  have e3 := proj_rule (π := fun r => (⟨r.receiverName, r.receiverType, r.receiverList⟩ : Party)) (key := gs"receiver")
    (d := fun b y => (decodeStruct (partyField gs"receiverName" gs"receiverType") {} b y).1) (by decide) hn {} (by each_key)
  have e4 := proj_rule (π := Rule.protocol) (key := gs"protocol") (d := fun b y => (decodeText b y).1) (by decide) hn {} (by each_key)
  have e5 := proj_rule (π := fun r => (⟨r.resourceType, r.resourceName, r.resourceNameRegex⟩ : Resource)) (key := gs"resource")
    (d := fun b y => (decodeStruct resourceField {} b y).1) (by decide) hn {} (by each_key)
  have e6 := proj_rule (π := Rule.operation) (key := gs"operation") (d := fun b y => (decodeText b y).1) (by decide) hn {} (by each_key)
  have e7 := proj_rule (π := Rule.decision) (key := gs"decision") (d := fun b y => (decodeText b y).1) (by decide) hn {} (by each_key)
  have e8 := proj_rule (π := Rule.metadata) (key := gs"metadata") (d := fun b y => (decodeTextMap b y).1) (by decide) hn {} (by each_key)
  have e9 := proj_rule (π := Rule.hash) (key := gs"hash") (d := fun b y => (decodeText b y).1) (by decide) hn {} (by each_key)
  have e10 := proj_rule (π := Rule.operationRegex) (key := gs"operationRegex") (d := fun b y => (decodeRegexp b y).1) (by decide) hn {} (by each_key)
  have e11 := proj_rule (π := Rule.converted) (key := gs"-") (d := fun b y => (decodeBool b y).1) (by decide) hn {} (by each_key)
  have e12 : (decodeFields ruleField {} kvs).1.conditions = none :=
    decodeFields_fixed (π := Rule.conditions) (r := {}) (fun r k y => (ruleField_conditions r none k y).2)
  generalize hr : (decodeFields ruleField {} kvs).1 = r at *
  cases r
  simp only [Party.mk.injEq, Resource.mk.injEq] at *
  have f2 := e2
  have f3 := e3
  have f5 := e5
  unfold ruleAt
  simp only [Rule.mk.injEq]
  refine ⟨e1, ?_, ?_, ?_, ?_, ?_, ?_, e4, ?_, ?_, ?_, e6, e12, e7, e8, e9, e10, e11⟩
  · exact congrArg Party.name e2
  · exact congrArg Party.type e2
  · exact congrArg Party.list e2
  · exact congrArg Party.name e3
  · exact congrArg Party.type e3
  · exact congrArg Party.list e3
  · exact congrArg Resource.type e5
  · exact congrArg Resource.name e5
  · exact congrArg Resource.regex e5

/-- All entries of a rule are of the right types. -/
theorem ruleBad_iff : (∀ x ∈ kvs, ruleBad x.1 x.2 = false) ↔
    (∀ k ∈ [gs"ruleID", gs"protocol", gs"operation", gs"decision", gs"hash"], ∀ y, (k, y) ∈ kvs → (decodeText [] y).2 = false) ∧
    (∀ y, (gs"sender", y) ∈ kvs → (decodeStruct (partyField gs"senderName" gs"senderType") {} {} y).2 = false) ∧
    (∀ y, (gs"receiver", y) ∈ kvs → (decodeStruct (partyField gs"receiverName" gs"receiverType") {} {} y).2 = false) ∧
    (∀ y, (gs"resource", y) ∈ kvs → (decodeStruct resourceField {} {} y).2 = false) ∧
    (∀ y, (gs"metadata", y) ∈ kvs → (decodeTextMap [] y).2 = false) ∧
    (∀ y, (gs"operationRegex", y) ∈ kvs → (decodeRegexp none y).2 = false) ∧
    (∀ y, (gs"-", y) ∈ kvs → (decodeBool false y).2 = false) := by
  constructor
  · intro h
    refine ⟨?_, fun y hy => h (_, y) hy, fun y hy => h (_, y) hy, fun y hy => h (_, y) hy, fun y hy => h (_, y) hy, fun y hy => h (_, y) hy,
      fun y hy => h (_, y) hy⟩
    intro k hk y hy
    have := h (k, y) hy
    unfold ruleBad at this
    rwa [if_pos hk] at this
  · rintro ⟨h1, h2, h3, h4, h5, h6, h7⟩ ⟨k, y⟩ hx
    show ruleBad k y = false
    by_cases hk : k ∈ ruleKeys
    · rcases ruleKeys_cases hk with rfl | rfl | rfl | rfl | rfl | rfl | rfl | rfl | rfl | rfl | rfl
      · exact h1 _ (by decide) y hx
      · exact h2 y hx
      · exact h3 y hx
      · exact h1 _ (by decide) y hx
      · exact h4 y hx
      · exact h1 _ (by decide) y hx
      · exact h1 _ (by decide) y hx
      · exact h5 y hx
      · exact h1 _ (by decide) y hx
      · exact h6 y hx
      · exact h7 y hx
    · exact ruleBad_other hk y

theorem conditionsAt_iff {p : List Nat} {o : Option Node} (hn : (kvs.map (·.1)).Nodup) : conditionsAt env p none kvs = .ok (o, false) ↔
    (∀ y, (gs"conditions", y) ∈ kvs → decodeConditions env p none y = .ok (o, false)) ∧ (¬ HasKey kvs gs"conditions" → o = none) := by
  unfold conditionsAt
  cases hl : lookup gs"conditions" kvs with
  | none =>
    have hno := lookup_none_yaml.1 hl
    constructor
    · intro h; cases h; exact ⟨fun y hy => absurd ⟨y, hy⟩ hno, fun _ => rfl⟩
    · rintro ⟨-, h⟩; rw [h hno]
  | some y =>
    have hm := (lookup_mem_yaml hn).1 hl
    constructor
    · intro h
      refine ⟨fun y' hy' => ?_, fun hno => absurd ⟨y, hm⟩ hno⟩
      have := (lookup_mem_yaml hn).2 hy'
      rw [hl] at this; cases this; exact h
    · rintro ⟨h, -⟩; exact h y hm

theorem decodeRegexp_iff : (decodeRegexp none y).2 = false ↔ (∃ t, y = .scalar t .null) ∨ ∃ l, y = .map l := by
  cases y with
  | scalar t v => cases v <;> simp [decodeRegexp]
  | seq l => simp [decodeRegexp]
  | map l => simp [decodeRegexp]

theorem decodeRegexp_none : (decodeRegexp none y).1 = none := by unfold decodeRegexp; split <;> rfl

theorem partyDoc_nil {nk tk : Str} (v : Party) : PartyDoc nk tk [] v ↔ v = {} := by
  obtain ⟨a, b, c⟩ := v
  simp [PartyDoc, TextUnder, HasKey]

theorem resourceDoc_nil (v : Resource) : ResourceDoc [] v ↔ v = {} := by
  obtain ⟨a, b, c⟩ := v
  simp [ResourceDoc, TextUnder, HasKey]

/-- What a mapping decodes to is the rule that it writes. -/
theorem rule_iff {p : List Nat} {r : Rule} (hn : (kvs.map (·.1)).Nodup) (hp : ∀ k l, (k, .map l) ∈ kvs → (l.map (·.1)).Nodup)
    (hd : ¬ HasKey kvs gs"-") (hd2 : ∀ k ∈ [gs"sender", gs"receiver"], ∀ part, (k, .map part) ∈ kvs → ¬ HasKey part gs"-") :
    decodeRuleEntries env p {} kvs = .ok (r, false) ↔ RuleDoc (fun y o => decodeConditions env p none y = .ok (o, false)) kvs r := by
  have hS := partUnder_iff (k := gs"sender") (f := partyField gs"senderName" gs"senderType") (P := PartyDoc gs"senderName" gs"senderType") hn partyDoc_nil
    (fun l hl => party_iff (by decide) (by decide) (by decide) (hp _ l hl) (hd2 _ (by simp) l hl))
  have hR := partUnder_iff (k := gs"receiver") (f := partyField gs"receiverName" gs"receiverType") (P := PartyDoc gs"receiverName" gs"receiverType") hn partyDoc_nil
    (fun l hl => party_iff (by decide) (by decide) (by decide) (hp _ l hl) (hd2 _ (by simp) l hl))
  have hO := partUnder_iff (k := gs"resource") (f := resourceField) (P := ResourceDoc) hn resourceDoc_nil (fun l hl => resource_iff (hp _ l hl))
  have hM := textMap_iff (k := gs"metadata") hn (hp _)
  have hdl : lookup gs"-" kvs = none := lookup_none_yaml.2 hd
  have hor : (ruleAt kvs).operationRegex = none := by
    unfold ruleAt; dsimp only; split
    · rfl
    · exact decodeRegexp_none
  have hcv : (ruleAt kvs).converted = false := by unfold ruleAt; dsimp only; rw [hdl]
  rw [decodeRuleEntries_split hn]
  constructor
  · intro h
    cases hc : conditionsAt env p none kvs with
    | error e => rw [show (({} : Rule).conditions) = none from rfl, hc] at h; cases h
    | ok c =>
      rw [show (({} : Rule).conditions) = none from rfl, hc] at h
      obtain ⟨o, b⟩ := c
      simp only [Except.map, Except.ok.injEq, Prod.mk.injEq, Bool.or_eq_false_iff] at h
      obtain ⟨hr, hb, hf⟩ := h
      subst hb
      have hcond := (conditionsAt_iff hn).1 hc
      rw [decodeFields_rule hn] at hr
      obtain ⟨h1, h2, h3, h4, h5, h6, h7⟩ := ruleBad_iff.1 ((decodeFields_flag ruleField_flag).1 hf)
      have text : ∀ k ∈ [gs"ruleID", gs"protocol", gs"operation", gs"decision", gs"hash"], TextUnder kvs k (textAt k kvs) :=
        fun k hk => (textUnder_iff hn (h1 k hk)).2 rfl
      obtain ⟨ls, ps, ds⟩ := (hS _).1 ⟨h2, rfl⟩
      obtain ⟨lr, pr, dr⟩ := (hR _).1 ⟨h3, rfl⟩
      obtain ⟨lo, po, dor⟩ := (hO _).1 ⟨h4, rfl⟩
      subst hr
      exact {
        ruleID := text _ (by decide)
        sender := ⟨ls, ps, ds.1, ds.2.1⟩
        receiver := ⟨lr, pr, dr.1, dr.2.1⟩
        protocol := text _ (by decide)
        resource := ⟨lo, po, dor.1, dor.2.1⟩
        operation := text _ (by decide)
        conditions := hcond
        decision := text _ (by decide)
        metadata := (hM _).1 ⟨h5, rfl⟩
        hash := text _ (by decide)
        regexp := fun y hy => decodeRegexp_iff.1 (h6 y hy)
        rest := ⟨ds.2.2, dr.2.2, dor.2.2, hor, hcv⟩ }
  · intro h
    obtain ⟨ls, ps, ds⟩ := h.sender
    obtain ⟨lr, pr, dr⟩ := h.receiver
    obtain ⟨lo, po, dor⟩ := h.resource
    obtain ⟨rl, rr, rn, ro, rc⟩ := h.rest
    have s1 := (hS ⟨r.senderName, r.senderType, r.senderList⟩).2 ⟨ls, ps, ds.1, ds.2, rl⟩
    have r1 := (hR ⟨r.receiverName, r.receiverType, r.receiverList⟩).2 ⟨lr, pr, dr.1, dr.2, rr⟩
    have o1 := (hO ⟨r.resourceType, r.resourceName, r.resourceNameRegex⟩).2 ⟨lo, po, dor.1, dor.2, rn⟩
    have m1 := (hM r.metadata).2 h.metadata
    have hflag : (decodeFields ruleField {} kvs).2 = false := by
      refine (decodeFields_flag ruleField_flag).2 (ruleBad_iff.2 ⟨?_, s1.1, r1.1, o1.1, m1.1, fun y hy => decodeRegexp_iff.2 (h.regexp y hy),
        fun y hy => absurd ⟨y, hy⟩ hd⟩)
      intro k hk y hy
      simp only [List.mem_cons, List.not_mem_nil, or_false] at hk
      rcases hk with rfl | rfl | rfl | rfl | rfl
      · exact textUnder_ok h.ruleID hy
      · exact textUnder_ok h.protocol hy
      · exact textUnder_ok h.operation hy
      · exact textUnder_ok h.decision hy
      · exact textUnder_ok h.hash hy
    have text : ∀ {k s}, TextUnder kvs k s → textAt k kvs = s := fun ht => (textUnder_iff hn (fun y hy => textUnder_ok ht hy)).1 ht
    rw [show (({} : Rule).conditions) = none from rfl, (conditionsAt_iff hn).2 h.conditions, hflag, decodeFields_rule hn]
    simp only [Except.map, Bool.or_self]
    congr 2
    have t1 := text h.ruleID
    have t2 := text h.protocol
    have t3 := text h.operation
    have t4 := text h.decision
    have t5 := text h.hash
    have s2 := s1.2
    have r2 := r1.2
    have o2 := o1.2
    have m2 := m1.2
    rw [← ro] at hor
    rw [← rc] at hcv
    cases r
    unfold ruleAt at hor hcv ⊢
    dsimp only at *
    rw [hor, hcv, t1, t2, t3, t4, t5, s2, r2, o2, m2]

/-! ## Documents as data -/

theorem digits_iff {d : Nat} {c : Char} : digits[d]? = some c ↔ d < 10 ∧ c = d.digitChar := by
  constructor
  · intro h
    have hd : d < 10 := by
      obtain ⟨hd, -⟩ := List.getElem?_eq_some_iff.1 h
      exact hd
    refine ⟨hd, ?_⟩
    have : ∀ d < 10, digits[d]? = some d.digitChar := by decide
    rw [this d hd] at h
    exact (Option.some.inj h).symm
  · rintro ⟨hd, rfl⟩
    have : ∀ d < 10, digits[d]? = some d.digitChar := by decide
    exact this d hd

theorem decimal_toDigits (n : Nat) : Digits n (Nat.toDigits 10 n) := by
  induction n using Nat.strong_induction_on with
  | _ n ih =>
    rw [Nat.toDigits_eq_if (by decide)]
    split
    · next h => exact .digit (digits_iff.2 ⟨h, rfl⟩)
    · next h =>
      have := Digits.more (d := n % 10) (ih (n / 10) (by omega)) (by omega) (digits_iff.2 ⟨by omega, rfl⟩)
      rwa [show 10 * (n / 10) + n % 10 = n from by omega] at this

theorem decimal_unique {n : Nat} {s : Str} (h : Digits n s) : s = Nat.toDigits 10 n := by
  induction h with
  | digit h =>
    obtain ⟨hd, rfl⟩ := digits_iff.1 h
    rw [Nat.toDigits_of_lt_base hd]
  | @more n s d c hn hpos h ih =>
    obtain ⟨hd, rfl⟩ := digits_iff.1 h
    rw [Nat.toDigits_eq_if (n := 10 * n + d) (by decide), if_neg (by omega), show (10 * n + d) / 10 = n from by omega, show (10 * n + d) % 10 = d from by omega, ih]

theorem prints_iff {n : Int} {s : Str} : Prints n s ↔ s = fmtInt n := by
  constructor
  · intro h
    cases h with
    | nat h => rw [decimal_unique h, fmtInt, if_neg (by omega)]; rfl
    | neg h hpos => rw [decimal_unique h, fmtInt, if_pos (by omega), Int.natAbs_neg]; rfl
  · rintro rfl
    unfold fmtInt
    split
    · next h =>
      have := Prints.neg (decimal_toDigits n.natAbs) (by omega)
      rwa [show -((n.natAbs : Nat) : Int) = n from by omega] at this
    · next h =>
      have := Prints.nat (decimal_toDigits n.natAbs)
      rwa [show ((n.natAbs : Nat) : Int) = n from by omega] at this

theorem inside_eq (c : Place) : c.inside = c.elements := by cases c <;> rfl

theorem below_eq (c : Place) (k : Str) : c.below k = c.entry k := by
  cases c <;> simp [Place.below, Place.entry, valueKeys, returnKeys]

mutual
theorem generic_denotes (env : Ext) : ∀ (y : Yaml) (c : Place), Distinct y → Denotes env c y (y.generic env c) ∧ IsMap (y.generic env c)
  | .scalar t v, c, _ => by
    cases v with
    | null => exact ⟨by rw [Yaml.generic]; exact .null _ _, by rw [Yaml.generic]; exact .null⟩
    | bool b => exact ⟨by rw [Yaml.generic]; exact .bool _ _ _, by rw [Yaml.generic]; exact .bool _⟩
    | int n =>
      rw [Yaml.generic]
      by_cases h : c = .value
      · subst h; exact ⟨.printed (prints_iff.2 rfl), .str _⟩
      · rw [if_neg h]; exact ⟨.int _ _ h, .num _⟩
    | float x => exact ⟨by rw [Yaml.generic]; exact .float _ _ _, by rw [Yaml.generic]; exact .num _⟩
    | str => exact ⟨by rw [Yaml.generic]; exact .str _ _, by rw [Yaml.generic]; exact .str _⟩
  | .seq l, c, h => by
    cases h with
    | seq h =>
      rw [Yaml.generic]
      obtain ⟨h1, h2⟩ := genericList_denotes env l c.elements h
      rw [inside_eq]
      exact ⟨.seq h1, .arr h2⟩
  | .map kvs, c, h => by
    cases h with
    | map hn h =>
      rw [Yaml.generic]
      obtain ⟨js, h1, h2, h3, h4⟩ := genericEntries_denotes env kvs c [] hn h (by simp)
      rw [h1, List.nil_append]
      exact ⟨.map h2, .obj (by rw [h3]; exact hn) h4⟩

theorem genericList_denotes (env : Ext) : ∀ (l : List Yaml) (c : Place), (∀ y ∈ l, Distinct y) →
    DenotesAll env c l (genericList env c l) ∧ ∀ j ∈ genericList env c l, IsMap j
  | [], c, _ => ⟨by rw [genericList]; exact .nil _, by rw [genericList]; simp⟩
  | y :: ys, c, h => by
    obtain ⟨h1, h2⟩ := generic_denotes env y c (h y (by simp))
    obtain ⟨h3, h4⟩ := genericList_denotes env ys c (fun z hz => h z (by simp [hz]))
    rw [genericList]
    exact ⟨.cons h1 h3, by simpa [h2] using h4⟩

theorem genericEntries_denotes (env : Ext) : ∀ (kvs : List (Str × Yaml)) (c : Place) (acc : List (Str × Json)), (kvs.map (·.1)).Nodup →
    (∀ x ∈ kvs, Distinct x.2) → (∀ x ∈ kvs, x.1 ∉ acc.map (·.1)) →
    ∃ js, genericEntries env c acc kvs = acc ++ js ∧ DenotesKeys env c kvs js ∧ js.map (·.1) = kvs.map (·.1) ∧ ∀ x ∈ js, IsMap x.2
  | [], c, acc, _, _, _ => ⟨[], by rw [genericEntries]; simp, .nil _, rfl, by simp⟩
  | (k, y) :: rest, c, acc, hn, h, ha => by
    obtain ⟨h1, h2⟩ := generic_denotes env y (c.entry k) (h (k, y) (by simp))
    simp only [List.map_cons, List.nodup_cons] at hn
    rw [genericEntries, setKey_new (ha (k, y) (by simp))]
    obtain ⟨js, e1, e2, e3, e4⟩ := genericEntries_denotes env rest c (acc ++ [(k, y.generic env (c.entry k))]) hn.2 (fun z hz => h z (by simp [hz])) (by
      intro x hx
      simp only [List.map_append, List.mem_append, not_or]
      refine ⟨ha x (by simp [hx]), ?_⟩
      simp only [List.map_cons, List.map_nil, List.mem_cons, List.not_mem_nil, or_false]
      intro e
      exact hn.1 (e ▸ List.mem_map_of_mem hx))
    refine ⟨(k, y.generic env (c.entry k)) :: js, by rw [below_eq, e1]; simp, .cons h1 e2, by simp [e3], ?_⟩
    simpa [h2] using e4
end

mutual
theorem denotes_unique {env : Ext} : ∀ (y : Yaml) {c : Place} {j j' : Json}, Denotes env c y j → Denotes env c y j' → j = j'
  | .scalar t v, c, j, j', h, h' => by
    cases h <;> cases h' <;> first | rfl | contradiction | (next h _ h' => rw [prints_iff.1 h, prints_iff.1 h'])
  | .seq l, c, j, j', h, h' => by
    cases h with
    | seq h => cases h' with
      | seq h' => rw [denotesAll_unique l h h']
  | .map kvs, c, j, j', h, h' => by
    cases h with
    | map h => cases h' with
      | map h' => rw [denotesKeys_unique kvs h h']

theorem denotesAll_unique {env : Ext} : ∀ (l : List Yaml) {c : Place} {j j' : List Json}, DenotesAll env c l j → DenotesAll env c l j' → j = j'
  | [], c, j, j', h, h' => by cases h; cases h'; rfl
  | y :: ys, c, j, j', h, h' => by
    cases h with
    | cons h hs => cases h' with
      | cons h' hs' => rw [denotes_unique y h h', denotesAll_unique ys hs hs']

theorem denotesKeys_unique {env : Ext} : ∀ (l : List (Str × Yaml)) {c : Place} {j j' : List (Str × Json)}, DenotesKeys env c l j → DenotesKeys env c l j' → j = j'
  | [], c, j, j', h, h' => by cases h; cases h'; rfl
  | (k, y) :: ys, c, j, j', h, h' => by
    cases h with
    | cons h hs => cases h' with
      | cons h' hs' => rw [denotes_unique y h h', denotesKeys_unique ys hs hs']
end

theorem denotes_iff {env : Ext} {y : Yaml} {c : Place} {j : Json} (hd : Distinct y) : Denotes env c y j ↔ y.generic env c = j :=
  ⟨fun h => denotes_unique y (generic_denotes env y c hd).1 h, fun h => h ▸ (generic_denotes env y c hd).1⟩

/-! ## Conditions -/

theorem decodeConditions_reads (ho : env.OrdOk) {p : List Nat} {o : Option Node} (hd : Distinct y) (h : decodeConditions env p none y = .ok (o, false)) :
    ReadAsTree env y o := by
  obtain ⟨g1, g2⟩ := generic_denotes env y .plain hd
  have tree : ∀ {n}, parseConditionsTree env p (y.generic env .plain) = .ok n → o = some n → ReadAsTree env y o :=
    fun hn he => .inr ⟨_, _, g1, reads_of_interpret ho _ g2 hn, he⟩
  cases y with
  | scalar t v =>
    rw [decodeConditions] at h
    split at h
    · rename_i hc
      cases h
      obtain ⟨rfl, ht⟩ := hc
      exact .inl ⟨⟨t, by simpa using ht, rfl⟩, rfl⟩
    · split at h <;> cases h
  | seq l =>
    rw [decodeConditions] at h
    obtain ⟨n, hn, hr⟩ := Go.bind_eq_ok.1 h
    cases hr
    exact tree hn rfl
  | map kvs =>
    rw [decodeConditions] at h
    obtain ⟨n, hn, hr⟩ := Go.bind_eq_ok.1 h
    cases hr
    exact tree hn rfl

theorem decodeConditions_writes (ho : env.OrdOk) {o : Option Node} (hd : Distinct y) (h : WritesTree env y o) (p : List Nat) :
    decodeConditions env p none y = .ok (o, false) := by
  rcases h with ⟨⟨t, ht, rfl⟩, rfl⟩ | ⟨j, n, hj, hw, rfl⟩
  · rw [decodeConditions, if_pos ⟨rfl, by simpa using ht⟩]
  · have hp := interpret_of_reads ho hw p
    rw [← (denotes_iff hd).1 hj] at hp
    cases y with
    | scalar t v =>
      cases hj <;> cases hw
    | seq l => rw [decodeConditions, show parseConditionsTree env p _ = _ from hp]; rfl
    | map kvs => rw [decodeConditions, show parseConditionsTree env p _ = _ from hp]; rfl

/-! ## Rules -/

theorem Spec.RuleDoc.mono {tree tree' : Yaml → Option Node → Prop} {r : Rule} (h : RuleDoc tree kvs r)
    (ht : ∀ y o, (gs"conditions", y) ∈ kvs → tree y o → tree' y o) : RuleDoc tree' kvs r where
  ruleID := h.ruleID
  sender := h.sender
  receiver := h.receiver
  protocol := h.protocol
  resource := h.resource
  operation := h.operation
  conditions := ⟨fun y hy => ht y _ hy (h.conditions.1 y hy), h.conditions.2⟩
  decision := h.decision
  metadata := h.metadata
  hash := h.hash
  regexp := h.regexp
  rest := h.rest

/-- The keys of the rule are in order for `rule_iff`. -/
def DashFree (y : Yaml) : Prop := ∀ rule, y = .map rule → ¬ HasKey rule gs"-" ∧ ∀ k ∈ [gs"sender", gs"receiver"], ∀ part, (k, .map part) ∈ rule → ¬ HasKey part gs"-"

theorem distinct_keys {kvs : List (Str × Yaml)} (h : Distinct (.map kvs)) : (kvs.map (·.1)).Nodup ∧ ∀ x ∈ kvs, Distinct x.2 := by
  cases h with
  | map h1 h2 => exact ⟨h1, h2⟩

theorem distinct_list {l : List Yaml} (h : Distinct (.seq l)) : ∀ y ∈ l, Distinct y := by
  cases h with
  | seq h => exact h

theorem decodeRule_reads (ho : env.OrdOk) {p : List Nat} {r : Rule} (hd : Distinct y) (hx : DashFree y) (h : decodeRule env p y = .ok (r, false)) :
    RuleOf (ReadAsTree env) y r := by
  unfold decodeRule at h
  split at h
  · cases h; exact .null _
  · rename_i kvs
    obtain ⟨h1, h2⟩ := distinct_keys hd
    obtain ⟨x1, x2⟩ := hx kvs rfl
    have := (rule_iff h1 (fun k l hl => (distinct_keys (h2 _ hl)).1) x1 x2).1 h
    exact .rule (this.mono fun y o hy ht => decodeConditions_reads ho (h2 _ hy) ht)
  · cases h

theorem decodeRule_writes (ho : env.OrdOk) {r : Rule} (hd : Distinct y) (hx : DashFree y) (h : RuleOf (WritesTree env) y r) (p : List Nat) :
    decodeRule env p y = .ok (r, false) := by
  cases h with
  | null t => rfl
  | @rule kvs _ h =>
    obtain ⟨h1, h2⟩ := distinct_keys hd
    obtain ⟨x1, x2⟩ := hx kvs rfl
    exact (rule_iff h1 (fun k l hl => (distinct_keys (h2 _ hl)).1) x1 x2).2 (h.mono fun y o hy ht => decodeConditions_writes ho (h2 _ hy) ht p)

theorem decodeRuleList_reads {P : Yaml → Rule → Prop} : ∀ {l : List Yaml} {p : List Nat} {i : Nat} {rs : List Rule},
    (∀ y ∈ l, ∀ q r, decodeRule env q y = .ok (r, false) → P y r) → decodeRuleList env p i l = .ok (rs, false) → List.Forall₂ P l rs
  | [], p, i, rs, _, h => by
    rw [decodeRuleList] at h; cases h; exact .nil
  | y :: ys, p, i, rs, hP, h => by
    rw [decodeRuleList] at h
    obtain ⟨⟨r, b⟩, h1, h⟩ := Go.bind_eq_ok.1 h
    obtain ⟨⟨rs', b'⟩, h2, h⟩ := Go.bind_eq_ok.1 h
    have e : (r :: rs', b || b') = (rs, false) := Except.ok.inj h
    simp only [Prod.mk.injEq, Bool.or_eq_false_iff] at e
    obtain ⟨rfl, rfl, rfl⟩ := e
    exact .cons (hP y (by simp) _ _ h1) (decodeRuleList_reads (fun z hz => hP z (by simp [hz])) h2)

theorem decodeRuleList_writes {P : Yaml → Rule → Prop} : ∀ {l : List Yaml} {p : List Nat} {i : Nat} {rs : List Rule},
    (∀ y ∈ l, ∀ q r, P y r → decodeRule env q y = .ok (r, false)) → List.Forall₂ P l rs → decodeRuleList env p i l = .ok (rs, false)
  | [], p, i, rs, _, h => by
    cases h; rfl
  | y :: ys, p, i, rs, hP, h => by
    cases h with
    | cons h hs =>
      rw [decodeRuleList, hP y (by simp) _ _ h, Go.ok_bind, decodeRuleList_writes (fun z hz => hP z (by simp [hz])) hs]
      rfl

theorem decodeRulesEntries_missing : ∀ {kvs : List (Str × Yaml)} {j : Nat} {old : List Rule}, ¬ HasKey kvs gs"rules" →
    decodeRulesEntries env j old kvs = .ok (old, false)
  | [], j, old, _ => rfl
  | (k, y) :: rest, j, old, h => by
    have hk : k ≠ gs"rules" := by rintro rfl; exact h ⟨y, by simp⟩
    rw [decodeRulesEntries, if_neg hk]
    exact decodeRulesEntries_missing fun ⟨z, hz⟩ => h ⟨z, by simp [hz]⟩

theorem decodeRulesEntries_there : ∀ {kvs : List (Str × Yaml)} {j : Nat} {old : List Rule} {y : Yaml}, (kvs.map (·.1)).Nodup → (gs"rules", y) ∈ kvs →
    ∃ j', decodeRulesEntries env j old kvs = decodeRulesKey env j' old y
  | [], j, old, y, _, h => by simp at h
  | (k, z) :: rest, j, old, y, hn, h => by
    simp only [List.map_cons, List.nodup_cons] at hn
    by_cases hk : k = gs"rules"
    · have hno : ¬ HasKey rest gs"rules" := fun ⟨w, hw⟩ => hn.1 (hk ▸ List.mem_map_of_mem (f := (·.1)) hw)
      obtain rfl : y = z := by
        rcases List.mem_cons.1 h with e | e
        · cases e; rfl
        · exact absurd ⟨y, e⟩ hno
      refine ⟨j, ?_⟩
      rw [decodeRulesEntries, if_pos hk]
      cases hr : decodeRulesKey env j old y with
      | error e => rfl
      | ok a =>
        rw [Go.ok_bind, decodeRulesEntries_missing hno]
        show Except.ok (a.1, a.2 || false) = _
        rw [Bool.or_false]
    · rw [decodeRulesEntries, if_neg hk]
      rcases List.mem_cons.1 h with e | e
      · cases e; exact absurd rfl hk
      · exact decodeRulesEntries_there hn.2 e

theorem decodeRules_reads (ho : env.OrdOk) {rs : List Rule} (hd : Distinct y) (hx : NoDash y) (h : decodeRules env y = .ok (rs, false)) :
    RulesDoc (ReadAsTree env) y rs := by
  unfold decodeRules at h
  split at h
  · cases h; exact .empty _
  · rename_i kvs
    obtain ⟨h1, h2⟩ := distinct_keys hd
    by_cases hk : HasKey kvs gs"rules"
    · obtain ⟨y, hy⟩ := hk
      obtain ⟨j, e⟩ := decodeRulesEntries_there (env := env) (j := 0) (old := []) h1 hy
      rw [e] at h
      unfold decodeRulesKey at h
      split at h
      · cases h; exact .null hy
      · rename_i l
        refine .rules hy (decodeRuleList_reads (fun z hz q r hr => ?_) h)
        refine decodeRule_reads ho (distinct_list (h2 _ hy) z hz) ?_ hr
        rintro rule rfl
        exact hx kvs l rule rfl hy hz
      · cases h
    · rw [decodeRulesEntries_missing hk] at h
      cases h; exact .missing hk
  · cases h

theorem decodeRules_writes (ho : env.OrdOk) {rs : List Rule} (hd : Distinct y) (hx : NoDash y) (h : RulesDoc (WritesTree env) y rs) :
    decodeRules env y = .ok (rs, false) := by
  cases h with
  | empty t => rfl
  | missing h => exact decodeRulesEntries_missing h
  | @null kvs t h =>
    obtain ⟨j, e⟩ := decodeRulesEntries_there (env := env) (j := 0) (old := []) (distinct_keys hd).1 h
    exact e
  | @rules kvs l _ h hr =>
    obtain ⟨h1, h2⟩ := distinct_keys hd
    obtain ⟨j, e⟩ := decodeRulesEntries_there (env := env) (j := 0) (old := []) h1 h
    refine e.trans (decodeRuleList_writes (fun z hz q r hr => ?_) hr)
    refine decodeRule_writes ho (distinct_list (h2 _ h) z hz) ?_ hr q
    rintro rule rfl
    exact hx kvs l rule rfl h hz

/-! ## Repeated keys -/

mutual
theorem testYaml_iff : ∀ (y : Yaml), testYaml y = true ↔ Distinct y
  | .scalar t v => by rw [testYaml]; exact ⟨fun _ => .scalar _ _, fun _ => rfl⟩
  | .seq l => by
    rw [testYaml, testYamlList_iff l]
    exact ⟨fun h => .seq h, fun h => distinct_list h⟩
  | .map kvs => by
    rw [testYaml, Bool.and_eq_true, decide_eq_true_iff, testYamlEntries_iff kvs]
    exact ⟨fun h => .map h.1 h.2, fun h => distinct_keys h⟩

theorem testYamlList_iff : ∀ (l : List Yaml), testYamlList l = true ↔ ∀ y ∈ l, Distinct y
  | [] => by rw [testYamlList]; simp
  | y :: ys => by rw [testYamlList, Bool.and_eq_true, testYaml_iff y, testYamlList_iff ys]; simp

theorem testYamlEntries_iff : ∀ (l : List (Str × Yaml)), testYamlEntries l = true ↔ ∀ x ∈ l, Distinct x.2
  | [] => by rw [testYamlEntries]; simp
  | (k, y) :: ys => by rw [testYamlEntries, Bool.and_eq_true, testYaml_iff y, testYamlEntries_iff ys]; simp
end

/-! ## Every tree of data is denoted by a document -/

mutual
def Yaml.ofJson : Json → Yaml
  | .null => .scalar gs"null" .null
  | .bool b => .scalar (if b then gs"true" else gs"false") (.bool b)
  | .num x => .scalar [] (.float x)
  | .str s => .scalar s .str
  | .arr l => .seq (ofJsonList l)
  | .obj kvs => .map (ofJsonEntries kvs)

def ofJsonList : List Json → List Yaml
  | [] => []
  | j :: js => Yaml.ofJson j :: ofJsonList js

def ofJsonEntries : List (Str × Json) → List (Str × Yaml)
  | [] => []
  | (k, j) :: js => (k, Yaml.ofJson j) :: ofJsonEntries js
end

theorem ofJsonEntries_keys : ∀ l : List (Str × Json), (ofJsonEntries l).map (·.1) = l.map (·.1)
  | [] => rfl
  | (k, j) :: js => by rw [ofJsonEntries, List.map_cons, ofJsonEntries_keys js]; rfl

mutual
theorem ofJson_denotes (env : Ext) : ∀ (j : Json) (c : Place), IsMap j → Distinct (.ofJson j) ∧ Denotes env c (.ofJson j) j
  | .null, c, _ => by rw [Yaml.ofJson]; exact ⟨.scalar _ _, .null _ _⟩
  | .bool b, c, _ => by rw [Yaml.ofJson]; exact ⟨.scalar _ _, .bool _ _ _⟩
  | .num x, c, _ => by rw [Yaml.ofJson]; exact ⟨.scalar _ _, .float _ _ _⟩
  | .str s, c, _ => by rw [Yaml.ofJson]; exact ⟨.scalar _ _, .str _ _⟩
  | .arr l, c, h => by
    cases h with
    | arr h =>
      obtain ⟨h1, h2⟩ := ofJsonList_denotes env l c.elements h
      rw [Yaml.ofJson]; exact ⟨.seq h1, .seq h2⟩
  | .obj kvs, c, h => by
    cases h with
    | obj hn h =>
      obtain ⟨h1, h2⟩ := ofJsonEntries_denotes env kvs c h
      rw [Yaml.ofJson]; exact ⟨.map (by rw [ofJsonEntries_keys]; exact hn) h1, .map h2⟩

theorem ofJsonList_denotes (env : Ext) : ∀ (l : List Json) (c : Place), (∀ j ∈ l, IsMap j) →
    (∀ y ∈ ofJsonList l, Distinct y) ∧ DenotesAll env c (ofJsonList l) l
  | [], c, _ => by rw [ofJsonList]; exact ⟨by simp, .nil _⟩
  | j :: js, c, h => by
    obtain ⟨h1, h2⟩ := ofJson_denotes env j c (h j (by simp))
    obtain ⟨h3, h4⟩ := ofJsonList_denotes env js c (fun z hz => h z (by simp [hz]))
    rw [ofJsonList]; exact ⟨by simpa [h1] using h3, .cons h2 h4⟩

theorem ofJsonEntries_denotes (env : Ext) : ∀ (l : List (Str × Json)) (c : Place), (∀ x ∈ l, IsMap x.2) →
    (∀ x ∈ ofJsonEntries l, Distinct x.2) ∧ DenotesKeys env c (ofJsonEntries l) l
  | [], c, _ => by rw [ofJsonEntries]; exact ⟨by simp, .nil _⟩
  | (k, j) :: js, c, h => by
    obtain ⟨h1, h2⟩ := ofJson_denotes env j (c.entry k) (h (k, j) (by simp))
    obtain ⟨h3, h4⟩ := ofJsonEntries_denotes env js c (fun z hz => h z (by simp [hz]))
    rw [ofJsonEntries]; exact ⟨by simpa [h1] using h3, .cons h2 h4⟩
end

end Mapl

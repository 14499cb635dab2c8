import Verif.Lemmas.Decode
import Verif.Props.State

/-!
# Tables in YAML documents
-/

namespace Mapl

open Spec

variable {kvs : List (Str × Yaml)} {k : Str} {y : Yaml}

theorem decodeTexts_iff : ∀ {l : List Yaml} {ts : List Str}, ((decodeTexts l).2 = false ∧ (decodeTexts l).1 = ts) ↔ List.Forall₂ WritesText l ts
  | [], ts => by
    simp only [decodeTexts, true_and]
    constructor
    · rintro rfl; exact .nil
    · intro h; cases h; rfl
  | y :: ys, ts => by
    simp only [decodeTexts, Bool.or_eq_false_iff]
    constructor
    · rintro ⟨⟨h1, h2⟩, h3⟩
      rw [h1] at h3
      simp only [Bool.false_eq_true, if_false] at h3
      subst h3
      exact .cons (decodeText_iff.1 ⟨h1, rfl⟩) (decodeTexts_iff.1 ⟨h2, rfl⟩)
    · intro h
      cases h with
      | cons h hs =>
        obtain ⟨h1, h2⟩ := (decodeText_iff (old := [])).2 h
        obtain ⟨h3, h4⟩ := decodeTexts_iff.2 hs
        rw [h1, h2, h3, h4]
        exact ⟨⟨rfl, rfl⟩, rfl⟩

theorem decodeTextList_iff {ts : List Str} : ((decodeTextList y).2 = false ∧ (decodeTextList y).1 = ts) ↔ WritesTexts y ts := by
  constructor
  · rintro ⟨h1, h2⟩
    unfold decodeTextList at h1 h2
    split at h1
    · subst h2; exact .null _
    · exact .texts (decodeTexts_iff.1 ⟨h1, h2⟩)
    · cases h1
  · intro h
    cases h with
    | null t => exact ⟨rfl, rfl⟩
    | texts h => exact decodeTexts_iff.2 h

theorem decodeListEntries_iff : ∀ {l : List (Str × Yaml)} {acc : List (Str × List Str)}, (l.map (·.1)).Nodup → (∀ x ∈ l, x.1 ∉ acc.map (·.1)) → ∀ m,
    ((decodeListEntries acc l).2 = false ∧ (decodeListEntries acc l).1 = m) ↔
      ∃ new, m = acc ++ new ∧ List.Forall₂ (fun x z => x.1 = z.1 ∧ WritesTexts x.2 z.2) l new := by
  intro l
  induction l with
  | nil =>
    intro acc _ _ m
    simp only [decodeListEntries, true_and]
    constructor
    · rintro rfl; exact ⟨[], by simp, .nil⟩
    · rintro ⟨_, h, hf⟩; cases hf; simpa using h.symm
  | cons x xs ih =>
    obtain ⟨k, y⟩ := x
    intro acc hn ha m
    simp only [List.map_cons, List.nodup_cons] at hn
    have hk : k ∉ acc.map (·.1) := ha _ (List.mem_cons_self ..)
    simp only [decodeListEntries, Bool.or_eq_false_iff]
    cases hv : (decodeTextList y).2 with
    | true =>
      simp only [if_true, reduceCtorEq, false_and, false_iff]
      rintro ⟨new, -, h⟩
      cases h with
      | cons h _ => have := (decodeTextList_iff.2 h.2).1; rw [hv] at this; cases this
    | false =>
      simp only [Bool.false_eq_true, if_false, true_and]
      rw [ih hn.2 (by
        intro x hx
        rw [setKey_new hk]
        simp only [List.map_append, List.mem_append, not_or]
        refine ⟨ha _ (List.mem_cons_of_mem _ hx), ?_⟩
        simp only [List.map_cons, List.map_nil, List.mem_singleton]
        rintro e
        exact hn.1 (e ▸ List.mem_map.2 ⟨x, hx, rfl⟩)), setKey_new hk]
      constructor
      · rintro ⟨new, rfl, h⟩
        exact ⟨(k, (decodeTextList y).1) :: new, by simp, .cons ⟨rfl, decodeTextList_iff.1 ⟨hv, rfl⟩⟩ h⟩
      · rintro ⟨new, rfl, h⟩
        cases h with
        | @cons _ z _ zs h hs =>
          obtain ⟨k', s'⟩ := z
          obtain ⟨rfl, h⟩ := h
          refine ⟨zs, ?_, hs⟩
          have := (decodeTextList_iff.2 h).2
          simp [this]

/-- The lists under a key, found by lookup. -/
def listsAt (k : Str) (kvs : List (Str × Yaml)) : List (Str × List Str) := match lookup k kvs with | none => [] | some y => (decodeListMap [] y).1

theorem listMap_iff (hn : (kvs.map (·.1)).Nodup) (hl : ∀ l, (k, .map l) ∈ kvs → (l.map (·.1)).Nodup) (m : List (Str × List Str)) :
    ((∀ y, (k, y) ∈ kvs → (decodeListMap [] y).2 = false) ∧ listsAt k kvs = m) ↔
      ∃ l, PartUnder kvs k l ∧ List.Forall₂ (fun x z => x.1 = z.1 ∧ WritesTexts x.2 z.2) l m := by
  unfold listsAt
  cases hlk : lookup k kvs with
  | none =>
    have hno := lookup_none_yaml.1 hlk
    constructor
    · rintro ⟨-, rfl⟩
      exact ⟨[], .missing hno, .nil⟩
    · rintro ⟨l, hp, hv⟩
      refine ⟨fun y hy => absurd ⟨y, hy⟩ hno, ?_⟩
      cases hp with
      | missing => cases hv; rfl
      | null h => exact absurd ⟨_, h⟩ hno
      | mapping h => exact absurd ⟨_, h⟩ hno
  | some y =>
    have hy := (lookup_mem_yaml hn).1 hlk
    have huniq : ∀ y', (k, y') ∈ kvs → y' = y := fun y' hy' => by
      have := (lookup_mem_yaml hn).2 hy'
      rw [hlk] at this; exact (Option.some.inj this).symm
    simp only
    constructor
    · rintro ⟨h1, h2⟩
      have h1 := h1 y hy
      cases y with
      | scalar t w =>
        cases w <;> simp [decodeListMap] at h1 h2
        subst h2
        exact ⟨[], .null hy, .nil⟩
      | seq l => simp [decodeListMap] at h1
      | map l =>
        obtain ⟨new, e, h⟩ := (decodeListEntries_iff (acc := []) (hl l hy) (by simp) m).1 ⟨h1, h2⟩
        simp only [List.nil_append] at e
        subst e
        exact ⟨l, .mapping hy, h⟩
    · rintro ⟨l, hp, hv⟩
      suffices (decodeListMap [] y).2 = false ∧ (decodeListMap [] y).1 = m from ⟨fun y' hy' => huniq y' hy' ▸ this.1, this.2⟩
      cases hp with
      | missing h => exact absurd ⟨y, hy⟩ h
      | null h => cases hv; rw [← huniq _ h]; simp [decodeListMap]
      | mapping h =>
        rw [← huniq _ h]
        exact (decodeListEntries_iff (acc := []) (hl l h) (by simp) m).2 ⟨m, by simp, hv⟩

/-! ## The table -/

theorem decodeListEntries_flag : ∀ {l : List (Str × Yaml)} {acc acc' : List (Str × List Str)}, (decodeListEntries acc l).2 = (decodeListEntries acc' l).2
  | [], _, _ => rfl
  | (k, y) :: rest, acc, acc' => by
    simp only [decodeListEntries]
    rw [decodeListEntries_flag]

theorem decodeListMap_flag {old old' : List (Str × List Str)} : (decodeListMap old y).2 = (decodeListMap old' y).2 := by
  unfold decodeListMap; split
  · rfl
  · exact decodeListEntries_flag
  · rfl

theorem decodeTextMap_flag {old old' : List (Str × Str)} : (decodeTextMap old y).2 = (decodeTextMap old' y).2 := by
  unfold decodeTextMap; split
  · rfl
  · exact decodeTextEntries_flag
  · rfl

/-- Whether the value of a key of a table has the wrong type. -/
def tableBad (k : Str) (y : Yaml) : Bool :=
  if k = gs"predefinedStrings" then (decodeTextMap [] y).2
  else if k = gs"predefinedLists" then (decodeListMap [] y).2
  else if k = gs"-" then (decodeListMap [] y).2
  else false

theorem tableField_flag (t : Predef) (k : Str) (y : Yaml) : (tableField t k y).2 = tableBad k y := by
  unfold tableField tableBad
  by_cases h1 : k = gs"predefinedStrings"
  · rw [if_pos h1, if_pos h1]; exact decodeTextMap_flag
  · rw [if_neg h1, if_neg h1]
    by_cases h2 : k = gs"predefinedLists"
    · rw [if_pos h2, if_pos h2]; exact decodeListMap_flag
    · rw [if_neg h2, if_neg h2]
      by_cases h3 : k = gs"-"
      · rw [if_pos h3, if_pos h3]; exact decodeListMap_flag
      · rw [if_neg h3, if_neg h3]

theorem tableBad_iff : (∀ x ∈ kvs, tableBad x.1 x.2 = false) ↔ (∀ y, (gs"predefinedStrings", y) ∈ kvs → (decodeTextMap [] y).2 = false) ∧
    (∀ y, (gs"predefinedLists", y) ∈ kvs → (decodeListMap [] y).2 = false) ∧ (∀ y, (gs"-", y) ∈ kvs → (decodeListMap [] y).2 = false) := by
  constructor
  · intro h
    exact ⟨fun y hy => h (_, y) hy, fun y hy => h (_, y) hy, fun y hy => h (_, y) hy⟩
  · rintro ⟨h1, h2, h3⟩ ⟨k, y⟩ hx
    show tableBad k y = false
    unfold tableBad
    split
    · rename_i e; subst e; exact h1 y hx
    split
    · rename_i e; subst e; exact h2 y hx
    split
    · rename_i e; subst e; exact h3 y hx
    · rfl

theorem tableField_strings (t : Predef) (k : Str) (y : Yaml) :
    (tableField t k y).1.strings = if k = gs"predefinedStrings" then (decodeTextMap t.strings y).1 else t.strings := by
  unfold tableField
  split
  · rfl
  split
  · rfl
  split <;> rfl

theorem tableField_lists (t : Predef) (k : Str) (y : Yaml) :
    (tableField t k y).1.lists = if k = gs"predefinedLists" then (decodeListMap t.lists y).1 else t.lists := by
  unfold tableField
  by_cases h1 : k = gs"predefinedStrings"
  · subst h1; rfl
  · rw [if_neg h1]
    split
    · rfl
    split <;> rfl

/-- The strings and lists of a mapping. -/
theorem tables_iff (hn : (kvs.map (·.1)).Nodup) (hl : ∀ k l, (k, .map l) ∈ kvs → (l.map (·.1)).Nodup) (t : Predef) :
    ((decodeFields tableField {} kvs).2 = false ∧ (decodeFields tableField {} kvs).1.strings = t.strings ∧ (decodeFields tableField {} kvs).1.lists = t.lists) ↔
      TablesDoc kvs t := by
  have e1 := decodeFields_proj (f := tableField) (π := Predef.strings) (d := fun b y => (decodeTextMap b y).1) tableField_strings (r := {}) hn
  have e2 := decodeFields_proj (f := tableField) (π := Predef.lists) (d := fun b y => (decodeListMap b y).1) tableField_lists (r := {}) hn
  have hS := textMap_iff (k := gs"predefinedStrings") hn (hl _)
  have hL := listMap_iff (k := gs"predefinedLists") hn (hl _)
  have hH := listMap_iff (k := gs"-") hn (hl _)
  rw [decodeFields_flag tableField_flag, tableBad_iff, e1, e2]
  constructor
  · rintro ⟨⟨h1, h2, h3⟩, h4, h5⟩
    exact ⟨(hS _).1 ⟨h1, h4⟩, (hL _).1 ⟨h2, h5⟩, _, (hH _).1 ⟨h3, rfl⟩⟩
  · rintro ⟨h1, h2, ls, h3⟩
    have a := (hS _).2 h1
    have b := (hL _).2 h2
    exact ⟨⟨a.1, b.1, ((hH ls).2 h3).1⟩, a.2, b.2⟩

end Mapl

import Verif.Props.Tables

/-!
# Documents of tables with repeated keys

C79, the rest: what a document of tables gives if keys are repeated in it. Repeated mappings are put together, null empties what was there before, and of the entries with one name the last
one counts.
-/

namespace Mapl.Spec

/-- What stands below a key that may be repeated: the entries of all mappings since the last null. -/
inductive Together (key : Str) : List (Str × Yaml) → List (Str × Yaml) → Prop
  | nil : Together key [] []
  | other {kvs l k y} (h : Together key kvs l) (hk : k ≠ key) : Together key (kvs ++ [(k, y)]) l
  | null {kvs l t} (h : Together key kvs l) : Together key (kvs ++ [(key, .scalar t .null)]) []
  | mapping {kvs l m} (h : Together key kvs l) : Together key (kvs ++ [(key, .map m)]) (l ++ m)

/-- The table has for each name what the last entry with this name writes, and nothing for other names. -/
structure LastOf {α : Type} (W : Yaml → α → Prop) (l : List (Str × Yaml)) (table : List (Str × α)) : Prop where
  value : ∀ k x, lookup k table = some x ↔ ∃ a y b, l = a ++ (k, y) :: b ∧ k ∉ b.map (·.1) ∧ W y x
  once : (table.map (·.1)).Nodup

/-- Below the key there are only mappings, and null, and what they map to can be read. -/
def Readable {α : Type} (W : Yaml → α → Prop) (key : Str) (kvs : List (Str × Yaml)) : Prop :=
  ∀ y, (key, y) ∈ kvs → (∃ t, y = .scalar t .null) ∨ ∃ m, y = .map m ∧ ∀ x ∈ m, ∃ v, W x.2 v

end Mapl.Spec

namespace Mapl.Props

open Spec

variable {kvs l m : List (Str × Yaml)} {key : Str} {t' : Predef}

theorem lookup_setKey {α : Type} (k k' : Str) (v : α) : ∀ kvs : List (Str × α), lookup k' (Mapl.setKey k v kvs) = if k' = k then some v else lookup k' kvs
  | [] => by
    simp only [Mapl.setKey, lookup]
  | (k1, v1) :: rest => by
    simp only [Mapl.setKey]
    by_cases h : k = k1
    · subst h
      simp only [if_true, lookup]
      by_cases h' : k' = k <;> simp [h']
    · rw [if_neg h]
      simp only [lookup]
      by_cases h' : k' = k1
      · subst h'
        simp [Ne.symm h]
      · simp [h', lookup_setKey k k' v rest]

theorem keys_of_setKey {α : Type} {k k' : Str} {v : α} : ∀ {l : List (Str × α)}, k' ∈ (Mapl.setKey k v l).map (·.1) → k' = k ∨ k' ∈ l.map (·.1)
  | [], h => by simpa [Mapl.setKey] using h
  | (k1, v1) :: rest, h => by
    simp only [Mapl.setKey] at h
    by_cases hk : k = k1
    · rw [if_pos hk] at h
      subst hk
      exact .inr h
    · rw [if_neg hk] at h
      simp only [List.map_cons, List.mem_cons] at h ⊢
      rcases h with h | h
      · exact .inr (.inl h)
      · rcases keys_of_setKey h with h | h
        · exact .inl h
        · exact .inr (.inr h)

theorem keys_setKey {α : Type} {k : Str} {v : α} : ∀ {l : List (Str × α)}, (l.map (·.1)).Nodup → ((Mapl.setKey k v l).map (·.1)).Nodup
  | [], _ => by simp [Mapl.setKey]
  | (k1, v1) :: rest, h => by
    simp only [Mapl.setKey]
    simp only [List.map_cons, List.nodup_cons] at h
    by_cases hk : k = k1
    · subst hk
      simp only [if_true, List.map_cons, List.nodup_cons]
      exact h
    · rw [if_neg hk]
      simp only [List.map_cons, List.nodup_cons]
      refine ⟨fun hx => ?_, keys_setKey h.2⟩
      rcases keys_of_setKey hx with e | hx
      · exact hk e.symm
      · exact h.1 hx

/-- One more entry. -/
theorem lastOf_snoc {α : Type} {W : Yaml → α → Prop} {table : List (Str × α)} {k : Str} {y : Yaml} {v : α} (h : LastOf W l table) (hw : W y v) (hu : ∀ v', W y v' → v' = v) :
    LastOf W (l ++ [(k, y)]) (Mapl.setKey k v table) := by
  refine ⟨fun k' x => ?_, keys_setKey h.once⟩
  rw [lookup_setKey]
  by_cases hk : k' = k
  · subst hk
    rw [if_pos rfl]
    constructor
    · intro e
      cases e
      exact ⟨l, y, [], rfl, by simp, hw⟩
    · rintro ⟨a, y', b, e, hb, hx⟩
      rcases List.eq_nil_or_concat b with rfl | ⟨b', z, rfl⟩
      · have := List.append_inj_right' e rfl
        cases this
        rw [hu x hx]
      · exfalso
        rw [List.concat_eq_append, ← List.cons_append, ← List.append_assoc] at e
        have := List.append_inj_right' e rfl
        cases this
        exact hb (by simp)
  · rw [if_neg hk, h.value]
    constructor
    · rintro ⟨a, y', b, e, hb, hx⟩
      refine ⟨a, y', b ++ [(k, y)], by rw [e]; simp, ?_, hx⟩
      simp only [List.map_append, List.map_cons, List.map_nil, List.mem_append, List.mem_singleton, not_or]
      exact ⟨hb, hk⟩
    · rintro ⟨a, y', b, e, hb, hx⟩
      rcases List.eq_nil_or_concat b with rfl | ⟨b', z, rfl⟩
      · have := List.append_inj_right' e rfl
        cases this
        exact absurd rfl hk
      · rw [List.concat_eq_append, ← List.cons_append, ← List.append_assoc] at e
        have h1 := List.append_inj_left' e rfl
        exact ⟨a, y', b', h1, fun hm => hb (by simp only [List.concat_eq_append, List.map_append, List.mem_append]; exact .inl hm), hx⟩

theorem texts_last : ∀ {m l : List (Str × Yaml)} {acc : List (Str × Str)}, LastOf WritesText l acc → (decodeTextEntries acc m).2 = false →
    LastOf WritesText (l ++ m) (decodeTextEntries acc m).1
  | [], _, _, h, _ => by simpa [decodeTextEntries] using h
  | (k, y) :: m, l, acc, h, hf => by
    simp only [decodeTextEntries, Bool.or_eq_false_iff] at hf ⊢
    rw [if_neg (by simp [hf.1])] at hf ⊢
    have := lastOf_snoc (k := k) h (decodeText_iff.1 ⟨hf.1, rfl⟩) fun v' hv => ((decodeText_iff (old := [])).2 hv).2.symm
    have := texts_last this hf.2
    rwa [List.append_assoc] at this

theorem lists_last : ∀ {m l : List (Str × Yaml)} {acc : List (Str × List Str)}, LastOf WritesTexts l acc → (decodeListEntries acc m).2 = false →
    LastOf WritesTexts (l ++ m) (decodeListEntries acc m).1
  | [], _, _, h, _ => by simpa [decodeListEntries] using h
  | (k, y) :: m, l, acc, h, hf => by
    simp only [decodeListEntries, Bool.or_eq_false_iff] at hf ⊢
    rw [if_neg (by simp [hf.1])] at hf ⊢
    have := lastOf_snoc (k := k) h (decodeTextList_iff.1 ⟨hf.1, rfl⟩) fun v' hv => (decodeTextList_iff.2 hv).2.symm
    have := lists_last this hf.2
    rwa [List.append_assoc] at this

theorem texts_readable : ∀ {m : List (Str × Yaml)} {acc : List (Str × Str)}, (decodeTextEntries acc m).2 = false ↔ ∀ x ∈ m, ∃ v, WritesText x.2 v
  | [], _ => by simp [decodeTextEntries]
  | (k, y) :: m, acc => by
    simp only [decodeTextEntries, Bool.or_eq_false_iff, texts_readable, List.mem_cons, forall_eq_or_imp, decodeText_ok]

theorem lists_readable : ∀ {m : List (Str × Yaml)} {acc : List (Str × List Str)}, (decodeListEntries acc m).2 = false ↔ ∀ x ∈ m, ∃ v, WritesTexts x.2 v
  | [], _ => by simp [decodeListEntries]
  | (k, y) :: m, acc => by
    have : (decodeTextList y).2 = false ↔ ∃ v, WritesTexts y v := ⟨fun h => ⟨_, decodeTextList_iff.1 ⟨h, rfl⟩⟩, fun ⟨v, h⟩ => (decodeTextList_iff.2 h).1⟩
    simp only [decodeListEntries, Bool.or_eq_false_iff, lists_readable, List.mem_cons, forall_eq_or_imp, this]

theorem textMap_readable {y : Yaml} {old : List (Str × Str)} : (decodeTextMap old y).2 = false ↔ (∃ t, y = .scalar t .null) ∨ ∃ m, y = .map m ∧ ∀ x ∈ m, ∃ v, WritesText x.2 v := by
  cases y with
  | scalar t v => cases v <;> simp [decodeTextMap]
  | seq l => simp [decodeTextMap]
  | map m => simp [decodeTextMap, texts_readable]

theorem listMap_readable {y : Yaml} {old : List (Str × List Str)} : (decodeListMap old y).2 = false ↔ (∃ t, y = .scalar t .null) ∨ ∃ m, y = .map m ∧ ∀ x ∈ m, ∃ v, WritesTexts x.2 v := by
  cases y with
  | scalar t v => cases v <;> simp [decodeListMap]
  | seq l => simp [decodeListMap]
  | map m => simp [decodeListMap, lists_readable]

theorem fields_snoc {α : Type} {f : α → Str → Yaml → α × Bool} {x : Str × Yaml} : ∀ {kvs : List (Str × Yaml)} {r : α},
    (decodeFields f r (kvs ++ [x])).1 = (f (decodeFields f r kvs).1 x.1 x.2).1
  | [], _ => rfl
  | (k, y) :: kvs, r => by simp only [List.cons_append, decodeFields, fields_snoc]

/-- The part of the tables below one key. -/
theorem part_last {α : Type} {W : Yaml → α → Prop} {π : Predef → List (Str × α)} {d : List (Str × α) → Yaml → List (Str × α)} (hπ : π {} = [])
    (h : ∀ r k y, π (tableField r k y).1 = if k = key then d (π r) y else π r) (hn : ∀ b t, d b (.scalar t .null) = [])
    (hm : ∀ l b m, LastOf W l b → (∀ x ∈ m, ∃ v, W x.2 v) → LastOf W (l ++ m) (d b (.map m))) (hr : Readable W key kvs) :
    ∃ l, Together key kvs l ∧ LastOf W l (π (decodeFields tableField {} kvs).1) := by
  have nil : LastOf W [] ([] : List (Str × α)) := ⟨fun k x => by simp [lookup], by simp⟩
  induction kvs using List.reverseRecOn with
  | nil => exact ⟨[], .nil, by rw [decodeFields, hπ]; exact nil⟩
  | append_singleton kvs x ih =>
    obtain ⟨l, h1, h2⟩ := ih fun y hy => hr y (List.mem_append_left _ hy)
    obtain ⟨k, y⟩ := x
    rw [fields_snoc, h]
    by_cases hk : k = key
    · subst hk
      rw [if_pos rfl]
      rcases hr y (by simp) with ⟨t, rfl⟩ | ⟨m, rfl, hx⟩
      · exact ⟨[], .null h1, by rw [hn]; exact nil⟩
      · exact ⟨l ++ m, .mapping h1, hm _ _ _ h2 hx⟩
    · rw [if_neg hk]
      exact ⟨l, .other h1 hk, h2⟩

/-- **C79**, for all documents: if everything below the keys can be read, the document gives tables with, for each name, what is written last; they are accepted if they can be validated. -/
theorem C79_repeated (hs : Readable WritesText gs"predefinedStrings" kvs) (hl : Readable WritesTexts gs"predefinedLists" kvs) (hx : Readable WritesTexts gs"-" kvs) :
    ∃ (t : Predef) (ls ll : List (Str × Yaml)), Together gs"predefinedStrings" kvs ls ∧ LastOf WritesText ls t.strings ∧ Together gs"predefinedLists" kvs ll ∧ LastOf WritesTexts ll t.lists ∧
      ∀ t', readTables (.map kvs) = .ok t' ↔ Validated t t' := by
  obtain ⟨ls, h1, h2⟩ := part_last (π := Predef.strings) (d := fun b y => (decodeTextMap b y).1) rfl tableField_strings (fun _ _ => rfl)
    (fun l b m h hm => texts_last h (texts_readable.2 hm)) hs
  obtain ⟨ll, h3, h4⟩ := part_last (π := Predef.lists) (d := fun b y => (decodeListMap b y).1) rfl tableField_lists (fun _ _ => rfl)
    (fun l b m h hm => lists_last h (lists_readable.2 hm)) hl
  refine ⟨(decodeFields tableField {} kvs).1, ls, ll, h1, h2, h3, h4, fun t' => ?_⟩
  have hf : (decodeFields tableField {} kvs).2 = false := (decodeFields_flag tableField_flag).2 (tableBad_iff.2
    ⟨fun y hy => textMap_readable.2 (hs y hy), fun y hy => listMap_readable.2 (hl y hy), fun y hy => listMap_readable.2 (hx y hy)⟩)
  rw [readTables, decodeStruct, show decodeFields tableField {} kvs = ((decodeFields tableField {} kvs).1, false) from Prod.ext rfl hf]
  exact C36_accepted _ _

/-- **C79**, for all documents: otherwise there is an error. -/
theorem C79_unreadable (h : ¬ (Readable WritesText gs"predefinedStrings" kvs ∧ Readable WritesTexts gs"predefinedLists" kvs ∧ Readable WritesTexts gs"-" kvs)) :
    ∃ e, readTables (.map kvs) = .error (.err e) := by
  have hf : (decodeFields tableField {} kvs).2 = true := by
    by_contra hf
    obtain ⟨a, b, c⟩ := tableBad_iff.1 ((decodeFields_flag tableField_flag).1 (Bool.eq_false_of_not_eq_true hf))
    exact h ⟨fun y hy => textMap_readable.1 (a y hy), fun y hy => listMap_readable.1 (b y hy), fun y hy => listMap_readable.1 (c y hy)⟩
  rw [readTables, decodeStruct, show decodeFields tableField {} kvs = ((decodeFields tableField {} kvs).1, true) from Prod.ext rfl hf]
  exact ⟨_, rfl⟩

/-- The entries below a key are determined by the document. -/
theorem C79_together_unique {l' : List (Str × Yaml)} (h : Together key kvs l) (h' : Together key kvs l') : l = l' := by
  induction h generalizing l' with
  | nil =>
    generalize e : ([] : List (Str × Yaml)) = d at h'
    cases h' with
    | nil => rfl
    | other | null | mapping => simp at e
  | @other kvs l k y h hk ih =>
    generalize e : kvs ++ [(k, y)] = d at h'
    cases h' with
    | nil => simp at e
    | other h' _ => exact ih (List.append_inj_left' e rfl ▸ h')
    | null | mapping => exact absurd (by simpa using congrArg (·.map Prod.fst) (List.append_inj_right' e rfl)) hk
  | @null kvs l t h ih =>
    generalize e : kvs ++ [(key, Yaml.scalar t .null)] = d at h'
    cases h' with
    | nil => simp at e
    | other h' hk => exact absurd (by simpa using (congrArg (·.map Prod.fst) (List.append_inj_right' e rfl)).symm) hk
    | null => rfl
    | mapping => exact absurd (List.append_inj_right' e rfl) (by simp)
  | @mapping kvs l m h ih =>
    generalize e : kvs ++ [(key, Yaml.map m)] = d at h'
    cases h' with
    | nil => simp at e
    | other h' hk => exact absurd (by simpa using (congrArg (·.map Prod.fst) (List.append_inj_right' e rfl)).symm) hk
    | null => exact absurd (List.append_inj_right' e rfl) (by simp)
    | mapping h' =>
      have e1 := List.append_inj_right' e rfl
      cases e1
      rw [ih (List.append_inj_left' e rfl ▸ h')]

/-- What the table has is determined by the entries. -/
theorem C79_repeated_unique {α : Type} {W : Yaml → α → Prop} {table table' : List (Str × α)} (h : LastOf W l table) (h' : LastOf W l table') (k : Str) : lookup k table = lookup k table' := by
  cases e : lookup k table with
  | some x => exact ((h'.value k x).2 ((h.value k x).1 e)).symm
  | none =>
    cases e' : lookup k table' with
    | none => rfl
    | some x => rw [(h.value k x).2 ((h'.value k x).1 e')] at e; cases e

/-- A document with a list that is there twice, the second time with other entries, and strings that are emptied in between. -/
def twiceDoc : List (Str × Yaml) :=
  [(gs"predefinedLists", .map [(gs"admins", .seq [textYaml gs"a"]), (gs"users", .seq [textYaml gs"u"])]), (gs"predefinedStrings", .map [(gs"x", textYaml gs"1")]),
    (gs"predefinedStrings", .scalar gs"~" .null), (gs"predefinedLists", .map [(gs"admins", .seq [textYaml gs"b"])]), (gs"predefinedStrings", .map [(gs"y", textYaml gs"2")])]

/-- It gives what is written last. -/
example : readTables (.map twiceDoc) = .ok { strings := [(gs"y", gs"2")], lists := [(gs"admins", [gs"b"]), (gs"users", [gs"u"])], listsNoRefs := [(gs"admins", [gs"b"]), (gs"users", [gs"u"])] } := rfl

example : Readable WritesText gs"predefinedStrings" twiceDoc ∧ Readable WritesTexts gs"predefinedLists" twiceDoc ∧ Readable WritesTexts gs"-" twiceDoc := by
  refine ⟨fun y hy => ?_, fun y hy => ?_, fun y hy => ?_⟩
  · simp only [twiceDoc, List.mem_cons, Prod.mk.injEq, List.not_mem_nil, or_false] at hy
    rcases hy with ⟨e, -⟩ | ⟨-, rfl⟩ | ⟨-, rfl⟩ | ⟨e, -⟩ | ⟨-, rfl⟩
    · exact absurd e (by decide)
    · exact .inr ⟨_, rfl, by simp; exact ⟨_, textYaml_writes _⟩⟩
    · exact .inl ⟨_, rfl⟩
    · exact absurd e (by decide)
    · exact .inr ⟨_, rfl, by simp; exact ⟨_, textYaml_writes _⟩⟩
  · simp only [twiceDoc, List.mem_cons, Prod.mk.injEq, List.not_mem_nil, or_false] at hy
    rcases hy with ⟨-, rfl⟩ | ⟨e, -⟩ | ⟨e, -⟩ | ⟨-, rfl⟩ | ⟨e, -⟩
    · exact .inr ⟨_, rfl, by simp; exact ⟨⟨_, .texts (.cons (textYaml_writes _) .nil)⟩, _, .texts (.cons (textYaml_writes _) .nil)⟩⟩
    · exact absurd e (by decide)
    · exact absurd e (by decide)
    · exact .inr ⟨_, rfl, by simp; exact ⟨_, .texts (.cons (textYaml_writes _) .nil)⟩⟩
    · exact absurd e (by decide)
  · simp only [twiceDoc, List.mem_cons, Prod.mk.injEq, List.not_mem_nil, or_false] at hy
    rcases hy with ⟨e, -⟩ | ⟨e, -⟩ | ⟨e, -⟩ | ⟨e, -⟩ | ⟨e, -⟩ <;> (exact absurd e (by decide))

end Mapl.Props

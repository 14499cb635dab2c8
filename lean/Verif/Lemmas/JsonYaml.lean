import Verif.Lemmas.JsonRule
import Verif.Lemmas.Decode

/-!
# The same rules in JSON and in YAML
-/

namespace Mapl

open Spec

variable {env : Env} {e : Ext} {c : Place} {j : Json} {y : Yaml} {k : Str}

/-! ## Documents that say the same -/

mutual
theorem same_denotes : ∀ {c : Place} {j : Json} {y : Yaml}, Same e c j y → Denotes e c y j
  | _, _, _, .null c t => .null c t
  | _, _, _, .bool c b t => .bool c t b
  | _, _, _, .int n t h => .int t n h
  | _, _, _, .float c x t => .float c t x
  | _, _, _, .str c s => .str c s
  | _, _, _, .arr h => .seq (sameAll_denotes h)
  | _, _, _, .obj h => .map (sameKeys_denotes h)

theorem sameAll_denotes : ∀ {c : Place} {js : List Json} {l : List Yaml}, SameAll e c js l → DenotesAll e c l js
  | _, _, _, .nil c => .nil c
  | _, _, _, .cons h hs => .cons (same_denotes h) (sameAll_denotes hs)

theorem sameKeys_denotes : ∀ {c : Place} {js : List (Str × Json)} {l : List (Str × Yaml)}, SameKeys e c js l → DenotesKeys e c l js
  | _, _, _, .nil c => .nil c
  | _, _, _, .cons h hs => .cons (same_denotes h) (sameKeys_denotes hs)
end

theorem sameKeys_keys {js : List (Str × Json)} {l : List (Str × Yaml)} : SameKeys e c js l → js.map (·.1) = l.map (·.1)
  | .nil _ => rfl
  | .cons _ hs => by simp [sameKeys_keys hs]

/-! ## Keys -/

theorem fold_dash {k : Str} (h : gs"-".map foldChar = k.map foldChar) : gs"-" = k := by
  cases k with
  | nil => simp at h
  | cons a k =>
    cases k with
    | cons b k => simp at h
    | nil =>
      have ha : foldChar a = '-' := by simpa [show foldChar '-' = '-' from rfl] using h.symm
      unfold foldChar at ha
      split at ha
      · exact absurd ha (by decide)
      · split at ha
        · exact absurd ha (by decide)
        · unfold Char.toLower at ha
          split at ha
          · next hu =>
            exfalso
            have h1 := congrArg (fun x => x.val.toNat) ha
            obtain ⟨l1, l2⟩ := hu
            have l1 := UInt32.le_iff_toNat_le.1 l1
            have l2 := UInt32.le_iff_toNat_le.1 l2
            simp [UInt32.toNat_add] at h1 l1 l2
            omega
          · rw [ha]

theorem fieldOf_mem {names : List Str} (h : k ∈ names) : fieldOf names k = some k := by simp [fieldOf, h]

theorem fieldOf_spelled {names : List Str} (h : ∀ n ∈ names, n.map foldChar = k.map foldChar → n = k) : fieldOf names k = if k ∈ names then some k else none := by
  unfold fieldOf
  split
  · rfl
  · next hk =>
    rw [List.find?_eq_none]
    intro n hn he
    exact hk (h n hn (by simpa using he) ▸ hn)

/-! ## Texts -/

theorem jsonText_flag {old : Str} : (jsonText old j).2 = false ↔ IsText j := by
  cases j <;> simp [jsonText, IsText]

theorem jsonTextEntries_flag : ∀ {l : List (Str × Json)} {acc : List (Str × Str)}, (jsonTextEntries acc l).2 = false ↔ ∀ x ∈ l, IsText x.2
  | [], acc => by simp [jsonTextEntries]
  | (k, j) :: l, acc => by simp [jsonTextEntries, jsonTextEntries_flag (l := l), jsonText_flag]

theorem jsonTextMap_flag {old : List (Str × Str)} : (jsonTextMap old j).2 = false ↔ IsObject (fun _ v => IsText v) j := by
  cases j <;> simp [jsonTextMap, IsObject, jsonTextEntries_flag]

theorem jsonRegexp_flag {old : Option Re} : (jsonRegexp old j).2 = false ↔ IsObject (fun _ _ => True) j := by
  cases j <;> simp [jsonRegexp, IsObject]

theorem same_text (h : Same e c j y) (ht : IsText j) : decodeText [] y = jsonText [] j := by
  cases h <;> first | rfl | (rcases ht with h | ⟨s, h⟩ <;> cases h)

theorem same_textEntries {l : List (Str × Json)} {ly : List (Str × Yaml)} (h : SameKeys e c l ly) : (∀ x ∈ l, IsText x.2) → ∀ acc,
    decodeTextEntries acc ly = jsonTextEntries acc l := by
  induction l generalizing ly with
  | nil => intro _ acc; cases h; rfl
  | cons x l ih =>
    intro ht acc
    cases h with
    | cons h hs =>
      have h1 := same_text h (ht _ (List.mem_cons_self ..))
      have h2 := (jsonText_flag (old := [])).2 (ht _ (List.mem_cons_self ..))
      simp only at h2
      rw [decodeTextEntries, jsonTextEntries, h1]
      simp only [h2, if_false, Bool.false_eq_true]
      rw [ih hs fun x hx => ht x (by simp [hx])]

/-! ## Structs -/

variable {α : Type} {f : α → Str → Json → α × Bool} {g : α → Str → Yaml → α × Bool}

theorem jsonFields_flag {P : Str → Json → Prop} (h : ∀ r k j, (f r k j).2 = false ↔ P k j) :
    ∀ {l : List (Str × Json)} {r : α}, (jsonFields f r l).2 = false ↔ ∀ x ∈ l, P x.1 x.2
  | [], r => by simp [jsonFields]
  | (k, j) :: l, r => by simp [jsonFields, jsonFields_flag h (l := l), h]

/-- Two decoders of structs that agree on every entry, as long as the field has not been set before. -/
theorem fields_same (fresh : Str → α → Prop) (ok : Str → Json → Prop)
    (step : ∀ r k j y, ok k j → Same e (c.entry k) j y → fresh k r → g r k y = f r k j)
    (keep : ∀ r k k' j, ok k j → k ≠ k' → fresh k' r → fresh k' (f r k j).1) :
    ∀ {l : List (Str × Json)} {ly : List (Str × Yaml)} {r : α}, SameKeys e c l ly → (l.map (·.1)).Nodup → (∀ x ∈ l, ok x.1 x.2) → (∀ x ∈ l, fresh x.1 r) →
      decodeFields g r ly = jsonFields f r l := by
  intro l
  induction l with
  | nil => intro ly r h _ _ _; cases h; rfl
  | cons x l ih =>
    intro ly r h hn hok hf
    cases h with
    | @cons _ k j _ y ly h hs =>
      simp only [List.map_cons, List.nodup_cons] at hn
      rw [decodeFields, jsonFields, step r k j y (hok _ (List.mem_cons_self ..)) h (hf _ (List.mem_cons_self ..))]
      rw [ih hs hn.2 (fun x hx => hok x (by simp [hx]))]
      intro x hx
      refine keep _ _ _ _ (hok _ (List.mem_cons_self ..)) ?_ (hf x (by simp [hx]))
      rintro rfl
      exact hn.1 (List.mem_map.2 ⟨x, hx, rfl⟩)

/-! ### Sender and receiver -/

theorem party_field {nk tk : Str} (hd : k ≠ gs"-") (h : ∀ n ∈ [nk, tk], n.map foldChar = k.map foldChar → n = k) :
    fieldOf [nk, tk, gs"-"] k = if k = nk ∨ k = tk then some k else none := by
  rw [fieldOf_spelled]
  · simp [hd]
  · intro n hn he
    simp only [List.mem_cons, List.not_mem_nil, or_false] at hn h
    rcases hn with rfl | rfl | rfl
    · exact h _ (.inl rfl) he
    · exact h _ (.inr rfl) he
    · exact absurd (fold_dash he).symm hd

theorem same_party {nk tk : Str} {l : List (Str × Json)} {ly : List (Str × Yaml)} (h : SameKeys e c l ly) (hn : (l.map (·.1)).Nodup)
    (hs : Spelled [nk, tk] l) (hd : ¬ HasKey ly gs"-") (ht : ∀ x ∈ l, x.1 = nk ∨ x.1 = tk → IsText x.2) :
    decodeFields (partyField nk tk) {} ly = jsonFields (jsonPartyField nk tk) {} l := by
  have hd' : ∀ x ∈ l, x.1 ≠ gs"-" := by
    intro x hx e'
    have : gs"-" ∈ ly.map (·.1) := by rw [← sameKeys_keys h]; exact e' ▸ List.mem_map_of_mem (f := (·.1)) hx
    obtain ⟨z, hz, e''⟩ := List.mem_map.1 this
    exact hd ⟨z.2, by rw [← e'']; exact hz⟩
  refine fields_same (fresh := fun k r => (k = nk → r.name = []) ∧ (k = tk → r.type = []))
    (ok := fun k j => k ≠ gs"-" ∧ (∀ n ∈ [nk, tk], n.map foldChar = k.map foldChar → n = k) ∧ (k = nk ∨ k = tk → IsText j)) ?_ ?_ h hn
    (fun x hx => ⟨hd' x hx, hs x hx, ht x hx⟩) (fun x _ => ⟨fun _ => rfl, fun _ => rfl⟩)
  · rintro r k j y ⟨hd, hs, ht⟩ h ⟨f1, f2⟩
    unfold partyField jsonPartyField
    rw [party_field hd hs]
    by_cases h1 : k = nk
    · subst h1
      simp only [if_true, true_or]
      rw [f1 rfl, same_text h (ht (.inl rfl))]
    · by_cases h2 : k = tk
      · subst h2
        have h1' : ¬ some k = some nk := by simpa using h1
        simp only [if_true, or_true, if_neg h1, if_neg h1']
        rw [f2 rfl, same_text h (ht (.inr rfl))]
      · have : ¬ (k = nk ∨ k = tk) := not_or.2 ⟨h1, h2⟩
        simp only [if_neg this, if_neg h1, if_neg h2, if_neg hd, reduceCtorEq, if_false]
  · rintro r k k' j ⟨hd, hs, -⟩ hne ⟨f1, f2⟩
    unfold jsonPartyField
    rw [party_field hd hs]
    by_cases h1 : k = nk
    · subst h1
      simp only [if_true, true_or]
      exact ⟨fun h => absurd h.symm hne, f2⟩
    · by_cases h2 : k = tk
      · subst h2
        have h1' : ¬ some k = some nk := by simpa using h1
        simp only [if_true, or_true, if_neg h1']
        exact ⟨f1, fun h => absurd h.symm hne⟩
      · have : ¬ (k = nk ∨ k = tk) := not_or.2 ⟨h1, h2⟩
        simp only [if_neg this, reduceCtorEq, if_false]
        exact ⟨f1, f2⟩

theorem jsonParty_typed {nk tk : Str} {l : List (Str × Json)} {r : Party} (h : (jsonFields (jsonPartyField nk tk) r l).2 = false) :
    ∀ x ∈ l, x.1 = nk ∨ x.1 = tk → IsText x.2 := by
  have := (jsonFields_flag (f := jsonPartyField nk tk)
    (P := fun k j => fieldOf [nk, tk, gs"-"] k = some nk ∨ fieldOf [nk, tk, gs"-"] k = some tk → IsText j) (fun r k j => by
      unfold jsonPartyField
      by_cases h1 : fieldOf [nk, tk, gs"-"] k = some nk
      · simp [h1, jsonText_flag]
      · by_cases h2 : fieldOf [nk, tk, gs"-"] k = some tk
        · rw [if_neg h1, if_pos h2]; simp [h2, jsonText_flag]
        · rw [if_neg h1, if_neg h2]; simp [h1, h2])).1 h
  intro x hx hk
  refine this x hx ?_
  rcases hk with hk | hk
  · rw [fieldOf_mem (by simp [hk]), hk]; exact .inl rfl
  · rw [fieldOf_mem (by simp [hk]), hk]; exact .inr rfl

theorem jsonParty_flag {nk tk : Str} {l : List (Str × Json)} {r : Party} (hs : Spelled [nk, tk] l) (h : ∀ x ∈ l, x.1 = nk ∨ x.1 = tk → IsText x.2) :
    (jsonFields (jsonPartyField nk tk) r l).2 = false := by
  induction l generalizing r with
  | nil => rfl
  | cons x l ih =>
    rw [jsonFields]
    simp only [Bool.or_eq_false_iff]
    refine ⟨?_, ih (fun x hx => hs x (by simp [hx])) fun x hx => h x (by simp [hx])⟩
    have h1 := hs x (by simp)
    have h2 := h x (by simp)
    unfold jsonPartyField
    by_cases hd : x.1 = gs"-"
    · have hf : fieldOf [nk, tk, gs"-"] x.1 = some x.1 := fieldOf_mem (by simp [hd])
      rw [hf]
      by_cases h3 : x.1 = nk
      · rw [if_pos (by rw [h3])]; exact jsonText_flag.2 (h2 (.inl h3))
      · by_cases h4 : x.1 = tk
        · rw [if_neg (by simpa using h3), if_pos (by rw [h4])]; exact jsonText_flag.2 (h2 (.inr h4))
        · rw [if_neg (by simpa using h3), if_neg (by simpa using h4)]
    · have hf := party_field hd h1
      by_cases h3 : x.1 = nk
      · have hf' : fieldOf [nk, tk, gs"-"] x.1 = some nk := by rw [hf, if_pos (Or.inl h3), h3]
        rw [if_pos hf']; exact jsonText_flag.2 (h2 (.inl h3))
      · by_cases h4 : x.1 = tk
        · have hf' : fieldOf [nk, tk, gs"-"] x.1 = some tk := by rw [hf, if_pos (Or.inr h4), h4]
          have hn : ¬ some tk = some nk := fun h => h3 (h4.trans (Option.some.inj h))
          rw [hf', if_neg hn, if_pos rfl]; exact jsonText_flag.2 (h2 (.inr h4))
        · have : ¬ (x.1 = nk ∨ x.1 = tk) := not_or.2 ⟨h3, h4⟩
          simp only [hf, if_neg this, reduceCtorEq, if_false]

/-! ### Resource -/

theorem resource_field (h : ∀ n ∈ [gs"resourceType", gs"resourceName"], n.map foldChar = k.map foldChar → n = k) :
    fieldOf resourceNames k = if k ∈ resourceNames then some k else none := by
  rw [fieldOf_spelled]
  intro n hn he
  simp only [resourceNames, List.mem_cons, List.not_mem_nil, or_false] at hn h
  rcases hn with rfl | rfl | rfl
  · exact h _ (.inl rfl) he
  · exact h _ (.inr rfl) he
  · exact fold_dash he

theorem resourceNames_cases (h : k ∈ resourceNames) : k = gs"resourceType" ∨ k = gs"resourceName" ∨ k = gs"-" := by
  simpa only [resourceNames, List.mem_cons, List.not_mem_nil, or_false] using h

/-- An entry of a resource is of the right type. -/
def ResourceTyped (k : Str) (j : Json) : Prop :=
  (k = gs"resourceType" ∨ k = gs"resourceName" → IsText j) ∧ (k = gs"-" → IsObject (fun _ _ => True) j)

theorem resource_typed {r : Resource} (h : (jsonResourceField r k j).2 = false) : ResourceTyped k j := by
  refine ⟨?_, ?_⟩
  · rintro (rfl | rfl)
    · exact (jsonText_flag (old := r.type)).1 h
    · exact (jsonText_flag (old := r.name)).1 h
  · rintro rfl
    exact (jsonRegexp_flag (old := r.regex)).1 h

theorem resource_flag {r : Resource} (hs : ∀ n ∈ [gs"resourceType", gs"resourceName"], n.map foldChar = k.map foldChar → n = k) (h : ResourceTyped k j) :
    (jsonResourceField r k j).2 = false := by
  by_cases hk : k ∈ resourceNames
  · rcases resourceNames_cases hk with rfl | rfl | rfl
    · exact (jsonText_flag (old := r.type)).2 (h.1 (.inl rfl))
    · exact (jsonText_flag (old := r.name)).2 (h.1 (.inr rfl))
    · exact (jsonRegexp_flag (old := r.regex)).2 (h.2 rfl)
  · unfold jsonResourceField
    rw [resource_field hs, if_neg hk]
    simp

theorem same_resource {l : List (Str × Json)} {ly : List (Str × Yaml)} (h : SameKeys e c l ly) (hn : (l.map (·.1)).Nodup)
    (hs : Spelled [gs"resourceType", gs"resourceName"] l) (ht : ∀ x ∈ l, ResourceTyped x.1 x.2) :
    decodeFields resourceField {} ly = jsonFields jsonResourceField {} l := by
  refine fields_same (fresh := fun k r => (k = gs"resourceType" → r.type = []) ∧ (k = gs"resourceName" → r.name = []) ∧ r.regex = none)
    (ok := fun k j => (∀ n ∈ [gs"resourceType", gs"resourceName"], n.map foldChar = k.map foldChar → n = k) ∧ ResourceTyped k j) ?_ ?_ h hn
    (fun x hx => ⟨hs x hx, ht x hx⟩) (fun x _ => ⟨fun _ => rfl, fun _ => rfl, rfl⟩)
  · rintro r k j y ⟨hs, ht⟩ h ⟨f1, f2, f3⟩
    by_cases hk : k ∈ resourceNames
    · rcases resourceNames_cases hk with rfl | rfl | rfl
      · show (({ r with type := (decodeText r.type y).1 } : Resource), (decodeText r.type y).2) = (({ r with type := (jsonText r.type j).1 } : Resource), (jsonText r.type j).2)
        rw [f1 rfl, same_text h (ht.1 (.inl rfl))]
      · show (({ r with name := (decodeText r.name y).1 } : Resource), (decodeText r.name y).2) = (({ r with name := (jsonText r.name j).1 } : Resource), (jsonText r.name j).2)
        rw [f2 rfl, same_text h (ht.1 (.inr rfl))]
      · show (r, false) = (({ r with regex := (jsonRegexp r.regex j).1 } : Resource), (jsonRegexp r.regex j).2)
        rcases ht.2 rfl with rfl | ⟨l, rfl, -⟩
        · cases r; simp only at f3; subst f3; rfl
        · cases r; simp only at f3; subst f3; rfl
    · unfold jsonResourceField resourceField
      rw [resource_field hs, if_neg hk]
      simp only [resourceNames, List.mem_cons, List.not_mem_nil, or_false, not_or] at hk
      rw [if_neg hk.1, if_neg hk.2.1]
      simp
  · rintro r k k' j ⟨hs, ht⟩ hne ⟨f1, f2, f3⟩
    by_cases hk : k ∈ resourceNames
    · rcases resourceNames_cases hk with rfl | rfl | rfl
      · exact ⟨fun h => absurd h.symm hne, f2, f3⟩
      · exact ⟨f1, fun h => absurd h.symm hne, f3⟩
      · refine ⟨f1, f2, ?_⟩
        show (jsonRegexp r.regex j).1 = none
        rcases ht.2 rfl with rfl | ⟨l, rfl, -⟩ <;> rfl
    · unfold jsonResourceField
      rw [resource_field hs, if_neg hk]
      simpa using ⟨f1, f2, f3⟩

/-! ### Rule -/

theorem typed_one {l : List (Str × Json)} (h : TypedRule l) {x : Str × Json} (hx : x ∈ l) : TypedRule [x] := by
  refine ⟨fun k hk j hj => ?_, fun q hq j hj => ?_, fun j hj => ?_, fun j hj => ?_, fun j hj => ?_⟩ <;> rw [List.mem_singleton] at hj <;> subst hj
  · exact h.texts k hk j hx
  · exact h.parts q hq j hx
  · exact h.metadata j hx
  · exact h.regexp j hx
  · exact h.conditions j hx

theorem typed_all {l : List (Str × Json)} (h : ∀ x ∈ l, TypedRule [x]) : TypedRule l :=
  ⟨fun k hk j hj => (h _ hj).texts k hk j (by simp), fun q hq j hj => (h _ hj).parts q hq j (by simp), fun j hj => (h _ hj).metadata j (by simp),
    fun j hj => (h _ hj).regexp j (by simp), fun j hj => (h _ hj).conditions j (by simp)⟩

/-- The field that a key sets, alone. -/
def only (k : Str) (r : Rule) : Rule :=
  if k = gs"ruleID" then { ruleID := r.ruleID }
  else if k = gs"sender" then { senderName := r.senderName, senderType := r.senderType, senderList := r.senderList }
  else if k = gs"receiver" then { receiverName := r.receiverName, receiverType := r.receiverType, receiverList := r.receiverList }
  else if k = gs"protocol" then { protocol := r.protocol }
  else if k = gs"resource" then { resourceType := r.resourceType, resourceName := r.resourceName, resourceNameRegex := r.resourceNameRegex }
  else if k = gs"operation" then { operation := r.operation }
  else if k = gs"decision" then { decision := r.decision }
  else if k = gs"metadata" then { metadata := r.metadata }
  else if k = gs"hash" then { hash := r.hash }
  else if k = gs"operationRegex" then { operationRegex := r.operationRegex }
  else {}

theorem jsonRuleField_other {k : Str} (h : k ∉ ruleKeys) (r : Rule) (j : Json) : jsonRuleField r k j = (r, false) := by
  simp only [ruleKeys, List.mem_cons, List.not_mem_nil, or_false, not_or] at h
  obtain ⟨h1, h2, h3, h4, h5, h6, h7, h8, h9, h10, h11⟩ := h
  unfold jsonRuleField
  rw [if_neg h1, if_neg h2, if_neg h3, if_neg h4, if_neg h5, if_neg h6, if_neg h7, if_neg h8, if_neg h9, if_neg h10, if_neg h11]

theorem only_conditions (k : Str) (r : Rule) (o : Option Node) : only k { r with conditions := o } = only k r := rfl

theorem only_keep {k k' : Str} (hne : k ≠ k') (hd : k ≠ gs"-") (r : Rule) (j : Json) : only k' (jsonRuleField r k j).1 = only k' r := by
  by_cases hk : k ∈ ruleKeys
  · by_cases hk' : k' ∈ ruleKeys
    · rcases ruleKeys_cases hk with h | h | h | h | h | h | h | h | h | h | h <;> subst h <;>
      rcases ruleKeys_cases hk' with h | h | h | h | h | h | h | h | h | h | h <;> subst h <;>
      first | exact absurd rfl hne | exact absurd rfl hd | rfl
    · simp only [ruleKeys, List.mem_cons, List.not_mem_nil, or_false, not_or] at hk'
      obtain ⟨h1, h2, h3, h4, h5, h6, h7, h8, h9, h10, h11⟩ := hk'
      unfold only
      rw [if_neg h1, if_neg h2, if_neg h3, if_neg h4, if_neg h5, if_neg h6, if_neg h7, if_neg h8, if_neg h9, if_neg h10,
        if_neg h1, if_neg h2, if_neg h3, if_neg h4, if_neg h5, if_neg h6, if_neg h7, if_neg h8, if_neg h9, if_neg h10]
  · rw [jsonRuleField_other hk]

/-- What is assumed of an entry of a rule. -/
structure MemberOk (k : Str) (j : Json) (y : Yaml) : Prop where
  typed : TypedRule [(k, j)]
  spelled : ∀ q ∈ parts, q.1 = k → ∀ l, j = .obj l → Spelled [q.2.1, q.2.2] l
  dash : k ∈ [gs"sender", gs"receiver"] → ∀ part, y = .map part → ¬ HasKey part gs"-"
  distinct : Distinct y

theorem same_struct {α : Type} {f : α → Str → Json → α × Bool} {g : α → Str → Yaml → α × Bool} {P : Str → Json → Prop} {r : α} (h : Same e c j y)
    (ht : IsObject P j) (hs : ∀ l ly, j = .obj l → y = .map ly → SameKeys e c l ly → (∀ x ∈ l, P x.1 x.2) → decodeFields g r ly = jsonFields f r l) :
    decodeStruct g r r y = jsonStruct f r j := by
  rcases ht with rfl | ⟨l, rfl, ht⟩
  · cases h; rfl
  · cases h with
    | obj h => exact hs _ _ rfl rfl h ht

theorem same_nodup {l : List (Str × Json)} {ly : List (Str × Yaml)} (h : SameKeys e c l ly) (hd : Distinct (.map ly)) : (l.map (·.1)).Nodup := by
  rw [sameKeys_keys h]; exact (distinct_keys hd).1

theorem same_ruleField {r : Rule} (hd : k ≠ gs"-") (ok : MemberOk k j y) (h : Same e c j y) (hf : only k r = {}) : ruleField r k y = jsonRuleField r k j := by
  by_cases hk : k ∈ ruleKeys
  · have tx : ∀ k' ∈ [gs"ruleID", gs"protocol", gs"operation", gs"decision", gs"hash"], k' = k → decodeText [] y = jsonText [] j :=
      fun k' hk' he => same_text h (ok.typed.texts k' hk' j (by simp [he]))
    rcases ruleKeys_cases hk with h' | h' | h' | h' | h' | h' | h' | h' | h' | h' | h' <;> subst h'
    · have f1 : r.ruleID = [] := congrArg Rule.ruleID hf
      show (({ r with ruleID := (decodeText r.ruleID y).1 } : Rule), (decodeText r.ruleID y).2) = ({ r with ruleID := (jsonText r.ruleID j).1 }, (jsonText r.ruleID j).2)
      rw [f1, tx _ (by simp) rfl]
    · have f1 : r.senderName = [] := congrArg Rule.senderName hf
      have f2 : r.senderType = [] := congrArg Rule.senderType hf
      have f3 : r.senderList = [] := congrArg Rule.senderList hf
      have := same_struct (f := jsonPartyField gs"senderName" gs"senderType") (g := partyField gs"senderName" gs"senderType") (r := {}) h
        (ok.typed.parts (gs"sender", gs"senderName", gs"senderType") (by simp [parts]) j (by simp))
        (fun l ly hl hy hs ht => same_party hs (same_nodup hs (hy ▸ ok.distinct)) (ok.spelled (gs"sender", gs"senderName", gs"senderType") (by simp [parts]) rfl l hl)
          (ok.dash (by simp) ly hy) fun x hx => (ht x hx).1)
      show (let v := decodeStruct (partyField gs"senderName" gs"senderType") {} ⟨r.senderName, r.senderType, r.senderList⟩ y
        (({ r with senderName := v.1.name, senderType := v.1.type, senderList := v.1.list } : Rule), v.2)) =
        (let v := jsonStruct (jsonPartyField gs"senderName" gs"senderType") ⟨r.senderName, r.senderType, r.senderList⟩ j
        ({ r with senderName := v.1.name, senderType := v.1.type, senderList := v.1.list }, v.2))
      rw [f1, f2, f3]
      exact congrArg (fun v : Party × Bool => (({ r with senderName := v.1.name, senderType := v.1.type, senderList := v.1.list } : Rule), v.2)) this
    · have f1 : r.receiverName = [] := congrArg Rule.receiverName hf
      have f2 : r.receiverType = [] := congrArg Rule.receiverType hf
      have f3 : r.receiverList = [] := congrArg Rule.receiverList hf
      have := same_struct (f := jsonPartyField gs"receiverName" gs"receiverType") (g := partyField gs"receiverName" gs"receiverType") (r := {}) h
        (ok.typed.parts (gs"receiver", gs"receiverName", gs"receiverType") (by simp [parts]) j (by simp))
        (fun l ly hl hy hs ht => same_party hs (same_nodup hs (hy ▸ ok.distinct)) (ok.spelled (gs"receiver", gs"receiverName", gs"receiverType") (by simp [parts]) rfl l hl)
          (ok.dash (by simp) ly hy) fun x hx => (ht x hx).1)
      show (let v := decodeStruct (partyField gs"receiverName" gs"receiverType") {} ⟨r.receiverName, r.receiverType, r.receiverList⟩ y
        (({ r with receiverName := v.1.name, receiverType := v.1.type, receiverList := v.1.list } : Rule), v.2)) =
        (let v := jsonStruct (jsonPartyField gs"receiverName" gs"receiverType") ⟨r.receiverName, r.receiverType, r.receiverList⟩ j
        ({ r with receiverName := v.1.name, receiverType := v.1.type, receiverList := v.1.list }, v.2))
      rw [f1, f2, f3]
      exact congrArg (fun v : Party × Bool => (({ r with receiverName := v.1.name, receiverType := v.1.type, receiverList := v.1.list } : Rule), v.2)) this
    · have f1 : r.protocol = [] := congrArg Rule.protocol hf
      show (({ r with protocol := (decodeText r.protocol y).1 } : Rule), (decodeText r.protocol y).2) = ({ r with protocol := (jsonText r.protocol j).1 }, (jsonText r.protocol j).2)
      rw [f1, tx _ (by simp) rfl]
    · have f1 : r.resourceType = [] := congrArg Rule.resourceType hf
      have f2 : r.resourceName = [] := congrArg Rule.resourceName hf
      have f3 : r.resourceNameRegex = none := congrArg Rule.resourceNameRegex hf
      have := same_struct (f := jsonResourceField) (g := resourceField) (r := {}) h
        (ok.typed.parts (gs"resource", gs"resourceType", gs"resourceName") (by simp [parts]) j (by simp))
        (fun l ly hl hy hs ht => same_resource hs (same_nodup hs (hy ▸ ok.distinct)) (ok.spelled (gs"resource", gs"resourceType", gs"resourceName") (by simp [parts]) rfl l hl)
          fun x hx => ⟨(ht x hx).1, (ht x hx).2 rfl⟩)
      show (let v := decodeStruct resourceField {} ⟨r.resourceType, r.resourceName, r.resourceNameRegex⟩ y
        (({ r with resourceType := v.1.type, resourceName := v.1.name, resourceNameRegex := v.1.regex } : Rule), v.2)) =
        (let v := jsonStruct jsonResourceField ⟨r.resourceType, r.resourceName, r.resourceNameRegex⟩ j
        ({ r with resourceType := v.1.type, resourceName := v.1.name, resourceNameRegex := v.1.regex }, v.2))
      rw [f1, f2, f3]
      exact congrArg (fun v : Resource × Bool => (({ r with resourceType := v.1.type, resourceName := v.1.name, resourceNameRegex := v.1.regex } : Rule), v.2)) this
    · have f1 : r.operation = [] := congrArg Rule.operation hf
      show (({ r with operation := (decodeText r.operation y).1 } : Rule), (decodeText r.operation y).2) = ({ r with operation := (jsonText r.operation j).1 }, (jsonText r.operation j).2)
      rw [f1, tx _ (by simp) rfl]
    · have f1 : r.decision = [] := congrArg Rule.decision hf
      show (({ r with decision := (decodeText r.decision y).1 } : Rule), (decodeText r.decision y).2) = ({ r with decision := (jsonText r.decision j).1 }, (jsonText r.decision j).2)
      rw [f1, tx _ (by simp) rfl]
    · have f1 : r.metadata = [] := congrArg Rule.metadata hf
      have := ok.typed.metadata j (by simp)
      show (({ r with metadata := (decodeTextMap r.metadata y).1 } : Rule), (decodeTextMap r.metadata y).2) = ({ r with metadata := (jsonTextMap r.metadata j).1 }, (jsonTextMap r.metadata j).2)
      have : decodeTextMap [] y = jsonTextMap [] j := by
        rcases this with rfl | ⟨l, rfl, ht⟩
        · cases h; rfl
        · cases h with
          | obj h => exact same_textEntries h ht []
      rw [f1, this]
    · have f1 : r.hash = [] := congrArg Rule.hash hf
      show (({ r with hash := (decodeText r.hash y).1 } : Rule), (decodeText r.hash y).2) = ({ r with hash := (jsonText r.hash j).1 }, (jsonText r.hash j).2)
      rw [f1, tx _ (by simp) rfl]
    · show (({ r with operationRegex := (decodeRegexp r.operationRegex y).1 } : Rule), (decodeRegexp r.operationRegex y).2) =
        ({ r with operationRegex := (jsonRegexp r.operationRegex j).1 }, (jsonRegexp r.operationRegex j).2)
      have : decodeRegexp r.operationRegex y = jsonRegexp r.operationRegex j := by
        rcases ok.typed.regexp j (by simp) with rfl | ⟨l, rfl, -⟩ <;> cases h <;> rfl
      rw [this]
    · exact absurd rfl hd
  · rw [ruleField_other hk, jsonRuleField_other hk]

mutual
/-- A document without repeated keys is what a decoder into `interface{}` sees. -/
theorem same_once : ∀ {c : Place} {j : Json} {y : Yaml}, Same e c j y → Distinct y → j.once = j
  | _, _, _, .null .., _ => rfl
  | _, _, _, .bool .., _ => rfl
  | _, _, _, .int .., _ => rfl
  | _, _, _, .float .., _ => rfl
  | _, _, _, .str .., _ => rfl
  | _, _, _, .arr h, hd => by
    rw [Json.once, sameAll_once h]
    cases hd with | seq hd => exact hd
  | _, _, _, .obj h, hd => by
    refine once_obj (same_nodup h hd) (sameKeys_once h ?_)
    cases hd with | map _ hd => exact hd

theorem sameAll_once : ∀ {c : Place} {js : List Json} {l : List Yaml}, SameAll e c js l → (∀ y ∈ l, Distinct y) → onceElements js = js
  | _, _, _, .nil _, _ => rfl
  | _, _, _, .cons h hs, hd => by
    rw [onceElements, same_once h (hd _ (List.mem_cons_self ..)), sameAll_once hs fun y hy => hd y (List.mem_cons_of_mem _ hy)]

theorem sameKeys_once : ∀ {c : Place} {js : List (Str × Json)} {l : List (Str × Yaml)}, SameKeys e c js l → (∀ x ∈ l, Distinct x.2) → onceMembers js = js
  | _, _, _, .nil _, _ => rfl
  | _, _, _, .cons h hs, hd => by
    rw [onceMembers, same_once h (hd _ (List.mem_cons_self ..)), sameKeys_once hs fun y hy => hd y (List.mem_cons_of_mem _ hy)]
end

theorem same_conditions {p : List Nat} {old : Option Node} (h : Same env .plain j y) (hd : Distinct y) (ht : (∃ l, j = .arr l) ∨ ∃ l, j = .obj l)
    (he : j ≠ .obj [] ∧ j ≠ .arr []) : decodeConditions env p old y = (do let n ← unmarshalConditions env p j.once; pure (n, false)) := by
  rw [same_once h hd]
  have hg : y.generic env .plain = j := (denotes_iff hd).1 (same_denotes h)
  rcases ht with ⟨l, rfl⟩ | ⟨l, rfl⟩
  · cases h with
    | arr h =>
      cases l with
      | nil => exact absurd rfl he.2
      | cons x l =>
        simp only [decodeConditions, unmarshalConditions, hg, bind_assoc, pure_bind]
  · cases h with
    | obj h =>
      cases l with
      | nil => exact absurd rfl he.1
      | cons x l =>
        simp only [decodeConditions, unmarshalConditions, hg, bind_assoc, pure_bind]

theorem ruleNames_split : k ∈ ruleNames ↔ k = gs"conditions" ∨ k ∈ ruleKeys := by
  simp only [ruleNames, ruleKeys, List.mem_cons, List.not_mem_nil, or_false]
  tauto

theorem same_ruleEntries {p : List Nat} : ∀ {l : List (Str × Json)} {ly : List (Str × Yaml)} {r : Rule}, SameKeys env .plain l ly → (l.map (·.1)).Nodup →
    (∀ k j y, (k, j) ∈ l → (k, y) ∈ ly → Same env (Place.plain.entry k) j y → MemberOk k j y) → Spelled ruleNames l → (∀ x ∈ l, x.1 ≠ gs"-") →
    (∀ j, (gs"conditions", j) ∈ l → j ≠ .obj [] ∧ j ≠ .arr []) → (∀ x ∈ l, only x.1 r = {}) →
    decodeRuleEntries env p r ly = jsonRuleEntries env p r l := by
  intro l
  induction l with
  | nil => intro ly r h _ _ _ _ _ _; cases h; rfl
  | cons x l ih =>
    intro ly r h hn hok hsp hda hc hf
    cases h with
    | @cons _ k j _ y ly h hs =>
      simp only [List.map_cons, List.nodup_cons] at hn
      have mj : (k, j) ∈ (k, j) :: l := List.mem_cons_self ..
      have ok := hok k j y mj (List.mem_cons_self ..) h
      have hd : k ≠ gs"-" := hda _ mj
      have hof := fieldOf_spelled (hsp _ mj)
      have hf1 : only k r = {} := hf _ mj
      have again : ∀ r' : Rule, (∀ k', k ≠ k' → only k' r' = only k' r) → decodeRuleEntries env p r' ly = jsonRuleEntries env p r' l := by
        intro r' hr'
        refine ih hs hn.2 (fun k j y h1 h2 => hok k j y (by simp [h1]) (by simp [h2])) (fun x hx => hsp x (by simp [hx])) (fun x hx => hda x (by simp [hx]))
          (fun j hj => hc j (by simp [hj])) fun x hx => ?_
        rw [hr' x.1 (by rintro rfl; exact hn.1 (List.mem_map.2 ⟨x, hx, rfl⟩))]
        exact hf x (by simp [hx])
      rw [decodeRuleEntries, jsonRuleEntries, hof]
      by_cases hk : k ∈ ruleNames
      · rw [if_pos hk]
        by_cases hcond : k = gs"conditions"
        · subst hcond
          simp only [if_true]
          rw [same_conditions (env := env) h ok.distinct (ok.typed.conditions j (by simp)) (hc j mj)]
          cases hu : unmarshalConditions env p j.once with
          | error e => rfl
          | ok o =>
            simp only [Go.ok_bind, Go.pure_eq, Bool.false_or]
            rw [again { r with conditions := o } fun _ _ => rfl]
            cases jsonRuleEntries env p { r with conditions := o } l <;> rfl
        · simp only [if_neg hcond]
          rw [same_ruleField hd ok h hf1, again _ fun k' hne => only_keep hne hd r j]
      · rw [if_neg hk]
        have h1 : k ≠ gs"conditions" := fun e => hk (ruleNames_split.2 (.inl e))
        have h2 : k ∉ ruleKeys := fun e => hk (ruleNames_split.2 (.inr e))
        simp only [if_neg h1]
        rw [ruleField_other h2]
        simp only [Bool.false_or]
        rw [again r fun _ _ => rfl]
        cases jsonRuleEntries env p r l <;> rfl

theorem same_mem {l : List (Str × Json)} {ly : List (Str × Yaml)} (h : SameKeys e c l ly) (hy : (k, y) ∈ ly) : ∃ j, (k, j) ∈ l ∧ Same e (c.entry k) j y := by
  induction l generalizing ly with
  | nil => cases h; simp at hy
  | cons x l ih =>
    cases h with
    | cons h hs =>
      rcases List.mem_cons.1 hy with he | hy
      · cases he; exact ⟨_, List.mem_cons_self .., h⟩
      · obtain ⟨j, hj, h⟩ := ih hs hy
        exact ⟨j, by simp [hj], h⟩

/-- What is assumed of a rule. -/
structure RuleOk (j : Json) (y : Yaml) : Prop where
  object : IsObject (fun _ _ => True) j
  typed : ∀ l, j = .obj l → TypedRule l
  spelled : ∀ l, j = .obj l → SpelledRule l
  conditions : ∀ l, j = .obj l → ∀ c, (gs"conditions", c) ∈ l → c ≠ .obj [] ∧ c ≠ .arr []
  dash : DashFree y
  distinct : Distinct y

theorem same_rule {p : List Nat} (h : Same env .plain j y) (ok : RuleOk j y) : decodeRule env p y = jsonRule env p {} j := by
  rcases ok.object with rfl | ⟨l, rfl, -⟩
  · cases h; rfl
  · cases h with
    | @obj _ _ ly h =>
      obtain ⟨d1, d2⟩ := ok.dash ly rfl
      obtain ⟨n1, n2⟩ := distinct_keys ok.distinct
      have hn := same_nodup h ok.distinct
      refine same_ruleEntries h hn (fun k j y h1 h2 hsame => ⟨typed_one (ok.typed l rfl) h1, fun q hq e l' hl' => ?_, fun hk part hp => ?_, n2 _ h2⟩)
        (ok.spelled l rfl).rule (fun x hx he => d1 ?_) (ok.conditions l rfl) fun x _ => ?_
      · subst e; subst hl'; exact (ok.spelled l rfl).parts q hq l' h1
      · exact d2 k hk part (hp ▸ h2)
      · have : gs"-" ∈ ly.map (·.1) := by rw [← sameKeys_keys h]; exact he ▸ List.mem_map_of_mem (f := (·.1)) hx
        obtain ⟨z, hz, e⟩ := List.mem_map.1 this
        exact ⟨z.2, by rw [← e]; exact hz⟩
      · unfold only
        repeat' split
        all_goals rfl

theorem same_ruleList {p : List Nat} : ∀ {l : List Json} {ly : List Yaml} {i : Nat}, SameAll env .plain l ly →
    (∀ j y, j ∈ l → y ∈ ly → Same env .plain j y → RuleOk j y) → decodeRuleList env p i ly = jsonRuleList env p i [] l
  | [], _, i, h, _ => by cases h; rfl
  | j :: l, _, i, h, ok => by
    cases h with
    | cons h hs =>
      rw [decodeRuleList, jsonRuleList, same_rule h (ok _ _ (by simp) (by simp) h),
        same_ruleList hs fun j y h1 h2 => ok j y (by simp [h1]) (by simp [h2])]
      rfl

/-- What is assumed of a document. -/
structure DocOk (j : Json) (y : Yaml) : Prop where
  typed : TypedDoc j
  spelled : SpelledDoc j
  conditions : NoEmptyConditions j
  dash : NoDash y
  distinct : Distinct y

theorem same_rulesEntries : ∀ {l : List (Str × Json)} {ly : List (Str × Yaml)} {i : Nat}, SameKeys env .plain l ly → (l.map (·.1)).Nodup → Spelled [gs"rules"] l →
    (∀ j y, (gs"rules", j) ∈ l → (gs"rules", y) ∈ ly → Same env .plain j y → decodeRulesKey env i [] y = jsonRulesKey env i [] j) →
    (∀ i j y, (gs"rules", j) ∈ l → (gs"rules", y) ∈ ly → Same env .plain j y → decodeRulesKey env i [] y = jsonRulesKey env i [] j) →
    decodeRulesEntries env i [] ly = jsonRulesEntries env i [] l
  | [], _, i, h, _, _, _, _ => by cases h; rfl
  | x :: l, _, i, h, hn, hsp, _, hk => by
    cases h with
    | @cons _ k j _ y ly h hs =>
      simp only [List.map_cons, List.nodup_cons] at hn
      have mj : (k, j) ∈ (k, j) :: l := List.mem_cons_self ..
      have hof := fieldOf_spelled (hsp _ mj)
      rw [decodeRulesEntries, jsonRulesEntries, hof]
      by_cases hr : k = gs"rules"
      · subst hr
        rw [if_pos rfl, if_pos (by simp), hk i j y mj (List.mem_cons_self ..) h]
        have missing : ∀ {l : List (Str × Json)} {i : Nat} {old : List Rule}, gs"rules" ∉ l.map (·.1) → Spelled [gs"rules"] l →
            jsonRulesEntries env i old l = .ok (old, false) := by
          intro l
          induction l with
          | nil => intro i old _ _; rfl
          | cons x l ih =>
            intro i old hn hs
            obtain ⟨k', v⟩ := x
            simp only [List.map_cons, List.mem_cons, not_or] at hn
            have h' : k' ∉ [gs"rules"] := by simpa using Ne.symm hn.1
            rw [jsonRulesEntries, fieldOf_spelled (hs (k', v) (List.mem_cons_self ..)), if_neg h', if_neg (by simp)]
            exact ih hn.2 fun x hx => hs x (by simp [hx])
        have m1 : ¬ HasKey ly gs"rules" := by
          rintro ⟨v, hv⟩
          exact hn.1 (by rw [sameKeys_keys hs]; exact List.mem_map_of_mem (f := (·.1)) hv)
        cases jsonRulesKey env i [] j with
        | error _ => rfl
        | ok a => simp only [Go.ok_bind, missing hn.1 fun x hx => hsp x (by simp [hx]), decodeRulesEntries_missing m1]
      · have h' : k ∉ [gs"rules"] := by simpa using hr
        rw [if_neg hr, if_neg h', if_neg (by simp)]
        exact same_rulesEntries hs hn.2 (fun x hx => hsp x (by simp [hx])) (fun j y h1 h2 => hk (i + 1) j y (by simp [h1]) (by simp [h2]))
          fun i j y h1 h2 => hk i j y (by simp [h1]) (by simp [h2])

theorem same_rules (h : Same env .plain j y) (ok : DocOk j y) : decodeRules env y = jsonRules env j := by
  have ht := ok.typed
  cases ht with
  | null => cases h; rfl
  | @obj kvs list each =>
    cases h with
    | @obj _ _ ly h =>
      obtain ⟨n1, n2⟩ := distinct_keys ok.distinct
      have hn := same_nodup h ok.distinct
      have key : ∀ i j y, (gs"rules", j) ∈ kvs → (gs"rules", y) ∈ ly → Same env .plain j y → decodeRulesKey env i [] y = jsonRulesKey env i [] j := by
        intro i j y h1 h2 hs
        rcases list j h1 with rfl | ⟨l, rfl, hl⟩
        · cases hs; rfl
        · cases hs with
          | arr hs =>
            refine same_ruleList hs fun j y hj hy hsame => ⟨hl j hj, fun r hr => each kvs l r rfl h1 (hr ▸ hj), fun r hr => ok.spelled.2 kvs l r rfl h1 (hr ▸ hj),
              fun r hr => ok.conditions kvs l r rfl h1 (hr ▸ hj), fun rule hr => ?_, distinct_list (n2 _ h2) y hy⟩
            exact ok.dash ly _ rule rfl h2 (hr ▸ hy)
      exact same_rulesEntries h hn (ok.spelled.1 kvs rfl) (key 0) key

/-! ## Documents that are read are of the right types -/

theorem jsonFields_each : ∀ {l : List (Str × Json)} {r : α}, (jsonFields f r l).2 = false → ∀ x ∈ l, ∃ r', (f r' x.1 x.2).2 = false
  | [], _, _, x, hx => by simp at hx
  | (k, j) :: l, r, h, x, hx => by
    simp only [jsonFields, Bool.or_eq_false_iff] at h
    rcases List.mem_cons.1 hx with rfl | hx
    · exact ⟨r, h.1⟩
    · exact jsonFields_each h.2 x hx

theorem jsonStruct_typed {P : Str → Json → Prop} {r : α} (hp : ∀ r k j, (f r k j).2 = false → P k j) (h : (jsonStruct f r j).2 = false) : IsObject P j := by
  cases j with
  | null => exact .inl rfl
  | obj l =>
    refine .inr ⟨l, rfl, fun x hx => ?_⟩
    obtain ⟨r', h'⟩ := jsonFields_each h x hx
    exact hp r' _ _ h'
  | _ => exact absurd h (by simp [jsonStruct])

theorem party_typed {nk tk : Str} {r : Party} (h : (jsonPartyField nk tk r k j).2 = false) : k = nk ∨ k = tk → IsText j := by
  intro hk
  have := jsonParty_typed (nk := nk) (tk := tk) (l := [(k, j)]) (r := r) (by simp [jsonFields, h])
  exact this (k, j) (by simp) hk

theorem isObject_mono {P Q : Str → Json → Prop} (h : IsObject P j) (hpq : ∀ k j, P k j → Q k j) : IsObject Q j := by
  rcases h with rfl | ⟨l, rfl, h⟩
  · exact .inl rfl
  · exact .inr ⟨l, rfl, fun x hx => hpq _ _ (h x hx)⟩

theorem field_typed {r : Rule} (hc : k ≠ gs"conditions") (h : (jsonRuleField r k j).2 = false) : TypedRule [(k, j)] := by
  refine ⟨fun k' hk' j' hj => ?_, fun q hq j' hj => ?_, fun j' hj => ?_, fun j' hj => ?_, fun j' hj => ?_⟩ <;> rw [List.mem_singleton] at hj <;> cases hj
  · simp only [List.mem_cons, List.not_mem_nil, or_false] at hk'
    rcases hk' with rfl | rfl | rfl | rfl | rfl
    · exact (jsonText_flag (old := r.ruleID)).1 h
    · exact (jsonText_flag (old := r.protocol)).1 h
    · exact (jsonText_flag (old := r.operation)).1 h
    · exact (jsonText_flag (old := r.decision)).1 h
    · exact (jsonText_flag (old := r.hash)).1 h
  · simp only [parts, List.mem_cons, List.not_mem_nil, or_false] at hq
    rcases hq with rfl | rfl | rfl
    · exact isObject_mono (jsonStruct_typed (f := jsonPartyField gs"senderName" gs"senderType") (r := ⟨r.senderName, r.senderType, r.senderList⟩) (fun _ _ _ h => party_typed h) h)
        fun _ _ h => ⟨h, fun e => absurd e (by decide)⟩
    · exact isObject_mono (jsonStruct_typed (f := jsonPartyField gs"receiverName" gs"receiverType") (r := ⟨r.receiverName, r.receiverType, r.receiverList⟩) (fun _ _ _ h => party_typed h) h)
        fun _ _ h => ⟨h, fun e => absurd e (by decide)⟩
    · exact isObject_mono (jsonStruct_typed (f := jsonResourceField) (r := ⟨r.resourceType, r.resourceName, r.resourceNameRegex⟩) (fun _ _ _ h => resource_typed h) h)
        fun _ _ h => ⟨h.1, fun _ => h.2⟩
  · exact (jsonTextMap_flag (old := r.metadata)).1 h
  · exact (jsonRegexp_flag (old := r.operationRegex)).1 h
  · exact absurd rfl hc

theorem typed_of (h : ∀ n ∈ [gs"ruleID", gs"protocol", gs"operation", gs"decision", gs"hash", gs"sender", gs"receiver", gs"resource", gs"metadata", gs"operationRegex"], n ≠ k)
    (hc : k = gs"conditions" → (∃ l, j = .arr l) ∨ ∃ l, j = .obj l) : TypedRule [(k, j)] := by
  refine ⟨fun k' hk' j' hj => ?_, fun q hq j' hj => ?_, fun j' hj => ?_, fun j' hj => ?_, fun j' hj => ?_⟩ <;> rw [List.mem_singleton] at hj <;> cases hj
  · exact absurd rfl (h k (by revert hk'; simp only [List.mem_cons, List.not_mem_nil, or_false]; tauto))
  · simp only [parts, List.mem_cons, List.not_mem_nil, or_false] at hq
    rcases hq with rfl | rfl | rfl <;> exact absurd rfl (h _ (by simp))
  · exact absurd rfl (h _ (by simp))
  · exact absurd rfl (h _ (by simp))
  · exact hc rfl

theorem once_typed (h : (∃ l, j.once = .arr l) ∨ ∃ l, j.once = .obj l) : (∃ l, j = .arr l) ∨ ∃ l, j = .obj l := by
  cases j <;> simp [Json.once] at h ⊢

theorem unmarshalConditions_typed {p : List Nat} {o : Option Node} (h : unmarshalConditions env p j = .ok o) : (∃ l, j = .arr l) ∨ ∃ l, j = .obj l := by
  cases j with
  | arr l => exact .inl ⟨l, rfl⟩
  | obj l => exact .inr ⟨l, rfl⟩
  | _ => exact absurd h (by simp [unmarshalConditions, parseConditionsTree, interpret, Go.error_bind])

theorem ruleEntries_typed {p : List Nat} : ∀ {l : List (Str × Json)} {r a : Rule}, jsonRuleEntries env p r l = .ok (a, false) → ∀ x ∈ l, TypedRule [x]
  | [], _, _, _, x, hx => by simp at hx
  | (k, j) :: l, r, a, h, x, hx => by
    rw [jsonRuleEntries] at h
    by_cases hk : k ∈ ruleNames
    · rw [fieldOf_mem hk] at h
      simp only at h
      by_cases hc : k = gs"conditions"
      · rw [if_pos hc] at h
        obtain ⟨o, h1, h2⟩ := Go.bind_eq_ok.1 h
        rcases List.mem_cons.1 hx with rfl | hx
        · subst hc
          exact typed_of (by decide) fun _ => once_typed (unmarshalConditions_typed h1)
        · exact ruleEntries_typed h2 x hx
      · rw [if_neg hc] at h
        obtain ⟨b, h1, h2⟩ := Go.bind_eq_ok.1 h
        have h3 : (jsonRuleField r k j).2 = false ∧ b.2 = false := by
          have := congrArg (fun g : Go (Rule × Bool) => match g with | .ok x => x.2 | .error _ => true) h2
          simpa [Go.pure_eq] using this
        rcases List.mem_cons.1 hx with rfl | hx
        · exact field_typed hc h3.1
        · obtain ⟨b1, b2⟩ := b
          cases h3.2
          exact ruleEntries_typed h1 x hx
    · rcases List.mem_cons.1 hx with rfl | hx
      · refine typed_of (fun n hn e => hk ?_) fun e => absurd (e ▸ by decide : k ∈ ruleNames) hk
        rw [← e]
        revert hn
        simp only [ruleNames, List.mem_cons, List.not_mem_nil, or_false]
        tauto
      · cases hf : fieldOf ruleNames k with
        | none => rw [hf] at h; exact ruleEntries_typed h x hx
        | some n =>
          rw [hf] at h
          simp only at h
          by_cases hc : n = gs"conditions"
          · rw [if_pos hc] at h
            obtain ⟨o, h1, h2⟩ := Go.bind_eq_ok.1 h
            exact ruleEntries_typed h2 x hx
          · rw [if_neg hc] at h
            obtain ⟨b, h1, h2⟩ := Go.bind_eq_ok.1 h
            have h3 : (jsonRuleField r n j).2 = false ∧ b.2 = false := by
              have := congrArg (fun g : Go (Rule × Bool) => match g with | .ok x => x.2 | .error _ => true) h2
              simpa [Go.pure_eq] using this
            obtain ⟨b1, b2⟩ := b
            cases h3.2
            exact ruleEntries_typed h1 x hx

theorem rule_typed {p : List Nat} {r a : Rule} (h : jsonRule env p r j = .ok (a, false)) : IsObject (fun _ _ => True) j ∧ ∀ l, j = .obj l → TypedRule l := by
  cases j with
  | null => exact ⟨.inl rfl, fun l e => by cases e⟩
  | obj l => exact ⟨.inr ⟨l, rfl, fun _ _ => trivial⟩, fun l' e => by cases e; exact typed_all (ruleEntries_typed h)⟩
  | _ => simp [jsonRule] at h

theorem ruleList_typed {p : List Nat} : ∀ {l : List Json} {i : Nat} {old a : List Rule}, jsonRuleList env p i old l = .ok (a, false) →
    ∀ j ∈ l, IsObject (fun _ _ => True) j ∧ ∀ l, j = .obj l → TypedRule l
  | [], _, _, _, _, j, hj => by simp at hj
  | j' :: l, i, old, a, h, j, hj => by
    rw [jsonRuleList] at h
    obtain ⟨⟨r, b⟩, h1, h⟩ := Go.bind_eq_ok.1 h
    obtain ⟨⟨rs, b'⟩, h2, h⟩ := Go.bind_eq_ok.1 h
    have h3 : b = false ∧ b' = false := by
      have := congrArg (fun g : Go (List Rule × Bool) => match g with | .ok x => x.2 | .error _ => true) h
      simpa [Go.pure_eq] using this
    cases h3.1; cases h3.2
    rcases List.mem_cons.1 hj with rfl | hj
    · exact rule_typed h1
    · exact ruleList_typed h2 j hj

theorem rulesEntries_typed : ∀ {l : List (Str × Json)} {i : Nat} {old a : List Rule}, jsonRulesEntries env i old l = .ok (a, false) →
    ∀ j, (gs"rules", j) ∈ l → j = .null ∨ ∃ l, j = .arr l ∧ ∀ r ∈ l, IsObject (fun _ _ => True) r ∧ ∀ kvs, r = .obj kvs → TypedRule kvs
  | [], _, _, _, _, j, hj => by simp at hj
  | (k, v) :: l, i, old, a, h, j, hj => by
    rw [jsonRulesEntries] at h
    by_cases hf : fieldOf [gs"rules"] k = some gs"rules"
    · rw [if_pos hf] at h
      obtain ⟨⟨r, b⟩, h1, h⟩ := Go.bind_eq_ok.1 h
      obtain ⟨⟨rs, b'⟩, h2, h⟩ := Go.bind_eq_ok.1 h
      have h3 : b = false ∧ b' = false := by
        have := congrArg (fun g : Go (List Rule × Bool) => match g with | .ok x => x.2 | .error _ => true) h
        simpa [Go.pure_eq] using this
      cases h3.1; cases h3.2
      rcases List.mem_cons.1 hj with he | hj
      · cases he
        cases v with
        | null => exact .inl rfl
        | arr l => exact .inr ⟨l, rfl, ruleList_typed h1⟩
        | _ => simp [jsonRulesKey] at h1
      · exact rulesEntries_typed h2 j hj
    · rw [if_neg hf] at h
      rcases List.mem_cons.1 hj with he | hj
      · cases he
        exact absurd (fieldOf_mem (by simp)) hf
      · exact rulesEntries_typed h j hj

theorem rules_typed {rs : List Rule} (h : jsonRules env j = .ok (rs, false)) : TypedDoc j := by
  cases j with
  | null => exact .null
  | obj kvs =>
    have := rulesEntries_typed h
    refine .obj (fun j hj => ?_) ?_
    · rcases this j hj with h | ⟨l, rfl, h⟩
      · exact .inl h
      · exact .inr ⟨l, rfl, fun r hr => (h r hr).1⟩
    · intro kvs' l rule he hl hr
      cases he
      rcases this _ hl with h | ⟨l', h', h⟩
      · cases h
      · cases h'
        exact (h _ hr).2 rule rfl
  | _ => simp [jsonRules] at h

end Mapl

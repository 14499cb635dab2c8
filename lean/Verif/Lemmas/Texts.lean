import Verif.Lemmas.Decode

/-!
# The parser of conditions does not panic on documents with texts where it expects them
-/

namespace Mapl

open Spec

variable {env : Env}

theorem lookup_in {α : Type} {k : Str} {v : α} : ∀ {l : List (Str × α)}, lookup k l = some v → (k, v) ∈ l
  | [], h => by simp [lookup] at h
  | (k', v') :: rest, h => by
    unfold lookup at h
    split at h
    · rename_i e; cases h; simp [e]
    · simp [lookup_in h]

theorem field2_in {kvs : List (Str × Json)} {a b : Str} {v : Json} (h : field2 kvs a b = some v) : (a, v) ∈ kvs ∨ (b, v) ∈ kvs := by
  unfold field2 at h
  split at h
  · cases h; exact .inl (lookup_in ‹_›)
  · exact .inr (lookup_in h)

theorem noPanic_asString {v : Json} (h : ∃ s, v = .str s) : NoPanic (asString v) := by
  obtain ⟨s, rfl⟩ := h; exact noPanic_ok _

theorem noPanic_stringEntries : ∀ {l : List (Str × Json)}, (∀ x ∈ l, ∃ s, x.2 = .str s) → NoPanic (stringEntries l)
  | [], _ => noPanic_ok _
  | (k, v) :: rest, h => by
    unfold stringEntries
    exact noPanic_bind (noPanic_asString (h (k, v) (by simp))) fun _ _ =>
      noPanic_bind (noPanic_stringEntries fun x hx => h x (by simp [hx])) fun _ _ => noPanic_pure _

theorem noPanic_readCondition {kvs : List (Str × Json)} (ht : ∀ k ∈ textKeys, ∀ v, (k, v) ∈ kvs → ∃ s, v = .str s)
    (hr : ∀ k ∈ returnKeys, ∀ l, (k, .obj l) ∈ kvs → ∀ x ∈ l, ∃ s, x.2 = .str s) : NoPanic (readCondition env kvs) := by
  have text : ∀ a b v, a ∈ textKeys → b ∈ textKeys → field2 kvs a b = some v → NoPanic (asString v) := by
    intro a b v ha hb h
    rcases field2_in h with h | h
    · exact noPanic_asString (ht _ ha _ h)
    · exact noPanic_asString (ht _ hb _ h)
  have one : ∀ {a b : Str}, a ∈ textKeys → b ∈ textKeys → NoPanic (readText (field2 kvs a b)) := by
    intro a b ha hb
    cases h : field2 kvs a b with
    | none => exact noPanic_pure _
    | some v => exact text a b v ha hb h
  rw [readCondition_eq]
  refine noPanic_bind (one (by decide) (by decide)) fun _ _ => noPanic_bind (one (by decide) (by decide)) fun _ _ => noPanic_bind ?_ fun _ _ => noPanic_pure _
  unfold readReturn
  split
  · rename_i m h
    refine noPanic_bind (noPanic_stringEntries ?_) fun _ _ => noPanic_pure _
    rcases field2_in h with h | h
    · exact hr _ (by simp [returnKeys]) _ h
    · exact hr _ (by simp [returnKeys]) _ h
  · exact noPanic_pure _
  · exact noPanic_pure _

theorem noPanic_connective (kw : Str) (ns : List Node) : NoPanic (connective kw ns) := by
  unfold connective
  split
  · exact noPanic_ok _
  split
  · exact noPanic_ok _
  split
  · exact noPanic_ok _
  · exact noPanic_err _

theorem noPanic_getNodeCondition {kvs : List (Str × Json)} (h : NoPanic (readCondition env kvs)) (kw : Str) : NoPanic (getNodeCondition env kvs kw) := by
  unfold getNodeCondition prepareOneConditionNode
  refine noPanic_bind h fun _ _ => noPanic_bind (noPanic_bind (noPanic_validate _ _) fun _ _ => noPanic_pure _) fun _ _ => ?_
  split
  · exact noPanic_connective _ _
  · exact noPanic_pure _

theorem noPanic_checkReturnEntries : ∀ {l : List (Str × Json)}, (∀ x ∈ l, ∃ s, x.2 = .str s) → NoPanic (checkReturnEntries l)
  | [], _ => noPanic_ok _
  | (k, v) :: rest, h => by
    unfold checkReturnEntries
    refine noPanic_bind (noPanic_asString (h (k, v) (by simp))) fun _ _ => ?_
    split
    · exact noPanic_checkReturnEntries fun x hx => h x (by simp [hx])
    · exact noPanic_err _

theorem noPanic_readReturnMap (ho : env.OrdOk) {p : List Nat} {v : Json} (h : ∀ l, v = .obj l → ∀ x ∈ l, ∃ s, x.2 = .str s) : NoPanic (readReturnMap env p v) := by
  unfold readReturnMap
  split
  · rename_i l
    exact noPanic_bind (noPanic_checkReturnEntries fun x hx => h l rfl x ((ho p l).mem_iff.1 hx)) fun _ _ =>
      noPanic_bind (noPanic_stringEntries (h l rfl)) fun _ _ => noPanic_pure _
  · exact noPanic_err _

theorem noPanic_anyAllLoop (ho : env.OrdOk) {p : List Nat} : ∀ {kids : List (Str × Json × Go Node)} {a : AnyAll} {n : Node},
    (∀ x ∈ kids, x.1 = parentKey → ∃ s, x.2.1 = .str s) → (∀ x ∈ kids, x.1 = returnKey → ∀ l, x.2.1 = .obj l → ∀ z ∈ l, ∃ s, z.2 = .str s) →
    (∀ x ∈ kids, NoPanic x.2.2) → NoPanic (anyAllLoop env p a n kids)
  | [], _, _, _, _, _ => noPanic_ok _
  | (k, v, sub) :: rest, a, n, h1, h2, h3 => by
    have r1 : ∀ x ∈ rest, x.1 = parentKey → ∃ s, x.2.1 = .str s := fun x hx => h1 x (by simp [hx])
    have r2 : ∀ x ∈ rest, x.1 = returnKey → ∀ l, x.2.1 = .obj l → ∀ z ∈ l, ∃ s, z.2 = .str s := fun x hx => h2 x (by simp [hx])
    have r3 : ∀ x ∈ rest, NoPanic x.2.2 := fun x hx => h3 x (by simp [hx])
    unfold anyAllLoop
    split
    · rename_i e
      refine noPanic_bind (noPanic_asString (h1 _ (.head _) e)) fun _ _ => ?_
      split
      · exact noPanic_anyAllLoop ho r1 r2 r3
      · exact noPanic_err _
    split
    · rename_i e
      exact noPanic_bind (noPanic_readReturnMap ho (h2 _ (.head _) e)) fun _ _ => noPanic_anyAllLoop ho r1 r2 r3
    · exact noPanic_bind (h3 _ (.head _)) fun _ _ => noPanic_anyAllLoop ho r1 r2 r3

theorem noPanic_singleKid {kids : List (Str × Json × Go Node)} (h : ∀ x ∈ kids, NoPanic x.2.2) : NoPanic (singleKid kids) := by
  unfold singleKid
  split
  · exact h _ (.head _)
  · exact noPanic_err _

theorem noPanic_handleMap (ho : env.OrdOk) {p : List Nat} {kw : Str} {kvs : List (Str × Json)} {kids : List (Str × Json × Go Node)}
    (ht : ∀ k ∈ textKeys, ∀ v, (k, v) ∈ kvs → ∃ s, v = .str s)
    (hr : ∀ k ∈ returnKeys, ∀ l, (k, .obj l) ∈ kvs → ∀ x ∈ l, ∃ s, x.2 = .str s) (hk : ∀ x ∈ kids, (x.1, x.2.1) ∈ kvs) (hs : ∀ x ∈ kids, NoPanic x.2.2) :
    NoPanic (handleMap env p kw kvs kids) := by
  unfold handleMap
  split
  · exact noPanic_getNodeCondition (noPanic_readCondition ht hr) kw
  split
  · unfold getAnyAllNode
    split
    · have hm : ∀ x ∈ env.ord (0 :: p) kids, x ∈ kids := fun x hx => (ho _ _).mem_iff.1 hx
      refine noPanic_bind (noPanic_anyAllLoop ho ?_ ?_ ?_) fun r _ => ?_
      · intro x hx e
        exact ht parentKey (by simp [textKeys]) _ (e ▸ hk x (hm x hx))
      · intro x hx e l hl
        exact hr returnKey (by simp [returnKeys, returnKey]) l (by rw [← e, ← hl]; exact hk x (hm x hx))
      · exact fun x hx => hs x (hm x hx)
      · by_cases h1 : r.1.parent = []
        · rw [if_pos h1]; exact noPanic_err _
        · rw [if_neg h1]
          split
          · exact noPanic_pure _
          · exact noPanic_pure _
    · exact noPanic_err _
  split
  · exact noPanic_bind (noPanic_singleKid hs) fun _ _ => noPanic_pure _
  split
  · exact noPanic_singleKid hs
  · exact noPanic_err _

theorem noPanic_sequenceNodes : ∀ {l : List (Go Node)}, (∀ x ∈ l, NoPanic x) → NoPanic (sequenceNodes l)
  | [], _ => noPanic_ok _
  | r :: rest, h => by
    unfold sequenceNodes
    exact noPanic_bind (h r (by simp)) fun _ _ => noPanic_bind (noPanic_sequenceNodes fun x hx => h x (by simp [hx])) fun _ _ => noPanic_pure _

theorem noPanic_handleArray {kw : Str} {l : List (Go Node)} (h : ∀ x ∈ l, NoPanic x) : NoPanic (handleArray kw l) := by
  unfold handleArray
  split
  · split
    · exact h _ (.head _)
    · exact noPanic_err _
  · exact noPanic_bind (noPanic_connective _ _) fun _ _ => noPanic_bind (noPanic_sequenceNodes h) fun _ _ => noPanic_connective _ _

mutual
theorem noPanic_interpret (ho : env.OrdOk) : ∀ (j : Json) (kw : Str) (p : List Nat), Texts j → NoPanic (interpret env j kw p)
  | .obj kvs, kw, p, h => by
    cases h with
    | obj ht hr h =>
      rw [interpret]
      obtain ⟨h1, h2⟩ := noPanic_interpretKids ho kvs p 2 h
      exact noPanic_handleMap ho ht hr h1 h2
  | .arr l, kw, p, h => by
    cases h with
    | arr h =>
      rw [interpret]
      exact noPanic_handleArray (noPanic_interpretList ho l p 2 h)
  | .null, _, _, _ => by rw [interpret]; exact noPanic_err _
  | .bool _, _, _, _ => by rw [interpret]; exact noPanic_err _
  | .num _, _, _, _ => by rw [interpret]; exact noPanic_err _
  | .str _, _, _, _ => by rw [interpret]; exact noPanic_err _

theorem noPanic_interpretKids (ho : env.OrdOk) : ∀ (kvs : List (Str × Json)) (p : List Nat) (i : Nat), (∀ x ∈ kvs, Texts x.2) →
    (∀ x ∈ interpretKids env kvs p i, (x.1, x.2.1) ∈ kvs) ∧ ∀ x ∈ interpretKids env kvs p i, NoPanic x.2.2
  | [], p, i, _ => by rw [interpretKids]; simp
  | (k, v) :: rest, p, i, h => by
    have h0 := noPanic_interpret ho v k (i :: p) (h (k, v) (by simp))
    obtain ⟨h1, h2⟩ := noPanic_interpretKids ho rest p (i + 1) fun x hx => h x (by simp [hx])
    rw [interpretKids]
    constructor
    · intro x hx
      rcases List.mem_cons.1 hx with rfl | hx
      · exact .head _
      · exact .tail _ (h1 x hx)
    · intro x hx
      rcases List.mem_cons.1 hx with rfl | hx
      · exact h0
      · exact h2 x hx

theorem noPanic_interpretList (ho : env.OrdOk) : ∀ (l : List Json) (p : List Nat) (i : Nat), (∀ x ∈ l, Texts x) → ∀ x ∈ interpretList env l p i, NoPanic x
  | [], p, i, _ => by rw [interpretList]; simp
  | v :: rest, p, i, h => by
    have h0 := noPanic_interpret ho v [] (i :: p) (h v (by simp))
    have h1 := noPanic_interpretList ho rest p (i + 1) fun x hx => h x (by simp [hx])
    rw [interpretList]
    intro x hx
    rcases List.mem_cons.1 hx with rfl | hx
    · exact h0
    · exact h1 x hx
end

/-! ## YAML -/

theorem setKey_mem {α : Type} {k : Str} {v : α} {x : Str × α} : ∀ {l : List (Str × α)}, x ∈ setKey k v l → x = (k, v) ∨ x ∈ l
  | [], h => by simp [setKey] at h; exact .inl h
  | (k', v') :: rest, h => by
    unfold setKey at h
    split at h
    · rcases List.mem_cons.1 h with h | h
      · exact .inl h
      · exact .inr (.tail _ h)
    · rcases List.mem_cons.1 h with h | h
      · exact .inr (h ▸ .head _)
      · rcases setKey_mem h with h | h
        · exact .inl h
        · exact .inr (.tail _ h)

/-- Every entry of the decoded map comes from an entry of the document. -/
theorem genericEntries_from {e : Ext} {c : Place} {x : Str × Json} : ∀ {kvs : List (Str × Yaml)} {acc : List (Str × Json)}, x ∈ genericEntries e c acc kvs →
    x ∈ acc ∨ ∃ z ∈ kvs, x = (z.1, z.2.generic e (c.below z.1))
  | [], acc, h => by rw [genericEntries] at h; exact .inl h
  | (k, y) :: rest, acc, h => by
    rw [genericEntries] at h
    rcases genericEntries_from h with h | ⟨z, hz, h⟩
    · rcases setKey_mem h with h | h
      · exact .inr ⟨(k, y), .head _, h⟩
      · exact .inl h
    · exact .inr ⟨z, .tail _ hz, h⟩

theorem genericList_from {e : Ext} {c : Place} {x : Json} : ∀ {l : List Yaml}, x ∈ genericList e c l → ∃ y ∈ l, x = y.generic e c
  | [], h => by rw [genericList] at h; simp at h
  | y :: ys, h => by
    rw [genericList] at h
    rcases List.mem_cons.1 h with h | h
    · exact ⟨y, .head _, h⟩
    · obtain ⟨z, hz, h⟩ := genericList_from h
      exact ⟨z, .tail _ hz, h⟩

theorem generic_str {e : Ext} {c : Place} {y : Yaml} (h : ∃ t, y = .scalar t .str) : ∃ s, y.generic e c = .str s := by
  obtain ⟨t, rfl⟩ := h; exact ⟨t, by rw [Yaml.generic]⟩

theorem generic_texts {e : Ext} {y : Yaml} (h : TextsYaml y) : ∀ c, Texts (y.generic e c) := by
  induction h with
  | scalar t v =>
    intro c
    cases v with
    | int n => rw [Yaml.generic]; split <;> constructor
    | _ => rw [Yaml.generic]; constructor
  | seq _ ih =>
    intro c
    rw [Yaml.generic]
    refine .arr fun x hx => ?_
    obtain ⟨y, hy, rfl⟩ := genericList_from hx
    exact ih y hy _
  | @map kvs ht hr _ ih =>
    intro c
    rw [Yaml.generic]
    refine .obj ?_ ?_ ?_
    · intro k hk v hv
      rcases genericEntries_from hv with h | ⟨z, hz, h⟩
      · simp at h
      · cases h
        exact generic_str (ht _ hk _ hz)
    · intro k hk l hl
      rcases genericEntries_from hl with h | ⟨⟨k', y⟩, hz, h⟩
      · simp at h
      · obtain ⟨rfl, h⟩ := Prod.mk.inj h
        cases y with
        | map kvs' =>
          rw [Yaml.generic] at h
          cases h
          intro x hx
          rcases genericEntries_from hx with h | ⟨w, hw, rfl⟩
          · simp at h
          · exact generic_str (hr _ hk _ hz _ hw)
        | seq l => rw [Yaml.generic] at h; cases h
        | scalar t v =>
          cases v with
          | int n => rw [Yaml.generic] at h; split at h <;> cases h
          | _ => rw [Yaml.generic] at h; cases h
    · intro x hx
      rcases genericEntries_from hx with h | ⟨z, hz, rfl⟩
      · simp at h
      · exact ih z hz _

theorem noPanic_decodeConditions (ho : env.OrdOk) {p : List Nat} {old : Option Node} {y : Yaml} (h : TextsYaml y) : NoPanic (decodeConditions env p old y) := by
  unfold decodeConditions
  split
  · split
    · exact noPanic_ok _
    · split
      · exact noPanic_ok _
      · exact noPanic_err _
  · exact noPanic_bind (noPanic_interpret ho _ _ _ (generic_texts h _)) fun _ _ => noPanic_pure _
  · exact noPanic_bind (noPanic_interpret ho _ _ _ (generic_texts h _)) fun _ _ => noPanic_pure _

theorem noPanic_decodeRuleEntries (ho : env.OrdOk) {p : List Nat} : ∀ {kvs : List (Str × Yaml)} {r : Rule}, (∀ x ∈ kvs, x.1 = gs"conditions" → TextsYaml x.2) →
    NoPanic (decodeRuleEntries env p r kvs)
  | [], r, _ => noPanic_ok _
  | (k, y) :: rest, r, h => by
    rw [decodeRuleEntries]
    split
    · rename_i e
      exact noPanic_bind (noPanic_decodeConditions ho (h (k, y) (by simp) e)) fun _ _ =>
        noPanic_bind (noPanic_decodeRuleEntries ho fun x hx => h x (by simp [hx])) fun _ _ => noPanic_pure _
    · exact noPanic_bind (noPanic_decodeRuleEntries ho fun x hx => h x (by simp [hx])) fun _ _ => noPanic_pure _

theorem noPanic_decodeRuleList (ho : env.OrdOk) {p : List Nat} : ∀ {l : List Yaml} {i : Nat}, (∀ y ∈ l, ∀ kvs, y = .map kvs → ∀ x ∈ kvs, x.1 = gs"conditions" → TextsYaml x.2) →
    NoPanic (decodeRuleList env p i l)
  | [], i, _ => noPanic_ok _
  | y :: ys, i, h => by
    rw [decodeRuleList]
    refine noPanic_bind ?_ fun _ _ => noPanic_bind (noPanic_decodeRuleList ho fun x hx => h x (by simp [hx])) fun _ _ => noPanic_pure _
    unfold decodeRule
    split
    · exact noPanic_ok _
    · exact noPanic_decodeRuleEntries ho (h _ (by simp) _ rfl)
    · exact noPanic_ok _

theorem noPanic_decodeRulesEntries (ho : env.OrdOk) : ∀ {kvs : List (Str × Yaml)} {j : Nat} {old : List Rule},
    (∀ l, (gs"rules", .seq l) ∈ kvs → ∀ rule, .map rule ∈ l → ∀ y, (gs"conditions", y) ∈ rule → TextsYaml y) → NoPanic (decodeRulesEntries env j old kvs)
  | [], j, old, _ => noPanic_ok _
  | (k, y) :: rest, j, old, h => by
    rw [decodeRulesEntries]
    have hrest := fun old => noPanic_decodeRulesEntries ho (kvs := rest) (j := j + 1) (old := old) fun l hl => h l (.tail _ hl)
    split
    · rename_i e
      subst e
      refine noPanic_bind ?_ fun _ _ => noPanic_bind (hrest _) fun _ _ => noPanic_pure _
      unfold decodeRulesKey
      split
      · exact noPanic_ok _
      · rename_i l
        refine noPanic_decodeRuleList ho ?_
        rintro y hy kvs rfl x hx e
        exact h l (.head _) kvs hy x.2 (by rw [← e]; exact hx)
      · exact noPanic_ok _
    · exact hrest _

end Mapl

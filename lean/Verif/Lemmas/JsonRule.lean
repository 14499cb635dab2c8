import Verif.Lemmas.JsonPrefix
import Verif.Lemmas.Copy
import Verif.Spec.JsonRule

/-!
# Rules as JSON documents: writing and reading back
-/

namespace Mapl

open Spec

variable {env : Env} {e : Ext}

/-! ## The text of conditions -/

theorem valueText_null : ValueText e gs"null" .null := by
  refine ⟨⟨'n', gs"ull", rfl, by simp⟩, ?_⟩
  intro f t hf
  cases f with
  | zero => simp at hf
  | succ f => simp [parseValue, skipWs, isJsonWs]

theorem valueText_true : ValueText e gs"true" (.bool true) := by
  refine ⟨⟨'t', gs"rue", rfl, by simp⟩, ?_⟩
  intro f t hf
  cases f with
  | zero => simp at hf
  | succ f => simp [parseValue, skipWs, isJsonWs]

theorem checkJson_text {s s' : Str} (h : checkJson e (gs"{" ++ s ++ gs"}") = .ok s') : ∃ j, ValueText e s' j := by
  unfold checkJson at h
  split at h
  · next j hj =>
    cases h
    obtain ⟨j', hj', -⟩ := Option.map_eq_some_iff.1 hj
    exact ⟨j', valueText_of_parse hj'⟩
  · cases h

theorem marshalCondition_braces (c : Condition) : ∃ s, marshalCondition c = gs"{" ++ s ++ gs"}" := by
  unfold marshalCondition
  cases c.ret with
  | none =>
    refine ⟨gs"\"condition\":{\"attribute\":\"" ++ escapeField (orOrig c.attr c.origAttr) ++ gs"\",\"method\":\"" ++ orOrig c.method c.origMethod ++
      gs"\",\"value\":\"" ++ escapeField (orOrig c.value c.origValue) ++ gs"\"}", by simp⟩
  | some r =>
    refine ⟨gs"\"condition\":{\"attribute\":\"" ++ escapeField (orOrig c.attr c.origAttr) ++ gs"\",\"method\":\"" ++ orOrig c.method c.origMethod ++
      gs"\",\"value\":\"" ++ escapeField (orOrig c.value c.origValue) ++ gs"\",\"returnValueJsonpath\":" ++ renderStringMap (retOrig r) ++ gs"}", by simp⟩

theorem marshalAnyAll_braces (kw : Str) (a : AnyAll) (child : Str) : ∃ s, marshalAnyAll kw a child = gs"{" ++ s ++ gs"}" := by
  unfold marshalAnyAll
  exact ⟨gs"\"" ++ kw ++ gs"\":{\"parentJsonpathAttribute\":\"" ++ orOrig a.parent a.parentOrig ++ gs"\"," ++
    (if a.ret.length > 0 then gs"\"returnValueJsonpath\":" ++ renderStringMap (retOrig a.ret) ++ gs"," else []) ++ gs"\"condition\":" ++ child ++ gs"}", by simp⟩

theorem elementTexts_all : ∀ {l : List Str}, l ≠ [] → (∀ s ∈ l, ∃ j, ValueText e s j) → ∃ js, ElementTexts e (commaSep l) js
  | [], h, _ => absurd rfl h
  | [s], _, h => by
    obtain ⟨j, hj⟩ := h s (by simp)
    exact ⟨_, by simpa [commaSep, join] using ElementTexts.one hj⟩
  | s :: s' :: l, _, h => by
    obtain ⟨j, hj⟩ := h s (by simp)
    obtain ⟨js, hjs⟩ := elementTexts_all (l := s' :: l) (by simp) fun x hx => h x (by simp [hx])
    exact ⟨_, by simpa [commaSep, join] using ElementTexts.more hj hjs⟩

theorem connective_text {kw s : Str} {l : List Str} (hk : TextLit kw kw) (hne : l ≠ []) (h : ∀ s ∈ l, ∃ j, ValueText e s j)
    (hs : s = gs"{\"" ++ kw ++ gs"\":[" ++ commaSep l ++ gs"]}") : ∃ j, ValueText e s j := by
  obtain ⟨js, hjs⟩ := elementTexts_all hne h
  have := valueText_obj (.one hk (valueText_arr hjs))
  exact ⟨_, by subst hs; simpa using this⟩

mutual
/-- Whatever `json.Marshal` writes for a tree is JSON, wherever it stands. -/
theorem marshal_text : ∀ {n : Node} {s : Str}, marshal e n = .ok s → ∃ j, ValueText e s j
  | .nil, s, h => by simp [marshal] at h; subst h; exact ⟨_, valueText_null⟩
  | .and [], s, h => by simp [marshal] at h; subst h; exact ⟨_, valueText_empty⟩
  | .and (n :: ns), s, h => by
    rw [marshal] at h
    obtain ⟨l, hl, h⟩ := Go.bind_eq_ok.1 h
    cases h
    obtain ⟨h1, h2⟩ := marshalList_text hl
    exact connective_text (kw := gs"AND") (lit_of (by decide)) (by rw [← List.length_pos_iff, h1]; simp) h2 (by simp)
  | .or [], s, h => by simp [marshal] at h; subst h; exact ⟨_, valueText_empty⟩
  | .or (n :: ns), s, h => by
    rw [marshal] at h
    obtain ⟨l, hl, h⟩ := Go.bind_eq_ok.1 h
    cases h
    obtain ⟨h1, h2⟩ := marshalList_text hl
    exact connective_text (kw := gs"OR") (lit_of (by decide)) (by rw [← List.length_pos_iff, h1]; simp) h2 (by simp)
  | .not n, s, h => by
    by_cases hn : n = .nil
    · subst hn; simp [marshal] at h; subst h; exact ⟨_, valueText_empty⟩
    · rw [marshal] at h
      · obtain ⟨x, hx, h⟩ := Go.bind_eq_ok.1 h
        cases h
        obtain ⟨j, hj⟩ := marshal_text hx
        have := valueText_obj (.one (show TextLit gs"NOT" gs"NOT" from lit_of (by decide)) hj)
        exact ⟨_, by simpa using this⟩
      · rintro rfl; exact hn rfl
  | .any a n, s, h => by
    rw [marshal] at h
    obtain ⟨x, hx, h⟩ := Go.bind_eq_ok.1 h
    obtain ⟨w, hw⟩ := marshalAnyAll_braces gs"ANY" a x
    rw [hw] at h
    exact checkJson_text h
  | .all a n, s, h => by
    rw [marshal] at h
    obtain ⟨x, hx, h⟩ := Go.bind_eq_ok.1 h
    obtain ⟨w, hw⟩ := marshalAnyAll_braces gs"ALL" a x
    rw [hw] at h
    exact checkJson_text h
  | .tt, s, h => by simp [marshal] at h; subst h; exact ⟨_, valueText_empty⟩
  | .ff, s, h => by simp [marshal] at h; subst h; exact ⟨_, valueText_empty⟩
  | .cond c, s, h => by
    rw [marshal] at h
    obtain ⟨w, hw⟩ := marshalCondition_braces c
    rw [hw] at h
    exact checkJson_text h

theorem marshalList_text : ∀ {ns : List Node} {l : List Str}, marshalList e ns = .ok l → l.length = ns.length ∧ ∀ s ∈ l, ∃ j, ValueText e s j
  | [], l, h => by simp [marshalList] at h; subst h; simp
  | n :: ns, l, h => by
    rw [marshalList] at h
    obtain ⟨s, hs, h⟩ := Go.bind_eq_ok.1 h
    obtain ⟨l', hl, h⟩ := Go.bind_eq_ok.1 h
    cases h
    obtain ⟨h1, h2⟩ := marshalList_text hl
    refine ⟨by simp [h1], fun x hx => ?_⟩
    rcases List.mem_cons.1 hx with rfl | hx
    · exact marshal_text hs
    · exact h2 x hx
end

theorem marshalConditions_text {o : Option Node} {s : Str} (h : marshalConditions e o = .ok s) : ∃ j, ValueText e s j := by
  cases o with
  | none => cases h; exact ⟨_, valueText_empty⟩
  | some n =>
    by_cases hn : n = .nil
    · subst hn; cases h; exact ⟨_, valueText_empty⟩
    · rw [marshalConditions] at h
      · obtain ⟨x, hx, h⟩ := Go.bind_eq_ok.1 h
        cases h
        obtain ⟨j, hj⟩ := marshal_text hx
        have := valueText_obj (.one (show TextLit gs"conditionsTree" gs"conditionsTree" from lit_of (by decide)) hj)
        exact ⟨_, by simpa using this⟩
      · rintro rfl; exact hn rfl

/-! ## Objects -/

theorem quote_text (s : Str) : ValueText e (quoteJson s) (.str s) := by
  simpa [quoteJson] using valueText_str (env := e) fun t => tail_quote s t

/-- The members of an object and what they denote. -/
inductive Members (e : Ext) : List (Str × Str) → List (Str × Json) → Prop
  | nil : Members e [] []
  | cons {k v : Str} {j : Json} {l js} (h : ValueText e v j) (hs : Members e l js) : Members e ((k, v) :: l) ((k, j) :: js)

theorem Members.append {l l' : List (Str × Str)} {js js' : List (Str × Json)} (h : Members e l js) (h' : Members e l' js') : Members e (l ++ l') (js ++ js') := by
  induction h with
  | nil => exact h'
  | cons h _ ih => exact .cons h ih

theorem memberTexts_of {l : List (Str × Str)} {js : List (Str × Json)} (h : Members e l js) (hne : l ≠ []) : MemberTexts e (renderMembers l) js := by
  induction h with
  | nil => exact absurd rfl hne
  | @cons k v j l js h hs ih =>
    cases hs with
    | nil => simpa [renderMembers, quoteJson] using MemberTexts.one (fun t => tail_quote k t) h
    | cons h' hs' =>
      have := MemberTexts.more (fun t => tail_quote k t) h (ih (by simp))
      simpa [renderMembers, quoteJson] using this

theorem object_text {l : List (Str × Str)} {js : List (Str × Json)} (h : Members e l js) : ValueText e (renderObject l) (.obj js) := by
  cases h with
  | nil => exact valueText_empty
  | cons h hs => exact valueText_obj (memberTexts_of (.cons h hs) (by simp))

/-! ## A rule -/

/-- A text that is left out if it is empty. -/
def optText (k s : Str) : List (Str × Json) := if s = [] then [] else [(k, .str s)]

theorem members_text (k s : Str) : Members e (textMember k s) (optText k s) := by
  unfold textMember optText
  by_cases h : s = []
  · rw [if_pos h, if_pos h]; exact .nil
  · rw [if_neg h, if_neg h]; exact .cons (quote_text s) .nil

theorem optText_keys (k s : Str) : List.Sublist ((optText k s).map (·.1)) [k] := by
  unfold optText
  split <;> simp

/-- An entry that is there under a condition. -/
def optEntry (b : Bool) (k : Str) (j : Json) : List (Str × Json) := if b then [(k, j)] else []

theorem optEntry_keys (b : Bool) (k : Str) (j : Json) : List.Sublist ((optEntry b k j).map (·.1)) [k] := by
  unfold optEntry
  split <;> simp

/-- What the text of a rule denotes, given its conditions. -/
def ruleJson (r : Rule) (c : Json) : List (Str × Json) :=
  optText gs"ruleID" r.ruleID ++
  [(gs"sender", .obj (optText gs"senderName" r.senderName ++ optText gs"senderType" r.senderType)),
   (gs"receiver", .obj (optText gs"receiverName" r.receiverName ++ optText gs"receiverType" r.receiverType))] ++
  optText gs"protocol" r.protocol ++
  [(gs"resource", .obj (optText gs"resourceType" r.resourceType ++ optText gs"resourceName" r.resourceName ++ optEntry r.resourceNameRegex.isSome gs"-" (.obj [])))] ++
  optText gs"operation" r.operation ++
  [(gs"conditions", c)] ++
  optText gs"decision" r.decision ++
  optEntry (!r.metadata.isEmpty) gs"metadata" (.obj (r.metadata.map fun x => (x.1, .str x.2))) ++
  optText gs"hash" r.hash ++
  optEntry r.operationRegex.isSome gs"operationRegex" (.obj []) ++
  optEntry r.converted gs"-" (.bool true)

theorem ruleMembers_text {r : Rule} {s : Str} {j : Json} (h : ValueText e s j) :
    Members e (ruleMembers r s) (ruleJson r j) := by
  have one : ∀ {k v : Str} {j : Json}, ValueText e v j → Members e [(k, v)] [(k, j)] := fun h => .cons h .nil
  have opt : ∀ {b : Bool} {k v : Str} {j : Json}, ValueText e v j → Members e (if b then [(k, v)] else []) (optEntry b k j) := by
    intro b k v j h
    cases b with
    | true => exact one h
    | false => exact .nil
  have md : Members e (if r.metadata = [] then [] else [(gs"metadata", renderStringMap r.metadata)])
      (optEntry (!r.metadata.isEmpty) gs"metadata" (.obj (r.metadata.map fun x => (x.1, .str x.2)))) := by
    cases hmd : r.metadata with
    | nil => exact .nil
    | cons x xs =>
      rw [if_neg (by simp)]
      rw [← hmd]
      have : (!r.metadata.isEmpty) = true := by simp [hmd]
      rw [this]
      exact one valueText_map
  unfold ruleMembers ruleJson
  refine .append (.append (.append (.append (.append (.append (.append (.append (.append (.append (members_text _ _) ?_) (members_text _ _)) ?_) (members_text _ _)) ?_)
    (members_text _ _)) md) (members_text _ _)) (opt valueText_empty)) (opt valueText_true)
  · exact .cons (object_text (.append (members_text _ _) (members_text _ _)))
      (.cons (object_text (.append (members_text _ _) (members_text _ _))) .nil)
  · exact one (object_text (.append (.append (members_text _ _) (members_text _ _)) (opt valueText_empty)))
  · exact one h

theorem ruleText {r : Rule} {s : Str} {j : Json} (h : ValueText e s j) :
    ValueText e (renderObject (ruleMembers r s)) (.obj (ruleJson r j)) := object_text (ruleMembers_text h)

/-! ## Reading it back -/

theorem entries_flag {x : Go (Rule × Bool)} : (do let b ← x; pure (b.1, false || b.2) : Go (Rule × Bool)) = x := by
  cases x <;> rfl

theorem entries_one {p : List Nat} {r r' : Rule} {k : Str} {j : Json} {rest : List (Str × Json)} (hk : fieldOf ruleNames k = some k) (hc : k ≠ gs"conditions")
    (h : jsonRuleField r k j = (r', false)) : jsonRuleEntries env p r ((k, j) :: rest) = jsonRuleEntries env p r' rest := by
  rw [jsonRuleEntries, hk]
  simp only [if_neg hc, h]
  exact entries_flag

theorem entries_text {p : List Nat} {r r' : Rule} {k s : Str} {rest : List (Str × Json)} (hk : fieldOf ruleNames k = some k) (hc : k ≠ gs"conditions")
    (h : jsonRuleField r k (.str s) = (r', false)) (h0 : s = [] → r' = r) :
    jsonRuleEntries env p r (optText k s ++ rest) = jsonRuleEntries env p r' rest := by
  unfold optText
  by_cases hs : s = []
  · rw [if_pos hs, h0 hs]; rfl
  · rw [if_neg hs]; exact entries_one hk hc h

theorem entries_opt {p : List Nat} {r r' : Rule} {b : Bool} {k : Str} {j : Json} {rest : List (Str × Json)} (hk : fieldOf ruleNames k = some k) (hc : k ≠ gs"conditions")
    (h : b = true → jsonRuleField r k j = (r', false)) (h0 : b = false → r' = r) :
    jsonRuleEntries env p r (optEntry b k j ++ rest) = jsonRuleEntries env p r' rest := by
  cases b with
  | false => rw [h0 rfl]; rfl
  | true => exact entries_one hk hc (h rfl)

theorem fields_text {α : Type} {f : α → Str → Json → α × Bool} {r r' : α} {k s : Str} {rest : List (Str × Json)} (h : f r k (.str s) = (r', false))
    (h0 : s = [] → r' = r) : jsonFields f r (optText k s ++ rest) = jsonFields f r' rest := by
  unfold optText
  by_cases hs : s = []
  · rw [if_pos hs, h0 hs]; rfl
  · rw [if_neg hs]
    simp only [List.cons_append, List.nil_append, jsonFields, h, Bool.false_or]

theorem jsonTextEntries_of : ∀ {l acc : List (Str × Str)}, ((acc ++ l).map (·.1)).Nodup →
    jsonTextEntries acc (l.map fun x => (x.1, .str x.2)) = (acc ++ l, false)
  | [], acc, _ => by simp [jsonTextEntries]
  | (k, v) :: l, acc, h => by
    have hk : k ∉ acc.map (·.1) := by
      simp only [List.map_append, List.map_cons, List.nodup_append, List.mem_cons] at h
      intro hc
      exact h.2.2 _ hc _ (.inl rfl) rfl
    simp only [List.map_cons, jsonTextEntries, jsonText]
    rw [setKey_fresh hk, jsonTextEntries_of (by simpa using h)]
    simp

/-- The entries of a rule are read back as its fields. -/
theorem ruleEntries_read {p : List Nat} {r : Rule} {c : Json} (hl : r.senderList = [] ∧ r.receiverList = []) (hm : (r.metadata.map (·.1)).Nodup) :
    jsonRuleEntries env p {} (ruleJson r c) =
      (unmarshalConditions env p c.once).map fun t => ({ r with conditions := t, resourceNameRegex := none, operationRegex := none }, false) := by
  have party : ∀ {nk tk : Str} (n t : Str), nk ≠ tk → nk ≠ gs"-" → tk ≠ gs"-" →
      jsonFields (jsonPartyField nk tk) {} (optText nk n ++ optText tk t) = ({ name := n, type := t }, false) := by
    intro nk tk n t h1 h2 h3
    have f1 : fieldOf [nk, tk, gs"-"] nk = some nk := by simp [fieldOf]
    have f2 : fieldOf [nk, tk, gs"-"] tk = some tk := by simp [fieldOf]
    rw [fields_text (r' := { name := n }) (by simp [jsonPartyField, f1, jsonText]) (by rintro rfl; rfl), ← List.append_nil (optText tk t),
      fields_text (r' := { name := n, type := t }) (by simp [jsonPartyField, f2, Ne.symm h1, jsonText]) (by rintro rfl; rfl)]
    rfl
  have res : ∀ (t n : Str) (b : Bool), jsonFields jsonResourceField {} (optText gs"resourceType" t ++ optText gs"resourceName" n ++ optEntry b gs"-" (.obj [])) =
      ({ type := t, name := n, regex := none }, false) := by
    intro t n b
    rw [List.append_assoc, fields_text (r' := { type := t }) rfl (by rintro rfl; rfl), fields_text (r' := { type := t, name := n }) rfl (by rintro rfl; rfl)]
    cases b <;> rfl
  have hs : ∀ (a : Rule) (v : Party × Bool), jsonFields (jsonPartyField gs"senderName" gs"senderType") ⟨a.senderName, a.senderType, a.senderList⟩
      (optText gs"senderName" r.senderName ++ optText gs"senderType" r.senderType) = v →
      jsonRuleField a gs"sender" (.obj (optText gs"senderName" r.senderName ++ optText gs"senderType" r.senderType)) =
        ({ a with senderName := v.1.name, senderType := v.1.type, senderList := v.1.list }, v.2) := by
    rintro a v rfl; rfl
  have hr : ∀ (a : Rule) (v : Party × Bool), jsonFields (jsonPartyField gs"receiverName" gs"receiverType") ⟨a.receiverName, a.receiverType, a.receiverList⟩
      (optText gs"receiverName" r.receiverName ++ optText gs"receiverType" r.receiverType) = v →
      jsonRuleField a gs"receiver" (.obj (optText gs"receiverName" r.receiverName ++ optText gs"receiverType" r.receiverType)) =
        ({ a with receiverName := v.1.name, receiverType := v.1.type, receiverList := v.1.list }, v.2) := by
    rintro a v rfl; rfl
  have hmeta : ∀ (a : Rule), a.metadata = [] → jsonRuleField a gs"metadata" (.obj (r.metadata.map fun x => (x.1, .str x.2))) = ({ a with metadata := r.metadata }, false) := by
    intro a ha
    have := jsonTextEntries_of (l := r.metadata) (acc := []) (by simpa using hm)
    show (({ a with metadata := (jsonTextEntries a.metadata _).1 } : Rule), (jsonTextEntries a.metadata _).2) = _
    rw [ha, this]; rfl
  have hres : ∀ (a : Rule) (l : List (Str × Json)) (v : Resource × Bool), jsonFields jsonResourceField ⟨a.resourceType, a.resourceName, a.resourceNameRegex⟩ l = v →
      jsonRuleField a gs"resource" (.obj l) = ({ a with resourceType := v.1.type, resourceName := v.1.name, resourceNameRegex := v.1.regex }, v.2) := by
    rintro a l v rfl; rfl
  unfold ruleJson
  simp only [List.append_assoc]
  rw [entries_text (r' := { ruleID := r.ruleID }) rfl (by decide) rfl (by intro h; rw [h])]
  rw [List.cons_append, entries_one (r' := { ruleID := r.ruleID, senderName := r.senderName, senderType := r.senderType }) rfl (by decide)
    (hs { ruleID := r.ruleID } ({ name := r.senderName, type := r.senderType }, false) (party (nk := gs"senderName") (tk := gs"senderType") r.senderName r.senderType (by decide) (by decide) (by decide)))]
  rw [List.cons_append, entries_one (r' := { ruleID := r.ruleID, senderName := r.senderName, senderType := r.senderType, receiverName := r.receiverName, receiverType := r.receiverType }) rfl (by decide)
    (hr { ruleID := r.ruleID, senderName := r.senderName, senderType := r.senderType } ({ name := r.receiverName, type := r.receiverType }, false) (party (nk := gs"receiverName") (tk := gs"receiverType") r.receiverName r.receiverType (by decide) (by decide) (by decide)))]
  rw [List.nil_append, entries_text (r' := { ruleID := r.ruleID, senderName := r.senderName, senderType := r.senderType, receiverName := r.receiverName, receiverType := r.receiverType, protocol := r.protocol }) rfl (by decide) rfl (by intro h; rw [h])]
  rw [List.cons_append, entries_one (r' := { ruleID := r.ruleID, senderName := r.senderName, senderType := r.senderType, receiverName := r.receiverName, receiverType := r.receiverType, protocol := r.protocol, resourceType := r.resourceType, resourceName := r.resourceName }) rfl (by decide)
    (hres { ruleID := r.ruleID, senderName := r.senderName, senderType := r.senderType, receiverName := r.receiverName, receiverType := r.receiverType, protocol := r.protocol } _ ({ type := r.resourceType, name := r.resourceName, regex := none }, false) (by rw [← List.append_assoc]; exact res _ _ _))]
  rw [List.nil_append, entries_text (r' := { ruleID := r.ruleID, senderName := r.senderName, senderType := r.senderType, receiverName := r.receiverName, receiverType := r.receiverType, protocol := r.protocol, resourceType := r.resourceType, resourceName := r.resourceName, operation := r.operation }) rfl (by decide) rfl (by intro h; rw [h])]
  rw [List.cons_append, jsonRuleEntries, show fieldOf ruleNames gs"conditions" = some gs"conditions" from rfl]
  simp only [if_true, List.nil_append]
  cases unmarshalConditions env p c.once with
  | error x => rfl
  | ok t =>
    rw [Go.ok_bind]
    rw [entries_text (r' := { ruleID := r.ruleID, senderName := r.senderName, senderType := r.senderType, receiverName := r.receiverName, receiverType := r.receiverType, protocol := r.protocol, resourceType := r.resourceType, resourceName := r.resourceName, operation := r.operation, conditions := t, decision := r.decision }) rfl (by decide) rfl (by intro h; rw [h])]
    rw [entries_opt (r' := { ruleID := r.ruleID, senderName := r.senderName, senderType := r.senderType, receiverName := r.receiverName, receiverType := r.receiverType, protocol := r.protocol, resourceType := r.resourceType, resourceName := r.resourceName, operation := r.operation, conditions := t, decision := r.decision, metadata := r.metadata }) rfl (by decide)
      (fun _ => hmeta _ rfl) (by intro h; have : r.metadata = [] := (by simpa using h); rw [this])]
    rw [entries_text (r' := { ruleID := r.ruleID, senderName := r.senderName, senderType := r.senderType, receiverName := r.receiverName, receiverType := r.receiverType, protocol := r.protocol, resourceType := r.resourceType, resourceName := r.resourceName, operation := r.operation, conditions := t, decision := r.decision, metadata := r.metadata, hash := r.hash }) rfl (by decide) rfl (by intro h; rw [h])]
    rw [entries_opt (r' := { ruleID := r.ruleID, senderName := r.senderName, senderType := r.senderType, receiverName := r.receiverName, receiverType := r.receiverType, protocol := r.protocol, resourceType := r.resourceType, resourceName := r.resourceName, operation := r.operation, conditions := t, decision := r.decision, metadata := r.metadata, hash := r.hash }) rfl (by decide) (fun _ => rfl) (fun _ => rfl)]
    rw [← List.append_nil (optEntry r.converted _ _)]
    rw [entries_opt (r' := { ruleID := r.ruleID, senderName := r.senderName, senderType := r.senderType, receiverName := r.receiverName, receiverType := r.receiverType, protocol := r.protocol, resourceType := r.resourceType, resourceName := r.resourceName, operation := r.operation, conditions := t, decision := r.decision, metadata := r.metadata, hash := r.hash, converted := r.converted }) rfl (by decide) (by intro h; rw [h]; rfl) (by intro h; rw [h])]
    obtain ⟨h1, h2⟩ := hl
    cases r
    simp only at h1 h2
    subst h1 h2
    rfl

/-- Writing a rule and reading it back is `copyRule`. -/
theorem unmarshal_marshal {p : List Nat} {r : Rule} (hl : r.senderList = [] ∧ r.receiverList = []) (hm : (r.metadata.map (·.1)).Nodup) :
    (do let s ← marshalRule env r; unmarshalRule env p s) = copyRule env p r := by
  unfold marshalRule copyRule copyConditions
  cases hc : marshalConditions env r.conditions with
  | error x => rfl
  | ok s =>
    obtain ⟨j, hj⟩ := marshalConditions_text hc
    rw [Go.ok_bind, Go.ok_bind, jsonParse_of hj]
    show unmarshalRule env p (renderObject (ruleMembers r s)) = _
    rw [unmarshalRule, jsonScan_of (ruleText hj)]
    simp only [jsonRule, ruleEntries_read hl hm]
    cases unmarshalConditions env p j.once with
    | error x => rfl
    | ok t =>
      obtain ⟨h1, h2⟩ := hl
      cases r
      simp only at h1 h2
      subst h1 h2
      rfl

/-! ## Lists of rules -/

theorem storable_text (ho : env.OrdOk) {r : Rule} (h : Storable env r) :
    ∃ s j, marshalRule env r = .ok s ∧ ValueText env s j ∧ ∀ p, jsonRule env p {} j = .ok (r, false) := by
  have hc : ∀ p, copyConditions env p r.conditions = .ok r.conditions := by
    intro p
    cases hr : r.conditions with
    | none =>
      have : jsonParse env gs"{}" = some (.obj []) := jsonParse_of valueText_empty
      simp [copyConditions, marshalConditions, this, unmarshalConditions]
    | some n => exact copy_copyable ho (h.conditions n hr) p
  cases hm : marshalConditions env r.conditions with
  | error x => have := hc []; rw [copyConditions, hm] at this; cases this
  | ok s =>
    obtain ⟨j, hj⟩ := marshalConditions_text hm
    refine ⟨renderObject (ruleMembers r s), .obj (ruleJson r j), by rw [marshalRule, hm]; rfl, ruleText hj, fun p => ?_⟩
    have hu : unmarshalConditions env p j.once = .ok r.conditions := by
      have := hc p
      rw [copyConditions, hm, Go.ok_bind, jsonParse_of hj] at this
      exact this
    obtain ⟨h1, h2, h3, h4⟩ := h.rest
    rw [jsonRule, ruleEntries_read ⟨h1, h2⟩ h.metadata, hu]
    cases r
    simp only at h1 h2 h3 h4
    subst h1 h2 h3 h4
    rfl

theorem storable_list (ho : env.OrdOk) : ∀ {rs : List Rule}, rs ≠ [] → (∀ r ∈ rs, Storable env r) →
    ∃ l js, marshalRuleList env rs = .ok l ∧ ElementTexts env (commaSep l) js ∧ ∀ p i, jsonRuleList env p i [] js = .ok (rs, false)
  | [], h, _ => absurd rfl h
  | [r], _, h => by
    obtain ⟨s, j, h1, h2, h3⟩ := storable_text ho (h r (by simp))
    refine ⟨[s], [j], by rw [marshalRuleList, h1]; rfl, by simpa [commaSep, join] using ElementTexts.one h2, fun p i => ?_⟩
    simp only [jsonRuleList, List.head?_nil, Option.getD_none, h3]
    rfl
  | r :: r' :: rs, _, h => by
    obtain ⟨s, j, h1, h2, h3⟩ := storable_text ho (h r (by simp))
    obtain ⟨l, js, g1, g2, g3⟩ := storable_list ho (rs := r' :: rs) (by simp) fun x hx => h x (by simp [hx])
    refine ⟨s :: l, j :: js, by rw [marshalRuleList, h1, Go.ok_bind, g1]; rfl, ?_, fun p i => ?_⟩
    · have hl : l ≠ [] := by
        rintro rfl
        obtain ⟨c, t, e, -⟩ := elementTexts_head g2
        simp [commaSep, join] at e
      obtain ⟨s', l', rfl⟩ := List.exists_cons_of_ne_nil hl
      simpa [commaSep, join] using ElementTexts.more h2 g2
    · rw [jsonRuleList]
      simp only [List.head?_nil, Option.getD_none, h3, List.tail_nil, g3]
      rfl

theorem storable_rules (ho : env.OrdOk) {rs : List Rule} (h : ∀ r ∈ rs, Storable env r) :
    ∃ s, marshalRules env rs = .ok s ∧ unmarshalRules env s = .ok rs := by
  unfold marshalRules
  by_cases he : rs = []
  · subst he
    refine ⟨gs"{}", by simp, ?_⟩
    rw [unmarshalRules, jsonScan_of valueText_empty]
    rfl
  · obtain ⟨l, js, h1, h2, h3⟩ := storable_list ho he h
    have hv := valueText_obj (.one (show TextLit gs"rules" gs"rules" from lit_of (by decide)) (valueText_arr h2))
    refine ⟨_, by rw [if_neg he, h1]; rfl, ?_⟩
    have : unmarshalRules env (gs"{\"rules\":[" ++ commaSep l ++ gs"]}") = finish (jsonRules env (.obj [(gs"rules", .arr js)])) := by
      rw [unmarshalRules]
      have := jsonScan_of hv
      simp only [List.cons_append, List.nil_append, List.append_assoc] at this ⊢
      rw [this]
    rw [this, jsonRules, jsonRulesEntries, if_pos (show fieldOf [gs"rules"] gs"rules" = some gs"rules" from rfl), jsonRulesKey, h3]
    rfl

end Mapl

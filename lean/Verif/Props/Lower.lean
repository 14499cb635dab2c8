import Verif.Props.Identity

/-!
# C72: writing a rule in lower case
-/

namespace Mapl
open Spec

theorem toLower_char (c : Char) : c.toLower.toLower = c.toLower := by
  unfold Char.toLower
  split
  · rename_i h
    have h1 : 65 ≤ c.val.toNat := UInt32.le_iff_toNat_le.1 h.1
    have h2 : c.val.toNat ≤ 90 := UInt32.le_iff_toNat_le.1 h.2
    have h3 : (c.val + ('a'.val - 'A'.val)).toNat = (c.val.toNat + 32) % 4294967296 := UInt32.toNat_add _ _
    rw [dif_neg]
    rintro ⟨_, h4⟩
    have h5 : (c.val + ('a'.val - 'A'.val)).toNat ≤ 90 := UInt32.le_iff_toNat_le.1 h4
    omega
  · rfl

theorem toLower_idem (s : Str) : toLower (toLower s) = toLower s := by
  simp [toLower, toLower_char]

theorem mainPart_lower (r : Rule) : ruleMainPart r.lower = ruleMainPart { r with resourceType := toLower r.resourceType } := by
  simp [ruleMainPart, Rule.lower, toLower_idem]

theorem toLower_symbol {s : Str} {c : Char} (hc : c.toNat < 91) (h1 : c.toLower = c) : toLower s = [c] ↔ s = [c] := by
  constructor
  · intro h
    match s, h with
    | [d], h =>
      simp [toLower] at h
      rw [toLower_punct hc h]
  · rintro rfl; simp [toLower, h1]

end Mapl

namespace Mapl.Props
open Spec

/-- **C72** for the text, and with it the hash: a rule keeps its text exactly when its resource type is in lower case. -/
theorem C72_text_partial {r : Rule} {s : Str} (h : ruleToString r = .ok s) :
    ruleToString r.lower = .ok s ↔ r.resourceType.map Char.toLower = r.resourceType := by
  have hc : ruleConditionsToString r.lower = ruleConditionsToString r := rfl
  unfold ruleToString at h ⊢
  rw [hc, mainPart_lower]
  cases h1 : ruleConditionsToString r with
  | error e => rw [h1] at h; simp at h
  | ok c =>
    rw [h1] at h
    have h2 : ruleMainPart r ++ gs"-" ++ c = s := by simpa using h
    have key : (ruleMainPart { r with resourceType := toLower r.resourceType } ++ gs"-" ++ c = ruleMainPart r ++ gs"-" ++ c) ↔
        toLower r.resourceType = r.resourceType := by
      simp only [List.append_left_inj, ruleMainPart, List.append_right_inj]
    rw [← h2]
    unfold toLower at key
    rw [← key]
    simp [toLower]

/-- **C72** for the decisions, as far as it holds: a rule that is only written in capitals where capitals make no difference — protocols other than `TCP`, the
keywords for operations and decisions — decides the same afterwards. -/
theorem C72_check_partial {env : Env} (ho : env.OrdOk) {r : RuleObj} {g : Predef} {p p' : List Nat} {m : Msg} {o o' : RuleOut} (hf : Fresh r)
    (hk : ∀ n q, r.body.conditions = some n → n.prepare env.toExt g = .ok q → KeySafe env.toExt q m)
    (hc : ∀ n, r.body.conditions = some n → Copyable env.toExt n) (hl : CapitalsIgnored r.body)
    (h : r.check env g p m = .ok o) (h' : ({ r with body := r.body.lower } : RuleObj).check env g p' m = .ok o') : o.result = o'.result := by
  refine same_result (r' := { r with body := r.body.lower }) ho hf ⟨hf.ready, hf.prepared, hf.converted⟩ hk hc hc ?_ hl.senderType.symm hl.receiverType.symm ?_ ?_ rfl rfl hl.resourceType.symm rfl ?_ h h'
  · show decisionOf r.body.decision = decisionOf (toLower r.body.decision)
    rcases hl.decision with hd | hd
    · simp only [List.mem_cons, List.not_mem_nil, or_false] at hd
      rcases hd with hd | hd | hd | hd | hd | hd <;> rw [hd] <;> decide
    · unfold toLower; rw [hd]
  · show convertOperationStringToRegex r.body.operation = convertOperationStringToRegex (toLower r.body.operation)
    rcases hl.operation with hd | hd | hd
    · rw [hd]; decide
    · rw [hd]; decide
    · unfold toLower; rw [hd]
  · show SameProtocol r.body.protocol (toLower r.body.protocol)
    refine ⟨⟨fun h => by rw [h]; decide, hl.protocol⟩, ?_, ?_⟩
    · exact (toLower_symbol (by decide) (by decide)).symm
    · exact (toLower_idem _).symm
  · show r.body.conditions = none ∧ r.body.conditions = none ∨ ∃ n n', r.body.conditions = some n ∧ r.body.conditions = some n' ∧ Alike n n'
    cases r.body.conditions with
    | none => exact .inl ⟨rfl, rfl⟩
    | some n => exact .inr ⟨n, n, rfl, rfl, .refl⟩

set_option maxRecDepth 20000 in
/-- A rule with capitals in protocol and decision. -/
example : let r : RuleObj := { body := { (Demo.rule gs"Block").body with protocol := gs"HTTP", resourceName := gs"x", resourceType := gs"*" } }
    let m : Msg := { Demo.msgI with requestMethod := gs"GET", contextProtocol := gs"http", requestPath := gs"x" }
    Fresh r ∧ CapitalsIgnored r.body ∧ r.body ≠ r.body.lower ∧ (∃ o, r.check Demo.env {} [] m = .ok o ∧ o.result = 3) ∧
    ∃ o, ({ r with body := r.body.lower } : RuleObj).check Demo.env {} [] m = .ok o ∧ o.result = 3 := by
  refine ⟨⟨rfl, rfl, rfl⟩, ⟨rfl, rfl, rfl, by decide, .inr (.inr rfl), .inl (by decide)⟩, ?_, ⟨_, rfl, by decide +kernel⟩, ⟨_, rfl, by decide +kernel⟩⟩
  intro h
  exact absurd (congrArg Rule.decision h) (by decide)

/-- The rule is in lower case afterwards. -/
theorem lower_lowerCase (r : Rule) : LowerCase r.lower :=
  ⟨toLower_idem _, toLower_idem _, toLower_idem _, toLower_idem _, toLower_idem _⟩

theorem lower_plain {env : Ext} {r : Rule} (h : PlainRule env r) : PlainRule env r.lower := by
  have lo : ∀ {c : Char} {s : Str}, c.toNat < 91 → c.toLower = c → c ∉ s → c ∉ toLower s := fun h1 h2 h3 => lower_absent h2 (fun d e => toLower_punct h1 e) h3
  obtain ⟨⟨a1, a2, a3, a4, a5, a6, a7, a8, a9⟩, b⟩ := h
  exact ⟨⟨lo (by decide) (by decide) a1, lo (by decide) (by decide) a2, a3, lo (by decide) (by decide) a4, a5, lo (by decide) (by decide) a6,
    lo (by decide) (by decide) a7, lo (by decide) (by decide) a8, a9⟩, b⟩

/-- **C72**, what it is for: of plain rules in any case, the text identifies the rule once it is written in lower case. -/
theorem C72_identity {env : Env} (ho : env.OrdOk) {r r' : RuleObj} {g : Predef} {p p' : List Nat} {m : Msg} {o o' : RuleOut}
    (hf : Fresh r) (hf' : Fresh r')
    (hk : ∀ n q, r.body.conditions = some n → n.prepare env.toExt g = .ok q → KeySafe env.toExt q m)
    (hr : PlainRule env.toExt r.body) (hr' : PlainRule env.toExt r'.body)
    (hc : ∀ n, r.body.conditions = some n → Copyable env.toExt n) (hc' : ∀ n, r'.body.conditions = some n → Copyable env.toExt n)
    (ht : ruleToString r.body = ruleToString r'.body)
    (h : ({ r with body := r.body.lower } : RuleObj).check env g p m = .ok o)
    (h' : ({ r' with body := r'.body.lower } : RuleObj).check env g p' m = .ok o') : o.result = o'.result := by
  have hs := (C67_text_partial hr hr').1 ht
  refine C67_partial (r := { r with body := r.body.lower }) (r' := { r' with body := r'.body.lower }) ho ⟨hf.ready, hf.prepared, hf.converted⟩
    ⟨hf'.ready, hf'.prepared, hf'.converted⟩ hk (lower_plain hr) (lower_plain hr') (lower_lowerCase _) (lower_lowerCase _) hc hc' ?_ h h'
  refine (C67_text_partial (lower_plain hr) (lower_plain hr')).2 ?_
  have up : ∀ {s s' : Str}, SameUpToCase s s' → SameUpToCase (toLower s) (toLower s') := fun h => by unfold SameUpToCase at *; unfold toLower; rw [h]
  exact ⟨up hs.decision, up hs.senderType, hs.senderName, up hs.receiverType, hs.receiverName, up hs.operation, up hs.protocol,
    congrArg toLower hs.resourceType, hs.resourceName, hs.conditions⟩

set_option maxRecDepth 20000 in
/-- Types in different case: before, only one of the rules applies (`C67_violated`); afterwards both do. -/
example : PlainRule Demo.ext (fromType gs"Workload").body ∧ PlainRule Demo.ext (fromType gs"workload").body ∧ Fresh (fromType gs"Workload") ∧
    ruleToString (fromType gs"Workload").body = ruleToString (fromType gs"workload").body ∧
    (∃ o, ({ body := (fromType gs"Workload").body.lower } : RuleObj).check Demo.env {} [] Demo.msgI = .ok o ∧ o.result = 3) ∧
    ∃ o, ({ body := (fromType gs"workload").body.lower } : RuleObj).check Demo.env {} [] Demo.msgI = .ok o ∧ o.result = 3 := by
  refine ⟨⟨⟨by decide, by decide, by decide, by decide, by decide, by decide, by decide, by decide, by decide⟩, by rintro n ⟨⟩⟩,
    ⟨⟨by decide, by decide, by decide, by decide, by decide, by decide, by decide, by decide, by decide⟩, by rintro n ⟨⟩⟩, ⟨rfl, rfl, rfl⟩, by decide +kernel,
    ⟨_, rfl, by decide +kernel⟩, ⟨_, rfl, by decide +kernel⟩⟩

/-- **C72**: a rule that was prepared before is checked as it was prepared. -/
theorem C72_prepared {env E : Env} {r0 r : RuleObj} {g t : Predef} {p q : List Nat} {m : Msg} (hf : r0.body.converted = false)
    (hr : r0.setPredefined E q t = .ok (r, none)) :
    (({ r with body := r.body.lower } : RuleObj).check env g p m).map (fun o => (o.result, o.extra, o.msg)) =
      (r.check env g p m).map (fun o => (o.result, o.extra, o.msg)) := by
  obtain ⟨h1, rule, h2, h3⟩ := C09_preparation_expands hf hr
  rw [check_judge h1 h2 h3.converted, check_judge (r := { r with body := r.body.lower }) h1 h2 h3.converted]
  cases judge env rule (1 :: 1 :: p) m <;> rfl

/-- **C72** fails for the decisions: a rule about the method `GET` no longer matches it. -/
theorem C72_violated_check : ∃ (r : RuleObj) (m : Msg) (o o' : RuleOut), Fresh r ∧ r.body.operation = gs"GET" ∧ m.requestMethod = gs"GET" ∧
    r.check Demo.env {} [] m = .ok o ∧ ({ r with body := r.body.lower } : RuleObj).check Demo.env {} [] m = .ok o' ∧ o.result = 3 ∧ o'.result = 0 := by
  refine ⟨{ body := { (Demo.rule gs"block").body with operation := gs"GET" } }, { Demo.msgI with requestMethod := gs"GET" }, _, _, ⟨rfl, rfl, rfl⟩, rfl, rfl, rfl,
    rfl, by decide +kernel, by decide +kernel⟩

/-- **C72** fails for the text: a resource type with a capital. -/
theorem C72_violated_text : ∃ r : Rule, (∃ s, ruleToString r = .ok s) ∧ ruleToString r.lower ≠ ruleToString r :=
  ⟨{ resourceType := gs"httpPath" }, ⟨_, rfl⟩, by decide +kernel⟩

end Mapl.Props

import Verif.Model.Display
import Verif.Props.Identity

/-!
# C65: displaying rules
-/

namespace Mapl.Spec

/-- What a display has to tell apart: all fields that say when a rule applies and what it decides. -/
structure SameFields (r r' : Rule) : Prop where
  senderType : r.senderType = r'.senderType
  senderName : r.senderName = r'.senderName
  receiverType : r.receiverType = r'.receiverType
  receiverName : r.receiverName = r'.receiverName
  protocol : r.protocol = r'.protocol
  resourceType : r.resourceType = r'.resourceType
  resourceName : r.resourceName = r'.resourceName
  operation : r.operation = r'.operation
  decision : r.decision = r'.decision

/-- Fields that are displayed faithfully: types without colons that are not the placeholder, a type for the resource, and no field that reads "default". -/
structure ShownFields (r : Rule) : Prop where
  senderType : ':' ∉ r.senderType ∧ r.senderType ≠ gs"{default type}"
  receiverType : ':' ∉ r.receiverType ∧ r.receiverType ≠ gs"{default type}"
  resourceType : ':' ∉ r.resourceType ∧ r.resourceType ≠ []
  protocol : r.protocol ≠ gs"default"
  operation : r.operation ≠ gs"default"
  decision : r.decision ≠ gs"default"

end Mapl.Spec

namespace Mapl.Props
open Spec

mutual
theorem string_complete {n : Node} {s : Str} (h : n.string = .ok s) : Complete n := by
  match n with
  | .nil => simp [Node.string] at h
  | .and ns =>
    simp only [Node.string, Go.bind_eq_ok] at h
    obtain ⟨l, hl, h⟩ := h
    simpa [Complete] using strings_complete hl
  | .or ns =>
    simp only [Node.string, Go.bind_eq_ok] at h
    obtain ⟨l, hl, h⟩ := h
    simpa [Complete] using strings_complete hl
  | .not n =>
    simp only [Node.string, Go.bind_eq_ok] at h
    obtain ⟨l, hl, h⟩ := h
    simpa [Complete] using string_complete hl
  | .any a n =>
    simp only [Node.string, Go.bind_eq_ok] at h
    obtain ⟨l, hl, h⟩ := h
    simpa [Complete] using string_complete hl
  | .all a n =>
    simp only [Node.string, Go.bind_eq_ok] at h
    obtain ⟨l, hl, h⟩ := h
    simpa [Complete] using string_complete hl
  | .tt => simp [Complete]
  | .ff => simp [Complete]
  | .cond c => simp [Complete]

theorem strings_complete {ns : List Node} {l : List Str} (h : stringNodes ns = .ok l) : ∀ n ∈ ns, Complete n := by
  match ns with
  | [] => simp
  | n :: ns =>
    simp only [stringNodes, Go.bind_eq_ok] at h
    obtain ⟨s, hs, l', hl, h⟩ := h
    intro t ht
    rcases List.mem_cons.1 ht with e | ht
    · rw [e]; exact string_complete hs
    · exact strings_complete hl t ht
end

/-- **C65**, first part: a rule can be displayed exactly when it has conditions and no branch of them is missing; it panics otherwise. -/
theorem C65_returns {r : Rule} : (∃ s, getRuleStrings r = .ok s) ↔ ∃ n, r.conditions = some n ∧ Complete n := by
  unfold getRuleStrings
  constructor
  · rintro ⟨s, h⟩
    simp only [Go.bind_eq_ok] at h
    obtain ⟨n, h1, c, h2, _⟩ := h
    exact ⟨n, deref_eq_ok.1 h1, string_complete h2⟩
  · rintro ⟨n, h1, h2⟩
    obtain ⟨c, hc⟩ := C49_complete h2
    rw [h1]
    simp [deref, hc]

theorem party_unique {t n t' n' : Str} (ht : ':' ∉ t ∧ t ≠ gs"{default type}") (ht' : ':' ∉ t' ∧ t' ≠ gs"{default type}")
    (h : partyString t n = partyString t' n') : t = t' ∧ n = n' := by
  unfold partyString at h
  by_cases h1 : t = [] <;> by_cases h2 : t' = []
  · simp [h1, h2] at h; exact ⟨by rw [h1, h2], h⟩
  · rw [if_neg (by simp [h1]), if_pos h2] at h
    simp only [List.append_assoc, List.cons_append, List.nil_append] at h
    obtain ⟨e, _⟩ := split_unique (c := ':') (x := gs"{default type}") (by decide) ht'.1 h
    exact absurd e.symm ht'.2
  · rw [if_pos h1, if_neg (by simp [h2])] at h
    simp only [List.append_assoc, List.cons_append, List.nil_append] at h
    obtain ⟨e, _⟩ := split_unique (c := ':') (x' := gs"{default type}") ht.1 (by decide) h
    exact absurd e ht.2
  · rw [if_pos h1, if_pos h2] at h
    simp only [List.append_assoc, List.cons_append, List.nil_append] at h
    exact split_unique ht.1 ht'.1 h

theorem orDefault_unique {s s' : Str} (h1 : s ≠ gs"default") (h2 : s' ≠ gs"default") (h : orDefault s = orDefault s') : s = s' := by
  unfold orDefault at h
  by_cases a : s = [] <;> by_cases b : s' = []
  · rw [a, b]
  · rw [if_neg (by simp [a]), if_pos b] at h; exact absurd h.symm h2
  · rw [if_pos a, if_neg (by simp [b])] at h; exact absurd h h1
  · rwa [if_pos a, if_pos b] at h

/-- **C65**, partial: rules that are displayed the same have the same fields, and, if their trees are plain, the same conditions up to the order of children.
Missing: rules without conditions, which cannot be displayed at all (`C65_returns`), and the fields of `C65_violated_resource`. -/
theorem C65_partial {env : Ext} {r r' : Rule} {s : RuleStrings} (hr : ShownFields r) (hr' : ShownFields r') (h : getRuleStrings r = .ok s)
    (h' : getRuleStrings r' = .ok s) : SameFields r r' ∧
    ∃ n n', r.conditions = some n ∧ r'.conditions = some n' ∧ (Plain env n → Plain env n' → Alike n n') := by
  unfold getRuleStrings at h h'
  simp only [Go.bind_eq_ok] at h h'
  obtain ⟨n, h1, c, h2, h3⟩ := h
  obtain ⟨n', h1', c', h2', h3'⟩ := h'
  simp only [pure, Except.pure, Except.ok.injEq] at h3 h3'
  rw [← h3'] at h3
  simp only [RuleStrings.mk.injEq] at h3
  obtain ⟨e1, e2, e3, e4, e5, e6, e7⟩ := h3
  obtain ⟨a1, a2⟩ := party_unique hr.senderType hr'.senderType e1
  obtain ⟨a3, a4⟩ := party_unique hr.receiverType hr'.receiverType e2
  have a5 := orDefault_unique hr.protocol hr'.protocol e3
  have a6 := orDefault_unique hr.operation hr'.operation e5
  have a7 := orDefault_unique hr.decision hr'.decision e7
  unfold resourceString at e4
  rw [if_pos hr.resourceType.2, if_pos hr'.resourceType.2] at e4
  simp only [List.append_assoc, List.cons_append, List.nil_append] at e4
  obtain ⟨a8, a9⟩ := split_unique hr.resourceType.1 hr'.resourceType.1 e4
  exact ⟨⟨a1, a2, a3, a4, a5, a8, a9, a6, a7⟩, n, n', deref_eq_ok.1 h1, deref_eq_ok.1 h1', fun p p' =>
    alike_of_string p p' (by rw [h2, h2', e6])⟩

/-- What `Print` writes contains all of it, in order. -/
theorem C65_print {r : Rule} {l : List Str} (h : printRule r = .ok l) : ∃ s, getRuleStrings r = .ok s ∧
    l = [gs"Sender (type:name): " ++ s.sender, gs"Receiver (type:name): " ++ s.receiver, gs"Protocol: " ++ s.protocol, gs"Resource (type:name): " ++ s.resource,
      gs"Operation : " ++ s.operation, gs"Conditions : " ++ s.conditions, gs"Decision: " ++ s.decision] := by
  simp only [printRule, Go.bind_eq_ok] at h
  obtain ⟨s, hs, h⟩ := h
  refine ⟨s, hs, ?_⟩
  have : s.conditions ≠ [] := by
    simp only [getRuleStrings, Go.bind_eq_ok] at hs
    obtain ⟨n, _, c, h2, h3⟩ := hs
    simp at h3; subst h3
    exact (string_conditions h2).2
  rw [if_pos this] at h
  injection h with h
  exact h.symm

/-- **C65** fails: displaying a rule without conditions panics. -/
theorem C65_violated : getRuleStrings (Demo.rule gs"block").body = .error (.panic .nilDeref) ∧
    printRule (Demo.rule gs"block").body = .error (.panic .nilDeref) := ⟨rfl, rfl⟩

/-- A rule for a TCP port without a type of the resource. -/
def forPort (port : Str) : RuleObj :=
  { Demo.rule gs"block" with body := { (Demo.rule gs"block" (some kindIs)).body with protocol := gs"tcp", resourceType := [], resourceName := port } }

set_option maxRecDepth 20000 in
/-- **C65** fails: rules for different ports are displayed the same, and decide differently. -/
theorem C65_violated_resource : (∃ s, getRuleStrings (forPort gs"80").body = .ok s ∧ getRuleStrings (forPort gs"443").body = .ok s) ∧
    (∃ o, (forPort gs"80").check Demo.env {} [] { Demo.msgI with destinationPort := gs"80" } = .ok o ∧ o.result = 3) ∧
    (∃ o, (forPort gs"443").check Demo.env {} [] { Demo.msgI with destinationPort := gs"80" } = .ok o ∧ o.result = 0) := by
  refine ⟨⟨_, rfl, by decide +kernel⟩, ⟨_, rfl, by decide +kernel⟩, ⟨_, rfl, by decide +kernel⟩⟩

/-- A rule whose fields are shown. -/
example : ShownFields (Demo.rule gs"block" (some kindIs)).body ∧ (∃ s, getRuleStrings (Demo.rule gs"block" (some kindIs)).body = .ok s ∧
    s.conditions = gs"<jsonpath:$.kind-EQ-Pod>" ∧ s.sender = gs"*:*") ∧ Plain Demo.ext kindIs :=
  ⟨⟨by simp [Demo.rule], by simp [Demo.rule], by simp [Demo.rule], by simp [Demo.rule], by simp [Demo.rule], by simp [Demo.rule]⟩,
   ⟨_, rfl, by decide +kernel, by decide +kernel⟩, plain_condition (by decide) (by decide +kernel) (by decide +kernel)⟩

end Mapl.Props

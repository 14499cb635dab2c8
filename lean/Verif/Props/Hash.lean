import Verif.Lemmas.Hash
import Verif.Lemmas.State
import Verif.Demo

/-!
# C45, C49, C50: text forms and hashes
-/

namespace Mapl.Props
open Spec

variable {env : Env} {k i : Nat} {w w' : World} {ops : List Op} {as : List Answer}

/-! ## C45 -/

/-- One call changes no written field of a rule. -/
theorem step_bodies {E : Env} {op : Op} {a : Answer} (h : step E w op = .ok (w', a)) : w'.rules.map (·.body) = w.rules.map (·.body) := by
  have put : ∀ {i : Nat} {x r : RuleObj}, w.rule i = .ok x → r.body = x.body → (w.put i r).rules.map (·.body) = w.rules.map (·.body) := by
    intro i x r hx hb
    simp only [World.rule] at hx
    split at hx
    · next y hy =>
      simp at hx; subst hx
      obtain ⟨hi, hg⟩ := List.getElem?_eq_some_iff.1 hy
      simp only [World.put, List.map_set, hb, ← hg]
      rw [show (w.rules[i]).body = (w.rules.map (·.body))[i]'(by simpa using hi) by simp, List.set_getElem_self]
    · simp at hx
  cases op with
  | setGlobal t =>
    simp only [step, Except.ok.injEq, Prod.mk.injEq] at h
    obtain ⟨rfl, _⟩ := h
    rfl
  | setRule j t =>
    simp only [step, Go.bind_eq_ok] at h
    obtain ⟨x, hx, y, hy, h⟩ := h
    simp at h; obtain ⟨rfl, _⟩ := h
    exact put hx (setPredefined_body hy)
  | checkRule j m =>
    simp only [step, Go.bind_eq_ok] at h
    obtain ⟨x, hx, y, hy, h⟩ := h
    simp at h; obtain ⟨rfl, _⟩ := h
    exact put hx (ruleCheck_body hy)
  | testRule j m =>
    simp only [step, Go.bind_eq_ok] at h
    obtain ⟨x, hx, y, hy, h⟩ := h
    simp at h; obtain ⟨rfl, _⟩ := h
    exact put hx (testConditions_body hy)
  | toMongo j base =>
    simp only [step, Go.bind_eq_ok] at h
    obtain ⟨x, hx, y, hy, h⟩ := h
    simp at h; obtain ⟨rfl, _⟩ := h
    exact put hx (toMongoQuery_body hy)
  | checkAll m =>
    simp only [step, Go.bind_eq_ok] at h
    obtain ⟨_, _, h⟩ := h
    simp at h; obtain ⟨rfl, _⟩ := h
    rfl

/-- A history changes no written field of a rule. -/
theorem run_bodies : ∀ {ops : List Op} {k : Nat} {w w' : World} {as : List Answer}, run env k w ops = .ok (w', as) →
    w'.rules.map (·.body) = w.rules.map (·.body)
  | [], k, w, w', as, h => by
    simp only [run, Except.ok.injEq, Prod.mk.injEq] at h
    obtain ⟨rfl, rfl⟩ := h
    rfl
  | op :: ops, k, w, w', as, h => by
    simp only [run, Go.bind_eq_ok] at h
    obtain ⟨⟨w1, a⟩, hs, ⟨w2, as'⟩, hr, hx⟩ := h
    simp only [Go.pure_eq, Except.ok.injEq, Prod.mk.injEq] at hx
    obtain ⟨rfl, rfl⟩ := hx
    rw [run_bodies hr, step_bodies hs]

/-- **C45.** After any history of preparing and checking, every rule has the text form and the hash that it had before. -/
theorem C45_histories (h : run env k w ops = .ok (w', as)) : w'.rules.map (fun r => ruleToString r.body) = w.rules.map (fun r => ruleToString r.body) ∧
    w'.rules.map (fun r => ruleMD5Hash env r.body) = w.rules.map (fun r => ruleMD5Hash env r.body) ∧
    w'.rules.map (fun r => ruleMD5HashConditions env r.body) = w.rules.map (fun r => ruleMD5HashConditions env r.body) := by
  have hb := run_bodies h
  have key : ∀ {α : Type} (f : Rule → α), w'.rules.map (fun r => f r.body) = w.rules.map (fun r => f r.body) := by
    intro α f
    have := congrArg (List.map f) hb
    simpa [Function.comp_def] using this
  exact ⟨key _, key _, key _⟩

/-- A history that prepares, changes the tables, and checks. -/
example : ∃ w' as, run Demo.env 0 { rules := Demo.rules } [.setRule 1 {}, .checkAll Demo.msgI, .checkRule 1 Demo.msgI, .testRule 2 Demo.msgI] = .ok (w', as) :=
  Demo.isOk_ok (x := run Demo.env 0 { rules := Demo.rules } [.setRule 1 {}, .checkAll Demo.msgI, .checkRule 1 Demo.msgI, .testRule 2 Demo.msgI])
    (by decide +kernel) |>.elim fun x hx => ⟨x.1, x.2, hx⟩

/-- **C45**, for the prepared tree itself: it has the text of the written tree if no value is a reference and no list is empty. -/
theorem C45_prepared {env : Ext} {t : Predef} {n n' : Node} (h : n.prepare env t = .ok n')
    (hl : ∀ c ∈ leaves n, ∃ a m v r, c = parsed env a m v r ∧ (∀ x, v ≠ '#' :: x) ∧ (v = [] → m ∉ [gs"IN", gs"NIN", gs"IS"])) :
    n'.string = n.string := by
  refine prepare_string (fun c hc c' hp => ?_) h
  obtain ⟨a, m, v, r, rfl, hv, hm⟩ := hl c hc
  obtain ⟨w, hw, ht⟩ := prepare_text hp
  cases hw with
  | plain => exact ht hm
  | list => exact absurd rfl (hv _)
  | alternatives => exact absurd rfl (hv _)
  | string => exact absurd rfl (hv _)

/-- With a reference in it, the text of the prepared tree is that of the list: preparing in place changes the hash. -/
example : ∃ n' s s', (condNode Demo.env gs"domain" gs"EQ" gs"#d" none).prepare Demo.env { strings := [(gs"d", gs"x")] } = .ok n' ∧
    (condNode Demo.env gs"domain" gs"EQ" gs"#d" none).string = .ok s ∧ n'.string = .ok s' ∧ s = gs"<domain-EQ-#d>" ∧ s' = gs"<domain-EQ-x>" :=
  ⟨_, _, _, rfl, rfl, rfl, rfl, rfl⟩

/-! ## C49 -/

/-- **C49.** Trees that are the same up to the order of the children of AND and OR, at any depth, have the same text (and so have those that
also differ in one-child connectives). -/
theorem C49_text {n n' : Node} (h : Alike n n') : n.string = n'.string := string_alike h

/-- **C49.** Rules that differ in this way only have the same text form and the same hashes. -/
theorem C49_hash {env : Ext} {r : Rule} {n n' : Node} (h : Alike n n') :
    ruleToString { r with conditions := some n } = ruleToString { r with conditions := some n' } ∧
    ruleMD5Hash env { r with conditions := some n } = ruleMD5Hash env { r with conditions := some n' } ∧
    ruleMD5HashConditions env { r with conditions := some n } = ruleMD5HashConditions env { r with conditions := some n' } := by
  have : ruleToString { r with conditions := some n } = ruleToString { r with conditions := some n' } := by
    simp only [ruleToString, ruleConditionsToString, string_alike h]
    rfl
  exact ⟨this, by rw [ruleMD5Hash, ruleMD5Hash, this], by simp only [ruleMD5HashConditions, ruleConditionsToString, string_alike h]⟩

/-- **C49.** They are `ConditionsEqual`, whatever their other fields are. -/
theorem C49_equal {env : Ext} {r r' : Rule} {n n' : Node} {s : Str} (hr : r.conditions = some n) (hr' : r'.conditions = some n') (h : Alike n n')
    (hs : n.string = .ok s) : conditionsEqual env r r' = .ok true := by
  have hs' : n'.string = .ok s := by rw [← string_alike h, hs]
  simp [conditionsEqual, ruleMD5HashConditions, ruleConditionsToString, hr, hr', hs, hs', Except.map]

mutual
/-- Complete trees have a text. -/
theorem C49_complete {n : Node} (h : Complete n) : ∃ s, n.string = .ok s := by
  match n, h with
  | .nil, h => simp [Complete] at h
  | .and ns, h =>
    obtain ⟨l, hl⟩ := C49_complete_list (ns := ns) (by simpa [Complete] using h)
    exact ⟨_, by rw [Node.string, hl]; rfl⟩
  | .or ns, h =>
    obtain ⟨l, hl⟩ := C49_complete_list (ns := ns) (by simpa [Complete] using h)
    exact ⟨_, by rw [Node.string, hl]; rfl⟩
  | .not n, h => obtain ⟨l, hl⟩ := C49_complete (n := n) (by simpa [Complete] using h); exact ⟨_, by rw [Node.string, hl]; rfl⟩
  | .any a n, h => obtain ⟨l, hl⟩ := C49_complete (n := n) (by simpa [Complete] using h); exact ⟨_, by rw [Node.string, hl]; rfl⟩
  | .all a n, h => obtain ⟨l, hl⟩ := C49_complete (n := n) (by simpa [Complete] using h); exact ⟨_, by rw [Node.string, hl]; rfl⟩
  | .tt, _ => exact ⟨_, rfl⟩
  | .ff, _ => exact ⟨_, rfl⟩
  | .cond c, _ => exact ⟨_, rfl⟩

theorem C49_complete_list {ns : List Node} (h : ∀ n ∈ ns, Complete n) : ∃ l, stringNodes ns = .ok l := by
  match ns, h with
  | [], _ => exact ⟨[], rfl⟩
  | n :: ns, h =>
    obtain ⟨s, hs⟩ := C49_complete (h n (by simp))
    obtain ⟨l, hl⟩ := C49_complete_list (ns := ns) fun m hm => h m (by simp [hm])
    exact ⟨s :: l, by rw [stringNodes, hs, Go.ok_bind, hl]; rfl⟩
end

/-- A reordering at two depths. -/
example (a b c d : Node) : Alike (.and [a, .not (.or [b, c]), d]) (.and [d, a, .not (.or [c, b])]) := by
  refine .trans (.and (.cons .refl (.cons (.not (.orPerm (.swap c b []))) (.cons .refl .nil)))) (.andPerm ?_)
  exact (List.perm_append_comm (l₁ := [a, Node.not (.or [c, b])]) (l₂ := [d]))

/-! ## C50 -/

/-- **C50**, partial: plain trees with the same text are the same up to the order of AND and OR children and one-child connectives. Missing: trees that are not
plain, see `C50_violated`. -/
theorem C50_partial {env : Ext} {n n' : Node} (hn : Plain env n) (hn' : Plain env n') (h : n.string = n'.string) : Alike n n' :=
  alike_of_string hn hn' h

/-- **C50**, partial, for rules: rules with plain trees and the same conditions text. -/
theorem C50_rules_partial {env : Ext} {r r' : Rule} {n n' : Node} (hr : r.conditions = some n) (hr' : r'.conditions = some n') (hn : Plain env n)
    (hn' : Plain env n') : ruleConditionsToString r = ruleConditionsToString r' ↔ Alike n n' := by
  simp only [ruleConditionsToString, hr, hr']
  exact ⟨alike_of_string hn hn', string_alike⟩

/-- **C50**, partial, for `ConditionsEqual`: if the hash does not collide on the two texts, plain trees are reported equal exactly if they are alike. -/
theorem C50_equal_partial {env : Ext} {r r' : Rule} {n n' : Node} (hr : r.conditions = some n) (hr' : r'.conditions = some n') (hn : Plain env n)
    (hn' : Plain env n') (hmd : ∀ s s', n.string = .ok s → n'.string = .ok s' → env.md5 s = env.md5 s' → s = s') {b : Bool}
    (h : conditionsEqual env r r' = .ok b) : b = true ↔ Alike n n' := by
  simp only [conditionsEqual, ruleMD5HashConditions, ruleConditionsToString, hr, hr', Go.bind_eq_ok, Go.map_eq_ok, Go.pure_eq, Except.ok.injEq] at h
  obtain ⟨_, ⟨s, hs, rfl⟩, _, ⟨s', hs', rfl⟩, rfl⟩ := h
  rw [beq_iff_eq]
  constructor
  · intro e
    exact alike_of_string hn hn' (by rw [hs, hs', hmd s s' hs hs' e])
  · intro ha
    have := string_alike ha
    rw [hs, hs'] at this
    simp at this
    rw [this]

/-- A value that looks like the end of one condition and the beginning of another. -/
def twoInOne : Node := .and [condNode Demo.env gs"domain" gs"NEQ" gs"x> && <domain-NEQ-y" none, condNode Demo.env gs"domain" gs"NEQ" gs"z" none]

/-- The three conditions that it looks like. -/
def three : Node := .and [condNode Demo.env gs"domain" gs"NEQ" gs"x" none, condNode Demo.env gs"domain" gs"NEQ" gs"y" none, condNode Demo.env gs"domain" gs"NEQ" gs"z" none]

/-- **C50** fails: trees with the same text that are not alike. A value can look like several conditions; the return values of a condition are not
in the text; and an empty AND (which holds always) has the text of an empty OR (which never holds). -/
theorem C50_violated : (twoInOne.string = three.string ∧ ¬ Alike twoInOne three) ∧
    (∀ env l, (condNode env gs"domain" gs"EQ" gs"x" none).string = (condNode env gs"domain" gs"EQ" gs"x" (some l)).string ∧
      ¬ Alike (condNode env gs"domain" gs"EQ" gs"x" none) (condNode env gs"domain" gs"EQ" gs"x" (some l))) ∧
    ((Node.and []).string = (Node.or []).string ∧ ¬ Alike (.and []) (.or [])) := by
  refine ⟨⟨rfl, fun h => ?_⟩, fun env l => ⟨?_, fun h => ?_⟩, rfl, fun h => ?_⟩
  · have := (leaves_alike h).length_eq
    exact absurd this (by decide)
  · simp [condNode, Node.string, parsed_eq, Condition.string]
  · have := leaves_alike h
    simp only [condNode, leaves, List.singleton_perm, List.cons.injEq, and_true] at this
    rw [parsed_eq, parsed_eq] at this
    simp at this
  · exact absurd (bare_alike h) (by decide)

set_option maxRecDepth 20000 in
/-- The first pair is one of rules that the engine calls equal (and gives equal hashes) and that decide differently. -/
theorem C50_violated_decisions : conditionsEqual Demo.env (Demo.rule gs"block" (some twoInOne)).body (Demo.rule gs"block" (some three)).body = .ok true ∧
    Demo.summary (check Demo.env {} { Demo.msgI with domain := gs"x" } [Demo.rule gs"block" (some twoInOne)]) = some (3, [3], 0, [0]) ∧
    Demo.summary (check Demo.env {} { Demo.msgI with domain := gs"x" } [Demo.rule gs"block" (some three)]) = some (0, [0], -1, []) := by
  refine ⟨?_, ?_, ?_⟩ <;> with_unfolding_all rfl

/-- A plain tree: dashes and angle brackets in attributes and values do no harm. -/
example : Plain Demo.env (.and [.not (condNode Demo.env gs"jsonpath:$.my-app.spec" gs"RE" gs"^a->b-(?P<x>c)" none),
    .any (anyFields Demo.env gs"jsonpath:$.containers" [(gs"image", gs"jsonpath:$RELATIVE.image"), (gs"env", gs"jsonpath:$RELATIVE.env[0]")])
      (.or [condNode Demo.env gs"jsonpath:$RELATIVE.image" gs"EQ" gs"a-b" none, condNode Demo.env gs"jsonpath:$RELATIVE.name" gs"EX" [] none])]) := by
  have ok : ∀ a m v, m ∈ allMethods → (∀ m ∈ allMethods, contains (a ++ gs"-") (gs"-" ++ m ++ gs"-") = false) →
      (contains v gs"> " = false ∧ contains v gs">)" = false ∧ contains v gs">]" = false) → Plain Demo.env (condNode Demo.env a m v none) := by
    intro a m v hm ha hv
    refine .cond hm (fun m' hm' h => ?_) ?_
    · have := ha m' hm'
      rw [← Bool.not_eq_true, contains_iff] at this
      obtain ⟨x, y, h⟩ := h
      exact this ⟨x, y, h.symm⟩
    · rintro x c y rfl hc
      have : ∀ c, ∃ a b, x ++ '>' :: c :: y = a ++ ['>', c] ++ b := fun c => ⟨x, y, by simp⟩
      simp only [← Bool.not_eq_true, contains_iff] at hv
      simp only [List.mem_cons, List.not_mem_nil, or_false] at hc
      rcases hc with rfl | rfl | rfl
      · exact hv.1 (this _)
      · exact hv.2.1 (this _)
      · exact hv.2.2 (this _)
  refine .and (by simp) ?_
  simp only [List.mem_cons, List.not_mem_nil, or_false]
  rintro n (rfl | rfl)
  · exact .not (ok _ _ _ (by decide) (by decide +kernel) (by decide +kernel))
  · refine .any (by simp) (by decide) (by decide) ?_ (.or (by simp) ?_)
    · simp only [List.mem_cons, List.not_mem_nil, or_false]
      rintro x (rfl | rfl)
      · exact ⟨by unfold PlainName; decide, by decide, by decide⟩
      · exact ⟨by unfold PlainName; decide, by decide, by decide⟩
    · simp only [List.mem_cons, List.not_mem_nil, or_false]
      rintro n (rfl | rfl)
      · exact ok _ _ _ (by decide) (by decide +kernel) (by decide +kernel)
      · exact ok _ _ _ (by decide) (by decide +kernel) (by decide +kernel)

end Mapl.Props

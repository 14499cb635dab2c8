import Verif.Lemmas.Lists
import Verif.Props.Refactor
import Verif.Props.Policy

/-!
# C76: lists of operations and of resources

A list of operations or resources is a rule for each part of the list. The full claim, for all lists, is false: `read` and `write` stand for
several operations only if they are alone (`C76_violated_words`).
-/

namespace Mapl.Props

open Spec

variable {env : Env} {g : Predef} {r : Rule} {a b : Str}

/-- **C76.** A rule for a list of operations is a rule for each part of the list, unless a part is one of the words for several operations. -/
theorem C76_operations_partial (ho : env.OrdOk) (hok : RegexpOk env) (hc : r.converted = false) (ha : PlainPattern a) (hb : PlainPattern b)
    (wa : a ∉ operationWords) (wb : b ∉ operationWords) : Equivalent env g [doing r (a ++ gs"," ++ b)] [doing r a, doing r b] :=
  operation_equivalent ho hok hc ha hb wa wb

/-- **C76.** A rule for a list of resources is a rule for each part of the list. -/
theorem C76_resources_partial (ho : env.OrdOk) (hok : RegexpOk env) (hc : r.converted = false) (ha : PlainPattern a) (hb : PlainPattern b) :
    Equivalent env g [touching r (a ++ gs"," ++ b)] [touching r a, touching r b] :=
  resource_equivalent ho hok hc ha hb

/-- Three rules in one. -/
example : Equivalent policyEnv {} [doing (Demo.rule gs"block").body gs"POST,PUT,PATCH*"]
    [doing (Demo.rule gs"block").body gs"POST", doing (Demo.rule gs"block").body gs"PUT", doing (Demo.rule gs"block").body gs"PATCH*"] := by
  have h1 : Equivalent policyEnv {} [doing (Demo.rule gs"block").body gs"POST,PUT,PATCH*"]
      [doing (Demo.rule gs"block").body gs"POST", doing (Demo.rule gs"block").body gs"PUT,PATCH*"] :=
    C76_operations_partial policyEnv_ok.order policyEnv_ok.regexp rfl (a := gs"POST") (b := gs"PUT,PATCH*") (by unfold PlainPattern; decide)
      (by unfold PlainPattern; decide) (by decide) (by decide)
  have h2 : Equivalent policyEnv {} [doing (Demo.rule gs"block").body gs"PUT,PATCH*"]
      [doing (Demo.rule gs"block").body gs"PUT", doing (Demo.rule gs"block").body gs"PATCH*"] :=
    C76_operations_partial policyEnv_ok.order policyEnv_ok.regexp rfl (a := gs"PUT") (b := gs"PATCH*") (by unfold PlainPattern; decide)
      (by unfold PlainPattern; decide) (by decide) (by decide)
  exact h1.trans (C76_context policyEnv_ok.order h2 [doing (Demo.rule gs"block").body gs"POST"] [])

example : Equivalent policyEnv {} [touching (Demo.rule gs"block").body gs"/a/*, /b"] [touching (Demo.rule gs"block").body gs"/a/*", touching (Demo.rule gs"block").body gs" /b"] :=
  C76_resources_partial policyEnv_ok.order policyEnv_ok.regexp rfl (a := gs"/a/*") (b := gs" /b") (by unfold PlainPattern; decide) (by unfold PlainPattern; decide)

/-- A rule that depends on the operation alone. -/
theorem doing_says {E : Env} {o : Str} (ho : PlainPattern o) : RuleSays E {} policyMsg (doing (Demo.rule gs"block").body o) (OperationMatches o gs"GET") .block := by
  refine ⟨_, {}, .parsed ⟨rfl, rfl, rfl⟩, ?_⟩
  have h := WrittenSays.mk (env := E) (t := {}) (msg := policyMsg) (body := (doing (Demo.rule gs"block").body o).body) (c := none) (s := gs"*") (v := gs"*") rfl
    (.plain (by simp [doing, Demo.rule])) (.plain (by simp [doing, Demo.rule]))
    ⟨by show PlainPattern _; decide, by show PlainPattern _; decide, ho, by show PlainPattern gs"*"; decide⟩ (by simp) (by simp)
  have e : (WrittenParts (doing (Demo.rule gs"block").body o).body gs"*" gs"*" policyMsg ∧ ∀ f ∈ (none : Option Statement), Meaning E {} f policyMsg) = OperationMatches o gs"GET" := by
    refine propext ⟨fun h => h.1.operation, fun h => ⟨⟨?_, ?_, h, trivial⟩, by simp⟩⟩
    · exact ⟨.inl rfl, gs"*", mem_split_iff.1 (by decide), by show Glob gs"*" gs"a"; simp [Glob]⟩
    · exact ⟨.inl rfl, gs"*", mem_split_iff.1 (by decide), by show Glob gs"*" gs"b"; simp [Glob]⟩
  rw [e] at h
  exact h

/-- **C76 fails** for the words that stand for several operations: to block `read,write` does not block GET, to block `read` and to block `write`
does. -/
theorem C76_violated_words : ∃ (env : Env) (r : Rule), Assumed env ∧ r.converted = false ∧
    ¬ Equivalent env {} [doing r gs"read,write"] [doing r gs"read", doing r gs"write"] := by
  refine ⟨policyEnv, (Demo.rule gs"block").body, policyEnv_ok, rfl, fun h => ?_⟩
  have two : CanDecide policyEnv {} policyMsg [doing (Demo.rule gs"block").body gs"read", doing (Demo.rule gs"block").body gs"write"] .block := by
    obtain ⟨out, h1, d, h2, -, -, h3, -⟩ := C74_policy policyEnv_ok policyMsg_ok (xs := [(_, .block), (_, .block)])
      (.cons (doing_says (o := gs"read") (by unfold PlainPattern; decide)) (.cons (doing_says (o := gs"write") (by unfold PlainPattern; decide)) .nil))
    have := h3 _ (.head _) (by simp [OperationMatches])
    refine ⟨_, out, ⟨rfl, policyEnv_ok.order⟩, h1, ?_⟩
    rw [h2]
    cases d with
    | block => rfl
    | _ => simp [Decision.rank] at this
  obtain ⟨E, out, hE, h1, h2⟩ := (h.decisions policyMsg .block).2 two
  have ok : Assumed E := ⟨by rw [hE.ext]; exact policyEnv_ok.regexp, hE.ord, by rw [hE.ext]; exact policyEnv_ok.numbers, by rw [hE.ext]; exact policyEnv_ok.empty⟩
  obtain ⟨out', k1, d, k2, -, k3, -⟩ := C74_policy ok (by rw [hE.ext]; exact policyMsg_ok) (xs := [(_, .block)])
      (.cons (doing_says (o := gs"read,write") (by unfold PlainPattern; decide)) .nil)
  rw [h1] at k1
  cases k1
  rw [h2] at k2
  rcases k3 with rfl | ⟨x, hx, k4, -⟩
  · cases k2
  · simp only [List.mem_singleton] at hx
    subst hx
    simp only [OperationMatches, reduceCtorEq, if_false, or_self] at k4
    obtain ⟨p, q, hp, hq, hg⟩ := k4
    have hp' := mem_split_iff.2 hp
    rw [show split ',' gs"read,write" = [gs"read", gs"write"] by decide] at hp'
    obtain rfl := trimmed_iff.1 hq
    simp only [List.mem_cons, List.not_mem_nil, or_false] at hp'
    rcases hp' with rfl | rfl
    · rw [show trimSpace gs"read" = gs"read" by decide] at hg
      simp [Glob] at hg
    · rw [show trimSpace gs"write" = gs"write" by decide] at hg
      simp [Glob] at hg

end Mapl.Props

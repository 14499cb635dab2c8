import Verif.Lemmas.Memory
import Verif.Lemmas.Bare
import Verif.Lemmas.State
import Verif.Lemmas.Aggregate

/-! # Checks with arrays -/

namespace Mapl

open Mapl.Spec

theorem split_single {c : Char} {s : Str} (h : c ∉ s) : (split c s).length ≤ 1 := by
  have := split_join (sep := c) (l := [s]) (by simp) (by simpa using h)
  rw [show join [c] [s] = s by simp [join]] at this
  rw [this]; simp

section

variable {env : Ext} {t : Predef} {P Q : AnyAll → Prop}

mutual
theorem prepare_parents (hPQ : ∀ a a', P a → a.prepare env = .ok a' → Q a') : ∀ (n n' : Node), Parents P n → n.prepare env t = .ok n' → Parents Q n'
  | .nil, n', _, h => by rw [Node.prepare] at h; cases h
  | .and ns, n', hp, h => by
    rw [Node.prepare, Go.bind_eq_ok] at h
    obtain ⟨ns', h1, h⟩ := h
    cases h
    rw [Parents] at hp ⊢
    exact prepares_parents hPQ ns ns' hp h1
  | .or ns, n', hp, h => by
    rw [Node.prepare, Go.bind_eq_ok] at h
    obtain ⟨ns', h1, h⟩ := h
    cases h
    rw [Parents] at hp ⊢
    exact prepares_parents hPQ ns ns' hp h1
  | .not n, n', hp, h => by
    rw [Node.prepare, Go.bind_eq_ok] at h
    obtain ⟨n1, h1, h⟩ := h
    cases h
    rw [Parents] at hp ⊢
    exact prepare_parents hPQ n n1 hp h1
  | .any a n, n', hp, h => by
    rw [Node.prepare, Go.bind_eq_ok] at h
    obtain ⟨n1, h1, h⟩ := h
    rw [Go.bind_eq_ok] at h
    obtain ⟨a1, h2, h⟩ := h
    cases h
    rw [Parents] at hp ⊢
    exact ⟨hPQ a a1 hp.1 h2, prepare_parents hPQ n n1 hp.2 h1⟩
  | .all a n, n', hp, h => by
    rw [Node.prepare, Go.bind_eq_ok] at h
    obtain ⟨n1, h1, h⟩ := h
    rw [Go.bind_eq_ok] at h
    obtain ⟨a1, h2, h⟩ := h
    cases h
    rw [Parents] at hp ⊢
    exact ⟨hPQ a a1 hp.1 h2, prepare_parents hPQ n n1 hp.2 h1⟩
  | .tt, n', _, h => by rw [Node.prepare] at h; cases h; rw [Parents] <;> simp
  | .ff, n', _, h => by rw [Node.prepare] at h; cases h; rw [Parents] <;> simp
  | .cond c, n', _, h => by
    rw [Node.prepare, Go.bind_eq_ok] at h
    obtain ⟨c1, h1, h⟩ := h
    cases h
    rw [Parents] <;> simp

theorem prepares_parents (hPQ : ∀ a a', P a → a.prepare env = .ok a' → Q a') : ∀ (ns ns' : List Node), ParentsAll P ns → prepareNodes env t ns = .ok ns' → ParentsAll Q ns'
  | [], ns', _, h => by rw [prepareNodes] at h; cases h; trivial
  | n :: ns, ns', hp, h => by
    rw [prepareNodes, Go.bind_eq_ok] at h
    obtain ⟨n1, h1, h⟩ := h
    rw [Go.bind_eq_ok] at h
    obtain ⟨ns1, h2, h⟩ := h
    cases h
    rw [ParentsAll] at hp ⊢
    exact ⟨prepare_parents hPQ n n1 hp.1 h1, prepares_parents hPQ ns ns1 hp.2 h2⟩
end

theorem oneParent_prepare {n n' : Node} (h : OneParent n) (hn : n.prepare env t = .ok n') : Parents (fun a => a.parentArr.length ≤ 1) n' := by
  refine prepare_parents (fun a a' ha h => ?_) n n' h hn
  rw [AnyAll.prepare, Go.bind_eq_ok] at h
  obtain ⟨qs, -, h⟩ := h
  cases h
  exact split_single ha

mutual
theorem parents_true : ∀ n : Node, Parents (fun _ => True) n
  | .nil => by rw [Parents] <;> simp
  | .and ns => by rw [Parents]; exact parentsAll_true ns
  | .or ns => by rw [Parents]; exact parentsAll_true ns
  | .not n => by rw [Parents]; exact parents_true n
  | .any a n => by rw [Parents]; exact ⟨trivial, parents_true n⟩
  | .all a n => by rw [Parents]; exact ⟨trivial, parents_true n⟩
  | .tt => by rw [Parents] <;> simp
  | .ff => by rw [Parents] <;> simp
  | .cond c => by rw [Parents] <;> simp

theorem parentsAll_true : ∀ ns : List Node, ParentsAll (fun _ => True) ns
  | [] => trivial
  | n :: ns => by rw [ParentsAll]; exact ⟨parents_true n, parentsAll_true ns⟩
end

end

section

variable {env : MemEnv} {g : Predef} {Q : AnyAll → Prop}

/-- After lazy preparation there is no prepared rule, or it is ready and its conditions have the property. -/
def ReadyWith (Q : AnyAll → Prop) (r : RuleObj) : Prop :=
  ∀ rule, r.prepared = some rule → r.ready = true ∧ ∀ n, rule.conditions = some n → Parents Q n

theorem prepareOneRule_tree {e : Ext} {t : Predef} {r r' : Rule} (h : prepareOneRule e t r = .ok r') {n' : Node} (hn : r'.conditions = some n') :
    ∃ n, r.conditions = some n ∧ n.prepare e t = .ok n' := by
  simp only [prepareOneRule, Go.bind_eq_ok] at h
  obtain ⟨r1, h1, r2, h2, h3⟩ := h
  have e2 : r2.conditions = r1.conditions := by
    simp only [replaceStringsAndListsInOneRule, Go.bind_eq_ok] at h2
    obtain ⟨_, _, _, _, h2⟩ := h2
    cases h2; rfl
  rw [convertFields_same h3, e2] at hn
  unfold prepareConditions at h1
  split at h1
  · next hc => cases h1; rw [hc] at hn; cases hn
  · next n hc =>
    rw [Go.bind_eq_ok] at h1
    obtain ⟨n1, h1, h4⟩ := h1
    cases h4
    cases hn
    exact ⟨n, hc, h1⟩

theorem setPredefined_readyWith (ho : env.OrdOk) {t : Predef} {p : List Nat} {P : Node → Prop} (hPQ : ∀ n n', P n → n.prepare env.toExt t = .ok n' → Parents Q n')
    {r r1 : RuleObj} {e : Option Err} (hf : r.prepared = none) (hc : ∀ n, r.body.conditions = some n → Copyable env.toExt n ∧ P n)
    (h : r.setPredefined env.toEnv p t = .ok (r1, e)) : ReadyWith Q r1 := by
  intro rule hr
  cases e with
  | some e =>
    have : r1.prepared = none := by
      simp only [RuleObj.setPredefined] at h
      split at h
      · cases h
      · simp at h; rw [← h.1]; exact hf
      · split at h
        · cases h
        · simp at h; rw [← h.1]; exact hf
        · simp at h
    rw [this] at hr; cases hr
  | none =>
    obtain ⟨copy, rule', h1, h2, rfl⟩ := setPredefined_ok h
    cases hr
    refine ⟨rfl, fun n' hn => ?_⟩
    obtain ⟨n, h3, h4⟩ := prepareOneRule_tree h2 hn
    rw [copyRule_copyable ho (fun n hn => (hc n hn).1)] at h1
    cases h1
    exact hPQ n n' (hc n h3).2 h4

theorem ensure_readyWith (ho : env.OrdOk) {P : Node → Prop} (hPQ : ∀ t n n', P n → n.prepare env.toExt t = .ok n' → Parents Q n') {r r1 : RuleObj} {p : List Nat}
    (hr : ReadWith env.toEnv g P r) (h : r.ensure env.toEnv p g = .ok r1) : ReadyWith Q r1 := by
  obtain ⟨b, t, hl, hc⟩ := hr
  cases hl with
  | parsed hf =>
    simp only [RuleObj.ensure, hf.ready, Bool.false_eq_true, if_false, Except.map] at h
    split at h
    · cases h
    · next x hs =>
      cases h
      exact setPredefined_readyWith ho (hPQ _) hf.prepared hc hs
  | prepared hf hs =>
    simp only [RuleObj.ensure, setPredefined_ready hs, if_true] at h
    cases h
    exact setPredefined_readyWith ho (hPQ _) hf.prepared hc hs

theorem convertOnUse_same {e : Ext} {r : Rule} : (convertOnUse e r).conditions = r.conditions := by
  unfold convertOnUse
  split
  · rfl
  · exact convertFieldsToRegex_same e r

theorem testConditionsM_spec (hQ : ∀ a, Q a → Collects env a.parentArr) {r : RuleObj} {p : List Nat} {mm : MMsg} {mem : Mem} (hr : ReadyWith Q r) (hready : r.ready = true)
    (hm : InMemory mem mm) :
    (∃ e, r.testConditions env.toEnv g p (mm.view mem) = .error e ∧ r.testConditionsM env g p mm mem = .error e) ∨
    ∃ o mem', r.testConditions env.toEnv g p (mm.view mem) = .ok (o, r) ∧ o.msg = mm.view mem ∧ r.testConditionsM env g p mm mem = .ok (⟨o.flag, o.extra, mm, mem'⟩, r) ∧ Untouched mem mem' := by
  simp only [RuleObj.testConditions, RuleObj.testConditionsM, RuleObj.ensure, hready, if_true, Go.ok_bind, testPreparedConditions, testPreparedConditionsM]
  cases hp : r.prepared with
  | none => exact .inl ⟨_, rfl, rfl⟩
  | some rule =>
    have := (hr rule hp).2
    simp only [deref, Go.ok_bind]
    cases hc : rule.conditions with
    | none => exact .inr ⟨_, mem, rfl, rfl, rfl, untouched_refl _⟩
    | some n =>
      have hs := evalM_spec hQ n (this n hc) (1 :: p) mm mem hm
      simp only
      cases he : eval env.toEnv n (1 :: p) (mm.view mem) with
      | error e => rw [he] at hs; rw [same_error hs]; exact .inl ⟨e, rfl, rfl⟩
      | ok o =>
        rw [he] at hs
        obtain ⟨mem', h1, hu⟩ := hs
        rw [h1]
        exact .inr ⟨o, mem', rfl, eval_msg _ _ _ _ _ he, rfl, hu⟩

theorem ruleM_spec (hQ : ∀ a, Q a → Collects env a.parentArr) {r : RuleObj} {p : List Nat} {mm : MMsg} {mem : Mem} (hr : ∀ r1, r.ensure env.toEnv (0 :: p) g = .ok r1 → ReadyWith Q r1)
    (hm : InMemory mem mm) : SameRuleM mm mem (r.check env.toEnv g p (mm.view mem)) (r.checkM env g p mm mem) := by
  unfold RuleObj.check RuleObj.checkM
  cases h1 : r.ensure env.toEnv (0 :: p) g with
  | error e => rfl
  | ok r1 =>
    have hw := hr r1 h1
    simp only [Go.ok_bind]
    cases h2 : r1.prepared with
    | none => rfl
    | some rule =>
      obtain ⟨hready, htree⟩ := hw rule h2
      simp only [deref, Go.ok_bind]
      generalize hrule : convertOnUse env.toExt rule = rule'
      have hcond : rule'.conditions = rule.conditions := by rw [← hrule]; exact convertOnUse_same
      have hw' : ReadyWith Q { r1 with prepared := some rule' } := by
        intro x hx
        cases hx
        exact ⟨hready, fun n hn => htree n (hcond ▸ hn)⟩
      cases testSender env.toExt rule' (mm.view mem) with
      | error e => rfl
      | ok b1 =>
      cases b1 with
      | false => exact ⟨_, rfl, untouched_refl _⟩
      | true =>
      cases testReceiver env.toExt rule' (mm.view mem) with
      | error e => rfl
      | ok b2 =>
      cases b2 with
      | false => exact ⟨_, rfl, untouched_refl _⟩
      | true =>
      simp only [Go.ok_bind]
      cases matchPtr env.toExt rule'.operationRegex (mm.view mem).requestMethod with
      | error e => rfl
      | ok b3 =>
      cases b3 with
      | false => exact ⟨_, rfl, untouched_refl _⟩
      | true =>
      simp only [Go.ok_bind]
      cases testResource env.toExt rule' (mm.view mem) with
      | error e => rfl
      | ok b4 =>
      cases b4 with
      | false => exact ⟨_, rfl, untouched_refl _⟩
      | true =>
      simp only [Go.ok_bind]
      cases hc : rule'.conditions with
      | none => exact ⟨_, rfl, untouched_refl _⟩
      | some n =>
        simp only [not_true_eq_false, if_false]
        rcases testConditionsM_spec (g := g) (p := 1 :: p) hQ hw' hready hm with ⟨e, h3, h4⟩ | ⟨o, mem', h3, h4, h5, hu⟩
        · rw [h3, h4]; rfl
        · rw [h3, h5]
          simp only [Go.ok_bind]
          by_cases hf : o.flag = false
          · rw [if_pos hf, if_pos hf]; exact ⟨_, rfl, hu⟩
          · rw [if_neg hf, if_neg hf]; exact ⟨_, rfl, hu⟩

theorem checkRulesM_spec (hQ : ∀ a, Q a → Collects env a.parentArr) : ∀ {rs : List RuleObj} {i : Nat} {mm : MMsg} {mem : Mem},
    (∀ r ∈ rs, ∀ p r1, r.ensure env.toEnv p g = .ok r1 → ReadyWith Q r1) → InMemory mem mm →
    (∃ e, checkRules env.toEnv g i (mm.view mem) rs = .error e ∧ checkRulesM env g i mm mem rs = .error e) ∨
    ∃ l mem', checkRules env.toEnv g i (mm.view mem) rs = .ok (l, mm.view mem) ∧ checkRulesM env g i mm mem rs = .ok (l, mm, mem') ∧ Untouched mem mem'
  | [], i, mm, mem, _, _ => .inr ⟨[], mem, rfl, rfl, untouched_refl _⟩
  | r :: rs, i, mm, mem, hr, hm => by
    have h := ruleM_spec (g := g) (p := [i]) hQ (hr r (by simp) _) hm
    rw [checkRules, checkRulesM]
    cases hv : r.check env.toEnv g [i] (mm.view mem) with
    | error e => rw [hv] at h; rw [show r.checkM env g [i] mm mem = .error e from h]; exact .inl ⟨e, rfl, rfl⟩
    | ok o =>
      rw [hv] at h
      obtain ⟨mem', h1, hu⟩ := h
      have hmsg : o.msg = mm.view mem := ruleCheck_msg hv
      rw [h1, Go.ok_bind, Go.ok_bind, hmsg, ← hm.view hu]
      rcases checkRulesM_spec hQ (rs := rs) (i := i + 1) (fun x hx => hr x (by simp [hx])) (hm.mono hu) with ⟨e, h2, h3⟩ | ⟨l, mem2, h2, h3, hu2⟩
      · rw [h2, h3]; exact .inl ⟨e, rfl, rfl⟩
      · rw [h2, h3]; exact .inr ⟨_, mem2, rfl, rfl, hu.trans hu2⟩

theorem checkM_spec (hQ : ∀ a, Q a → Collects env a.parentArr) {rs : List RuleObj} {mm : MMsg} {mem : Mem}
    (hr : ∀ r ∈ rs, ∀ p r1, r.ensure env.toEnv p g = .ok r1 → ReadyWith Q r1) (hm : InMemory mem mm) :
    SameCheckM mm mem (check env.toEnv g (mm.view mem) rs) (checkM env g mm mem rs) := by
  unfold check checkM
  rcases checkRulesM_spec (g := g) hQ (i := 0) hr hm with ⟨e, h2, h3⟩ | ⟨l, mem', h2, h3, hu⟩
  · rw [h2, h3]; rfl
  · rw [h2, h3, Go.ok_bind, Go.ok_bind]
    simp only [hm.view hu]
    cases decisionNames[(aggregate 0 {} ((l.map (·.1)).zip (rs.map describe))).maxDecision]? with
    | none => rfl
    | some name => exact ⟨mem', rfl, hu⟩

end

end Mapl

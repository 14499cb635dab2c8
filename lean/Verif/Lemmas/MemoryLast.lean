import Verif.Lemmas.MemoryTwo
import Verif.Lemmas.MemoryRules
import Verif.Spec.Frame

/-! # The last rule of a check may have an ANY or ALL with two parent paths -/

namespace Mapl.Spec

/-- Two absolute parent paths, and the byte behind what the first leads to in `t` is not in what the second leads to. -/
def TwoParents (env : MemEnv) (t : Str) (qs : List Str) : Prop :=
  ∃ q q', qs = [q, q'] ∧ isRelativeParent q = false ∧ isRelativeParent q' = false ∧ NotBehind env t q q'

/-- The last condition that is looked at may be an ANY or ALL with two such paths. The condition inside of it is about the current element and names no further lists of
paths; neither do the conditions before it. -/
inductive TwoPaths (env : MemEnv) (t : Str) : Node → Prop
  | any {a : AnyAll} {n : Node} (hq : TwoParents env t a.parentArr) (hret : ∀ r ∈ a.ret, r.rel = true) (hn : Parents (fun a => a.parentArr.length ≤ 1) n)
      (hab : AboutElement n) : TwoPaths env t (.any a n)
  | all {a : AnyAll} {n : Node} (hq : TwoParents env t a.parentArr) (hn : Parents (fun a => a.parentArr.length ≤ 1) n)
      (hab : AboutElement n) : TwoPaths env t (.all a n)
  | not {n : Node} (h : TwoPaths env t n) : TwoPaths env t (.not n)
  | and {ns : List Node} {n : Node} (hns : ∀ x ∈ ns, Parents (fun a => a.parentArr.length ≤ 1) x) (h : TwoPaths env t n) : TwoPaths env t (.and (ns ++ [n]))
  | or {ns : List Node} {n : Node} (hns : ∀ x ∈ ns, Parents (fun a => a.parentArr.length ≤ 1) x) (h : TwoPaths env t n) : TwoPaths env t (.or (ns ++ [n]))

end Mapl.Spec

namespace Mapl
open Spec

section

variable {env : MemEnv} {g : Predef} {mm : MMsg} {mem : Mem} {s : Slice}

theorem out_cases {r : Go EvalOut} {r' : Go EvalOutM} (h : SameOutM r r') : (∃ e, r = .error e ∧ r' = .error e) ∨ ∃ o o', r = .ok o ∧ r' = .ok o' ∧ o.flag = o'.flag ∧ o.extra = o'.extra := by
  unfold SameOutM at h
  cases r with
  | error e =>
    cases r' with
    | error e' => cases h; exact .inl ⟨e, rfl, rfl⟩
    | ok o' => cases h
  | ok o =>
    cases r' with
    | error e' => cases h
    | ok o' =>
      obtain ⟨h1, h2⟩ := Prod.mk.inj (Except.ok.inj h)
      exact .inr ⟨o, o', rfl, rfl, h1, h2⟩

theorem and_out (hp : PlaceOk env) {n : Node} {p : List Nat} {t : Str} (hn : ∀ (p : List Nat) (mem : Mem), InMemory mem mm → (mm.view mem).jsonRaw = some t →
    SameOutM (eval env.toEnv n p (mm.view mem)) (evalM env n p mm mem)) : ∀ (ns : List Node) (i : Nat) (acc : List Extra) (mem : Mem),
    (∀ x ∈ ns, Parents (fun a => a.parentArr.length ≤ 1) x) → InMemory mem mm → (mm.view mem).jsonRaw = some t →
    SameOutM (evalAnd env.toEnv (ns ++ [n]) p i acc (mm.view mem)) (evalAndM env (ns ++ [n]) p i acc mm mem)
  | [], i, acc, mem, _, hm, ht => by
    simp only [List.nil_append, evalAnd, evalAndM]
    rcases out_cases (hn (i :: p) mem hm ht) with ⟨e, h1, h2⟩ | ⟨o, o', h1, h2, h3, h4⟩
    · rw [h1, h2]; rfl
    · rw [h1, h2]
      simp only [Go.ok_bind, ← h3, ← h4]
      by_cases hf : o.flag = false
      · rw [if_pos hf, if_pos hf]; rfl
      · rw [if_neg hf, if_neg hf]; rfl
  | x :: ns, i, acc, mem, hns, hm, ht => by
    have h := evalM_spec (fun _ h => collects_one hp h) x (hns x (by simp)) (i :: p) mm mem hm
    simp only [List.cons_append, evalAnd, evalAndM]
    cases hv : eval env.toEnv x (i :: p) (mm.view mem) with
    | error e => rw [hv] at h; rw [show evalM env x (i :: p) mm mem = .error e from h]; rfl
    | ok o =>
      rw [hv] at h
      obtain ⟨mem', h1, hu⟩ := h
      rw [h1]
      simp only [Go.ok_bind]
      by_cases hf : o.flag = false
      · rw [if_pos hf, if_pos hf]; rfl
      · rw [if_neg hf, if_neg hf, eval_msg _ _ _ _ _ hv, ← hm.view hu]
        exact and_out hp hn ns _ _ mem' (fun y hy => hns y (by simp [hy])) (hm.mono hu) (by rw [hm.view hu]; exact ht)

theorem or_out (hp : PlaceOk env) {n : Node} {p : List Nat} {t : Str} (hn : ∀ (p : List Nat) (mem : Mem), InMemory mem mm → (mm.view mem).jsonRaw = some t →
    SameOutM (eval env.toEnv n p (mm.view mem)) (evalM env n p mm mem)) : ∀ (ns : List Node) (i : Nat) (flag : Bool) (acc : List Extra) (mem : Mem),
    (∀ x ∈ ns, Parents (fun a => a.parentArr.length ≤ 1) x) → InMemory mem mm → (mm.view mem).jsonRaw = some t →
    SameOutM (evalOr env.toEnv (ns ++ [n]) p i flag acc (mm.view mem)) (evalOrM env (ns ++ [n]) p i flag acc mm mem)
  | [], i, flag, acc, mem, _, hm, ht => by
    simp only [List.nil_append, evalOr, evalOrM]
    rcases out_cases (hn (i :: p) mem hm ht) with ⟨e, h1, h2⟩ | ⟨o, o', h1, h2, h3, h4⟩
    · rw [h1, h2]; rfl
    · rw [h1, h2]
      simp only [Go.ok_bind, ← h3, ← h4]
      rfl
  | x :: ns, i, flag, acc, mem, hns, hm, ht => by
    have h := evalM_spec (fun _ h => collects_one hp h) x (hns x (by simp)) (i :: p) mm mem hm
    simp only [List.cons_append, evalOr, evalOrM]
    cases hv : eval env.toEnv x (i :: p) (mm.view mem) with
    | error e => rw [hv] at h; rw [show evalM env x (i :: p) mm mem = .error e from h]; rfl
    | ok o =>
      rw [hv] at h
      obtain ⟨mem', h1, hu⟩ := h
      rw [h1]
      simp only [Go.ok_bind]
      rw [eval_msg _ _ _ _ _ hv, ← hm.view hu]
      exact or_out hp hn ns _ _ _ mem' (fun y hy => hns y (by simp [hy])) (hm.mono hu) (by rw [hm.view hu]; exact ht)

theorem two_out' (hp : PlaceOk env) (hI : mm.msg.rawI = none) (hrel : mm.rel = none) {t : Str} {n : Node} (h : TwoPaths env t n) : ∀ (p : List Nat) (mem : Mem),
    InMemory mem mm → (mm.view mem).jsonRaw = some t → SameOutM (eval env.toEnv n p (mm.view mem)) (evalM env n p mm mem) := by
  have hraw : ∀ mem, (mm.view mem).jsonRaw = some t → ∃ s, mm.raw = some s ∧ mem.read s = t := by
    intro mem h
    cases hr : mm.raw with
    | none => simp [MMsg.view, hr] at h
    | some s => exact ⟨s, rfl, by simpa [MMsg.view, hr] using h⟩
  induction h with
  | any hq hret hn hab =>
    intro p mem hm ht
    obtain ⟨s, h0, rfl⟩ := hraw mem ht
    obtain ⟨q, q', h1, h2, h3, h4⟩ := hq
    exact any_two hp (evalM_spec (fun _ h => collects_one hp h) _ hn) hab hret hI hrel h0 (hm.1 s h0) h1 h2 h3 h4
  | all hq hn hab =>
    intro p mem hm ht
    obtain ⟨s, h0, rfl⟩ := hraw mem ht
    obtain ⟨q, q', h1, h2, h3, h4⟩ := hq
    exact all_two hp (evalM_spec (fun _ h => collects_one hp h) _ hn) hab hI hrel h0 (hm.1 s h0) h1 h2 h3 h4
  | not h ih =>
    intro p mem hm ht
    rw [eval, evalM]
    rcases out_cases (ih (1 :: p) mem hm ht) with ⟨e, h1, h2⟩ | ⟨o, o', h1, h2, h3, h4⟩
    · rw [h1, h2]; rfl
    · rw [h1, h2]; simp only [Go.ok_bind, ← h3]; rfl
  | and hns h ih =>
    intro p mem hm ht
    rw [eval, evalM]
    exact and_out hp ih _ 1 [] mem hns hm ht
  | or hns h ih =>
    intro p mem hm ht
    rw [eval, evalM]
    exact or_out hp ih _ 1 false [] mem hns hm ht

theorem two_out (hp : PlaceOk env) (hI : mm.msg.rawI = none) (hrel : mm.rel = none) (hraw : mm.raw = some s) (hs : Inside mem s) {n : Node} (h : TwoPaths env (mem.read s) n)
    (p : List Nat) : SameOutM (eval env.toEnv n p (mm.view mem)) (evalM env n p mm mem) := by
  refine two_out' hp hI hrel h p mem ⟨fun x hx => ?_, fun x hx => ?_⟩ (by simp [MMsg.view, hraw])
  · rw [hraw] at hx; cases hx; exact hs
  · rw [hrel] at hx; cases hx

/-- After lazy preparation there is no prepared rule, or it is ready and its tree has the property. -/
def ReadyTree (T : Node → Prop) (r : RuleObj) : Prop := ∀ rule, r.prepared = some rule → r.ready = true ∧ ∀ n, rule.conditions = some n → T n

theorem setPredefined_tree (ho : env.OrdOk) {t : Predef} {p : List Nat} {P T : Node → Prop} (hPT : ∀ n n', P n → n.prepare env.toExt t = .ok n' → T n')
    {r r1 : RuleObj} {e : Option Err} (hf : r.prepared = none) (hc : ∀ n, r.body.conditions = some n → Copyable env.toExt n ∧ P n)
    (h : r.setPredefined env.toEnv p t = .ok (r1, e)) : ReadyTree T r1 := by
  intro rule hr
  cases e with
  | some e =>
    have : r1.prepared = none := by
      simp only [RuleObj.setPredefined] at h
      split at h
      · cases h
      · simp at h; rw [← h.1]; exact hf
      · split at h
        · cases h
        · simp at h; rw [← h.1]; exact hf
        · simp at h
    rw [this] at hr; cases hr
  | none =>
    obtain ⟨copy, rule', h1, h2, rfl⟩ := setPredefined_ok h
    cases hr
    refine ⟨rfl, fun n' hn => ?_⟩
    obtain ⟨n, h3, h4⟩ := prepareOneRule_tree h2 hn
    rw [copyRule_copyable ho (fun n hn => (hc n hn).1)] at h1
    cases h1
    exact hPT n n' (hc n h3).2 h4

theorem ensure_tree (ho : env.OrdOk) {P T : Node → Prop} (hPT : ∀ t n n', P n → n.prepare env.toExt t = .ok n' → T n') {r r1 : RuleObj} {p : List Nat}
    (hr : ReadWith env.toEnv g P r) (h : r.ensure env.toEnv p g = .ok r1) : ReadyTree T r1 := by
  obtain ⟨b, t, hl, hc⟩ := hr
  cases hl with
  | parsed hf =>
    simp only [RuleObj.ensure, hf.ready, Bool.false_eq_true, if_false, Except.map] at h
    split at h
    · cases h
    · next x hs =>
      cases h
      exact setPredefined_tree ho (hPT _) hf.prepared hc hs
  | prepared hf hs =>
    simp only [RuleObj.ensure, setPredefined_ready hs, if_true] at h
    cases h
    exact setPredefined_tree ho (hPT _) hf.prepared hc hs

/-- The same result and the same returned values for a rule. -/
def SameRuleOutM (r : Go RuleOut) (r' : Go RuleOutM) : Prop := r.map (fun o => (o.result, o.extra)) = r'.map (fun o => (o.result, o.extra))

theorem ruleM_out {r : RuleObj} {p : List Nat}
    (hr : ∀ r1, r.ensure env.toEnv (0 :: p) g = .ok r1 → ReadyTree (fun n => ∀ p, SameOutM (eval env.toEnv n p (mm.view mem)) (evalM env n p mm mem)) r1) :
    SameRuleOutM (r.check env.toEnv g p (mm.view mem)) (r.checkM env g p mm mem) := by
  unfold RuleObj.check RuleObj.checkM
  cases h1 : r.ensure env.toEnv (0 :: p) g with
  | error e => rfl
  | ok r1 =>
    have hw := hr r1 h1
    simp only [Go.ok_bind]
    cases h2 : r1.prepared with
    | none => rfl
    | some rule =>
      obtain ⟨hready, htree⟩ := hw rule h2
      simp only [deref, Go.ok_bind]
      generalize hrule : convertOnUse env.toExt rule = rule'
      have hcond : rule'.conditions = rule.conditions := by rw [← hrule]; exact convertOnUse_same
      cases testSender env.toExt rule' (mm.view mem) with
      | error e => rfl
      | ok b1 =>
      cases b1 with
      | false => rfl
      | true =>
      cases testReceiver env.toExt rule' (mm.view mem) with
      | error e => rfl
      | ok b2 =>
      cases b2 with
      | false => rfl
      | true =>
      simp only [Go.ok_bind]
      cases matchPtr env.toExt rule'.operationRegex (mm.view mem).requestMethod with
      | error e => rfl
      | ok b3 =>
      cases b3 with
      | false => rfl
      | true =>
      simp only [Go.ok_bind]
      cases testResource env.toExt rule' (mm.view mem) with
      | error e => rfl
      | ok b4 =>
      cases b4 with
      | false => rfl
      | true =>
      simp only [Go.ok_bind]
      cases hc : rule'.conditions with
      | none => rfl
      | some n =>
        simp only [not_true_eq_false, if_false]
        have hs := htree n (hcond ▸ hc) (1 :: 1 :: p)
        simp only [RuleObj.testConditions, RuleObj.testConditionsM, RuleObj.ensure, hready, if_true, Go.ok_bind, testPreparedConditions, testPreparedConditionsM, deref, hc]
        cases hv : eval env.toEnv n (1 :: 1 :: p) (mm.view mem) with
        | error e =>
          rw [hv] at hs
          cases hv' : evalM env n (1 :: 1 :: p) mm mem with
          | error e' => rw [hv'] at hs; cases hs; rfl
          | ok o' => rw [hv'] at hs; cases hs
        | ok o =>
          rw [hv] at hs
          cases hv' : evalM env n (1 :: 1 :: p) mm mem with
          | error e' => rw [hv'] at hs; cases hs
          | ok o' =>
            rw [hv'] at hs
            obtain ⟨h1, h2⟩ := Prod.mk.inj (Except.ok.inj hs)
            simp only [Go.pure_eq, Go.ok_bind, ← h1, ← h2]
            by_cases hf : o.flag = false
            · rw [if_pos hf, if_pos hf]; rfl
            · rw [if_neg hf, if_neg hf]; rfl

theorem checkRulesM_last {Q : AnyAll → Prop} (hQ : ∀ a, Q a → Collects env a.parentArr) {r : RuleObj} : ∀ {rs : List RuleObj} {i : Nat} {mem : Mem},
    (∀ r ∈ rs, ∀ p r1, r.ensure env.toEnv p g = .ok r1 → ReadyWith Q r1) → InMemory mem mm →
    (∀ p mem', Untouched mem mem' → SameRuleOutM (r.check env.toEnv g p (mm.view mem')) (r.checkM env g p mm mem')) →
    (checkRules env.toEnv g i (mm.view mem) (rs ++ [r])).map (·.1) = (checkRulesM env g i mm mem (rs ++ [r])).map (·.1)
  | [], i, mem, _, hm, hr => by
    have h := hr [i] mem (untouched_refl _)
    simp only [List.nil_append, checkRules, checkRulesM]
    unfold SameRuleOutM at h
    cases hv : r.check env.toEnv g [i] (mm.view mem) with
    | error e =>
      rw [hv] at h
      cases hv' : r.checkM env g [i] mm mem with
      | error e' => rw [hv'] at h; cases h; rfl
      | ok o' => rw [hv'] at h; cases h
    | ok o =>
      rw [hv] at h
      cases hv' : r.checkM env g [i] mm mem with
      | error e' => rw [hv'] at h; cases h
      | ok o' =>
        rw [hv'] at h
        obtain ⟨h1, h2⟩ := Prod.mk.inj (Except.ok.inj h)
        show Except.ok [(o.result, o.extra)] = Except.ok [(o'.result, o'.extra)]
        rw [h1, h2]
  | r0 :: rs, i, mem, h0, hm, hr => by
    have h := ruleM_spec (g := g) (p := [i]) hQ (h0 r0 (by simp) _) hm
    rw [List.cons_append, checkRules, checkRulesM]
    cases hv : r0.check env.toEnv g [i] (mm.view mem) with
    | error e => rw [hv] at h; rw [show r0.checkM env g [i] mm mem = .error e from h]; rfl
    | ok o =>
      rw [hv] at h
      obtain ⟨mem', h1, hu⟩ := h
      have hmsg : o.msg = mm.view mem := ruleCheck_msg hv
      rw [h1, Go.ok_bind, Go.ok_bind, hmsg, ← hm.view hu]
      have ih := checkRulesM_last hQ (r := r) (rs := rs) (i := i + 1) (mem := mem') (fun x hx => h0 x (by simp [hx])) (hm.mono hu) fun p mem2 hu2 => hr p mem2 (hu.trans hu2)
      cases hl : checkRules env.toEnv g (i + 1) (mm.view mem') (rs ++ [r]) with
      | error e =>
        rw [hl] at ih
        cases hl' : checkRulesM env g (i + 1) mm mem' (rs ++ [r]) with
        | error e' => rw [hl'] at ih; cases ih; rfl
        | ok l' => rw [hl'] at ih; cases ih
      | ok l =>
        rw [hl] at ih
        cases hl' : checkRulesM env g (i + 1) mm mem' (rs ++ [r]) with
        | error e' => rw [hl'] at ih; cases ih
        | ok l' =>
          rw [hl'] at ih
          have := Except.ok.inj ih
          show Except.ok ((o.result, o.extra) :: l.1) = Except.ok ((o.result, o.extra) :: l'.1)
          simp only at this
          rw [this]

theorem check_rules {rs : List RuleObj} (h : (checkRules env.toEnv g 0 (mm.view mem) rs).map (·.1) = (checkRulesM env g 0 mm mem rs).map (·.1)) :
    (checkM env g mm mem rs).map (fun o => CheckOut.answer o.out) = (check env.toEnv g (mm.view mem) rs).map CheckOut.answer := by
  unfold check checkM
  cases hl : checkRules env.toEnv g 0 (mm.view mem) rs with
  | error e =>
    rw [hl] at h
    cases hl' : checkRulesM env g 0 mm mem rs with
    | error e' => rw [hl'] at h; cases h; rfl
    | ok l' => rw [hl'] at h; cases h
  | ok l =>
    rw [hl] at h
    cases hl' : checkRulesM env g 0 mm mem rs with
    | error e' => rw [hl'] at h; cases h
    | ok l' =>
      rw [hl'] at h
      have := Except.ok.inj h
      simp only at this
      obtain ⟨l1, m1⟩ := l
      obtain ⟨l2, m2, m3⟩ := l'
      simp only at this
      subst this
      simp only [Go.ok_bind]
      cases decisionNames[(aggregate 0 {} ((l1.map (·.1)).zip (rs.map describe))).maxDecision]? <;> rfl

end

end Mapl

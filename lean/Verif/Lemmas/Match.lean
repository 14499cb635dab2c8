import Verif.Spec.Match
import Verif.Lemmas.Decision
import Verif.Lemmas.Order

/-! # Matching of the parts of a rule -/

namespace Mapl

open Spec

variable {env : Env} {g t : Predef} {m : Msg} {p : List Nat}

theorem matchPtr_ok {env : Ext} {re : Option Re} {s : Str} {b : Bool} (h : matchPtr env re s = .ok b) :
    b = true ↔ Accepts env re s := by
  cases re with
  | none => simp [matchPtr] at h
  | some r => simp [matchPtr] at h; subst h; simp [Accepts, Re.matches]

theorem addressMatches_iff (e : ExpandedSR) (text : Str) (ip : IP) :
    (if e.isCIDR then e.cidr.contains ip else if e.isIP then e.name == text else false) = true ↔
      AddressMatches e text ip := by
  unfold AddressMatches
  split
  · rfl
  · split <;> simp [*]

theorem senderLoop_iff {env : Ext} {ty : Str} : ∀ {l : List ExpandedSR} {b : Bool}, (∀ e ∈ l, e.type = ty) →
    senderLoop env m l = .ok b → (b = true ↔ ∃ e ∈ l, SenderEntry env e m)
  | [], b, _, h => by simp [senderLoop] at h; subst h; simp
  | e :: es, b, hty, h => by
    have hes : ∀ x ∈ es, x.type = ty := fun x hx => hty x (List.mem_cons_of_mem _ hx)
    have he : e.type = ty := hty e (by simp)
    simp only [senderLoop] at h
    simp only [List.mem_cons, exists_eq_or_imp]
    refine ite_elim h (fun h1 h => ?_) fun h1 h => ?_
    · have key := addressMatches_iff e m.sourceIp m.sourceNetIp
      refine ite_elim h (fun h2 h => ?_) fun h2 h => ?_
      · simp at h; subst h
        simp only [true_iff]
        exact Or.inl (Or.inl ⟨h1, key.1 h2⟩)
      · have := senderLoop_iff hes h
        rw [this]
        constructor
        · exact Or.inr
        · rintro ((⟨_, h3⟩ | ⟨h3, _⟩) | h3)
          · exact absurd (key.2 h3) h2
          · rw [h1] at h3; simp at h3
          · assumption
    · refine ite_elim h (fun h2 h => ?_) fun h2 h => ?_
      · simp only [Go.bind_eq_ok] at h
        obtain ⟨x, hx, h⟩ := h
        have key := matchPtr_ok hx
        refine ite_elim h (fun h3 h => ?_) fun h3 h => ?_
        · simp at h; subst h
          simp only [true_iff]
          exact Or.inl (Or.inr ⟨h2, key.1 h3⟩)
        · rw [senderLoop_iff hes h]
          constructor
          · exact Or.inr
          · rintro ((⟨h4, _⟩ | ⟨_, h4⟩) | h4)
            · exact absurd h4 h1
            · exact absurd (key.2 h4) h3
            · assumption
      · simp at h; subst h
        simp only [Bool.false_eq_true, false_iff, not_or, not_exists, not_and]
        have none_of : ∀ x : ExpandedSR, x.type = ty → ¬ SenderEntry env x m := by
          intro x hx
          rw [he] at h1 h2
          rintro (⟨h3, _⟩ | ⟨h3, _⟩) <;> rw [hx] at h3
          · exact h1 h3
          · exact h2 h3
        exact ⟨none_of e he, fun x hx => none_of x (hes x hx)⟩

theorem receiverLoop_iff {env : Ext} {ty : Str} : ∀ {l : List ExpandedSR} {b : Bool}, (∀ e ∈ l, e.type = ty) →
    receiverLoop env m l = .ok b → (b = true ↔ ∃ e ∈ l, ReceiverEntry env e m)
  | [], b, _, h => by simp [receiverLoop] at h; subst h; simp
  | e :: es, b, hty, h => by
    have hes : ∀ x ∈ es, x.type = ty := fun x hx => hty x (List.mem_cons_of_mem _ hx)
    have he : e.type = ty := hty e (by simp)
    simp only [receiverLoop] at h
    simp only [List.mem_cons, exists_eq_or_imp]
    refine ite_elim h (fun h1 h => ?_) fun h1 h => ?_
    · have key := addressMatches_iff e m.destinationIp m.destinationNetIp
      refine ite_elim h (fun h2 h => ?_) fun h2 h => ?_
      · simp at h; subst h
        simp only [true_iff]
        exact Or.inl (Or.inl ⟨h1, key.1 h2⟩)
      · rw [receiverLoop_iff hes h]
        constructor
        · exact Or.inr
        · rintro ((⟨_, h3⟩ | ⟨h3, _⟩ | ⟨h3, _⟩) | h3)
          · exact absurd (key.2 h3) h2
          · rw [h1] at h3; simp at h3
          · rw [h1] at h3; simp at h3
          · assumption
    · refine ite_elim h (fun h2 h => ?_) fun h2 h => ?_
      · simp only [Go.bind_eq_ok] at h
        obtain ⟨x, hx, h⟩ := h
        have key := matchPtr_ok hx
        refine ite_elim h (fun h3 h => ?_) fun h3 h => ?_
        · simp at h; subst h
          simp only [true_iff]
          exact Or.inl (Or.inr (Or.inl ⟨h2, key.1 h3⟩))
        · rw [receiverLoop_iff hes h]
          constructor
          · exact Or.inr
          · rintro ((⟨h4, _⟩ | ⟨_, h4⟩ | ⟨h4, _⟩) | h4)
            · exact absurd h4 h1
            · exact absurd (key.2 h4) h3
            · rw [h2] at h4; simp at h4
            · assumption
      · refine ite_elim h (fun h2' h => ?_) fun h2' h => ?_
        · simp only [Go.bind_eq_ok] at h
          obtain ⟨x, hx, h⟩ := h
          have key := matchPtr_ok hx
          refine ite_elim h (fun h3 h => ?_) fun h3 h => ?_
          · simp at h; subst h
            simp only [true_iff]
            exact Or.inl (Or.inr (Or.inr ⟨h2', key.1 h3⟩))
          · rw [receiverLoop_iff hes h]
            constructor
            · exact Or.inr
            · rintro ((⟨h4, _⟩ | ⟨h4, _⟩ | ⟨_, h4⟩) | h4)
              · exact absurd h4 h1
              · exact absurd h4 h2
              · exact absurd (key.2 h4) h3
              · assumption
        · simp at h; subst h
          simp only [Bool.false_eq_true, false_iff, not_or, not_exists, not_and]
          have none_of : ∀ x : ExpandedSR, x.type = ty → ¬ ReceiverEntry env x m := by
            intro x hx
            rw [he] at h1 h2 h2'
            rintro (⟨h3, _⟩ | ⟨h3, _⟩ | ⟨h3, _⟩) <;> rw [hx] at h3
            · exact h1 h3
            · exact h2 h3
            · exact h2' h3
          exact ⟨none_of e he, fun x hx => none_of x (hes x hx)⟩

theorem testResource_iff {env : Ext} {r : Rule} {b : Bool} (h : testResource env r m = .ok b) :
    b = true ↔ ResourceMatches env r m := by
  unfold testResource at h
  unfold ResourceMatches
  refine ite_elim h (fun h1 h => ?_) fun h1 h => ?_
  · rw [if_pos h1]; exact matchPtr_ok h
  · rw [if_neg h1]
    refine ite_elim h (fun h2 h => ?_) fun h2 h => ?_
    · rw [if_neg h2]
      refine ite_elim h (fun h3 h => ?_) fun h3 h => ?_
      · simp at h; subst h
        simp [equalFold, toLower] at h3
        simp [SameUpToCase, h3]
      · simp [equalFold, toLower] at h3
        refine ite_elim h (fun h4 h => ?_) fun h4 h => ?_
        · simp at h; subst h
          have h5 : ¬ (r.resourceType = gs"*" ∨ r.resourceType = m.contextType) := by
            rintro (h5 | h5)
            · exact h4.1 h5
            · exact h4.2 h5.symm
          simp [h5]
        · rw [matchPtr_ok h]
          have h5 : r.resourceType = gs"*" ∨ r.resourceType = m.contextType := by
            by_contra hc
            simp only [not_or] at hc
            exact h4 ⟨hc.1, fun h => hc.2 h.symm⟩
          simp [SameUpToCase, h3, h5]
    · simp at h; subst h
      simp at h2
      simp [h2]

theorem convertOnUse_converted {env : Ext} {r : Rule} (h : r.converted = true) : convertOnUse env r = r := by
  simp [convertOnUse, h]

theorem decisionCode_eq (s : Str) : decisionCode s = (decisionOf s).rank := by
  unfold decisionCode decisionOf
  simp only [List.mem_cons, List.not_mem_nil, or_false]
  split
  · rfl
  · split
    · rfl
    · split <;> rfl

/-- Checking a prepared rule, in one execution. -/
theorem ruleCheck_prepared {r : RuleObj} {rule : Rule} {o : RuleOut} (hr : r.ready = true) (hp : r.prepared = some rule)
    (hx : Expanded rule) (hck : r.check env g p m = .ok o) :
    (PartsMatch env rule m ∧ (∀ n, rule.conditions = some n → Holds env n (1 :: 1 :: p) m) →
      o.result = (decisionOf rule.decision).rank) ∧
    (¬ (PartsMatch env rule m ∧ (∀ n, rule.conditions = some n → Holds env n (1 :: 1 :: p) m)) →
      o.result = Decision.default.rank ∧ o.extra = []) ∧
    (o.result = Decision.default.rank → o.extra = []) := by
  obtain ⟨r1, rule0, he, hp', rule', r2, h1, h2, h⟩ := ruleCheck_inv hck
  clear * - he hp hp' h1 h2 h hr hx
  have := ensure_ready hr he
  subst this
  rw [hp] at hp'
  simp at hp'; subst hp'
  rw [convertOnUse_converted hx.converted] at h1
  subst h1
  have hS : ∀ b, testSender env rule' m = .ok b → (b = true ↔ ∃ e ∈ rule'.senderList, SenderEntry env e m) := by
    intro b hb
    simp only [testSender, convertOnUse_converted hx.converted] at hb
    exact senderLoop_iff hx.sender hb
  have hR : ∀ b, testReceiver env rule' m = .ok b → (b = true ↔ ∃ e ∈ rule'.receiverList, ReceiverEntry env e m) := by
    intro b hb
    simp only [testReceiver, convertOnUse_converted hx.converted] at hb
    exact receiverLoop_iff hx.receiver hb
  have hO : ∀ b, matchPtr env rule'.operationRegex m.requestMethod = .ok b → (b = true ↔ Accepts env rule'.operationRegex m.requestMethod) :=
    fun b hb => matchPtr_ok hb
  have hT : ∀ b, testResource env rule' m = .ok b → (b = true ↔ ResourceMatches env rule' m) := fun b hb => testResource_iff hb
  rcases h with ⟨h0, h⟩ | ⟨a1, a2, a3, a4, h⟩
  · subst h0
    have hno : ¬ PartsMatch env rule' m := by
      rintro ⟨m1, m2, m3, m4⟩
      rcases h with h | ⟨_, h⟩ | ⟨_, _, h⟩ | ⟨_, _, _, h⟩
      · exact absurd ((hS _ h).2 m1) (by simp)
      · exact absurd ((hR _ h).2 m2) (by simp)
      · exact absurd ((hO _ h).2 m3) (by simp)
      · exact absurd ((hT _ h).2 m4) (by simp)
    exact ⟨fun hm => absurd hm.1 hno, fun _ => ⟨rfl, rfl⟩, fun _ => rfl⟩
  · have hyes : PartsMatch env rule' m := ⟨(hS _ a1).1 rfl, (hR _ a2).1 rfl, (hO _ a3).1 rfl, (hT _ a4).1 rfl⟩
    rcases h with ⟨hn, rfl⟩ | ⟨n, e, r3, hn, ht, h⟩
    · refine ⟨fun _ => decisionCode_eq _, fun hno => absurd ⟨hyes, fun n hn' => ?_⟩ hno, fun _ => rfl⟩
      rw [hn] at hn'; simp at hn'
    · have hh : e.flag = true ↔ Holds env n (1 :: 1 :: p) m := by
        subst h2
        simp only [RuleObj.testConditions, Go.bind_eq_ok] at ht
        obtain ⟨r4, h5, o1, h6, ht⟩ := ht
        have := ensure_ready (r := { r1 with prepared := some rule' }) hr h5
        subst this
        simp at ht
        obtain ⟨rfl, rfl⟩ := ht
        simp only [testPreparedConditions, Go.bind_eq_ok, deref_eq_ok] at h6
        obtain ⟨r5, h7, h6⟩ := h6
        simp at h7; subst h7
        rw [hn] at h6
        exact eval_holds _ _ _ _ _ h6
      rcases h with ⟨hf, rfl⟩ | ⟨hf, rfl⟩
      · refine ⟨fun hm => ?_, fun _ => ⟨rfl, rfl⟩, fun _ => rfl⟩
        have := hh.2 (hm.2 n hn)
        rw [hf] at this; simp at this
      · have hall : ∀ n, rule'.conditions = some n → Holds env n (1 :: 1 :: p) m := by
          intro n' hn'
          rw [hn] at hn'
          simp at hn'; subst hn'
          exact hh.1 hf
        refine ⟨fun _ => decisionCode_eq _, fun hno => absurd ⟨hyes, hall⟩ hno, ?_⟩
        intro hd
        simp only [Decision.rank] at hd
        simp only [hd, if_true]

/-! ## What preparation keeps -/

theorem mapM_expandOne {env : Ext} {ty : Str} : ∀ {l : List Str} {es : List ExpandedSR}, l.mapM (expandOne env ty) = .ok es →
    ∀ e ∈ es, e.type = ty
  | [], es, h => by simp at h; subst h; simp
  | s :: l, es, h => by
    simp only [List.mapM_cons, Go.bind_eq_ok] at h
    obtain ⟨e, he, es', hes, h⟩ := h
    simp at h; subst h
    intro x hx
    rcases List.mem_cons.1 hx with rfl | hx
    · simp only [expandOne] at he
      refine ite_elim he (fun _ h => by simp at h) fun _ h => ?_
      split at h
      · simp at h
      · simp at h; subst h; rfl
    · exact mapM_expandOne hes x hx

/-- What conversion of a not yet converted rule gives. -/
theorem convertFields_ok {env : Ext} {r r' : Rule} (hc : r.converted = false) (h : convertFields env r = .ok r') :
    ∃ sl rl op re, convertStringToExpandedSenderReceiver env r.senderName r.senderType = .ok sl ∧
      convertStringToExpandedSenderReceiver env r.receiverName r.receiverType = .ok rl ∧
      compile env (convertOperationStringToRegex r.operation) = some op ∧
      compile env (convertStringToRegex r.resourceName gs"WithWildcards") = some re ∧
      r' = { r with senderList := sl, receiverList := rl, operationRegex := some op, resourceNameRegex := some re,
                    converted := true } := by
  unfold convertFields convertFieldsToRegex at h
  simp only [hc, Bool.false_eq_true, if_false] at h
  cases h1 : convertStringToExpandedSenderReceiver env r.senderName r.senderType with
  | error e => simp [h1] at h
  | ok sl =>
    simp only [h1] at h
    cases h2 : convertStringToExpandedSenderReceiver env r.receiverName r.receiverType with
    | error e => simp [h2] at h
    | ok rl =>
      simp only [h2] at h
      cases h3 : compile env (convertOperationStringToRegex r.operation) with
      | none => simp [h3] at h
      | some op =>
        simp only [h3] at h
        cases h4 : compile env (convertStringToRegex r.resourceName gs"WithWildcards") with
        | none => simp [h4] at h
        | some re =>
          simp only [h4] at h
          simp at h
          exact ⟨sl, rl, op, re, rfl, rfl, rfl, rfl, h.symm⟩

theorem replaceStrings_ok {r r' : Rule} (h : replaceStringsAndListsInOneRule r t = .ok r') :
    ∃ s v, replaceName r.senderName t = .ok s ∧ replaceName r.receiverName t = .ok v ∧
      r' = { r with senderName := s, receiverName := v } := by
  simp only [replaceStringsAndListsInOneRule, Go.bind_eq_ok] at h
  obtain ⟨s, hs, v, hv, h⟩ := h
  simp at h
  exact ⟨s, v, hs, hv, h.symm⟩

theorem prepareConditions_ok {env : Ext} {r r' : Rule} (h : prepareConditions env t r = .ok r') :
    (r.conditions = none ∧ r' = r) ∨ ∃ n n', r.conditions = some n ∧ n.prepare env t = .ok n' ∧
      r' = { r with conditions := some n' } := by
  unfold prepareConditions at h
  split at h
  · next hn => simp at h; exact Or.inl ⟨hn, h.symm⟩
  · next n hn =>
    simp only [Go.bind_eq_ok] at h
    obtain ⟨n', h1, h⟩ := h
    simp at h
    exact Or.inr ⟨n, n', hn, h1, h.symm⟩

/-- What a successful preparation of a rule gives, in terms of the rule. -/
theorem prepareOneRule_ok {env : Ext} {r r' : Rule} (hc : r.converted = false) (h : prepareOneRule env t r = .ok r') :
    ∃ s v sl rl op re,
      replaceName r.senderName t = .ok s ∧ replaceName r.receiverName t = .ok v ∧
      convertStringToExpandedSenderReceiver env s r.senderType = .ok sl ∧
      convertStringToExpandedSenderReceiver env v r.receiverType = .ok rl ∧
      compile env (convertOperationStringToRegex r.operation) = some op ∧
      compile env (convertStringToRegex r.resourceName gs"WithWildcards") = some re ∧
      ((r.conditions = none ∧ r'.conditions = none) ∨
        ∃ n n', r.conditions = some n ∧ n.prepare env t = .ok n' ∧ r'.conditions = some n') ∧
      r' = { r with conditions := r'.conditions, senderName := s, receiverName := v, senderList := sl, receiverList := rl,
                    operationRegex := some op, resourceNameRegex := some re, converted := true } := by
  simp only [prepareOneRule, Go.bind_eq_ok] at h
  obtain ⟨r1, h1, r2, h2, h3⟩ := h
  obtain ⟨s, v, hs, hv, rfl⟩ := replaceStrings_ok h2
  have hk : r1 = { r with conditions := r1.conditions } ∧
      ((r.conditions = none ∧ r1.conditions = none) ∨
        ∃ n n', r.conditions = some n ∧ n.prepare env t = .ok n' ∧ r1.conditions = some n') := by
    rcases prepareConditions_ok h1 with ⟨hn, rfl⟩ | ⟨n, n', hn, hp, rfl⟩
    · exact ⟨rfl, Or.inl ⟨hn, hn⟩⟩
    · exact ⟨rfl, Or.inr ⟨n, n', hn, hp, rfl⟩⟩
  obtain ⟨hk1, hk2⟩ := hk
  rw [hk1] at hs hv h3
  obtain ⟨sl, rl, op, re, e1, e2, e3, e4, rfl⟩ := convertFields_ok (by simpa using hc) h3
  exact ⟨s, v, sl, rl, op, re, hs, hv, e1, e2, e3, e4, hk2, rfl⟩

theorem copyRule_ok {r r' : Rule} (h : copyRule env p r = .ok r') :
    ∃ c, copyConditions env p r.conditions = .ok c ∧
      r' = { r with conditions := c, senderList := r.senderList.map copySR, receiverList := r.receiverList.map copySR,
                    resourceNameRegex := none, operationRegex := none } := by
  simp only [copyRule, Go.bind_eq_ok] at h
  obtain ⟨c, hc, h⟩ := h
  simp at h
  exact ⟨c, hc, h.symm⟩

/-- What a successful `SetPredefinedStringsAndLists` on a rule leaves in it. -/
theorem setPredefined_ok {r r' : RuleObj} (h : r.setPredefined env p t = .ok (r', none)) :
    ∃ copy rule, copyRule env p r.body = .ok copy ∧ prepareOneRule env t copy = .ok rule ∧
      r' = { r with ready := true, predefined := t, prepared := some rule } := by
  simp only [RuleObj.setPredefined] at h
  split at h
  · simp at h
  · simp at h
  · next copy hc =>
    split at h
    · simp at h
    · simp at h
    · next rule hr =>
      simp at h
      exact ⟨copy, rule, hc, hr, h.symm⟩

theorem copyConditions_none (env : Env) (p : List Nat) : copyConditions env p none = .ok none := rfl

theorem prepareOneRule_expanded {env : Ext} {r r' : Rule} (hc : r.converted = false) (h : prepareOneRule env t r = .ok r') :
    Expanded r' := by
  obtain ⟨s, v, sl, rl, op, re, _, _, h3, h4, _, _, _, h8⟩ := prepareOneRule_ok hc h
  have a1 : r'.senderList = sl := by rw [h8]
  have a2 : r'.receiverList = rl := by rw [h8]
  have a3 : r'.senderType = r.senderType := by rw [h8]
  have a4 : r'.receiverType = r.receiverType := by rw [h8]
  have a5 : r'.converted = true := by rw [h8]
  exact ⟨a5, by rw [a1, a3]; exact mapM_expandOne h3, by rw [a2, a4]; exact mapM_expandOne h4⟩

theorem prepared_expanded {r r' : RuleObj} {rule : Rule} (hc : r.body.converted = false)
    (h : r.setPredefined env p t = .ok (r', none)) (hp : r'.prepared = some rule) : Expanded rule := by
  obtain ⟨copy, rule', h1, h2, rfl⟩ := setPredefined_ok h
  simp at hp; subst hp
  obtain ⟨c, _, rfl⟩ := copyRule_ok h1
  exact prepareOneRule_expanded (by simpa using hc) h2

/-- Checking a rule as it comes from parsing succeeds only after a successful preparation. -/
theorem fresh_check {r : RuleObj} {o : RuleOut} (hf : Fresh r) (h : r.check env g p m = .ok o) :
    ∃ r1 rule, r.setPredefined env (0 :: p) g = .ok (r1, none) ∧ r1.ready = true ∧ r1.prepared = some rule ∧
      Expanded rule ∧ r1.check env g p m = .ok o := by
  obtain ⟨r1, rule0, he, hp, _⟩ := ruleCheck_inv h
  have he' := he
  simp only [RuleObj.ensure, hf.ready, Bool.false_eq_true, if_false, Go.map_eq_ok] at he
  obtain ⟨⟨r2, e⟩, h2, rfl⟩ := he
  cases e with
  | none =>
    have hr : r2.ready = true := by
      obtain ⟨_, _, _, _, rfl⟩ := setPredefined_ok h2; rfl
    refine ⟨r2, rule0, h2, hr, hp, prepared_expanded hf.converted h2 hp, ?_⟩
    have e1 : r2.ensure env (0 :: p) g = .ok r2 := by simp [RuleObj.ensure, hr]
    rw [← h]
    simp only [RuleObj.check, he', e1]
  | some e =>
    exfalso
    simp only [RuleObj.setPredefined] at h2
    split at h2
    · simp at h2
    · simp at h2; rw [← h2.1] at hp; simp [hf.prepared] at hp
    · split at h2
      · simp at h2
      · simp at h2; rw [← h2.1] at hp; simp [hf.prepared] at hp
      · simp at h2

end Mapl

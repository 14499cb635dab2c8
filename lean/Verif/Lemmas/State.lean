import Verif.Spec.State
import Verif.Lemmas.Decision
import Verif.Lemmas.Match
import Verif.Lemmas.Leaf
import Verif.Lemmas.Crash

/-! # Histories of calls -/

namespace Mapl

open Spec

variable {env : Env} {g t : Predef} {p q : List Nat} {m : Msg}

/-! ## Tables -/

theorem stands_det {strings : List (Str × Str)} {s a b : Str} (h : Stands strings s a) (h' : Stands strings s b) : a = b := by
  cases h with
  | text h =>
    cases h' with
    | text _ => rfl
    | reference _ => exact absurd rfl (h _)
  | reference h =>
    cases h' with
    | text h' => exact absurd rfl (h' _)
    | reference h' => rw [h] at h'; simpa using h'

theorem resolveList_ok {strings : List (Str × Str)} : ∀ {l l' : List Str}, resolveList strings l = .ok l' ↔ List.Forall₂ (Stands strings) l l'
  | [], l' => by
    simp only [resolveList, List.forall₂_nil_left_iff]
    constructor
    · intro h; simp at h; exact h
    · rintro rfl; rfl
  | s :: l, l' => by
    unfold resolveList
    by_cases hp : hasPrefix s gs"#" = true
    · rw [if_pos hp]
      obtain ⟨k, rfl⟩ := hasPrefix_iff.1 hp
      have hr : replaceFirst gs"#" [] (gs"#" ++ k) = k := by
        simp [replaceFirst, List.isPrefixOf]
      rw [hr]
      cases hl : lookup k strings with
      | none =>
        constructor
        · simp
        · intro h
          cases h with
          | cons h1 h2 =>
            cases h1 with
            | text h => exact absurd rfl (h k)
            | reference h => simp [hl] at h
      | some v =>
        simp only [Go.bind_eq_ok, Go.pure_eq, Except.ok.injEq]
        constructor
        · rintro ⟨r, hr, rfl⟩
          exact .cons (.reference hl) (resolveList_ok.1 hr)
        · intro h
          cases h with
          | @cons _ b _ l' h1 h2 =>
            exact ⟨l', resolveList_ok.2 h2, by rw [stands_det h1 (.reference hl)]⟩
    · rw [if_neg hp]
      have hno : ∀ k, s ≠ '#' :: k := by
        rintro k rfl
        exact hp (by simp [hasPrefix, List.isPrefixOf])
      simp only [Go.bind_eq_ok, Go.pure_eq, Except.ok.injEq]
      constructor
      · rintro ⟨r, hr, rfl⟩
        exact .cons (.text hno) (resolveList_ok.1 hr)
      · intro h
        cases h with
        | @cons _ b _ l' h1 h2 => exact ⟨l', resolveList_ok.2 h2, by rw [stands_det h1 (.text hno)]⟩

theorem resolveLists_ok {strings : List (Str × Str)} : ∀ {l l' : List (Str × List Str)}, resolveLists strings l = .ok l' ↔
    List.Forall₂ (fun l l' => l'.1 = l.1 ∧ List.Forall₂ (Stands strings) l.2 l'.2) l l'
  | [], l' => by
    simp only [resolveLists, List.forall₂_nil_left_iff]
    constructor
    · intro h; simp at h; exact h
    · rintro rfl; rfl
  | (k, s) :: l, l' => by
    unfold resolveLists
    simp only [Go.bind_eq_ok, Go.pure_eq, Except.ok.injEq]
    constructor
    · rintro ⟨a, ha, r, hr, rfl⟩
      exact .cons ⟨rfl, resolveList_ok.1 ha⟩ (resolveLists_ok.1 hr)
    · intro h
      cases h with
      | @cons _ b _ l' h1 h2 =>
        obtain ⟨b1, b2⟩ := b
        obtain ⟨h1, h3⟩ := h1
        simp at h1; subst h1
        exact ⟨b2, resolveList_ok.2 h3, l', resolveLists_ok.2 h2, rfl⟩

theorem resolveList_error {strings : List (Str × Str)} {e : Fail} : ∀ {l : List Str}, resolveList strings l = .error e → ∃ x, e = .err x
  | [], h => by simp [resolveList] at h
  | s :: l, h => by
    unfold resolveList at h
    refine ite_elim h (fun _ h => ?_) fun _ h => ?_
    · split at h
      · simp at h; exact ⟨_, h.symm⟩
      · rcases Go.bind_eq_error.1 h with h | ⟨_, _, h⟩
        · exact resolveList_error h
        · simp at h
    · rcases Go.bind_eq_error.1 h with h | ⟨_, _, h⟩
      · exact resolveList_error h
      · simp at h

theorem resolveLists_error {strings : List (Str × Str)} {e : Fail} : ∀ {l : List (Str × List Str)}, resolveLists strings l = .error e → ∃ x, e = .err x
  | [], h => by simp [resolveLists] at h
  | (k, s) :: l, h => by
    unfold resolveLists at h
    rcases Go.bind_eq_error.1 h with h | ⟨_, _, h⟩
    · exact resolveList_error h
    · rcases Go.bind_eq_error.1 h with h | ⟨_, _, h⟩
      · exact resolveLists_error h
      · simp at h

theorem validatePredefined_ok {t t' : Predef} : validatePredefinedString t = .ok t' ↔ Validated t t' := by
  unfold validatePredefinedString
  simp only [Go.bind_eq_ok, Go.pure_eq, Except.ok.injEq]
  constructor
  · rintro ⟨l, hl, rfl⟩
    exact ⟨rfl, rfl, resolveLists_ok.1 hl⟩
  · rintro ⟨h1, h2, h3⟩
    exact ⟨_, resolveLists_ok.2 h3, by cases t'; simp_all⟩

theorem validatePredefined_error {t : Predef} {e : Fail} (h : validatePredefinedString t = .error e) :
    (∃ x, e = .err x) ∧ ¬ ∃ t', Validated t t' := by
  constructor
  · unfold validatePredefinedString at h
    rcases Go.bind_eq_error.1 h with h | ⟨_, _, h⟩
    · exact resolveLists_error h
    · simp at h
  · rintro ⟨t', h'⟩
    rw [validatePredefined_ok.2 h'] at h
    simp at h

theorem setGlobal_spec (g t : Predef) : (∃ t', Validated t t' ∧ setGlobal g t = (t', none)) ∨
    (¬ ∃ t', Validated t t') ∧ ∃ x, setGlobal g t = (g, some (.err x)) := by
  unfold setGlobal
  cases h : validatePredefinedString t with
  | ok t' => exact .inl ⟨t', validatePredefined_ok.1 h, rfl⟩
  | error e =>
    obtain ⟨⟨x, rfl⟩, h2⟩ := validatePredefined_error h
    exact .inr ⟨h2, x, rfl⟩

/-! ## Checking a prepared rule -/

/-- The conditions of a rule, at position `q`. -/
def judgeConditions (env : Env) (rule : Rule) (q : List Nat) (m : Msg) : Go EvalOut :=
  match rule.conditions with
  | some n => eval env n q m
  | none => .ok ⟨true, [], m⟩

/-- check.go:112-172 for a converted rule, the conditions being evaluated at position `q`. -/
def judge (env : Env) (rule : Rule) (q : List Nat) (m : Msg) : Go (Nat × List Extra × Msg) := do
  if ¬ (← testSender env rule m) then return (DEFAULT, [], m)
  if ¬ (← testReceiver env rule m) then return (DEFAULT, [], m)
  if ¬ (← matchPtr env rule.operationRegex m.requestMethod) then return (DEFAULT, [], m)
  if ¬ (← testResource env rule m) then return (DEFAULT, [], m)
  let o ← judgeConditions env rule q m
  if o.flag = false then return (DEFAULT, [], o.msg)
  return (decisionCode rule.decision, if decisionCode rule.decision = DEFAULT then [] else o.extra, o.msg)

theorem Go.map_bind {α β γ : Type} (x : Go α) (f : α → Go β) (h : β → γ) : (x >>= f).map h = x >>= fun a => (f a).map h := by
  cases x <;> rfl

theorem Go.map_ite {α β : Type} {P : Prop} [Decidable P] (x y : Go α) (h : α → β) :
    (if P then x else y : Go α).map h = if P then x.map h else y.map h := by
  split <;> rfl

theorem check_judge {r : RuleObj} {rule : Rule} (hr : r.ready = true) (hp : r.prepared = some rule) (hc : rule.converted = true) :
    r.check env g p m = (judge env rule (1 :: 1 :: p) m).map fun x => ⟨x.1, x.2.1, x.2.2, r⟩ := by
  have hid : ({ r with prepared := some rule } : RuleObj) = r := by rw [← hp]
  have hens : ∀ p, r.ensure env p g = .ok r := fun p => by simp [RuleObj.ensure, hr]
  unfold RuleObj.check judge
  rw [hens, Go.ok_bind, hp]
  simp only [deref, Go.ok_bind, convertOnUse_converted hc, hid, Go.map_bind, Go.map_ite]
  cases hcond : rule.conditions with
  | none =>
    simp only [judgeConditions, hcond, Go.ok_bind, Go.map_bind, Go.map_ite]
    rfl
  | some n =>
    simp only [RuleObj.testConditions, hens, Go.ok_bind, testPreparedConditions, hp, deref, hcond, bind_assoc, judgeConditions, Go.map_bind, Go.map_ite]
    rfl

theorem judge_reroot {env env' : Env} {q q' : List Nat} (h : Reroot env env' q q') (rule : Rule) (m : Msg) :
    judge env' rule q' m = judge env rule q m := by
  unfold judge judgeConditions
  simp only [h.ext, eval_reroot _ h]

/-! ## Prepared rules -/

/-- `rule` is what preparing the parsed rule `b` with table `t` gives. -/
def Made (env : Env) (b : Rule) (t : Predef) (rule : Rule) : Prop :=
  ∃ E q copy, Run env E ∧ copyRule E q b = .ok copy ∧ prepareOneRule E t copy = .ok rule

theorem convertFields_converted {env : Ext} {r r' : Rule} (h : convertFields env r = .ok r') : r'.converted = true := by
  unfold convertFields at h
  generalize hx : convertFieldsToRegex env r = x at h
  obtain ⟨x1, x2⟩ := x
  cases x2 with
  | some e => simp at h
  | none =>
    simp at h; subst h
    unfold convertFieldsToRegex at hx
    split at hx
    · next hc => simp at hx; subst hx; exact hc
    split at hx
    · simp at hx
    · dsimp only at hx
      split at hx
      · simp at hx
      · split at hx
        · simp at hx
        · split at hx
          · simp at hx
          · simp at hx; subst hx; rfl

theorem prepareOneRule_converted {env : Ext} {r r' : Rule} (h : prepareOneRule env t r = .ok r') : r'.converted = true := by
  simp only [prepareOneRule, Go.bind_eq_ok] at h
  obtain ⟨_, _, _, _, h⟩ := h
  exact convertFields_converted h

theorem Made.converted {b rule : Rule} (h : Made env b t rule) : rule.converted = true := by
  obtain ⟨_, _, _, _, _, h⟩ := h
  exact prepareOneRule_converted h

theorem setPredefined_made {E : Env} {r r' : RuleObj} (hrun : Run env E) (h : r.setPredefined E p t = .ok (r', none)) :
    ∃ rule, Made env r.body t rule ∧ r' = { r with ready := true, predefined := t, prepared := some rule } := by
  obtain ⟨copy, rule, h1, h2, h3⟩ := setPredefined_ok h
  exact ⟨rule, ⟨E, p, copy, hrun, h1, h2⟩, h3⟩

/-- A copy and an evaluation, each in its own run, as one run. -/
theorem joint {E E' : Env} (hE : Run env E) (hE' : Run env E') (q q' : List Nat) :
    ∃ F, Run env F ∧ Reroot E F q [0] ∧ Reroot E' F q' [1] := by
  let G : Nat → Env := fun i => if i = 0 then E else E'
  let Q : Nat → List Nat := fun i => if i = 0 then q else q'
  refine ⟨combine env G Q, ⟨rfl, combine_ordOk fun i => ?_⟩, ?_, ?_⟩
  · dsimp only [G]; split
    · exact hE.ord
    · exact hE'.ord
  · exact combine_reroot (E := G) (q := Q) 0 hE.ext
  · exact combine_reroot (E := G) (q := Q) 1 hE'.ext

theorem parsed_prepared {F : Env} {b copy rule : Rule} (h1 : copyRule F p b = .ok copy) (h2 : prepareOneRule F t copy = .ok rule) :
    (parsedRule b).setPredefined F p t = .ok ({ body := b, ready := true, predefined := t, prepared := some rule }, none) := by
  unfold RuleObj.setPredefined
  simp [parsedRule, h1, h2]

/-- Checking the parsed rule with a table is judging what preparation with that table gives. -/
theorem Made.verdict {b rule : Rule} (h : Made env b t rule) {E : Env} (hE : Run env E) {x : Nat × List Extra × Msg}
    (hj : judge E rule q m = .ok x) : ∃ d : Decision, x.1 = d.rank ∧ Verdict env t m (parsedRule b) d x.2.1 := by
  have hc := h.converted
  obtain ⟨E0, q0, copy, hE0, h1, h2⟩ := h
  -- evaluation takes place at `1 :: 1 :: p`
  obtain ⟨F, hF, r0, r1⟩ := joint hE0 hE q0 q
  let G : Env := { F with ord := fun p l => F.ord (if p.getLast? = some 0 then p else p.dropLast) l }
  have hG : Run env G := ⟨hF.ext, fun p l => hF.ord _ _⟩
  have g0 : Reroot F G [0] [0] := ⟨rfl, fun p l => by simp [G]⟩
  have g1 : Reroot F G [1] [1, 1] := ⟨rfl, fun p l => by simp [G]⟩
  have hcopy : copyRule G [0] b = .ok copy := by rw [copyRule_reroot g0, copyRule_reroot r0, h1]
  have hprep : prepareOneRule G t copy = .ok rule := by
    rw [show (G.toExt) = E0.toExt from hG.ext.trans hE0.ext.symm]; exact h2
  have hset := parsed_prepared hcopy hprep
  have hck : (parsedRule b).check G t [] m = .ok ⟨x.1, x.2.1, x.2.2, { body := b, ready := true, predefined := t, prepared := some rule }⟩ := by
    rw [check_unready rfl hset rfl, check_judge rfl rfl hc, judge_reroot g1, judge_reroot r1, hj]
    rfl
  obtain ⟨d, hd⟩ := ruleCheck_rank hck
  exact ⟨d, hd, G, [], _, hG, hck, hd, rfl⟩

/-- The same for the conditions alone. -/
theorem Made.tested {b rule : Rule} (h : Made env b t rule) {E : Env} (hE : Run env E) {o : EvalOut}
    (hj : testPreparedConditions E q (some rule) m = .ok o) :
    ∃ env' p r, Run env env' ∧ (parsedRule b).testConditions env' t p m = .ok (o, r) := by
  obtain ⟨E0, q0, copy, hE0, h1, h2⟩ := h
  obtain ⟨F, hF, r0, r1⟩ := joint hE0 hE q0 q
  have hcopy : copyRule F [0] b = .ok copy := by rw [copyRule_reroot r0, h1]
  have hprep : prepareOneRule F t copy = .ok rule := by
    rw [show (F.toExt) = E0.toExt from hF.ext.trans hE0.ext.symm]; exact h2
  have hset := parsed_prepared hcopy hprep
  have htest : testPreparedConditions F [1] (some rule) m = .ok o := by
    rw [← hj]
    unfold testPreparedConditions
    simp only [eval_reroot _ r1]
  refine ⟨F, [], { body := b, ready := true, predefined := t, prepared := some rule }, hF, ?_⟩
  unfold RuleObj.testConditions
  rw [ensure_of_unready rfl hset, Go.ok_bind]
  dsimp only
  rw [htest]
  rfl

/-- The same for the translation to queries. -/
theorem Made.translated {b rule : Rule} (h : Made env b t rule) {E : Env} (hE : Run env E) {q : Go MResult}
    (hj : translation E (some rule) base = .ok q) :
    ∃ env' p r, Run env env' ∧ (parsedRule b).toMongoQuery env' t p base = .ok (r, q) := by
  obtain ⟨E0, q0, copy, hE0, h1, h2⟩ := h
  obtain ⟨F, hF, r0, _⟩ := joint hE0 hE q0 []
  have hcopy : copyRule F [0] b = .ok copy := by rw [copyRule_reroot r0, h1]
  have hprep : prepareOneRule F t copy = .ok rule := by
    rw [show (F.toExt) = E0.toExt from hF.ext.trans hE0.ext.symm]; exact h2
  have hset := parsed_prepared hcopy hprep
  have hj' : translation F (some rule) base = .ok q := by
    rw [show (F.toExt) = E.toExt from hF.ext.trans hE.ext.symm]; exact hj
  have hens := ensure_of_unready (r := parsedRule b) rfl hset
  refine ⟨F, [0], { body := b, ready := true, predefined := t, prepared := some rule }, hF, ?_⟩
  rw [toMongoQuery_eq, hens, Go.ok_bind]
  dsimp only
  rw [hj']
  rfl

/-! ## Histories -/

/-- What a rule object looks like that comes from the parsed rule `b` and holds the table `own`. -/
def Keeps (env : Env) (b : Rule) (own : Option Predef) (r : RuleObj) : Prop :=
  r.body = b ∧ match own with
    | none => r.ready = false ∧ r.prepared = none
    | some t => r.ready = true ∧ ∃ rule, r.prepared = some rule ∧ Made env b t rule

/-- The invariant of histories. -/
structure Agrees (env : Env) (bodies : List Rule) (s : Tables) (w : World) : Prop where
  global : w.global = s.global
  length : w.rules.length = bodies.length
  keeps : ∀ (i : Nat) (b : Rule) (r : RuleObj), bodies[i]? = some b → w.rules[i]? = some r → Keeps env b (s.own i) r

theorem parsedRule_body (b : Rule) : (parsedRule b).body = b := rfl

theorem setPredefined_failed {r r' : RuleObj} {e : Err} (h : r.setPredefined env p t = .ok (r', some e)) :
    r'.ready = false ∧ r'.prepared = r.prepared ∧ r'.body = r.body := by
  simp only [RuleObj.setPredefined] at h
  split at h
  · simp at h
  · simp at h; obtain ⟨rfl, _⟩ := h; exact ⟨rfl, rfl, rfl⟩
  · split at h
    · simp at h
    · simp at h; obtain ⟨rfl, _⟩ := h; exact ⟨rfl, rfl, rfl⟩
    · simp at h

/-- Lazy preparation that leaves a prepared rule: the rule then holds the table in force. -/
theorem keeps_ensure {E : Env} {s : Tables} {i : Nat} {b : Rule} {r r' : RuleObj} {rule : Rule} (hrun : Run env E)
    (hk : Keeps env b (s.own i) r) (he : r.ensure E p s.global = .ok r') (hp : r'.prepared = some rule) :
    Keeps env b (some (s.inForce i)) r' ∧ Made env b (s.inForce i) rule := by
  obtain ⟨hb, hk⟩ := hk
  cases ho : s.own i with
  | some t =>
    rw [ho] at hk
    obtain ⟨hr, rule', hp', hm⟩ := hk
    have := ensure_ready hr he
    subst this
    rw [hp'] at hp; simp at hp; subst hp
    have hf : s.inForce i = t := by simp [Tables.inForce, ho]
    rw [hf]
    exact ⟨⟨hb, hr, rule', hp', hm⟩, hm⟩
  | none =>
    rw [ho] at hk
    obtain ⟨hr, hp'⟩ := hk
    have hf : s.inForce i = s.global := by simp [Tables.inForce, ho]
    rw [hf]
    simp only [RuleObj.ensure, hr] at he
    rw [if_neg (by simp), Go.map_eq_ok] at he
    obtain ⟨⟨x, e⟩, hx, rfl⟩ := he
    cases e with
    | some e =>
      obtain ⟨_, h2, _⟩ := setPredefined_failed hx
      simp only [h2, hp'] at hp
      simp at hp
    | none =>
      obtain ⟨rule', hm, rfl⟩ := setPredefined_made hrun hx
      simp at hp; subst hp
      rw [hb] at hm
      exact ⟨⟨hb, rfl, rule', rfl, hm⟩, hm⟩

theorem check_keeps {E : Env} {s : Tables} {i : Nat} {b : Rule} {r : RuleObj} {o : RuleOut} (hrun : Run env E)
    (hk : Keeps env b (s.own i) r) (h : r.check E s.global p m = .ok o) :
    Keeps env b (some (s.inForce i)) o.rule ∧ ∃ d : Decision, o.result = d.rank ∧ Verdict env (s.inForce i) m (parsedRule b) d o.extra := by
  obtain ⟨r1, rule0, he, hp, _⟩ := ruleCheck_inv h
  obtain ⟨hk1, hm⟩ := keeps_ensure hrun hk he hp
  have hr1 : r1.ready = true := hk1.2.1
  have hck : r.check E s.global p m = r1.check E s.global p m := by
    unfold RuleObj.check
    rw [he, ensure_of_ready hr1]
  rw [hck, check_judge hr1 hp hm.converted, Go.map_eq_ok] at h
  obtain ⟨x, hj, rfl⟩ := h
  obtain ⟨d, hd, hv⟩ := hm.verdict hrun hj
  exact ⟨hk1, d, hd, hv⟩

theorem run_call (ho : env.OrdOk) (k : Nat) : Run env (env.call k) := ⟨rfl, fun _ _ => ho _ _⟩

theorem agrees_put {bodies : List Rule} {s : Tables} {w : World} {i : Nat} {b : Rule} {r' : RuleObj} {t : Predef} (h : Agrees env bodies s w)
    (hb : bodies[i]? = some b) (hk : Keeps env b (some t) r') : Agrees env bodies (s.hold i t) (w.put i r') where
  global := h.global
  length := by simp [World.put, h.length]
  keeps j c r hc hr := by
    simp only [World.put, Tables.hold] at hr ⊢
    by_cases hij : j = i
    · subst hij
      rw [if_pos rfl]
      rw [List.getElem?_set_self'] at hr
      have hl : j < w.rules.length := by
        rw [h.length]; exact (List.getElem?_eq_some_iff.1 hc).1
      rw [List.getElem?_eq_getElem hl] at hr
      simp at hr; subst hr
      rw [hb] at hc; simp at hc; subst hc
      exact hk
    · rw [if_neg hij]
      rw [List.getElem?_set_ne (by omega)] at hr
      exact h.keeps j c r hc hr

theorem agrees_rule {bodies : List Rule} {s : Tables} {w : World} {i : Nat} {r : RuleObj} (h : Agrees env bodies s w)
    (hr : w.rule i = .ok r) : ∃ b, bodies[i]? = some b ∧ Keeps env b (s.own i) r := by
  unfold World.rule at hr
  split at hr
  · next r' hw =>
    simp at hr; subst hr
    have hl : i < bodies.length := by rw [← h.length]; exact (List.getElem?_eq_some_iff.1 hw).1
    exact ⟨bodies[i], List.getElem?_eq_getElem hl, h.keeps i _ _ (List.getElem?_eq_getElem hl) hw⟩
  · simp at hr

/-- One call: the answer is the one the tables tell, and the tables go on describing the state. -/
theorem step_agrees {bodies : List Rule} {s : Tables} {w w' : World} {E : Env} {op : Op} {a : Answer} (hrun : Run env E)
    (h : Agrees env bodies s w) (hs : step E w op = .ok (w', a)) (hf : ∀ i t, op = .setRule i t → a = .status true) :
    ∃ s', Tables.Tells env bodies s op a ∧ Tables.Step s op a s' ∧ Agrees env bodies s' w' := by
  cases op with
  | setGlobal t =>
    simp only [step, Except.ok.injEq, Prod.mk.injEq] at hs
    obtain ⟨rfl, rfl⟩ := hs
    rcases setGlobal_spec w.global t with ⟨t', hv, he⟩ | ⟨hv, x, he⟩
    · rw [he]
      exact ⟨_, .setGlobal, .globalSet hv, rfl, h.length, h.keeps⟩
    · rw [he]
      exact ⟨_, .setGlobal, .globalRefused hv, h.global, h.length, h.keeps⟩
  | setRule i t =>
    have ha := hf i t rfl
    simp only [step, Go.bind_eq_ok] at hs
    obtain ⟨r, hr, ⟨r', e⟩, hx, hs⟩ := hs
    simp only [Go.pure_eq, Except.ok.injEq, Prod.mk.injEq] at hs
    obtain ⟨rfl, rfl⟩ := hs
    simp at ha; subst ha
    obtain ⟨b, hb, hk⟩ := agrees_rule h hr
    obtain ⟨rule, hm, rfl⟩ := setPredefined_made hrun hx
    rw [hk.1] at hm
    exact ⟨_, .setRule, .ruleSet, agrees_put h hb ⟨hk.1, rfl, rule, rfl, hm⟩⟩
  | checkRule i m =>
    simp only [step, Go.bind_eq_ok] at hs
    obtain ⟨r, hr, o, hx, hs⟩ := hs
    simp only [Go.pure_eq, Except.ok.injEq, Prod.mk.injEq] at hs
    obtain ⟨rfl, rfl⟩ := hs
    obtain ⟨b, hb, hk⟩ := agrees_rule h hr
    rw [h.global] at hx
    obtain ⟨hk', d, hd, hv⟩ := check_keeps hrun hk hx
    rw [hd]
    exact ⟨_, .checkRule hb hv, .ruleChecked, agrees_put h hb hk'⟩
  | testRule i m =>
    simp only [step, Go.bind_eq_ok] at hs
    obtain ⟨r, hr, ⟨o, r2⟩, hx, hs⟩ := hs
    simp only [Go.pure_eq, Except.ok.injEq, Prod.mk.injEq] at hs
    obtain ⟨rfl, rfl⟩ := hs
    obtain ⟨b, hb, hk⟩ := agrees_rule h hr
    rw [h.global] at hx
    simp only [RuleObj.testConditions, Go.bind_eq_ok] at hx
    obtain ⟨r1, he, o1, ht, hx⟩ := hx
    simp at hx; obtain ⟨rfl, rfl⟩ := hx
    have hp : ∃ rule, r1.prepared = some rule := by
      simp only [testPreparedConditions, Go.bind_eq_ok] at ht
      obtain ⟨rule, hd, _⟩ := ht
      exact ⟨rule, deref_eq_ok.1 hd⟩
    obtain ⟨rule, hp⟩ := hp
    obtain ⟨hk1, hm⟩ := keeps_ensure hrun hk he hp
    rw [hp] at ht
    obtain ⟨env', p', r', hrun', ht'⟩ := hm.tested hrun ht
    exact ⟨_, .testRule hb ⟨env', p', o1, r', hrun', ht', rfl, rfl⟩, .ruleTested, agrees_put h hb hk1⟩
  | toMongo i base =>
    simp only [step, Go.bind_eq_ok] at hs
    obtain ⟨r, hr, ⟨r2, q⟩, hx, hs⟩ := hs
    simp only [Go.pure_eq, Except.ok.injEq, Prod.mk.injEq] at hs
    obtain ⟨rfl, rfl⟩ := hs
    obtain ⟨b, hb, hk⟩ := agrees_rule h hr
    rw [h.global] at hx
    obtain ⟨r1, rule, he, hp, ht, rfl⟩ := toMongoQuery_inv hx
    obtain ⟨hk1, hm⟩ := keeps_ensure hrun hk he hp
    obtain ⟨env', p', r', hrun', ht'⟩ := hm.translated hrun ht
    exact ⟨_, .toMongo hb ⟨env', p', r', hrun', ht'⟩, .ruleTranslated, agrees_put h hb hk1⟩
  | checkAll m =>
    simp only [step, Go.bind_eq_ok] at hs
    obtain ⟨out, hx, hs⟩ := hs
    simp only [Go.pure_eq, Except.ok.injEq, Prod.mk.injEq] at hs
    obtain ⟨rfl, rfl⟩ := hs
    refine ⟨s, ?_, .allChecked, h⟩
    rw [h.global] at hx
    obtain ⟨outs, hc, _, _, _, _, _, h1, _, _, h2, _⟩ := check_inv hx
    obtain ⟨_, hl, hall⟩ := (checkRules_ok _ _ _).1 hc
    dsimp only at hl hall
    refine .checkAll (by simp [h1, hl, h.length]) (by simp [h2, hl, h.length]) fun i b hb => ?_
    have hi : i < w.rules.length := by rw [h.length]; exact (List.getElem?_eq_some_iff.1 hb).1
    have hr := List.getElem?_eq_getElem hi
    obtain ⟨o, hck, hres⟩ := hall i _ hr
    obtain ⟨_, d, hd, hv⟩ := check_keeps hrun (h.keeps i b _ hb hr) hck
    exact ⟨d, o.extra, by simp [h1, hres, hd], by simp [h2, hres], hv⟩

theorem run_explained (ho : env.OrdOk) {bodies : List Rule} : ∀ {ops : List Op} {k : Nat} {s : Tables} {w w' : World} {as : List Answer},
    Agrees env bodies s w → run env k w ops = .ok (w', as) → NoFailure ops as →
      ∃ s', Tables.Explains env bodies s ops as s' ∧ Agrees env bodies s' w'
  | [], k, s, w, w', as, h, hr, _ => by
    simp only [run, Except.ok.injEq, Prod.mk.injEq] at hr
    obtain ⟨rfl, rfl⟩ := hr
    exact ⟨s, .nil, h⟩
  | op :: ops, k, s, w, w', as, h, hr, hf => by
    simp only [run, Go.bind_eq_ok] at hr
    obtain ⟨⟨w1, a⟩, hs, ⟨w2, as'⟩, hr, hx⟩ := hr
    simp only [Go.pure_eq, Except.ok.injEq, Prod.mk.injEq] at hx
    obtain ⟨rfl, rfl⟩ := hx
    obtain ⟨s1, h1, h2, h3⟩ := step_agrees (run_call ho k) h hs fun i t hop => by
      have := hf 0 i t (by simp [hop])
      simpa using this
    obtain ⟨s2, h4, h5⟩ := run_explained ho h3 hr fun k i t hk => by
      have := hf (k + 1) i t (by simpa using hk)
      simpa using this
    exact ⟨s2, .cons h1 h2 h4, h5⟩

theorem step_global {E : Env} {w w' : World} {op : Op} {a : Answer} (h : step E w op = .ok (w', a)) :
    (∃ t t', op = .setGlobal t ∧ Validated t t' ∧ w'.global = t' ∧ a = .status true) ∨
    (∃ t, op = .setGlobal t ∧ (¬ ∃ t', Validated t t') ∧ w'.global = w.global ∧ a = .status false) ∨
    (∀ t, op ≠ .setGlobal t) ∧ w'.global = w.global := by
  cases op with
  | setGlobal t =>
    simp only [step, Except.ok.injEq, Prod.mk.injEq] at h
    obtain ⟨rfl, rfl⟩ := h
    rcases setGlobal_spec w.global t with ⟨t', hv, he⟩ | ⟨hv, x, he⟩
    · exact .inl ⟨t, t', rfl, hv, by simp [he], by simp [he]⟩
    · exact .inr (.inl ⟨t, rfl, hv, by simp [he], by simp [he]⟩)
  | setRule i t =>
    simp only [step, Go.bind_eq_ok] at h
    obtain ⟨_, _, _, _, h⟩ := h
    simp at h; obtain ⟨rfl, _⟩ := h
    exact .inr (.inr ⟨by simp, rfl⟩)
  | checkRule i m =>
    simp only [step, Go.bind_eq_ok] at h
    obtain ⟨_, _, _, _, h⟩ := h
    simp at h; obtain ⟨rfl, _⟩ := h
    exact .inr (.inr ⟨by simp, rfl⟩)
  | testRule i m =>
    simp only [step, Go.bind_eq_ok] at h
    obtain ⟨_, _, _, _, h⟩ := h
    simp at h; obtain ⟨rfl, _⟩ := h
    exact .inr (.inr ⟨by simp, rfl⟩)
  | toMongo i base =>
    simp only [step, Go.bind_eq_ok] at h
    obtain ⟨_, _, _, _, h⟩ := h
    simp at h; obtain ⟨rfl, _⟩ := h
    exact .inr (.inr ⟨by simp, rfl⟩)
  | checkAll m =>
    simp only [step, Go.bind_eq_ok] at h
    obtain ⟨_, _, h⟩ := h
    simp at h; obtain ⟨rfl, _⟩ := h
    exact .inr (.inr ⟨by simp, rfl⟩)

theorem run_global : ∀ {ops : List Op} {k : Nat} {w w' : World} {as : List Answer}, run env k w ops = .ok (w', as) →
    GlobalAfter w.global ops w'.global
  | [], k, w, w', as, h => by
    simp only [run, Except.ok.injEq, Prod.mk.injEq] at h
    obtain ⟨rfl, rfl⟩ := h
    exact .nil
  | op :: ops, k, w, w', as, h => by
    simp only [run, Go.bind_eq_ok] at h
    obtain ⟨⟨w1, a⟩, hs, ⟨w2, as'⟩, hr, hx⟩ := h
    simp only [Go.pure_eq, Except.ok.injEq, Prod.mk.injEq] at hx
    obtain ⟨rfl, rfl⟩ := hx
    have ih := run_global hr
    rcases step_global hs with ⟨t, t', rfl, hv, hg, _⟩ | ⟨t, rfl, hv, hg, _⟩ | ⟨ho, hg⟩
    · rw [hg] at ih; exact .set hv ih
    · rw [hg] at ih; exact .refused hv ih
    · rw [hg] at ih; exact .other ho ih

/-- A history cut in two. -/
theorem run_append : ∀ {ops ops' : List Op} {k : Nat} {w w' : World} {as : List Answer}, run env k w (ops ++ ops') = .ok (w', as) →
    ∃ w1 as1 as2, run env k w ops = .ok (w1, as1) ∧ run env (k + ops.length) w1 ops' = .ok (w', as2) ∧ as = as1 ++ as2 ∧ as1.length = ops.length
  | [], ops', k, w, w', as, h => ⟨w, [], as, rfl, h, rfl, rfl⟩
  | op :: ops, ops', k, w, w', as, h => by
    simp only [List.cons_append, run, Go.bind_eq_ok] at h
    obtain ⟨⟨w1, a⟩, hs, ⟨w2, as'⟩, hr, hx⟩ := h
    simp only [Go.pure_eq, Except.ok.injEq, Prod.mk.injEq] at hx
    obtain ⟨rfl, rfl⟩ := hx
    obtain ⟨w3, as1, as2, h1, h2, h3, h4⟩ := run_append hr
    refine ⟨w3, a :: as1, as2, ?_, ?_, by simp [h3], by simp [h4]⟩
    · simp only [run, Go.bind_eq_ok]
      exact ⟨_, hs, _, h1, rfl⟩
    · rw [← h2]; congr 1; simp only [List.length_cons]; omega

theorem run_one {k : Nat} {w w' : World} {op : Op} {as : List Answer} (h : run env k w [op] = .ok (w', as)) :
    ∃ a, step (env.call k) w op = .ok (w', a) ∧ as = [a] := by
  simp only [run, Go.bind_eq_ok] at h
  obtain ⟨⟨w1, a⟩, hs, ⟨w2, as'⟩, hr, hx⟩ := h
  simp only [Except.ok.injEq, Prod.mk.injEq] at hr
  obtain ⟨rfl, rfl⟩ := hr
  simp only [Go.pure_eq, Except.ok.injEq, Prod.mk.injEq] at hx
  obtain ⟨rfl, rfl⟩ := hx
  exact ⟨a, hs, rfl⟩

/-- Whether preparation succeeds depends on the text of the rule only. -/
theorem setPredefined_parsed {r r' : RuleObj} {e : Option Err} (h : r.setPredefined env p t = .ok (r', e)) :
    ∃ r'', (parsedRule r.body).setPredefined env p t = .ok (r'', e) := by
  simp only [RuleObj.setPredefined, parsedRule] at h ⊢
  split at h
  · simp at h
  · simp at h; obtain ⟨_, rfl⟩ := h; exact ⟨_, rfl⟩
  · split at h
    · simp at h
    · simp at h; obtain ⟨_, rfl⟩ := h; exact ⟨_, rfl⟩
    · simp at h; obtain ⟨_, rfl⟩ := h; exact ⟨_, rfl⟩

theorem put_rule {w : World} {i j : Nat} {r r' x : RuleObj} (hw : w.rules[i]? = some r) (hx : w.rule j = .ok x) :
    (w.put j r').rules[i]? = some (if j = i then r' else r) := by
  simp only [World.put]
  split
  · next h =>
    subst h
    rw [List.getElem?_set_self (List.getElem?_eq_some_iff.1 hw).1]
  · next h => rw [List.getElem?_set_ne h, hw]

theorem rule_of {w : World} {i : Nat} {r x : RuleObj} (hw : w.rules[i]? = some r) (hx : w.rule i = .ok x) : x = r := by
  simp [World.rule, hw] at hx
  exact hx.symm

/-- A call that does not touch a rule leaves it as it is. -/
theorem step_untouched {E : Env} {w w' : World} {op : Op} {a : Answer} {i : Nat} {r : RuleObj} (h : step E w op = .ok (w', a))
    (hw : w.rules[i]? = some r) (ht : ¬ Touches i op) : w'.rules[i]? = some r := by
  cases op with
  | setGlobal t =>
    simp only [step, Except.ok.injEq, Prod.mk.injEq] at h
    obtain ⟨rfl, _⟩ := h
    exact hw
  | setRule j t =>
    simp only [step, Go.bind_eq_ok] at h
    obtain ⟨x, hx, _, _, h⟩ := h
    simp at h; obtain ⟨rfl, _⟩ := h
    rw [put_rule hw hx, if_neg (show ¬ j = i from ht)]
  | checkRule j m =>
    simp only [step, Go.bind_eq_ok] at h
    obtain ⟨x, hx, _, _, h⟩ := h
    simp at h; obtain ⟨rfl, _⟩ := h
    rw [put_rule hw hx, if_neg (show ¬ j = i from ht)]
  | testRule j m =>
    simp only [step, Go.bind_eq_ok] at h
    obtain ⟨x, hx, _, _, h⟩ := h
    simp at h; obtain ⟨rfl, _⟩ := h
    rw [put_rule hw hx, if_neg (show ¬ j = i from ht)]
  | toMongo j base =>
    simp only [step, Go.bind_eq_ok] at h
    obtain ⟨x, hx, _, _, h⟩ := h
    simp at h; obtain ⟨rfl, _⟩ := h
    rw [put_rule hw hx, if_neg (show ¬ j = i from ht)]
  | checkAll m =>
    simp only [step, Go.bind_eq_ok] at h
    obtain ⟨_, _, h⟩ := h
    simp at h; obtain ⟨rfl, _⟩ := h
    exact hw

theorem run_untouched {i : Nat} {r : RuleObj} : ∀ {ops : List Op} {k : Nat} {w w' : World} {as : List Answer}, run env k w ops = .ok (w', as) →
    w.rules[i]? = some r → (∀ op ∈ ops, ¬ Touches i op) → w'.rules[i]? = some r
  | [], k, w, w', as, h, hw, _ => by
    simp only [run, Except.ok.injEq, Prod.mk.injEq] at h
    obtain ⟨rfl, rfl⟩ := h
    exact hw
  | op :: ops, k, w, w', as, h, hw, ht => by
    simp only [run, Go.bind_eq_ok] at h
    obtain ⟨⟨w1, a⟩, hs, ⟨w2, as'⟩, hr, hx⟩ := h
    simp only [Go.pure_eq, Except.ok.injEq, Prod.mk.injEq] at hx
    obtain ⟨rfl, rfl⟩ := hx
    exact run_untouched hr (step_untouched hs hw (ht op (by simp))) fun o ho => ht o (by simp [ho])

/-- What `Check` says about one rule. -/
theorem checkAll_rule {E : Env} {w : World} {out : CheckOut} {i : Nat} {r : RuleObj} (h : check E w.global m w.rules = .ok out)
    (hw : w.rules[i]? = some r) : ∃ o, r.check E w.global [i] m = .ok o ∧ out.results[i]? = some o.result ∧ out.extraData[i]? = some o.extra := by
  obtain ⟨outs, hc, _, _, _, _, _, h1, _, _, h2, _⟩ := check_inv h
  obtain ⟨_, hl, hall⟩ := (checkRules_ok _ _ _).1 hc
  obtain ⟨o, hck, hres⟩ := hall i _ hw
  simp at hck
  exact ⟨o, hck, by simp [h1, hres], by simp [h2, hres]⟩

/-- One call on a rule that uses table `t`: the answer speaks for the parsed rule with that table. Afterwards the rule still
uses it, unless it was given another one. The rule uses `t` if it holds it, or if it holds none and the global table is `t`. -/
theorem step_speaks {E : Env} {w w' : World} {op : Op} {a : Answer} {i : Nat} {r : RuleObj} {b : Rule} {own : Option Predef}
    (hrun : Run env E) (h : step E w op = .ok (w', a)) (hw : w.rules[i]? = some r) (hk : Keeps env b own r) :
    SpeaksFor env i b (own.getD w.global) op a ∧
    ((∀ t, op ≠ .setRule i t) → ∃ r' own', w'.rules[i]? = some r' ∧ Keeps env b own' r' ∧
      (Touches i op → own' = some (own.getD w.global)) ∧ (¬ Touches i op → own' = own)) := by
  let s : Tables := { global := w.global, own := fun _ => own }
  have hk' : Keeps env b (s.own i) r := hk
  have hforce : s.inForce i = own.getD w.global := rfl
  by_cases ht : Touches i op
  · cases op with
    | setGlobal t => exact absurd ht (by simp [Touches])
    | checkAll m => exact absurd ht (by simp [Touches])
    | setRule j t =>
      simp [Touches] at ht; subst ht
      exact ⟨trivial, fun h => absurd rfl (h t)⟩
    | checkRule j m =>
      simp [Touches] at ht; subst ht
      simp only [step, Go.bind_eq_ok] at h
      obtain ⟨x, hx, o, hck, h⟩ := h
      simp only [Go.pure_eq, Except.ok.injEq, Prod.mk.injEq] at h; obtain ⟨rfl, rfl⟩ := h
      have := rule_of hw hx; subst this
      obtain ⟨h1, d, hd, hv⟩ := check_keeps (s := s) hrun hk' hck
      rw [hforce] at h1 hv
      refine ⟨fun _ => ⟨d, _, by rw [hd], hv⟩, fun _ => ⟨o.rule, _, ?_, h1, fun _ => rfl, fun h => absurd rfl h⟩⟩
      rw [put_rule hw hx, if_pos rfl]
    | testRule j m =>
      simp [Touches] at ht; subst ht
      simp only [step, Go.bind_eq_ok] at h
      obtain ⟨x, hx, ⟨o, r2⟩, hck, h⟩ := h
      simp only [Go.pure_eq, Except.ok.injEq, Prod.mk.injEq] at h; obtain ⟨rfl, rfl⟩ := h
      have := rule_of hw hx; subst this
      simp only [RuleObj.testConditions, Go.bind_eq_ok] at hck
      obtain ⟨r1, he, o1, htst, hck⟩ := hck
      simp at hck; obtain ⟨rfl, rfl⟩ := hck
      have hp : ∃ rule, r1.prepared = some rule := by
        simp only [testPreparedConditions, Go.bind_eq_ok] at htst
        obtain ⟨rule, hd, _⟩ := htst
        exact ⟨rule, deref_eq_ok.1 hd⟩
      obtain ⟨rule, hp⟩ := hp
      obtain ⟨hk1, hm⟩ := keeps_ensure (s := s) hrun hk' he hp
      rw [hp] at htst
      obtain ⟨env', p', r', hrun', ht'⟩ := hm.tested hrun htst
      rw [hforce] at hk1 ht'
      refine ⟨fun _ => ⟨env', p', o1, r', hrun', ht', rfl⟩, fun _ => ⟨r1, _, ?_, hk1, fun _ => rfl, fun h => absurd rfl h⟩⟩
      rw [put_rule hw hx, if_pos rfl]
    | toMongo j base =>
      simp [Touches] at ht; subst ht
      simp only [step, Go.bind_eq_ok] at h
      obtain ⟨x, hx, ⟨r2, q⟩, hck, h⟩ := h
      simp only [Go.pure_eq, Except.ok.injEq, Prod.mk.injEq] at h; obtain ⟨rfl, rfl⟩ := h
      have := rule_of hw hx; subst this
      obtain ⟨r1, rule, he, hp, htr, rfl⟩ := toMongoQuery_inv hck
      obtain ⟨hk1, hm⟩ := keeps_ensure (s := s) hrun hk' he hp
      obtain ⟨env', p', r', hrun', ht'⟩ := hm.translated hrun htr
      rw [hforce] at hk1 ht'
      refine ⟨fun _ => ⟨env', p', r', q, hrun', ht', rfl⟩, fun _ => ⟨r2, _, ?_, hk1, fun _ => rfl, fun h => absurd rfl h⟩⟩
      rw [put_rule hw hx, if_pos rfl]
  · refine ⟨?_, fun _ => ⟨r, own, step_untouched h hw ht, hk, fun h => absurd h ht, fun _ => rfl⟩⟩
    cases op with
    | setGlobal t => trivial
    | setRule j t => trivial
    | checkRule j m => exact fun hj => absurd hj ht
    | testRule j m => exact fun hj => absurd hj ht
    | toMongo j base => exact fun hj => absurd hj ht
    | checkAll m =>
      simp only [step, Go.bind_eq_ok] at h
      obtain ⟨out, hc, h⟩ := h
      simp only [Go.pure_eq, Except.ok.injEq, Prod.mk.injEq] at h; obtain ⟨rfl, rfl⟩ := h
      obtain ⟨o, hck, h1, h2⟩ := checkAll_rule hc hw
      obtain ⟨_, d, hd, hv⟩ := check_keeps (s := s) hrun hk' hck
      exact ⟨out, d, o.extra, rfl, by rw [h1, hd], h2, hv⟩

/-- A rule that holds a table goes on using it. -/
theorem run_frozen (ho : env.OrdOk) {i : Nat} {b : Rule} {t : Predef} : ∀ {ops : List Op} {k : Nat} {w w' : World} {as : List Answer} {r : RuleObj},
    run env k w ops = .ok (w', as) → w.rules[i]? = some r → Keeps env b (some t) r → (∀ t', Op.setRule i t' ∉ ops) →
      List.Forall₂ (SpeaksFor env i b t) ops as
  | [], k, w, w', as, r, h, hw, hk, hn => by
    simp only [run, Except.ok.injEq, Prod.mk.injEq] at h
    obtain ⟨rfl, rfl⟩ := h
    exact .nil
  | op :: ops, k, w, w', as, r, h, hw, hk, hn => by
    simp only [run, Go.bind_eq_ok] at h
    obtain ⟨⟨w1, a⟩, hs, ⟨w2, as'⟩, hr, hx⟩ := h
    simp only [Go.pure_eq, Except.ok.injEq, Prod.mk.injEq] at hx
    obtain ⟨rfl, rfl⟩ := hx
    obtain ⟨h1, h2⟩ := step_speaks (run_call ho k) hs hw hk
    obtain ⟨r', own', hw', hk', ho1, ho2⟩ := h2 fun t' ht => hn t' (by simp [ht])
    have : own' = some t := by
      by_cases ht : Touches i op
      · exact ho1 ht
      · exact ho2 ht
    subst this
    exact .cons h1 (run_frozen ho hr hw' hk' fun t' ht => hn t' (by simp [ht]))

theorem agrees_start (bodies : List Rule) (g : Predef) : Agrees env bodies { global := g } { global := g, rules := bodies.map parsedRule } where
  global := rfl
  length := by simp
  keeps i b r hb hr := by
    simp only [List.getElem?_map, hb] at hr
    simp at hr; subst hr
    exact ⟨rfl, rfl, rfl⟩

/-! ## Which tables cannot be validated -/

theorem stands_total {strings : List (Str × Str)} {s : Str} (h : ∀ k, s = '#' :: k → lookup k strings ≠ none) : ∃ s', Stands strings s s' := by
  by_cases hs : ∃ k, s = '#' :: k
  · obtain ⟨k, rfl⟩ := hs
    cases hl : lookup k strings with
    | none => exact absurd hl (h k rfl)
    | some v => exact ⟨v, .reference hl⟩
  · exact ⟨s, .text fun k hk => hs ⟨k, hk⟩⟩

theorem forall₂_total {α β : Type} {R : α → β → Prop} : ∀ {l : List α}, (∀ x ∈ l, ∃ y, R x y) → ∃ l', List.Forall₂ R l l'
  | [], _ => ⟨[], .nil⟩
  | x :: l, h => by
    obtain ⟨y, hy⟩ := h x (by simp)
    obtain ⟨l', hl'⟩ := forall₂_total (l := l) fun z hz => h z (by simp [hz])
    exact ⟨y :: l', .cons hy hl'⟩

theorem forall₂_mem {α β : Type} {R : α → β → Prop} {l : List α} {l' : List β} (h : List.Forall₂ R l l') : ∀ x ∈ l, ∃ y ∈ l', R x y := by
  induction h with
  | nil => simp
  | cons h1 _ ih =>
    intro x hx
    rcases List.mem_cons.1 hx with rfl | hx
    · exact ⟨_, by simp, h1⟩
    · obtain ⟨y, hy, hr⟩ := ih x hx
      exact ⟨y, by simp [hy], hr⟩

theorem validated_iff {t : Predef} : (¬ ∃ t', Validated t t') ↔ ∃ l ∈ t.lists, ∃ k, '#' :: k ∈ l.2 ∧ lookup k t.strings = none := by
  constructor
  · intro h
    by_contra hc
    apply h
    have h1 : ∀ l ∈ t.lists, ∃ l' : Str × List Str, l'.1 = l.1 ∧ List.Forall₂ (Stands t.strings) l.2 l'.2 := by
      intro l hl
      obtain ⟨x, hx⟩ := forall₂_total (R := Stands t.strings) (l := l.2) fun s hs =>
        stands_total fun k hk hn => hc ⟨l, hl, k, hk ▸ hs, hn⟩
      exact ⟨(l.1, x), rfl, hx⟩
    obtain ⟨ls, hls⟩ := forall₂_total h1
    exact ⟨{ t with listsNoRefs := ls }, rfl, rfl, hls⟩
  · rintro ⟨l, hl, k, hk, hn⟩ ⟨t', _, _, h⟩
    obtain ⟨l', _, _, h'⟩ := forall₂_mem h l hl
    obtain ⟨s, _, hs⟩ := forall₂_mem h' _ hk
    cases hs with
    | text h => exact h k rfl
    | reference h => simp [hn] at h

/-! ## Preparation with empty tables -/

theorem replaceName_empty {x y : Str} : replaceName x {} = .ok y ↔ x = y ∧ ∀ k, x ≠ '#' :: k := by
  unfold replaceName isReplaceableList isReplaceableString
  by_cases hp : hasPrefix x gs"#" = true
  · obtain ⟨k, rfl⟩ := hasPrefix_iff.1 hp
    simp only [hp, if_true, lookup]
    simp
  · have : ∀ k, x ≠ '#' :: k := by
      rintro k rfl
      exact hp (by simp [hasPrefix, List.isPrefixOf])
    simp [hp, this]

theorem convertFieldsToRegex_conditions (env : Ext) (r : Rule) (c : Option Node) :
    convertFieldsToRegex env { r with conditions := c } =
      ({ (convertFieldsToRegex env r).1 with conditions := c }, (convertFieldsToRegex env r).2) := by
  unfold convertFieldsToRegex
  dsimp only
  split
  · rfl
  split
  · rfl
  split
  · rfl
  split
  · rfl
  split <;> rfl

theorem convertFields_conditions {env : Ext} {r : Rule} (c : Option Node) :
    (∃ r', convertFields env { r with conditions := c } = .ok r') ↔ ∃ r', convertFields env r = .ok r' := by
  unfold convertFields
  rw [convertFieldsToRegex_conditions]
  generalize convertFieldsToRegex env r = x
  obtain ⟨x1, x2⟩ := x
  cases x2 <;> simp

theorem convertFieldsToRegex_same (env : Ext) (r : Rule) : (convertFieldsToRegex env r).1.conditions = r.conditions := by
  unfold convertFieldsToRegex
  dsimp only
  split
  · rfl
  split
  · rfl
  split
  · rfl
  split
  · rfl
  split <;> rfl

theorem convertFields_same {env : Ext} {r r' : Rule} (h : convertFields env r = .ok r') : r'.conditions = r.conditions := by
  rw [← convertFieldsToRegex_same env r]
  unfold convertFields at h
  generalize convertFieldsToRegex env r = x at h ⊢
  obtain ⟨x1, x2⟩ := x
  cases x2 <;> simp at h
  subst h; rfl

theorem prepareOneRule_empty {env : Ext} {r : Rule} : (∃ r', prepareOneRule env {} r = .ok r') ↔
    (∃ r', convertFields env r = .ok r') ∧ (∀ n, r.conditions = some n → ∃ n', n.prepare env {} = .ok n') ∧
      (∀ k, r.senderName ≠ '#' :: k) ∧ ∀ k, r.receiverName ≠ '#' :: k := by
  simp only [prepareOneRule, replaceStringsAndListsInOneRule, Go.bind_eq_ok, replaceName_empty]
  constructor
  · rintro ⟨r', r1, h1, r2, ⟨s, ⟨rfl, hs⟩, v, ⟨rfl, hv⟩, h2⟩, h3⟩
    simp at h2; subst h2
    unfold prepareConditions at h1
    split at h1
    · next hn =>
      simp at h1; subst h1
      exact ⟨⟨r', h3⟩, by simp [hn], hs, hv⟩
    · next n hn =>
      simp only [Go.bind_eq_ok] at h1
      obtain ⟨n', h4, h1⟩ := h1
      simp at h1; subst h1
      refine ⟨(convertFields_conditions (some n')).1 ⟨r', h3⟩, ?_, hs, hv⟩
      intro x hx
      rw [hn] at hx; simp at hx; subst hx
      exact ⟨n', h4⟩
  · rintro ⟨h1, h2, hs, hv⟩
    cases hn : r.conditions with
    | none =>
      obtain ⟨r', h1⟩ := h1
      exact ⟨r', r, by simp [prepareConditions, hn], r, ⟨_, ⟨rfl, hs⟩, _, ⟨rfl, hv⟩, rfl⟩, h1⟩
    | some n =>
      obtain ⟨n', h4⟩ := h2 n hn
      obtain ⟨r', h3⟩ := (convertFields_conditions (some n')).2 h1
      exact ⟨r', { r with conditions := some n' }, by simp [prepareConditions, hn, h4], _, ⟨_, ⟨rfl, hs⟩, _, ⟨rfl, hv⟩, rfl⟩, h3⟩

theorem validateRule_iff {b : Rule} : validateRule env p b = .ok () ↔
    ∃ copy, copyRule env p b = .ok copy ∧ (∃ r', convertFields env copy = .ok r') ∧ ∀ n, copy.conditions = some n → ∃ n', n.prepare env {} = .ok n' := by
  simp only [validateRule, Go.bind_eq_ok]
  constructor
  · rintro ⟨copy, h1, r', h2, h3⟩
    refine ⟨copy, h1, ⟨r', h2⟩, ?_⟩
    intro n hn
    rw [convertFields_same h2, hn] at h3
    simp only [Go.bind_eq_ok] at h3
    obtain ⟨n', h3, _⟩ := h3
    exact ⟨n', h3⟩
  · rintro ⟨copy, h1, ⟨r', h2⟩, h3⟩
    refine ⟨copy, h1, r', h2, ?_⟩
    rw [convertFields_same h2]
    cases hn : copy.conditions with
    | none => rfl
    | some n =>
      obtain ⟨n', h3⟩ := h3 n hn
      simp [h3]

theorem prepared_iff_validated {b : Rule} : (∃ r', (parsedRule b).setPredefined env p {} = .ok (r', none)) ↔
    validateRule env p b = .ok () ∧ (∀ k, b.senderName ≠ '#' :: k) ∧ ∀ k, b.receiverName ≠ '#' :: k := by
  have hsame : ∀ copy, copyRule env p b = .ok copy → copy.senderName = b.senderName ∧ copy.receiverName = b.receiverName := by
    intro copy h
    obtain ⟨c, _, rfl⟩ := copyRule_ok h
    exact ⟨rfl, rfl⟩
  rw [validateRule_iff]
  constructor
  · rintro ⟨r', h⟩
    obtain ⟨copy, rule, h1, h2, _⟩ := setPredefined_ok h
    obtain ⟨h3, h4, h5, h6⟩ := prepareOneRule_empty.1 ⟨rule, h2⟩
    rw [(hsame copy h1).1] at h5
    rw [(hsame copy h1).2] at h6
    exact ⟨⟨copy, h1, h3, h4⟩, h5, h6⟩
  · rintro ⟨⟨copy, h1, h3, h4⟩, h5, h6⟩
    rw [← (hsame copy h1).1] at h5
    rw [← (hsame copy h1).2] at h6
    obtain ⟨rule, h2⟩ := prepareOneRule_empty.2 ⟨h3, h4, h5, h6⟩
    exact ⟨_, parsed_prepared h1 h2⟩

end Mapl

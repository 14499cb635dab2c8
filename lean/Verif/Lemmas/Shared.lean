import Verif.Spec.Shared
import Verif.Lemmas.State

/-! # Tables that the caller goes on using -/

namespace Mapl

open Mapl.Spec

/-- The tables are read in the same way. -/
def TablesAlike (t t' : Predef) : Prop := t.strings = t'.strings ∧ t.listsNoRefs = t'.listsNoRefs

/-- The rules differ in the table they remember only. -/
def Twin (r r' : RuleObj) : Prop := r.body = r'.body ∧ r.prepared = r'.prepared ∧ r.ready = r'.ready

theorem TablesAlike.refl (t : Predef) : TablesAlike t t := ⟨rfl, rfl⟩

theorem Twin.refl (r : RuleObj) : Twin r r := ⟨rfl, rfl, rfl⟩

theorem alike_condition {env : Ext} {t t' : Predef} (h : TablesAlike t t') (c : Condition) : c.prepare env t = c.prepare env t' := by
  obtain ⟨s, l, n⟩ := t
  obtain ⟨s', l', n'⟩ := t'
  obtain ⟨h1, h2⟩ := h
  cases h1; cases h2
  rfl

mutual
theorem alike_prepare {env : Ext} {t t' : Predef} (h : TablesAlike t t') : ∀ n : Node, n.prepare env t = n.prepare env t'
  | .nil => by rw [Node.prepare, Node.prepare]
  | .and ns => by rw [Node.prepare, Node.prepare, alike_prepares h ns]
  | .or ns => by rw [Node.prepare, Node.prepare, alike_prepares h ns]
  | .not n => by rw [Node.prepare, Node.prepare, alike_prepare h n]
  | .any a n => by rw [Node.prepare, Node.prepare, alike_prepare h n]
  | .all a n => by rw [Node.prepare, Node.prepare, alike_prepare h n]
  | .tt => by rw [Node.prepare, Node.prepare]
  | .ff => by rw [Node.prepare, Node.prepare]
  | .cond c => by rw [Node.prepare, Node.prepare, alike_condition h c]

theorem alike_prepares {env : Ext} {t t' : Predef} (h : TablesAlike t t') : ∀ ns : List Node, prepareNodes env t ns = prepareNodes env t' ns
  | [] => by rw [prepareNodes, prepareNodes]
  | n :: ns => by rw [prepareNodes, prepareNodes, alike_prepare h n, alike_prepares h ns]
end

theorem alike_rule {env : Ext} {t t' : Predef} (h : TablesAlike t t') (r : Rule) : prepareOneRule env t r = prepareOneRule env t' r := by
  have h1 : prepareConditions env t r = prepareConditions env t' r := by
    unfold prepareConditions
    split
    · rfl
    · rw [alike_prepare h]
  have h2 (r : Rule) : replaceStringsAndListsInOneRule r t = replaceStringsAndListsInOneRule r t' := by
    obtain ⟨s, l, n⟩ := t
    obtain ⟨s', l', n'⟩ := t'
    obtain ⟨h1, h2⟩ := h
    cases h1; cases h2
    rfl
  unfold prepareOneRule
  rw [h1]
  simp only [h2]

theorem twin_set {env : Env} {p : List Nat} {t t' : Predef} {r r' : RuleObj} (ht : TablesAlike t t') (hr : Twin r r') :
    (∃ e, r.setPredefined env p t = .error e ∧ r'.setPredefined env p t' = .error e) ∨
    ∃ r1 r1' e, r.setPredefined env p t = .ok (r1, e) ∧ r'.setPredefined env p t' = .ok (r1', e) ∧ Twin r1 r1' := by
  unfold RuleObj.setPredefined
  rw [show r'.body = r.body from hr.1.symm]
  simp only
  cases copyRule env p r.body with
  | error f =>
    cases f with
    | panic x => exact .inl ⟨_, rfl, rfl⟩
    | err e => exact .inr ⟨_, _, _, rfl, rfl, rfl, hr.2.1, rfl⟩
  | ok c =>
    simp only
    rw [← alike_rule ht]
    cases prepareOneRule env.toExt t c with
    | error f =>
      cases f with
      | panic x => exact .inl ⟨_, rfl, rfl⟩
      | err e => exact .inr ⟨_, _, _, rfl, rfl, rfl, hr.2.1, rfl⟩
    | ok c' => exact .inr ⟨_, _, _, rfl, rfl, rfl, rfl, rfl⟩

theorem twin_ensure {env : Env} {p : List Nat} {t t' : Predef} {r r' : RuleObj} (ht : r.ready = false → TablesAlike t t') (hr : Twin r r') :
    (∃ e, r.ensure env p t = .error e ∧ r'.ensure env p t' = .error e) ∨
    ∃ r1 r1', r.ensure env p t = .ok r1 ∧ r'.ensure env p t' = .ok r1' ∧ Twin r1 r1' ∧ (r.ready = true → r1.ready = true) := by
  unfold RuleObj.ensure
  rw [← hr.2.2]
  by_cases h : r.ready
  · rw [if_pos h, if_pos h]; exact .inr ⟨_, _, rfl, rfl, hr, id⟩
  · rw [if_neg h, if_neg h]
    rcases twin_set (env := env) (p := p) (ht (by simpa using h)) hr with ⟨e, h1, h2⟩ | ⟨r1, r1', e, h1, h2, h3⟩
    · rw [h1, h2]; exact .inl ⟨e, rfl, rfl⟩
    · rw [h1, h2]; exact .inr ⟨_, _, rfl, rfl, h3, fun h' => absurd h' h⟩

theorem twin_test {env : Env} {p : List Nat} {t t' : Predef} {r r' : RuleObj} {m : Msg} (ht : r.ready = false → TablesAlike t t') (hr : Twin r r') :
    (∃ e, r.testConditions env t p m = .error e ∧ r'.testConditions env t' p m = .error e) ∨
    ∃ o r1 r1', r.testConditions env t p m = .ok (o, r1) ∧ r'.testConditions env t' p m = .ok (o, r1') ∧ Twin r1 r1' ∧ (r.ready = true → r1.ready = true) := by
  unfold RuleObj.testConditions
  rcases twin_ensure (env := env) (p := 0 :: p) ht hr with ⟨e, h1, h2⟩ | ⟨r1, r1', h1, h2, h3, h3'⟩
  · rw [h1, h2]; exact .inl ⟨e, rfl, rfl⟩
  · rw [h1, h2, Go.ok_bind, Go.ok_bind, ← h3.2.1]
    cases testPreparedConditions env (1 :: p) r1.prepared m with
    | error e => exact .inl ⟨e, rfl, rfl⟩
    | ok o => exact .inr ⟨o, _, _, rfl, rfl, h3, h3'⟩

theorem twin_mongo {env : Env} {p : List Nat} {t t' : Predef} {r r' : RuleObj} {base : Str} (ht : r.ready = false → TablesAlike t t') (hr : Twin r r') :
    (∃ e, r.toMongoQuery env t p base = .error e ∧ r'.toMongoQuery env t' p base = .error e) ∨
    ∃ q r1 r1', r.toMongoQuery env t p base = .ok (r1, q) ∧ r'.toMongoQuery env t' p base = .ok (r1', q) ∧ Twin r1 r1' ∧ (r.ready = true → r1.ready = true) := by
  rw [toMongoQuery_eq, toMongoQuery_eq]
  rcases twin_ensure (env := env) (p := p) ht hr with ⟨e, h1, h2⟩ | ⟨r1, r1', h1, h2, h3, h3'⟩
  · rw [h1, h2]; exact .inl ⟨e, rfl, rfl⟩
  · rw [h1, h2, Go.ok_bind, Go.ok_bind, ← h3.2.1]
    cases translation env.toExt r1.prepared base with
    | error e => exact .inl ⟨e, rfl, rfl⟩
    | ok q => exact .inr ⟨q, _, _, rfl, rfl, h3, h3'⟩

/-- The same outcome of the check of one rule, up to the table that the rule remembers. -/
def TwinOut (ready : Bool) : Go RuleOut → Go RuleOut → Prop
  | .ok o, .ok o' => o.result = o'.result ∧ o.extra = o'.extra ∧ o.msg = o'.msg ∧ Twin o.rule o'.rule ∧ (ready = true → o.rule.ready = true)
  | .error e, .error e' => e = e'
  | _, _ => False

theorem twin_check {env : Env} {p : List Nat} {t t' : Predef} {r r' : RuleObj} {m : Msg} (ht : r.ready = false → TablesAlike t t') (hr : Twin r r') :
    TwinOut r.ready (r.check env t p m) (r'.check env t' p m) := by
  unfold RuleObj.check
  rcases twin_ensure (env := env) (p := 0 :: p) ht hr with ⟨e, h1, h2⟩ | ⟨r1, r1', h1, h2, h3, h3'⟩
  · rw [h1, h2]; rfl
  · rw [h1, h2, Go.ok_bind, Go.ok_bind, ← h3.2.1]
    cases r1.prepared with
    | none => rfl
    | some rule =>
      simp only [deref, Go.ok_bind]
      generalize convertOnUse env.toExt rule = rule'
      have hw : Twin { r1 with prepared := some rule' } { r1' with prepared := some rule' } := ⟨h3.1, rfl, h3.2.2⟩
      cases testSender env.toExt rule' m with
      | error e => rfl
      | ok b1 =>
      cases b1 with
      | false => exact ⟨rfl, rfl, rfl, hw, h3'⟩
      | true =>
      cases testReceiver env.toExt rule' m with
      | error e => rfl
      | ok b2 =>
      cases b2 with
      | false => exact ⟨rfl, rfl, rfl, hw, h3'⟩
      | true =>
      simp only [Go.ok_bind]
      cases matchPtr env.toExt rule'.operationRegex m.requestMethod with
      | error e => rfl
      | ok b3 =>
      cases b3 with
      | false => exact ⟨rfl, rfl, rfl, hw, h3'⟩
      | true =>
      simp only [Go.ok_bind]
      cases testResource env.toExt rule' m with
      | error e => rfl
      | ok b4 =>
      cases b4 with
      | false => exact ⟨rfl, rfl, rfl, hw, h3'⟩
      | true =>
      simp only [Go.ok_bind]
      cases hc : rule'.conditions with
      | none => exact ⟨rfl, rfl, rfl, hw, h3'⟩
      | some n =>
        simp only [not_true_eq_false, if_false]
        rcases twin_test (env := env) (p := 1 :: p) (m := m) (fun h => ht (by cases hx : r.ready; rfl; exact absurd h (by rw [show r1.ready = true from h3' hx]; simp))) hw with ⟨e, h4, h5⟩ | ⟨o, r2, r2', h4, h5, h6, h7⟩
        · rw [h4, h5]; rfl
        · rw [h4, h5]
          simp only [Go.ok_bind]
          by_cases hf : o.flag = false
          · rw [if_pos hf, if_pos hf]; exact ⟨rfl, rfl, rfl, h6, fun h => h7 (h3' h)⟩
          · rw [if_neg hf, if_neg hf]; exact ⟨rfl, rfl, rfl, h6, fun h => h7 (h3' h)⟩

theorem twin_checkRules {env : Env} {t t' : Predef} {rs rs' : List RuleObj} (hs : List.Forall₂ Twin rs rs') (ht : (∃ r ∈ rs, r.ready = false) → TablesAlike t t') :
    ∀ (i : Nat) (m : Msg), checkRules env t i m rs = checkRules env t' i m rs' := by
  induction hs with
  | nil => intro i m; rfl
  | @cons r r' rs rs' h _ ih =>
    intro i m
    rw [checkRules, checkRules]
    have := twin_check (env := env) (p := [i]) (m := m) (fun hx => ht ⟨r, by simp, hx⟩) h
    revert this
    cases r.check env t [i] m with
    | error e => cases r'.check env t' [i] m with
      | error e' => intro h; cases (show e = e' from h); rfl
      | ok o' => exact False.elim
    | ok o => cases r'.check env t' [i] m with
      | error e' => exact False.elim
      | ok o' =>
        rintro ⟨h1, h2, h3, -⟩
        rw [Go.ok_bind, Go.ok_bind, h3, ih fun ⟨x, hx, hy⟩ => ht ⟨x, by simp [hx], hy⟩, h1, h2]

theorem twin_describe {rs rs' : List RuleObj} (h : List.Forall₂ Twin rs rs') : rs.map describe = rs'.map describe := by
  induction h with
  | nil => rfl
  | cons h _ ih => simp only [List.map_cons, ih, describe, h.1]

theorem twin_all {env : Env} {t t' : Predef} {rs rs' : List RuleObj} {m : Msg} (ht : (∃ r ∈ rs, r.ready = false) → TablesAlike t t') (h : List.Forall₂ Twin rs rs') : check env t m rs = check env t' m rs' := by
  unfold check
  rw [twin_checkRules h ht, twin_describe h]

/-! ## Histories -/

/-- The worlds give the same answers. -/
structure TwinWorld (w w' : World) : Prop where
  global : (∃ r ∈ w.rules, r.ready = false) → TablesAlike w.global w'.global
  rules : List.Forall₂ Twin w.rules w'.rules

theorem twin_get {rs rs' : List RuleObj} (h : List.Forall₂ Twin rs rs') : ∀ i : Nat, (rs[i]? = none ∧ rs'[i]? = none) ∨ ∃ r r', rs[i]? = some r ∧ rs'[i]? = some r' ∧ Twin r r' := by
  induction h with
  | nil => intro i; exact .inl ⟨rfl, rfl⟩
  | cons h _ ih =>
    intro i
    cases i with
    | zero => exact .inr ⟨_, _, rfl, rfl, h⟩
    | succ i => simpa using ih i

theorem twin_put {rs rs' : List RuleObj} (h : List.Forall₂ Twin rs rs') {r r' : RuleObj} (hr : Twin r r') : ∀ i : Nat, List.Forall₂ Twin (rs.set i r) (rs'.set i r') := by
  induction h with
  | nil => intro i; simp
  | cons h ht ih =>
    intro i
    cases i with
    | zero => exact .cons hr ht
    | succ i => exact .cons h (ih i)

theorem twin_rule {w w' : World} (h : TwinWorld w w') (i : Nat) : (∃ e, w.rule i = .error e ∧ w'.rule i = .error e) ∨ ∃ r r', w.rule i = .ok r ∧ w'.rule i = .ok r' ∧ Twin r r' := by
  unfold World.rule
  rcases twin_get h.rules i with ⟨h1, h2⟩ | ⟨r, r', h1, h2, h3⟩
  · rw [h1, h2]; exact .inl ⟨_, rfl, rfl⟩
  · rw [h1, h2]; exact .inr ⟨r, r', rfl, rfl, h3⟩

theorem rule_mem {w : World} {i : Nat} {r : RuleObj} (h : w.rule i = .ok r) : r ∈ w.rules := by
  unfold World.rule at h
  split at h
  · next x hx => cases h; exact List.mem_of_getElem? hx
  · cases h

theorem put_global {w w' : World} (h : TwinWorld w w') {i : Nat} {r r' r1 r1' : RuleObj} (hr : w.rule i = .ok r) (h1 : Twin r1 r1') (h2 : r.ready = true → r1.ready = true) :
    TwinWorld (w.put i r1) (w'.put i r1') := by
  refine ⟨?_, twin_put h.rules h1 i⟩
  rintro ⟨x, hx, hy⟩
  rcases List.mem_or_eq_of_mem_set hx with hx | rfl
  · exact h.global ⟨x, hx, hy⟩
  · refine h.global ⟨r, rule_mem hr, ?_⟩
    cases hx : r.ready with
    | false => rfl
    | true => rw [h2 hx] at hy; cases hy

/-- Calls that do not set tables. -/
def Op.Uses : Op → Prop
  | .setGlobal _ | .setRule _ _ => False
  | _ => True

/-- Calls that do not set the global table. -/
theorem twin_step {env : Env} {w w' : World} {op : Op} (hop : ∀ t, op ≠ .setGlobal t) (h : TwinWorld w w') (hs : TablesAlike w.global w'.global ∨ op.Uses) :
    (∃ e, step env w op = .error e ∧ step env w' op = .error e) ∨
    ∃ w1 w1' a, step env w op = .ok (w1, a) ∧ step env w' op = .ok (w1', a) ∧ TwinWorld w1 w1' ∧ w1.global = w.global ∧ w1'.global = w'.global := by
  cases op with
  | setGlobal t => exact absurd rfl (hop t)
  | setRule i t =>
    simp only [step]
    rcases twin_rule h i with ⟨e, h1, h2⟩ | ⟨r, r', h1, h2, h3⟩
    · rw [h1, h2]; exact .inl ⟨e, rfl, rfl⟩
    · rw [h1, h2]
      rcases twin_set (env := env) (p := []) (TablesAlike.refl t) h3 with ⟨e, h4, h5⟩ | ⟨r1, r1', e, h4, h5, h6⟩
      · simp only [Go.ok_bind]; rw [h4, h5]; exact .inl ⟨e, rfl, rfl⟩
      · simp only [Go.ok_bind]; rw [h4, h5]
        exact .inr ⟨_, _, _, rfl, rfl, ⟨fun _ => hs.resolve_right (by simp [Op.Uses]), twin_put h.rules h6 i⟩, rfl, rfl⟩
  | checkRule i m =>
    simp only [step]
    rcases twin_rule h i with ⟨e, h1, h2⟩ | ⟨r, r', h1, h2, h3⟩
    · rw [h1, h2]; exact .inl ⟨e, rfl, rfl⟩
    · rw [h1, h2]
      simp only [Go.ok_bind]
      have := twin_check (env := env) (p := []) (m := m) (fun hx => h.global ⟨r, rule_mem h1, hx⟩) h3
      revert this
      cases r.check env w.global [] m with
      | error e => cases r'.check env w'.global [] m with
        | error e' => intro h; cases (show e = e' from h); exact .inl ⟨_, rfl, rfl⟩
        | ok o' => exact False.elim
      | ok o => cases r'.check env w'.global [] m with
        | error e' => exact False.elim
        | ok o' =>
          rintro ⟨h4, h5, h6, h7, h8⟩
          refine .inr ⟨_, w'.put i o'.rule, .verdict o.result o.extra, rfl, ?_, put_global (r' := r') h h1 h7 h8, rfl, rfl⟩
          rw [h4, h5]; rfl
  | testRule i m =>
    simp only [step]
    rcases twin_rule h i with ⟨e, h1, h2⟩ | ⟨r, r', h1, h2, h3⟩
    · rw [h1, h2]; exact .inl ⟨e, rfl, rfl⟩
    · rw [h1, h2]
      simp only [Go.ok_bind]
      rcases twin_test (env := env) (p := []) (m := m) (fun hx => h.global ⟨r, rule_mem h1, hx⟩) h3 with ⟨e, h4, h5⟩ | ⟨o, r1, r1', h4, h5, h6, h7⟩
      · rw [h4, h5]; exact .inl ⟨e, rfl, rfl⟩
      · rw [h4, h5]; exact .inr ⟨_, _, _, rfl, rfl, put_global (r' := r') h h1 h6 h7, rfl, rfl⟩
  | toMongo i base =>
    simp only [step]
    rcases twin_rule h i with ⟨e, h1, h2⟩ | ⟨r, r', h1, h2, h3⟩
    · rw [h1, h2]; exact .inl ⟨e, rfl, rfl⟩
    · rw [h1, h2]
      simp only [Go.ok_bind]
      rcases twin_mongo (env := env) (p := []) (base := base) (fun hx => h.global ⟨r, rule_mem h1, hx⟩) h3 with ⟨e, h4, h5⟩ | ⟨o, r1, r1', h4, h5, h6, h7⟩
      · rw [h4, h5]; exact .inl ⟨e, rfl, rfl⟩
      · rw [h4, h5]; exact .inr ⟨_, _, _, rfl, rfl, put_global (r' := r') h h1 h6 h7, rfl, rfl⟩
  | checkAll m =>
    simp only [step]
    rw [twin_all h.global h.rules]
    cases check env w'.global m w'.rules with
    | error e => exact .inl ⟨e, rfl, rfl⟩
    | ok out => exact .inr ⟨_, _, _, rfl, rfl, h, rfl, rfl⟩

/-! ## Histories with maps -/

theorem contents_read (h : Maps) (t : TableRef) : Contents h t (t.read h) := by
  constructor <;> simp +contextual [TableRef.read]

theorem contents_eq {h : Maps} {t : TableRef} {v : Predef} (s : Contents h t v) : v = t.read h := by
  obtain ⟨a, b, c⟩ := v
  obtain ⟨h1, h2, h3, h4, h5, h6⟩ := s
  unfold TableRef.read
  congr 1
  · cases hs : t.strings with
    | none => exact h2 hs
    | some x => exact h1 x hs
  · cases hs : t.lists with
    | none => exact h4 hs
    | some x => exact h3 x hs
  · cases hs : t.noRefs with
    | none => exact h6 hs
    | some x => exact h5 x hs

theorem kept_tail {op : SharedOp} {ops : List SharedOp} (h : StringsKept (op :: ops)) : StringsKept ops :=
  fun i j t a m hij h1 h2 => h (i + 1) (j + 1) t a m (by omega) (by simpa using h1) (by simpa using h2)

theorem kept_head {t : TableRef} {ops : List SharedOp} (h : StringsKept (.setGlobal t :: ops)) {a : Nat} {m : List (Str × Str)} (hm : .changeStrings a m ∈ ops) : t.strings ≠ some a := by
  obtain ⟨j, hj⟩ := List.mem_iff_getElem?.1 hm
  exact h 0 (j + 1) t a m (by omega) rfl (by simpa using hj)

/-- The end of two histories. -/
def Together (x : Go (SharedWorld × List Answer)) (y : Go (World × List Answer)) : Prop :=
  (∃ e, x = .error e ∧ y = .error e) ∨ ∃ w v as, x = .ok (w, as) ∧ y = .ok (v, as) ∧ TwinWorld w.now v

theorem together_cons {env : Env} {k : Nat} {w w1 : SharedWorld} {v v1 : World} {sop : SharedOp} {op : Op} {ops : List SharedOp} {vs : List Op} {a : Answer}
    (h1 : stepShared (env.call k) w sop = .ok (w1, [a])) (h2 : step (env.call k) v op = .ok (v1, a))
    (h : Together (runShared env (k + 1) w1 ops) (run env (k + 1) v1 vs)) : Together (runShared env k w (sop :: ops)) (run env k v (op :: vs)) := by
  rw [runShared, run, h1, h2, Go.ok_bind, Go.ok_bind]
  simp only [List.length_cons, List.length_nil, Nat.zero_add]
  rcases h with ⟨e, h3, h4⟩ | ⟨w2, v2, as, h3, h4, h5⟩
  · rw [h3, h4]; exact .inl ⟨e, rfl, rfl⟩
  · rw [h3, h4]; exact .inr ⟨w2, v2, a :: as, rfl, rfl, h5⟩

theorem together_silent {env : Env} {k : Nat} {w w1 : SharedWorld} {v : World} {sop : SharedOp} {ops : List SharedOp} {vs : List Op}
    (h1 : stepShared (env.call k) w sop = .ok (w1, [])) (h : Together (runShared env k w1 ops) (run env k v vs)) : Together (runShared env k w (sop :: ops)) (run env k v vs) := by
  rw [runShared, h1, Go.ok_bind]
  simp only [List.length_nil, Nat.add_zero]
  rcases h with ⟨e, h3, h4⟩ | ⟨w2, v2, as, h3, h4, h5⟩
  · rw [h3, h4]; exact .inl ⟨e, rfl, rfl⟩
  · rw [h3, h4]; exact .inr ⟨w2, v2, as, rfl, rfl, h5⟩

theorem together_rules {env : Env} {k : Nat} {w : SharedWorld} {v : World} {sop : SharedOp} {op : Op} {ops : List SharedOp} {vs : List Op}
    (hop : ∀ t, op ≠ .setGlobal t) (h : TwinWorld w.now v) (hs : TablesAlike w.now.global v.global ∨ op.Uses) (h1 : ∀ e, stepShared e w sop = stepRules e w op)
    (hrest : ∀ w1 : SharedWorld, w1.maps = w.maps → w1.strings = w.strings → w1.now.global = w.now.global → ∀ v1 : World, v1.global = v.global → TwinWorld w1.now v1 →
      Together (runShared env (k + 1) w1 ops) (run env (k + 1) v1 vs)) :
    Together (runShared env k w (sop :: ops)) (run env k v (op :: vs)) := by
  rcases twin_step (env := env.call k) hop h hs with ⟨e, h2, h3⟩ | ⟨w1, v1, a, h2, h3, h4, h5, h6⟩
  · left
    refine ⟨e, ?_, ?_⟩
    · rw [runShared, h1, stepRules, h2]; rfl
    · rw [run, h3]; rfl
  · refine together_cons (w1 := { w with rules := w1.rules }) (by rw [h1, stepRules, h2]; rfl) h3 (hrest { w with rules := w1.rules } rfl rfl rfl v1 h6 ⟨fun hx => ?_, h4.rules⟩)
    have := h4.global hx
    rw [h5] at this
    exact this

theorem run_together {env : Env} : ∀ {h : Maps} {ops : List SharedOp} {vs : List Op}, Passed h ops vs → ∀ {k : Nat} {w : SharedWorld} {v : World}, w.maps = h →
    StringsKept ops → (∀ a m, .changeStrings a m ∈ ops → w.strings ≠ some a) → TablesAlike w.now.global v.global → List.Forall₂ Twin w.rules v.rules →
    Together (runShared env k w ops) (run env k v vs) := by
  intro h ops vs hp
  induction hp with
  | nil => intro k w v _ _ _ hg hr; exact .inr ⟨w, v, [], rfl, rfl, fun _ => hg, hr⟩
  | @changeStrings h a m ops vs _ ih =>
    intro k w v hw hk hc hg hr
    refine together_silent (w1 := { w with maps := w.maps.setStrings a m }) rfl (ih (by rw [← hw]; rfl) (kept_tail hk) (fun b n hb => hc b n (by simp [hb])) ?_ hr)
    refine ⟨Eq.trans ?_ hg.1, hg.2⟩
    have : w.strings ≠ some a := hc a m (by simp)
    show (w.strings.map _).getD [] = (w.strings.map _).getD []
    cases hs : w.strings with
    | none => rfl
    | some b =>
      have hne : b ≠ a := by rintro rfl; exact this hs
      simp [Maps.setStrings, hne]
  | @changeLists h a m ops vs _ ih =>
    intro k w v hw hk hc hg hr
    exact together_silent (w1 := { w with maps := w.maps.setLists a m }) rfl (ih (by rw [← hw]; rfl) (kept_tail hk) (fun b n hb => hc b n (by simp [hb])) hg hr)
  | @setGlobal h t u ops vs hu _ ih =>
    intro k w v hw hk hc hg hr
    subst hw
    cases contents_eq hu
    cases hv : validatePredefinedString (t.read w.maps) with
    | error e =>
      refine together_cons (w1 := w) (v1 := v) (a := .status false) ?_ ?_ (ih rfl (kept_tail hk) (fun b n hb => hc b n (by simp [hb])) hg hr)
      · simp only [stepShared, hv]
      · simp only [step, setGlobal, hv]; rfl
    | ok t' =>
      refine together_cons (w1 := { w with strings := t.strings, lists := t.lists, resolved := t'.listsNoRefs }) (v1 := { v with global := t' }) (a := .status true) ?_ ?_
        (ih rfl (kept_tail hk) (fun b n hb => kept_head hk hb) ⟨?_, rfl⟩ hr)
      · simp only [stepShared, hv]
      · simp only [step, setGlobal, hv]; rfl
      · rw [validatePredefinedString, Go.bind_eq_ok] at hv
        obtain ⟨ls, -, hv⟩ := hv
        cases hv
        rfl
  | @setRule h i t u ops vs hu _ ih =>
    intro k w v hw hk hc hg hr
    subst hw
    cases contents_eq hu
    exact together_rules (by simp) ⟨fun _ => hg, hr⟩ (.inl hg) (fun _ => rfl) fun w1 h1 h2 h3 v1 h4 h5 =>
      ih h1 (kept_tail hk) (fun b n hb => by rw [h2]; exact hc b n (by simp [hb])) (by rw [h3, h4]; exact hg) h5.rules
  | @checkRule h i m ops vs _ ih =>
    intro k w v hw hk hc hg hr
    subst hw
    exact together_rules (by simp) ⟨fun _ => hg, hr⟩ (.inl hg) (fun _ => rfl) fun w1 h1 h2 h3 v1 h4 h5 =>
      ih h1 (kept_tail hk) (fun b n hb => by rw [h2]; exact hc b n (by simp [hb])) (by rw [h3, h4]; exact hg) h5.rules
  | @testRule h i m ops vs _ ih =>
    intro k w v hw hk hc hg hr
    subst hw
    exact together_rules (by simp) ⟨fun _ => hg, hr⟩ (.inl hg) (fun _ => rfl) fun w1 h1 h2 h3 v1 h4 h5 =>
      ih h1 (kept_tail hk) (fun b n hb => by rw [h2]; exact hc b n (by simp [hb])) (by rw [h3, h4]; exact hg) h5.rules
  | @toMongo h i base ops vs _ ih =>
    intro k w v hw hk hc hg hr
    subst hw
    exact together_rules (by simp) ⟨fun _ => hg, hr⟩ (.inl hg) (fun _ => rfl) fun w1 h1 h2 h3 v1 h4 h5 =>
      ih h1 (kept_tail hk) (fun b n hb => by rw [h2]; exact hc b n (by simp [hb])) (by rw [h3, h4]; exact hg) h5.rules
  | @checkAll h m ops vs _ ih =>
    intro k w v hw hk hc hg hr
    subst hw
    exact together_rules (by simp) ⟨fun _ => hg, hr⟩ (.inl hg) (fun _ => rfl) fun w1 h1 h2 h3 v1 h4 h5 =>
      ih h1 (kept_tail hk) (fun b n hb => by rw [h2]; exact hc b n (by simp [hb])) (by rw [h3, h4]; exact hg) h5.rules

theorem set_ready {rs : List RuleObj} (h : ∀ r ∈ rs, r.ready = true) {i : Nat} {r : RuleObj} (hr : r.ready = true) : ∀ x ∈ rs.set i r, x.ready = true := by
  intro x hx
  rcases List.mem_or_eq_of_mem_set hx with hx | rfl
  · exact h x hx
  · exact hr

theorem step_ready {env : Env} {w w1 : World} {op : Op} {a : Answer} (hop : op.Uses) (h : ∀ r ∈ w.rules, r.ready = true) (hs : step env w op = .ok (w1, a)) :
    ∀ r ∈ w1.rules, r.ready = true := by
  cases op with
  | setGlobal t => exact hop.elim
  | setRule i t => exact hop.elim
  | checkRule i m =>
    simp only [step, Go.bind_eq_ok] at hs
    obtain ⟨r, h1, o, h2, hs⟩ := hs
    cases hs
    have := twin_check (env := env) (p := []) (m := m) (fun _ => TablesAlike.refl w.global) (Twin.refl r)
    rw [h2] at this
    exact set_ready h (this.2.2.2.2 (h r (rule_mem h1)))
  | testRule i m =>
    simp only [step, Go.bind_eq_ok] at hs
    obtain ⟨r, h1, o, h2, hs⟩ := hs
    cases hs
    rcases twin_test (env := env) (p := []) (m := m) (fun _ => TablesAlike.refl w.global) (Twin.refl r) with ⟨e, h3, -⟩ | ⟨o', r1, r1', h3, -, -, h4⟩
    · rw [h3] at h2; cases h2
    · rw [h3] at h2
      cases h2
      exact set_ready h (h4 (h r (rule_mem h1)))
  | toMongo i base =>
    simp only [step, Go.bind_eq_ok] at hs
    obtain ⟨r, h1, o, h2, hs⟩ := hs
    cases hs
    rcases twin_mongo (env := env) (p := []) (base := base) (fun _ => TablesAlike.refl w.global) (Twin.refl r) with ⟨e, h3, -⟩ | ⟨o', r1, r1', h3, -, -, h4⟩
    · rw [h3] at h2; cases h2
    · rw [h3] at h2
      cases h2
      exact set_ready h (h4 (h r (rule_mem h1)))
  | checkAll m =>
    simp only [step, Go.bind_eq_ok] at hs
    obtain ⟨out, _, hs⟩ := hs
    cases hs
    exact h

theorem ready_twin {w v : World} (h : ∀ r ∈ w.rules, r.ready = true) (hr : List.Forall₂ Twin w.rules v.rules) : TwinWorld w v :=
  ⟨fun ⟨r, h1, h2⟩ => absurd h2 (by simp [h r h1]), hr⟩

theorem together_ready {env : Env} {k : Nat} {w : SharedWorld} {v : World} {sop : SharedOp} {op : Op} {ops : List SharedOp} {vs : List Op}
    (hop : op.Uses) (h : ∀ r ∈ w.rules, r.ready = true) (hr : List.Forall₂ Twin w.rules v.rules) (h1 : ∀ e, stepShared e w sop = stepRules e w op)
    (hrest : ∀ (w1 : SharedWorld) (v1 : World), (∀ r ∈ w1.rules, r.ready = true) → List.Forall₂ Twin w1.rules v1.rules →
      Together (runShared env (k + 1) w1 ops) (run env (k + 1) v1 vs)) :
    Together (runShared env k w (sop :: ops)) (run env k v (op :: vs)) := by
  have hn : ∀ t, op ≠ .setGlobal t := by rintro t rfl; exact hop.elim
  rcases twin_step (env := env.call k) hn (ready_twin (w := w.now) h hr) (.inr hop) with ⟨e, h2, h3⟩ | ⟨w1, v1, a, h2, h3, h4, h5, h6⟩
  · left
    refine ⟨e, ?_, ?_⟩
    · rw [runShared, h1, stepRules, h2]; rfl
    · rw [run, h3]; rfl
  · exact together_cons (w1 := { w with rules := w1.rules }) (by rw [h1, stepRules, h2]; rfl) h3 (hrest { w with rules := w1.rules } v1 (step_ready (w := w.now) hop h h2) h4.rules)

/-- Rules that are ready do not look at the global table. -/
theorem run_ready {env : Env} : ∀ {h : Maps} {ops : List SharedOp} {vs : List Op}, Passed h ops vs → OnlyUses ops → ∀ {k : Nat} {w : SharedWorld} {v : World},
    (∀ r ∈ w.rules, r.ready = true) → List.Forall₂ Twin w.rules v.rules → Together (runShared env k w ops) (run env k v vs) := by
  intro h ops vs hp
  induction hp with
  | nil => intro _ k w v hw hr; exact .inr ⟨w, v, [], rfl, rfl, ready_twin hw hr⟩
  | changeStrings _ ih => intro ho k w v hw hr; exact together_silent rfl (ih (fun op h => ho op (by simp [h])) hw hr)
  | changeLists _ ih => intro ho k w v hw hr; exact together_silent rfl (ih (fun op h => ho op (by simp [h])) hw hr)
  | @setGlobal h t u ops vs _ _ ih => intro ho; exact absurd rfl ((ho (.setGlobal t) (by simp)).1 t)
  | @setRule h i t u ops vs _ _ ih => intro ho; exact absurd rfl ((ho (.setRule i t) (by simp)).2 i t)
  | checkRule _ ih => intro ho k w v hw hr; exact together_ready trivial hw hr (fun _ => rfl) fun w1 v1 h1 h2 => ih (fun op h => ho op (by simp [h])) h1 h2
  | testRule _ ih => intro ho k w v hw hr; exact together_ready trivial hw hr (fun _ => rfl) fun w1 v1 h1 h2 => ih (fun op h => ho op (by simp [h])) h1 h2
  | toMongo _ ih => intro ho k w v hw hr; exact together_ready trivial hw hr (fun _ => rfl) fun w1 v1 h1 h2 => ih (fun op h => ho op (by simp [h])) h1 h2
  | checkAll _ ih => intro ho k w v hw hr; exact together_ready trivial hw hr (fun _ => rfl) fun w1 v1 h1 h2 => ih (fun op h => ho op (by simp [h])) h1 h2

theorem together_answers {x : Go (SharedWorld × List Answer)} {y : Go (World × List Answer)} (h : Together x y) : SameAnswers x y := by
  rcases h with ⟨e, rfl, rfl⟩ | ⟨w, v, as, rfl, rfl, -⟩ <;> rfl

theorem passed_exists : ∀ (ops : List SharedOp) (h : Maps), ∃ vs, Passed h ops vs
  | [], _ => ⟨_, .nil⟩
  | op :: ops, h => by
    cases op with
    | changeStrings a m => obtain ⟨vs, x⟩ := passed_exists ops (h.setStrings a m); exact ⟨vs, .changeStrings x⟩
    | changeLists a m => obtain ⟨vs, x⟩ := passed_exists ops (h.setLists a m); exact ⟨vs, .changeLists x⟩
    | setGlobal t => obtain ⟨vs, x⟩ := passed_exists ops h; exact ⟨_, .setGlobal (contents_read h t) x⟩
    | setRule i t => obtain ⟨vs, x⟩ := passed_exists ops h; exact ⟨_, .setRule (contents_read h t) x⟩
    | checkRule i m => obtain ⟨vs, x⟩ := passed_exists ops h; exact ⟨_, .checkRule x⟩
    | testRule i m => obtain ⟨vs, x⟩ := passed_exists ops h; exact ⟨_, .testRule x⟩
    | toMongo i base => obtain ⟨vs, x⟩ := passed_exists ops h; exact ⟨_, .toMongo x⟩
    | checkAll m => obtain ⟨vs, x⟩ := passed_exists ops h; exact ⟨_, .checkAll x⟩

end Mapl

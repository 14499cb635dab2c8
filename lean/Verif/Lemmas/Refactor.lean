import Verif.Spec.Refactor
import Verif.Lemmas.Crash
import Verif.Lemmas.State
import Verif.Lemmas.Copy

/-! # Outcomes of fresh rules, part by part -/

namespace Mapl

open Spec

variable {env : Env} {g : Predef} {m : Msg} {p : List Nat} {r : RuleObj}

/-! ## Lists of rules -/

/-- The more severe of two decisions. -/
def worse (d d' : Decision) : Decision := if d.rank ≤ d'.rank then d' else d

theorem worse_rank (d d' : Decision) : (worse d d').rank = max d.rank d'.rank := by
  cases d <;> cases d' <;> rfl

/-- Checking the rule can give the decision. -/
def Gives (env : Env) (g : Predef) (m : Msg) (r : RuleObj) (d : Decision) : Prop :=
  ∃ env' p o, Run env env' ∧ r.check env' g p m = .ok o ∧ o.result = d.rank

/-- Checking the rule can fail. -/
def Breaks (env : Env) (g : Predef) (m : Msg) (r : RuleObj) : Prop :=
  ∃ env' p x, Run env env' ∧ r.check env' g p m = .error x

theorem run_refl (ho : env.OrdOk) : Run env env := ⟨rfl, ho⟩

theorem mostSevere_exists : ∀ ds : List Decision, ∃ d, MostSevere ds d
  | [] => ⟨.default, .inl rfl, by simp⟩
  | x :: ds => by
    obtain ⟨d, h1, h2⟩ := mostSevere_exists ds
    refine ⟨worse x d, ?_, ?_⟩
    · by_cases h : x.rank ≤ d.rank
      · simp only [worse, if_pos h]
        exact h1.imp id (fun h => by simp [h])
      · simp only [worse, if_neg h]
        exact .inr (by simp)
    · intro y hy
      rw [worse_rank]
      simp only [List.mem_cons] at hy
      rcases hy with rfl | hy
      · omega
      · have := h2 y hy; omega

theorem canDecide_iff (ho : env.OrdOk) {rs : List RuleObj} {d : Decision} :
    CanDecide env g m rs d ↔ ∃ ds, List.Forall₂ (Gives env g m) rs ds ∧ MostSevere ds d := by
  constructor
  · rintro ⟨env', out, hr, h, hd⟩
    obtain ⟨vs, e1, -, e3⟩ := check_verdicts hr.ord h
    obtain ⟨ds, f1, -, d', f2, -, f3⟩ := check_summary h
    have : ds = vs.map (·.1) := map_rank_inj (by rw [← f1, e1]; simp [Function.comp_def])
    subst this
    have : d' = d := rank_inj (by rw [← f2, hd])
    subst this
    refine ⟨_, ?_, f3⟩
    rw [List.forall₂_map_right_iff]
    refine e3.imp fun r v hv => ?_
    obtain ⟨env'', p, o, h1, h2, h3, -⟩ := verdict_run hr hv
    exact ⟨env'', p, o, h1, h2, h3⟩
  · rintro ⟨ds, h, hs⟩
    have : ∃ vs : List (Decision × List Extra), vs.map (·.1) = ds ∧ List.Forall₂ (fun r v => Verdict env g m r v.1 v.2) rs vs := by
      clear hs
      induction h with
      | nil => exact ⟨[], rfl, .nil⟩
      | cons h _ ih =>
        obtain ⟨vs, rfl, h2⟩ := ih
        obtain ⟨env', p, o, h3, h4, h5⟩ := h
        exact ⟨(_, o.extra) :: vs, rfl, .cons ⟨env', p, o, h3, h4, h5, rfl⟩ h2⟩
    obtain ⟨vs, rfl, h2⟩ := this
    obtain ⟨env', out, h3, h4, h5, -⟩ := check_of_verdicts ho h2
    refine ⟨env', out, h3, h4, ?_⟩
    obtain ⟨ds, f1, -, d', f2, -, f3⟩ := check_summary h4
    have : ds = vs.map (·.1) := map_rank_inj (by rw [← f1, h5]; simp [Function.comp_def])
    subst this
    rw [f2, mostSevere_unique f3 hs]

/-- Go results that do not return fail. -/
theorem not_returns {α : Type} {x : Go α} : (∃ e, x = .error e) ↔ ¬ Returns x := by
  cases x with
  | ok a => simp [Returns]
  | error e => simp [Returns]

theorem canFail_iff (ho : env.OrdOk) {rs : List RuleObj} : CanFail env g m rs ↔ ∃ r ∈ rs, Breaks env g m r := by
  constructor
  · rintro ⟨env', x, hr, h⟩
    have h' := not_returns.1 ⟨x, h⟩
    rw [returns_check] at h'
    simp only [not_forall] at h'
    obtain ⟨k, r, hk, hf⟩ := h'
    obtain ⟨e, he⟩ := not_returns.2 hf
    exact ⟨r, List.mem_of_getElem? hk, env', [k], e, hr, he⟩
  · rintro ⟨r, hm, env', p, x, hr, h⟩
    obtain ⟨k, hk⟩ := List.mem_iff_getElem?.1 hm
    let E := combine env (fun _ => env') (fun _ => p)
    have hrr : Reroot env' E p [k] := combine_reroot (env := env) (E := fun _ => env') (q := fun _ => p) k hr.ext
    have hE : Run env E := ⟨rfl, combine_ordOk fun _ => hr.ord⟩
    have : ¬ Returns (check E g m rs) := by
      rw [returns_check]
      intro hall
      have := hall k r hk
      rw [ruleCheck_reroot hrr, h] at this
      exact not_returns.1 ⟨x, rfl⟩ this
    obtain ⟨e, he⟩ := not_returns.2 this
    exact ⟨E, e, hE, he⟩

theorem mostSevere_append {ds ds' : List Decision} {d : Decision} :
    MostSevere (ds ++ ds') d ↔ ∃ d1 d2, MostSevere ds d1 ∧ MostSevere ds' d2 ∧ d = worse d1 d2 := by
  constructor
  · intro h
    obtain ⟨d1, h1⟩ := mostSevere_exists ds
    obtain ⟨d2, h2⟩ := mostSevere_exists ds'
    refine ⟨d1, d2, h1, h2, mostSevere_unique h ⟨?_, ?_⟩⟩
    · unfold worse
      split
      · exact h2.1.imp id (fun h => by simp [h])
      · exact h1.1.imp id (fun h => by simp [h])
    · intro x hx
      rw [worse_rank]
      rcases List.mem_append.1 hx with hx | hx
      · have := h1.2 x hx; omega
      · have := h2.2 x hx; omega
  · rintro ⟨d1, d2, h1, h2, rfl⟩
    refine ⟨?_, ?_⟩
    · unfold worse
      split
      · exact h2.1.imp id (fun h => by simp [h])
      · exact h1.1.imp id (fun h => by simp [h])
    · intro x hx
      rw [worse_rank]
      rcases List.mem_append.1 hx with hx | hx
      · have := h1.2 x hx; omega
      · have := h2.2 x hx; omega

theorem canDecide_append (ho : env.OrdOk) {rs rs' : List RuleObj} {d : Decision} :
    CanDecide env g m (rs ++ rs') d ↔ ∃ d1 d2, CanDecide env g m rs d1 ∧ CanDecide env g m rs' d2 ∧ d = worse d1 d2 := by
  simp only [canDecide_iff ho]
  constructor
  · rintro ⟨ds, h, hs⟩
    obtain ⟨a, b, h1, h2, rfl⟩ : ∃ a b, List.Forall₂ (Gives env g m) rs a ∧ List.Forall₂ (Gives env g m) rs' b ∧ ds = a ++ b := by
      refine ⟨ds.take rs.length, ds.drop rs.length, ?_, ?_, by simp⟩
      · have := List.forall₂_take rs.length h
        simpa using this
      · have := List.forall₂_drop rs.length h
        simpa using this
    obtain ⟨d1, d2, e1, e2, e3⟩ := mostSevere_append.1 hs
    exact ⟨d1, d2, ⟨a, h1, e1⟩, ⟨b, h2, e2⟩, e3⟩
  · rintro ⟨d1, d2, ⟨a, h1, e1⟩, ⟨b, h2, e2⟩, e3⟩
    exact ⟨a ++ b, List.rel_append h1 h2, mostSevere_append.2 ⟨d1, d2, e1, e2, e3⟩⟩

theorem canFail_append (ho : env.OrdOk) {rs rs' : List RuleObj} :
    CanFail env g m (rs ++ rs') ↔ CanFail env g m rs ∨ CanFail env g m rs' := by
  simp only [canFail_iff ho, List.mem_append]
  constructor
  · rintro ⟨r, h | h, hb⟩
    · exact .inl ⟨r, h, hb⟩
    · exact .inr ⟨r, h, hb⟩
  · rintro (⟨r, h, hb⟩ | ⟨r, h, hb⟩)
    · exact ⟨r, .inl h, hb⟩
    · exact ⟨r, .inr h, hb⟩

theorem canDecide_one (ho : env.OrdOk) {d : Decision} : CanDecide env g m [r] d ↔ Gives env g m r d := by
  rw [canDecide_iff ho]
  constructor
  · rintro ⟨ds, h, hs⟩
    cases h with
    | cons h h' =>
      cases h' with
      | nil =>
        next x =>
        have : d = x := mostSevere_unique hs ⟨.inr (by simp), by simp⟩
        subst this
        exact h
  · intro h
    exact ⟨[d], .cons h .nil, .inr (by simp), by simp⟩

theorem canFail_one (ho : env.OrdOk) : CanFail env g m [r] ↔ Breaks env g m r := by
  rw [canFail_iff ho]; simp

theorem Spec.Equivalent.context (ho : env.OrdOk) {rs rs' : List RuleObj} (h : Equivalent env g rs rs') (pre post : List RuleObj) :
    Equivalent env g (pre ++ rs ++ post) (pre ++ rs' ++ post) where
  decisions m d := by
    simp only [canDecide_append ho, h.decisions]
  failures m := by
    simp only [canFail_append ho, h.failures]

/-! ## One rule, part by part -/

/-- Everything after sender and receiver. -/
def tailJudge (env : Env) (r : Rule) (op re : Re) (n : Option Node) (q : List Nat) (m : Msg) : Go Nat := do
  if ¬ (← matchPtr env (some op) m.requestMethod) then return DEFAULT
  if ¬ (← testResource env { r with resourceNameRegex := some re } m) then return DEFAULT
  match n with
  | none => return decisionCode r.decision
  | some n => do
    let o ← eval env n q m
    return if o.flag then decisionCode r.decision else DEFAULT

/-- Conditions before and after preparation. -/
def ConditionsPrepare (env : Ext) (g : Predef) (c n : Option Node) : Prop :=
  (c = none ∧ n = none) ∨ ∃ a b, c = some a ∧ a.prepare env g = .ok b ∧ n = some b

/-- The parts of a rule that are prepared once and for all. -/
structure Static (env : Ext) (g : Predef) (r : Rule) (sl rl : List ExpandedSR) (op re : Re) : Prop where
  sender : ∃ s, replaceName r.senderName g = .ok s ∧ convertStringToExpandedSenderReceiver env s r.senderType = .ok sl
  receiver : ∃ s, replaceName r.receiverName g = .ok s ∧ convertStringToExpandedSenderReceiver env s r.receiverType = .ok rl
  operation : compile env (convertOperationStringToRegex r.operation) = some op
  resource : compile env (convertStringToRegex r.resourceName gs"WithWildcards") = some re

theorem prepareOneRule_of {env : Ext} {r : Rule} {sl rl : List ExpandedSR} {op re : Re} {n : Option Node} (hc : r.converted = false)
    (hs : Static env g r sl rl op re) (hn : ConditionsPrepare env g r.conditions n) :
    ∃ s v, prepareOneRule env g r = .ok { r with
      conditions := n, senderName := s, receiverName := v, senderList := sl, receiverList := rl, operationRegex := some op
      resourceNameRegex := some re, converted := true } := by
  obtain ⟨⟨s, h1, h2⟩, ⟨v, h3, h4⟩, h5, h6⟩ := hs
  have e1 : prepareConditions env g r = .ok { r with conditions := n } := by
    unfold prepareConditions
    rcases hn with ⟨hc, rfl⟩ | ⟨a, b, hc, hp, rfl⟩
    · rw [hc]
      dsimp only
      rw [← hc]
    · rw [hc]
      dsimp only
      rw [hp]
      rfl
  refine ⟨s, v, ?_⟩
  unfold prepareOneRule
  rw [e1, Go.ok_bind]
  unfold replaceStringsAndListsInOneRule
  dsimp only
  rw [h1, h3]
  simp only [Go.ok_bind, Go.pure_eq]
  unfold convertFields convertFieldsToRegex
  dsimp only
  simp only [hc, Bool.false_eq_true, if_false, h2, h4, h5, h6]

/-- A fresh rule is checked with a result exactly if its parts are prepared and judged. -/
theorem fresh_iff (hf : Fresh r) {d : Nat} : (∃ o, r.check env g p m = .ok o ∧ o.result = d) ↔
    ∃ sl rl op re c n bs br, Static env g r.body sl rl op re ∧ copyConditions env (0 :: p) r.body.conditions = .ok c ∧
      ConditionsPrepare env g c n ∧ senderLoop env m sl = .ok bs ∧ receiverLoop env m rl = .ok br ∧
      (if bs = true ∧ br = true then tailJudge env r.body op re n (1 :: 1 :: p) m else .ok DEFAULT) = .ok d := by
  have key : ∀ {sl rl op re c n s v} {r1 : RuleObj} {rule : Rule}, Static env g r.body sl rl op re →
      copyConditions env (0 :: p) r.body.conditions = .ok c → r1.ready = true → r1.prepared = some rule →
      rule = { r.body with
        conditions := n, senderName := s, receiverName := v, senderList := sl, receiverList := rl, operationRegex := some op
        resourceNameRegex := some re, converted := true } →
      ((∃ o, r1.check env g p m = .ok o ∧ o.result = d) ↔ ∃ bs br, senderLoop env m sl = .ok bs ∧ receiverLoop env m rl = .ok br ∧
      (if bs = true ∧ br = true then tailJudge env r.body op re n (1 :: 1 :: p) m else .ok DEFAULT) = .ok d) := by
    intro sl rl op re c n s v r1 rule hst hcp hr1 hp1 e
    obtain ⟨⟨_, _, hsl⟩, ⟨_, _, hrl⟩, -, -⟩ := hst
    obtain ⟨bs, hbs⟩ := returns_senderLoop (msg := m) (expand_regexp hsl)
    obtain ⟨br, hbr⟩ := returns_receiverLoop (msg := m) (expand_regexp hrl)
    have hconv : rule.converted = true := by rw [e]
    rw [check_judge hr1 hp1 hconv]
    have e1 : testSender env rule m = .ok bs := by
      unfold testSender
      rw [convertOnUse_converted hconv, e]
      exact hbs
    have e2 : testReceiver env rule m = .ok br := by
      unfold testReceiver
      rw [convertOnUse_converted hconv, e]
      exact hbr
    have e3 : (judge env rule (1 :: 1 :: p) m).map (·.1) =
        if bs = true ∧ br = true then tailJudge env r.body op re n (1 :: 1 :: p) m else .ok DEFAULT := by
      unfold judge
      rw [e1, e2, Go.ok_bind]
      cases bs with
      | false => rfl
      | true =>
        cases br with
        | false => rfl
        | true =>
          simp only [not_true_eq_false, if_false, Go.ok_bind, and_self, if_true]
          unfold tailJudge judgeConditions
          subst e
          have e4 : testResource env { r.body with
              conditions := n, senderName := s, receiverName := v, senderList := sl, receiverList := rl, operationRegex := some op
              resourceNameRegex := some re, converted := true } m = testResource env { r.body with resourceNameRegex := some re } m := rfl
          rw [e4]
          dsimp only
          simp only [Go.map_bind, Go.map_ite]
          congr 1
          funext b
          split
          · rfl
          · congr 1
            funext b
            split
            · rfl
            · cases n with
              | none => rfl
              | some n =>
                simp only
                congr 1
                funext o
                cases ho : o.flag <;> simp [Except.map]
    have e5 : (∃ o, (judge env rule (1 :: 1 :: p) m).map (fun x => (⟨x.1, x.2.1, x.2.2, r1⟩ : RuleOut)) = .ok o ∧ o.result = d) ↔
        (judge env rule (1 :: 1 :: p) m).map (·.1) = .ok d := by
      cases judge env rule (1 :: 1 :: p) m with
      | ok x => simp [Except.map]
      | error x => simp [Except.map]
    rw [e5, e3]
    constructor
    · intro h; exact ⟨bs, br, hbs, hbr, h⟩
    · rintro ⟨bs', br', h1, h2, h⟩
      rw [hbs] at h1; rw [hbr] at h2
      simp at h1 h2; subst h1; subst h2
      exact h
  constructor
  · rintro ⟨o, ho, hd⟩
    obtain ⟨r1, rule, h1, h2, h3, -, h5⟩ := fresh_check hf ho
    obtain ⟨copy, rule', g1, g2, rfl⟩ := setPredefined_ok h1
    simp at h3; subst h3
    obtain ⟨c, hc, rfl⟩ := copyRule_ok g1
    obtain ⟨s, v, sl, rl, op, re, f1, f2, f3, f4, f5, f6, f7, f8⟩ := prepareOneRule_ok (by simpa using hf.converted) g2
    have hst : Static env g r.body sl rl op re := ⟨⟨s, f1, f3⟩, ⟨v, f2, f4⟩, f5, f6⟩
    have hcp : ConditionsPrepare env g c rule'.conditions := f7
    have := (key (n := rule'.conditions) (s := s) (v := v) (r1 := _) (rule := rule')
      (sl := sl) (rl := rl) (op := op) (re := re) hst hc h2 rfl f8).1 ⟨o, h5, hd⟩
    obtain ⟨bs, br, k1, k2, k3⟩ := this
    exact ⟨sl, rl, op, re, c, _, bs, br, hst, hc, hcp, k1, k2, k3⟩
  · rintro ⟨sl, rl, op, re, c, n, bs, br, hst, hc, hcp, k1, k2, k3⟩
    have hcopy : ∃ copy, copyRule env (0 :: p) r.body = .ok copy := by
      unfold copyRule
      rw [hc]
      exact ⟨_, rfl⟩
    obtain ⟨copy, hcopy⟩ := hcopy
    obtain ⟨c', hc', e⟩ := copyRule_ok hcopy
    rw [hc] at hc'
    simp at hc'; subst hc'
    obtain ⟨s, v, hprep⟩ := prepareOneRule_of (env := env.toExt) (g := g) (r := copy) (sl := sl) (rl := rl) (op := op) (re := re) (n := n)
      (by rw [e]; exact hf.converted) (by rw [e]; exact ⟨hst.sender, hst.receiver, hst.operation, hst.resource⟩) (by rw [e]; exact hcp)
    have hset : ∃ r1, r.setPredefined env (0 :: p) g = .ok (r1, none) ∧ r1.ready = true ∧ r1.prepared = some { copy with
      conditions := n, senderName := s, receiverName := v, senderList := sl, receiverList := rl, operationRegex := some op
      resourceNameRegex := some re, converted := true } := by
      unfold RuleObj.setPredefined
      dsimp only
      rw [hcopy]
      dsimp only
      rw [hprep]
      exact ⟨_, rfl, rfl, rfl⟩
    obtain ⟨r1, g1, g2, g3⟩ := hset
    rw [check_unready hf.ready g1 g2]
    exact (key hst hc g2 g3 (by rw [e])).2 ⟨bs, br, k1, k2, k3⟩

/-! ## Splitting the list of senders or receivers -/

/-- Checking the rule at this position gives the result. -/
def Res (env : Env) (g : Predef) (p : List Nat) (r : RuleObj) (m : Msg) (d : Nat) : Prop := ∃ o, r.check env g p m = .ok o ∧ o.result = d

theorem gives_iff {d : Decision} : Gives env g m r d ↔ ∃ E p, Run env E ∧ Res E g p r m d.rank := by
  constructor
  · rintro ⟨E, p, o, h1, h2, h3⟩; exact ⟨E, p, h1, o, h2, h3⟩
  · rintro ⟨E, p, h1, o, h2, h3⟩; exact ⟨E, p, o, h1, h2, h3⟩

theorem breaks_iff : Breaks env g m r ↔ ∃ E p, Run env E ∧ ¬ ∃ d, Res E g p r m d := by
  constructor
  · rintro ⟨E, p, x, h1, h2⟩
    refine ⟨E, p, h1, ?_⟩
    rintro ⟨d, o, h3, -⟩
    rw [h2] at h3; simp at h3
  · rintro ⟨E, p, h1, h2⟩
    have : ¬ Returns (r.check E g p m) := fun ⟨o, ho⟩ => h2 ⟨_, o, ho, rfl⟩
    obtain ⟨x, hx⟩ := not_returns.2 this
    exact ⟨E, p, x, h1, hx⟩

theorem res_rank {d : Nat} (h : Res env g p r m d) : ∃ d' : Decision, d = d'.rank := by
  obtain ⟨o, h1, rfl⟩ := h
  exact ruleCheck_rank h1

theorem res_unique {d d' : Nat} (h : Res env g p r m d) (h' : Res env g p r m d') : d = d' := by
  obtain ⟨o, h1, rfl⟩ := h
  obtain ⟨o', h1', rfl⟩ := h'
  rw [h1] at h1'
  simp at h1'
  rw [h1']

/-- Sender and receiver can be prepared, as well as operation and resource. -/
def Loads (env : Ext) (g : Predef) (r : Rule) : Prop := ∃ sl rl op re, Static env g r sl rl op re

/-- Sender and receiver match. -/
def Meets (env : Ext) (g : Predef) (r : Rule) (m : Msg) : Prop :=
  ∃ sl rl op re, Static env g r sl rl op re ∧ senderLoop env m sl = .ok true ∧ receiverLoop env m rl = .ok true

/-- The conditions can be prepared. -/
def Readies (env : Env) (g : Predef) (p : List Nat) (c : Option Node) : Prop :=
  ∃ c' n, copyConditions env (0 :: p) c = .ok c' ∧ ConditionsPrepare env g c' n

/-- The result of the rest. -/
def Tail (env : Env) (g : Predef) (p : List Nat) (r : Rule) (m : Msg) (d : Nat) : Prop :=
  ∃ op re c' n, compile env (convertOperationStringToRegex r.operation) = some op ∧
    compile env (convertStringToRegex r.resourceName gs"WithWildcards") = some re ∧
    copyConditions env (0 :: p) r.conditions = .ok c' ∧ ConditionsPrepare env g c' n ∧ tailJudge env r op re n (1 :: 1 :: p) m = .ok d

theorem static_unique {env : Ext} {r : Rule} {sl rl sl' rl' : List ExpandedSR} {op re op' re' : Re} (h : Static env g r sl rl op re)
    (h' : Static env g r sl' rl' op' re') : sl = sl' ∧ rl = rl' ∧ op = op' ∧ re = re' := by
  obtain ⟨⟨s, a1, a2⟩, ⟨v, a3, a4⟩, a5, a6⟩ := h
  obtain ⟨⟨s', b1, b2⟩, ⟨v', b3, b4⟩, b5, b6⟩ := h'
  rw [a1] at b1; rw [a3] at b3
  simp at b1 b3; subst b1; subst b3
  rw [a2] at b2; rw [a4] at b4; rw [a5] at b5; rw [a6] at b6
  simp at b2 b4 b5 b6
  exact ⟨b2, b4, b5, b6⟩

theorem conditionsPrepare_unique {env : Ext} {c n n' : Option Node} (h : ConditionsPrepare env g c n) (h' : ConditionsPrepare env g c n') :
    n = n' := by
  rcases h with ⟨rfl, rfl⟩ | ⟨a, b, rfl, h2, rfl⟩ <;> rcases h' with ⟨h3, rfl⟩ | ⟨a', b', h3, h4, rfl⟩
  · rfl
  · simp at h3
  · simp at h3
  · simp at h3; subst h3
    rw [h2] at h4; simpa using h4

theorem res_iff (hf : Fresh r) {d : Nat} : Res env g p r m d ↔ Loads env g r.body ∧ Readies env g p r.body.conditions ∧
    ((Meets env g r.body m ∧ Tail env g p r.body m d) ∨ (¬ Meets env g r.body m ∧ d = DEFAULT)) := by
  unfold Res
  rw [fresh_iff hf]
  constructor
  · rintro ⟨sl, rl, op, re, c, n, bs, br, h1, h2, h3, h4, h5, h6⟩
    refine ⟨⟨sl, rl, op, re, h1⟩, ⟨c, n, h2, h3⟩, ?_⟩
    by_cases hb : bs = true ∧ br = true
    · rw [if_pos hb] at h6
      obtain ⟨rfl, rfl⟩ := hb
      exact .inl ⟨⟨sl, rl, op, re, h1, h4, h5⟩, op, re, c, n, h1.operation, h1.resource, h2, h3, h6⟩
    · rw [if_neg hb] at h6
      refine .inr ⟨?_, by simpa using h6.symm⟩
      rintro ⟨sl', rl', op', re', k1, k2, k3⟩
      obtain ⟨rfl, rfl, -, -⟩ := static_unique h1 k1
      rw [h4] at k2; rw [h5] at k3
      simp at k2 k3
      exact hb ⟨k2, k3⟩
  · rintro ⟨⟨sl, rl, op, re, h1⟩, ⟨c, n, h2, h3⟩, h⟩
    obtain ⟨s, _, hsl⟩ := h1.sender
    obtain ⟨v, _, hrl⟩ := h1.receiver
    obtain ⟨bs, hbs⟩ := returns_senderLoop (msg := m) (expand_regexp hsl)
    obtain ⟨br, hbr⟩ := returns_receiverLoop (msg := m) (expand_regexp hrl)
    refine ⟨sl, rl, op, re, c, n, bs, br, h1, h2, h3, hbs, hbr, ?_⟩
    rcases h with ⟨⟨sl', rl', op', re', k1, k2, k3⟩, op'', re'', c', n', t1, t2, t3, t4, t5⟩ | ⟨h, rfl⟩
    · obtain ⟨rfl, rfl, rfl, rfl⟩ := static_unique h1 k1
      rw [hbs] at k2; rw [hbr] at k3
      simp at k2 k3
      rw [if_pos ⟨k2, k3⟩]
      rw [h1.operation] at t1; rw [h1.resource] at t2; rw [h2] at t3
      simp at t1 t2 t3; subst t1; subst t2; subst t3
      rw [conditionsPrepare_unique h3 t4]
      exact t5
    · rw [if_neg]
      rintro ⟨rfl, rfl⟩
      exact h ⟨sl, rl, op, re, h1, hbs, hbr⟩

theorem tail_unique {r : Rule} {d d' : Nat} (h : Tail env g p r m d) (h' : Tail env g p r m d') : d = d' := by
  obtain ⟨op, re, c, n, h1, h2, h3, h4, h5⟩ := h
  obtain ⟨op', re', c', n', h1', h2', h3', h4', h5'⟩ := h'
  rw [h1] at h1'; rw [h2] at h2'; rw [h3] at h3'
  simp at h1' h2' h3'; subst h1'; subst h2'; subst h3'
  rw [conditionsPrepare_unique h4 h4', h5'] at h5
  simpa using h5.symm

/-- A rule that loads and fits as two others together, all three with the same rest, is equivalent to the two. -/
theorem split_by (ho : env.OrdOk) {r r1 r2 : RuleObj} {L1 L2 : Prop} {M1 M2 : Msg → Prop} {C : Env → List Nat → Prop} {T : Env → List Nat → Msg → Nat → Prop}
    (uniq : ∀ {E p m d d'}, T E p m d → T E p m d' → d = d')
    (rr : ∀ {E p m d}, Run env E → (Res E g p r m d ↔ (L1 ∧ L2) ∧ C E p ∧ (((M1 m ∨ M2 m) ∧ T E p m d) ∨ (¬ (M1 m ∨ M2 m) ∧ d = DEFAULT))))
    (r1r : ∀ {E p m d}, Run env E → (Res E g p r1 m d ↔ L1 ∧ C E p ∧ ((M1 m ∧ T E p m d) ∨ (¬ M1 m ∧ d = DEFAULT))))
    (r2r : ∀ {E p m d}, Run env E → (Res E g p r2 m d ↔ L2 ∧ C E p ∧ ((M2 m ∧ T E p m d) ∨ (¬ M2 m ∧ d = DEFAULT)))) :
    Equivalent env g [r] [r1, r2] := by
  have hsplit : ([r1, r2] : List RuleObj) = [r1] ++ [r2] := rfl
  have both : ∀ {E p m}, Run env E → ((∃ d, Res E g p r m d) ↔ (∃ d, Res E g p r1 m d) ∧ ∃ d, Res E g p r2 m d) := by
    intro E p m hE
    simp only [rr hE, r1r hE, r2r hE]
    constructor
    · rintro ⟨d, ⟨l1, l2⟩, c, k⟩
      have tl : M1 m ∨ M2 m → T E p m d := fun x => by
        rcases k with ⟨_, t⟩ | ⟨y, _⟩
        · exact t
        · exact absurd x y
      constructor
      · by_cases x1 : M1 m
        · exact ⟨d, l1, c, .inl ⟨x1, tl (.inl x1)⟩⟩
        · exact ⟨DEFAULT, l1, c, .inr ⟨x1, rfl⟩⟩
      · by_cases x2 : M2 m
        · exact ⟨d, l2, c, .inl ⟨x2, tl (.inr x2)⟩⟩
        · exact ⟨DEFAULT, l2, c, .inr ⟨x2, rfl⟩⟩
    · rintro ⟨⟨d1, l1, c, k1⟩, ⟨d2, l2, -, k2⟩⟩
      rcases k1 with ⟨x1, t1⟩ | ⟨x1, -⟩
      · exact ⟨d1, ⟨l1, l2⟩, c, .inl ⟨.inl x1, t1⟩⟩
      · rcases k2 with ⟨x2, t2⟩ | ⟨x2, -⟩
        · exact ⟨d2, ⟨l1, l2⟩, c, .inl ⟨.inr x2, t2⟩⟩
        · exact ⟨DEFAULT, ⟨l1, l2⟩, c, .inr ⟨not_or.2 ⟨x1, x2⟩, rfl⟩⟩
  refine ⟨fun m d => ?_, fun m => ?_⟩
  · rw [hsplit, canDecide_append ho, canDecide_one ho]
    simp only [canDecide_one ho, gives_iff]
    constructor
    · rintro ⟨E, p, hE, h⟩
      obtain ⟨⟨a, ha⟩, ⟨b, hb⟩⟩ := (both hE).1 ⟨_, h⟩
      obtain ⟨d1, rfl⟩ := res_rank ha
      obtain ⟨d2, rfl⟩ := res_rank hb
      refine ⟨d1, d2, ⟨E, p, hE, ha⟩, ⟨E, p, hE, hb⟩, rank_inj ?_⟩
      rw [worse_rank]
      obtain ⟨-, -, k⟩ := (rr hE).1 h
      obtain ⟨-, -, k1⟩ := (r1r hE).1 ha
      obtain ⟨-, -, k2⟩ := (r2r hE).1 hb
      rcases k1 with ⟨x1, t1⟩ | ⟨x1, t1⟩ <;> rcases k2 with ⟨x2, t2⟩ | ⟨x2, t2⟩ <;> rcases k with ⟨x, t⟩ | ⟨x, t⟩
      · rw [uniq t t1, uniq t2 t1]; simp
      · exact absurd (.inl x1) x
      · rw [uniq t t1, t2]; simp
      · exact absurd (.inl x1) x
      · rw [uniq t t2, t1]; simp
      · exact absurd (.inr x2) x
      · exact absurd x (not_or.2 ⟨x1, x2⟩)
      · rw [t, t1, t2]; rfl
    · rintro ⟨d1, d2, ⟨E1, p1, hE1, h1⟩, ⟨E2, p2, hE2, h2⟩, rfl⟩
      obtain ⟨l1, c1, k1⟩ := (r1r hE1).1 h1
      obtain ⟨l2, c2, k2⟩ := (r2r hE2).1 h2
      rcases k1 with ⟨x1, t1⟩ | ⟨x1, t1⟩ <;> rcases k2 with ⟨x2, t2⟩ | ⟨x2, t2⟩
      · unfold worse
        split
        · exact ⟨E2, p2, hE2, (rr hE2).2 ⟨⟨l1, l2⟩, c2, .inl ⟨.inr x2, t2⟩⟩⟩
        · exact ⟨E1, p1, hE1, (rr hE1).2 ⟨⟨l1, l2⟩, c1, .inl ⟨.inl x1, t1⟩⟩⟩
      · refine ⟨E1, p1, hE1, (rr hE1).2 ⟨⟨l1, l2⟩, c1, .inl ⟨.inl x1, ?_⟩⟩⟩
        rw [worse_rank, t2]
        simpa using t1
      · refine ⟨E2, p2, hE2, (rr hE2).2 ⟨⟨l1, l2⟩, c2, .inl ⟨.inr x2, ?_⟩⟩⟩
        rw [worse_rank, t1]
        simpa using t2
      · refine ⟨E1, p1, hE1, (rr hE1).2 ⟨⟨l1, l2⟩, c1, .inr ⟨not_or.2 ⟨x1, x2⟩, ?_⟩⟩⟩
        rw [worse_rank, t1, t2]; rfl
  · rw [hsplit, canFail_append ho, canFail_one ho]
    simp only [canFail_one ho, breaks_iff]
    constructor
    · rintro ⟨E, p, hE, h⟩
      rw [both hE, not_and_or] at h
      exact h.imp (fun h => ⟨E, p, hE, h⟩) (fun h => ⟨E, p, hE, h⟩)
    · rintro (⟨E, p, hE, h⟩ | ⟨E, p, hE, h⟩)
      · exact ⟨E, p, hE, fun h' => h ((both hE).1 h').1⟩
      · exact ⟨E, p, hE, fun h' => h ((both hE).1 h').2⟩

/-- If a rule loads and meets as two others together, and the three are the same otherwise, then it is equivalent to the two. -/
theorem split_equivalent (ho : env.OrdOk) {r r1 r2 : RuleObj} (hf : Fresh r) (hf1 : Fresh r1) (hf2 : Fresh r2)
    (hl : Loads env g r.body ↔ Loads env g r1.body ∧ Loads env g r2.body)
    (hm : ∀ m, Loads env g r1.body → Loads env g r2.body → (Meets env g r.body m ↔ Meets env g r1.body m ∨ Meets env g r2.body m))
    (hc1 : r1.body.conditions = r.body.conditions) (hc2 : r2.body.conditions = r.body.conditions)
    (ht1 : ∀ E p m d, Tail E g p r1.body m d ↔ Tail E g p r.body m d) (ht2 : ∀ E p m d, Tail E g p r2.body m d ↔ Tail E g p r.body m d) :
    Equivalent env g [r] [r1, r2] := by
  have rr : ∀ {E p m d}, Run env E → (Res E g p r m d ↔ (Loads env g r1.body ∧ Loads env g r2.body) ∧ Readies E g p r.body.conditions ∧
      (((Meets env g r1.body m ∨ Meets env g r2.body m) ∧ Tail E g p r.body m d) ∨
        (¬ (Meets env g r1.body m ∨ Meets env g r2.body m) ∧ d = DEFAULT))) := by
    intro E p m d hE
    rw [res_iff hf, hE.ext, hl]
    constructor
    · rintro ⟨h1, h2, h3⟩
      rw [hm m h1.1 h1.2] at h3
      exact ⟨h1, h2, h3⟩
    · rintro ⟨h1, h2, h3⟩
      rw [← hm m h1.1 h1.2] at h3
      exact ⟨h1, h2, h3⟩
  have r1r : ∀ {E p m d}, Run env E → (Res E g p r1 m d ↔ Loads env g r1.body ∧ Readies E g p r.body.conditions ∧
      ((Meets env g r1.body m ∧ Tail E g p r.body m d) ∨ (¬ Meets env g r1.body m ∧ d = DEFAULT))) := by
    intro E p m d hE
    rw [res_iff hf1, hE.ext, hc1, ht1]
  have r2r : ∀ {E p m d}, Run env E → (Res E g p r2 m d ↔ Loads env g r2.body ∧ Readies E g p r.body.conditions ∧
      ((Meets env g r2.body m ∧ Tail E g p r.body m d) ∨ (¬ Meets env g r2.body m ∧ d = DEFAULT))) := by
    intro E p m d hE
    rw [res_iff hf2, hE.ext, hc2, ht2]
  exact split_by ho (M1 := Meets env g r1.body) (M2 := Meets env g r2.body) (C := fun E p => Readies E g p r.body.conditions)
    (T := fun E p => Tail E g p r.body) tail_unique rr r1r r2r

theorem split_append {sep : Char} : ∀ (a b : Str), split sep (a ++ sep :: b) = split sep a ++ split sep b
  | [], b => by simp [split]
  | c :: a, b => by
    by_cases h : c = sep
    · subst h
      simp only [List.cons_append, split, if_true, split_append a b]
    · simp only [List.cons_append, split, if_neg h, split_append a b]
      have := split_ne_nil (sep := sep) a
      cases hs : split sep a with
      | nil => exact absurd hs this
      | cons x l => rfl

theorem mapM_append_ok {α β : Type} {f : α → Go β} : ∀ {l l' : List α} {r : List β},
    (l ++ l').mapM f = .ok r ↔ ∃ a b, l.mapM f = .ok a ∧ l'.mapM f = .ok b ∧ r = a ++ b
  | [], l', r => by simp
  | x :: l, l', r => by
    simp only [List.cons_append, List.mapM_cons, Go.bind_eq_ok, Go.pure_eq, Except.ok.injEq]
    constructor
    · rintro ⟨y, hy, z, hz, rfl⟩
      obtain ⟨a, b, h1, h2, rfl⟩ := mapM_append_ok.1 hz
      exact ⟨y :: a, b, ⟨y, hy, a, h1, rfl⟩, h2, rfl⟩
    · rintro ⟨_, b, ⟨y, hy, a, h1, rfl⟩, h2, rfl⟩
      exact ⟨y, hy, a ++ b, mapM_append_ok.2 ⟨a, b, h1, h2, rfl⟩, rfl⟩

theorem expand_append {env : Ext} {ty a b : Str} {l : List ExpandedSR} :
    convertStringToExpandedSenderReceiver env (a ++ gs"," ++ b) ty = .ok l ↔
      ∃ la lb, convertStringToExpandedSenderReceiver env a ty = .ok la ∧ convertStringToExpandedSenderReceiver env b ty = .ok lb ∧ l = la ++ lb := by
  unfold convertStringToExpandedSenderReceiver
  rw [show a ++ gs"," ++ b = a ++ ',' :: b by simp, split_append, mapM_append_ok]

theorem senderLoop_meets {env : Ext} {ty x : Str} {l : List ExpandedSR} (h : convertStringToExpandedSenderReceiver env x ty = .ok l) :
    senderLoop env m l = .ok true ↔ ∃ e ∈ l, SenderEntry env e m := by
  obtain ⟨b, hb⟩ := returns_senderLoop (msg := m) (expand_regexp h)
  rw [← senderLoop_iff (mapM_expandOne h) hb, hb]
  simp

theorem receiverLoop_meets {env : Ext} {ty x : Str} {l : List ExpandedSR} (h : convertStringToExpandedSenderReceiver env x ty = .ok l) :
    receiverLoop env m l = .ok true ↔ ∃ e ∈ l, ReceiverEntry env e m := by
  obtain ⟨b, hb⟩ := returns_receiverLoop (msg := m) (expand_regexp h)
  rw [← receiverLoop_iff (mapM_expandOne h) hb, hb]
  simp

theorem senderLoop_append {env : Ext} {ty a b : Str} {la lb : List ExpandedSR} (ha : convertStringToExpandedSenderReceiver env a ty = .ok la)
    (hb : convertStringToExpandedSenderReceiver env b ty = .ok lb) :
    senderLoop env m (la ++ lb) = .ok true ↔ senderLoop env m la = .ok true ∨ senderLoop env m lb = .ok true := by
  rw [senderLoop_meets (expand_append.2 ⟨la, lb, ha, hb, rfl⟩), senderLoop_meets ha, senderLoop_meets hb]
  simp [or_and_right, exists_or]

theorem receiverLoop_append {env : Ext} {ty a b : Str} {la lb : List ExpandedSR} (ha : convertStringToExpandedSenderReceiver env a ty = .ok la)
    (hb : convertStringToExpandedSenderReceiver env b ty = .ok lb) :
    receiverLoop env m (la ++ lb) = .ok true ↔ receiverLoop env m la = .ok true ∨ receiverLoop env m lb = .ok true := by
  rw [receiverLoop_meets (expand_append.2 ⟨la, lb, ha, hb, rfl⟩), receiverLoop_meets ha, receiverLoop_meets hb]
  simp [or_and_right, exists_or]

theorem replaceName_plain {x : Str} (h : PlainList x) : ∀ {y}, replaceName x g = .ok y ↔ y = x := by
  intro y
  have hp : hasPrefix x gs"#" = false := by
    cases hx : hasPrefix x gs"#" with
    | false => rfl
    | true =>
      obtain ⟨k, hk⟩ := hasPrefix_iff.1 hx
      exact absurd hk (h k)
  simp only [replaceName, isReplaceableList, isReplaceableString, hp]
  simp [eq_comm]

theorem noReference_append {a b : Str} (h : PlainList a) : PlainList (a ++ gs"," ++ b) := by
  intro k hk
  cases a with
  | nil => simp at hk
  | cons c a =>
    simp at hk
    exact h a (by simp [hk.1])

end Mapl

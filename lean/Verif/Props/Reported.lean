import Verif.Lemmas.Reported
import Verif.Props.Paths
import Verif.Props.Mongo

/-!
# What a rule returns is decided by the document

C104. An ANY that asks for values returns, for each element that meets its conditions and in the order of the elements, the values of the element. OR passes on what its conditions return.
AND does not: it passes on what the last of its conditions returns.
-/

namespace Mapl.Props

open Mapl.Spec

variable {env : Env} {g t : Predef} {base msg : Msg} {root : Json} {rs : List RuleObj}

/-- **C104**, conditions: prepared conditions hold exactly if what they say is true of the document, and then return what they ask for. -/
theorem C104_conditions_partial (he : Assumed env) (hp : PathsOk env) (hc : Carries env base root msg none) {q : Ask} {n : Node} (hpa : q.Plain env) (hpl : q.bare.Plain)
    (hs : Sound env t q.bare.statement) (hn : (q.tree env).prepare env t = .ok n) (hd : q.bare.Clear env t base root none) (hda : q.Clear env t base root (msg.rawI.isSome))
    (p : List Nat) : ∃ o, eval env n p msg = .ok o ∧ (o.flag = true ↔ q.Holds env t base root) ∧ (q.Holds env t base root → q.Gives env t base root o.extra) :=
  ask_eval he hp hc q n hpa hpl hs hn hd hda p

/-- What a prepared rule returns is what its conditions return. -/
theorem ruleCheck_extra {r : RuleObj} {rule : Rule} {o : RuleOut} {p : List Nat} (hr : r.ready = true) (hp : r.prepared = some rule) (hx : Expanded rule) (hck : r.check env g p msg = .ok o)
    (hd : o.result ≠ Decision.default.rank) : (rule.conditions = none → o.extra = []) ∧ ∀ n, rule.conditions = some n → ∃ e, eval env n (1 :: 1 :: p) msg = .ok e ∧ o.extra = e.extra := by
  obtain ⟨r1, rule0, he, hp', rule', r2, h1, h2, h⟩ := ruleCheck_inv hck
  clear * - he hp hp' h1 h2 h hr hx hd
  have := ensure_ready hr he
  subst this
  rw [hp] at hp'
  simp at hp'; subst hp'
  rw [convertOnUse_converted hx.converted] at h1
  subst h1
  rcases h with ⟨h0, h⟩ | ⟨a1, a2, a3, a4, h⟩
  · subst h0
    exact absurd rfl hd
  · rcases h with ⟨hn, rfl⟩ | ⟨n, e, r3, hn, ht, h⟩
    · exact ⟨fun _ => rfl, fun n hn' => by rw [hn] at hn'; cases hn'⟩
    · refine ⟨fun hn' => (by rw [hn] at hn'; cases hn'), fun n' hn' => ?_⟩
      rw [hn] at hn'
      cases hn'
      rcases h with ⟨-, rfl⟩ | ⟨-, rfl⟩
      · exact absurd rfl hd
      · subst h2
        simp only [RuleObj.testConditions, Go.bind_eq_ok] at ht
        obtain ⟨r4, h5, o1, h6, ht⟩ := ht
        have := ensure_ready (r := { r1 with prepared := some rule' }) hr h5
        subst this
        simp at ht
        obtain ⟨rfl, rfl⟩ := ht
        simp only [testPreparedConditions, Go.bind_eq_ok, deref_eq_ok] at h6
        obtain ⟨r5, h7, h6⟩ := h6
        simp at h7; subst h7
        rw [hn] at h6
        refine ⟨_, h6, if_neg fun h => hd h⟩

theorem asked_prepares {body : Rule} {c : Option Ask} {s v : Str} (he : Assumed env) (hu : body.converted = false) (hc : body.conditions = c.map (Ask.tree env))
    (hs : Resolves t body.senderName s) (hv : Resolves t body.receiverName v) (ht : TextsOk body s v) (hok : ∀ q ∈ c, Sound env t q.bare.statement) (hpa : ∀ q ∈ c, q.Plain env)
    (p : List Nat) : ∃ copy rule, copyRule env p body = .ok copy ∧ prepareOneRule env t copy = .ok rule := by
  have hcopy : copyConditions env p body.conditions = .ok body.conditions := by
    rw [hc]
    cases c with
    | none => rfl
    | some f => exact copy_copyable he.order (ask_copyable f (hpa f (by simp)) (hok f (by simp))) p
  obtain ⟨sl, hsl⟩ := expand_returns he.regexp ht.sender
  obtain ⟨rl, hrl⟩ := expand_returns he.regexp ht.receiver
  obtain ⟨op, hop⟩ := operation_compiles he.regexp ht.operation
  obtain ⟨re, hre⟩ := text_compiles he.regexp ht.resource
  obtain ⟨copy, hcp⟩ : Returns (copyRule env p body) := by
    simp only [copyRule, hcopy, Go.ok_bind]
    exact .pure _
  refine ⟨copy, ?_⟩
  simp only [exists_and_left]
  refine ⟨hcp, ?_⟩
  obtain ⟨ct, h1, rfl⟩ := copyRule_ok hcp
  rw [hcopy] at h1
  simp only [Except.ok.injEq] at h1
  subst h1
  cases c with
  | none =>
    simp only [Option.map_none] at hc
    simp only [prepareOneRule, prepareConditions, hc, Go.ok_bind, replaceStringsAndListsInOneRule, replaceName_iff.2 hs, replaceName_iff.2 hv, pure,
      Except.pure, convertFields, convertFieldsToRegex, hu, hsl, hrl, hop, hre, Bool.false_eq_true, if_false]
    exact ⟨_, rfl⟩
  | some f =>
    simp only [Option.map_some] at hc
    obtain ⟨n, hn⟩ := ask_prepare f (hok f (by simp))
    simp only [prepareOneRule, prepareConditions, hc, hn, Go.ok_bind, replaceStringsAndListsInOneRule, replaceName_iff.2 hs, replaceName_iff.2 hv, pure,
      Except.pure, convertFields, convertFieldsToRegex, hu, hsl, hrl, hop, hre, Bool.false_eq_true, if_false]
    exact ⟨_, rfl⟩

theorem asked_sets {r : RuleObj} {c : Option Ask} {s v : Str} (he : Assumed env) (hf : Fresh r) (hc : r.body.conditions = c.map (Ask.tree env))
    (hs : Resolves t r.body.senderName s) (hv : Resolves t r.body.receiverName v) (ht : TextsOk r.body s v) (hok : ∀ q ∈ c, Sound env t q.bare.statement) (hpa : ∀ q ∈ c, q.Plain env)
    (p : List Nat) : ∃ r', r.setPredefined env p t = .ok (r', none) := by
  obtain ⟨copy, rule, h1, h2⟩ := asked_prepares he hf.converted hc hs hv ht hok hpa p
  simp only [RuleObj.setPredefined, h1, h2]
  exact ⟨_, rfl⟩

theorem asked_check {r r' : RuleObj} {c : Option Ask} {s v : Str} {p0 : List Nat} (he : Assumed env) (hp : PathsOk env) (hm : MsgOk env base) (hcar : Carries env base root msg none)
    (hf : Fresh r) (h0 : r.setPredefined env p0 t = .ok (r', none)) (hc : r.body.conditions = c.map (Ask.tree env)) (hs : Resolves t r.body.senderName s)
    (hv : Resolves t r.body.receiverName v) (ht : TextsOk r.body s v) (hok : ∀ q ∈ c, Sound env t q.bare.statement) (hpl : ∀ q ∈ c, q.bare.Plain)
    (hd : ∀ q ∈ c, q.bare.Clear env t base root none) (hpa : ∀ q ∈ c, q.Plain env) (hda : ∀ q ∈ c, q.Clear env t base root (msg.rawI.isSome)) (p : List Nat) :
    ∃ o, r'.check env g p msg = .ok o ∧
      (WrittenParts r.body s v base ∧ (∀ q ∈ c, q.Holds env t base root) → o.result = (decisionOf r.body.decision).rank ∧
        (decisionOf r.body.decision ≠ .default → (c = none → o.extra = []) ∧ ∀ q ∈ c, q.Gives env t base root o.extra)) ∧
      (¬ (WrittenParts r.body s v base ∧ ∀ q ∈ c, q.Holds env t base root) → o.result = Decision.default.rank ∧ o.extra = []) := by
  obtain ⟨copy, rule, h1, h2, rfl⟩ := setPredefined_ok h0
  obtain ⟨k1, k2, k3, k4⟩ := parts_text he.regexp (carries_msg hcar hm) hf.converted h0 rfl hs hv ht
  have hx : Expanded rule := prepared_expanded hf.converted h0 rfl
  obtain ⟨ct, hct, rfl⟩ := copyRule_ok h1
  have hcopy : ct = c.map (Ask.tree env) := by
    rw [hc] at hct
    cases c with
    | none => simpa [copyConditions_none] using hct.symm
    | some f =>
      rw [Option.map_some, copy_copyable he.order (ask_copyable f (hpa f (by simp)) (hok f (by simp)))] at hct
      simpa using hct.symm
  subst hcopy
  obtain ⟨s', v', sl, rl, op, re, _, _, h3, h4, _, _, h7, h8⟩ := prepareOneRule_ok (by simpa using hf.converted) h2
  have hcond : ∀ n, rule.conditions = some n → ∃ f, c = some f ∧ (f.tree env).prepare env t = .ok n := by
    intro n hn
    rcases h7 with ⟨_, h7⟩ | ⟨n0, n', h5, h6, h7⟩
    · rw [h7] at hn; simp at hn
    · rw [h7] at hn
      obtain rfl : n' = n := by simpa using hn
      cases c with
      | none => simp at h5
      | some f =>
        simp at h5; subst h5
        exact ⟨f, rfl, h6⟩
  have hnone : rule.conditions = none → c = none := by
    intro hn
    rcases h7 with ⟨h7, _⟩ | ⟨n0, n', h5, h6, h7⟩
    · simpa using h7
    · rw [h7] at hn; simp at hn
  have heval : ∀ f n, c = some f → (f.tree env).prepare env t = .ok n → ∀ p, ∃ o, eval env n p msg = .ok o ∧ (o.flag = true ↔ f.Holds env t base root) ∧
      (f.Holds env t base root → f.Gives env t base root o.extra) := by
    rintro f n rfl hn p
    exact ask_eval he hp hcar f n (hpa f (by simp)) (hpl f (by simp)) (hok f (by simp)) hn (hd f (by simp)) (hda f (by simp)) p
  have hret : Returns (RuleObj.check env g p { r with ready := true, predefined := t, prepared := some rule } msg) := by
    refine returns_prepared (rule := rule) rfl rfl ?_ ?_ ?_ ?_ ?_ fun n hn p => ?_
    · rw [h8]; exact expand_regexp h3
    · rw [h8]; exact expand_regexp h4
    · rw [h8]; rfl
    · rw [h8]; rfl
    · rw [h8]
    · obtain ⟨f, hcf, hp⟩ := hcond n hn
      obtain ⟨o, ho, -⟩ := heval f n hcf hp p
      exact ⟨o, ho⟩
  obtain ⟨o, ho⟩ := hret
  have hdec : rule.decision = r.body.decision := by rw [h8]
  obtain ⟨r1, r2, -⟩ := ruleCheck_prepared (r := { r with ready := true, predefined := t, prepared := some rule }) rfl rfl hx ho
  have hextra := ruleCheck_extra (r := { r with ready := true, predefined := t, prepared := some rule }) rfl rfl hx ho
  rw [hdec] at r1
  have key : (PartsMatch env rule msg ∧ (∀ n, rule.conditions = some n → Holds env n (1 :: 1 :: p) msg)) ↔
      (WrittenParts r.body s v base ∧ ∀ q ∈ c, q.Holds env t base root) := by
    rw [← carries_parts hcar]
    refine and_congr ?_ ?_
    · constructor
      · rintro ⟨a, b, c, d⟩; exact ⟨k1.1 a, k2.1 b, k3.1 c, k4.1 d⟩
      · rintro ⟨a, b, c, d⟩; exact ⟨k1.2 a, k2.2 b, k3.2 c, k4.2 d⟩
    · cases hn : rule.conditions with
      | none =>
        rw [hnone hn]; simp
      | some n =>
        obtain ⟨f, hcf, hp⟩ := hcond n hn
        obtain ⟨e, he', h, -⟩ := heval f n hcf hp (1 :: 1 :: p)
        rw [eval_holds env n _ _ _ he'] at h
        simp [hcf, h]
  refine ⟨o, ho, fun h => ⟨r1 (key.2 h), fun hne => ?_⟩, fun h => r2 fun h' => h (key.1 h')⟩
  have hres : o.result ≠ Decision.default.rank := by
    rw [r1 (key.2 h)]
    intro h
    exact hne (by revert h; cases decisionOf r.body.decision <;> decide)
  obtain ⟨e1, e2⟩ := hextra hres
  cases hn : rule.conditions with
  | none =>
    rw [hnone hn]
    exact ⟨fun _ => e1 hn, by simp⟩
  | some n =>
    obtain ⟨f, rfl, hp⟩ := hcond n hn
    obtain ⟨e, he', -, hg⟩ := heval f n rfl hp (1 :: 1 :: p)
    obtain ⟨e', he2, hoe⟩ := e2 n hn
    rw [he'] at he2
    cases he2
    rw [hoe]
    refine ⟨by simp, fun q hq => ?_⟩
    cases hq
    exact hg (h.2 f (by simp))

/-- **C104**, one rule: it has its decision as result exactly if it applies, and then returns what its conditions ask for; otherwise it returns nothing. -/
theorem C104_rule_partial {r : RuleObj} {A : Prop} {d : Decision} {G : List Extra → Prop} (he : Assumed env) (hp : PathsOk env) (hm : MsgOk env base)
    (hc : Carries env base root msg none) (h : RuleAsks env g base root (msg.rawI.isSome) r A d G) (p : List Nat) :
    ∃ o, r.check env g p msg = .ok o ∧ (A → o.result = d.rank ∧ (d ≠ .default → G o.extra)) ∧ (¬ A → o.result = Decision.default.rank ∧ o.extra = []) := by
  obtain ⟨body, t, hl, h⟩ := h
  cases h with
  | mk hb hs hv ht hok hpl hd hpa hda =>
    cases hl with
    | parsed hf =>
      obtain ⟨r', h0⟩ := asked_sets he hf hb hs hv ht hok hpa (0 :: p)
      rw [check_unready hf.ready h0 (setPredefined_ready h0)]
      exact asked_check he hp hm hc hf h0 hb hs hv ht hok hpl hd hpa hda p
    | prepared hf h0 => exact asked_check he hp hm hc hf h0 hb hs hv ht hok hpl hd hpa hda p

/-- **C104**, a policy: the check returns, and the values under the index of a rule are those that the rule asks for, none if it does not apply. -/
theorem C104_policy_partial (he : Assumed env) (hp : PathsOk env) (hm : MsgOk env base) (hc : Carries env base root msg none) {xs : List (Prop × Decision × (List Extra → Prop))}
    (h : List.Forall₂ (fun r x => RuleAsks env g base root (msg.rawI.isSome) r x.1 x.2.1 x.2.2) rs xs) :
    ∃ out, check env g msg rs = .ok out ∧ AsksAnswer xs out := by
  have hlen : rs.length = xs.length := h.length_eq
  have hrule : ∀ (k : Nat) r x, rs[k]? = some r → xs[k]? = some x → RuleAsks env g base root (msg.rawI.isSome) r x.1 x.2.1 x.2.2 := by
    intro k r x h1 h2
    obtain ⟨l1, rfl⟩ := List.getElem?_eq_some_iff.1 h1
    obtain ⟨l2, rfl⟩ := List.getElem?_eq_some_iff.1 h2
    exact h.get l1 l2
  obtain ⟨out, hout⟩ := returns_check.2 fun k r hr => by
    obtain ⟨l1, -⟩ := List.getElem?_eq_some_iff.1 hr
    obtain ⟨o, ho, -⟩ := C104_rule_partial he hp hm hc (hrule k r xs[k] hr (List.getElem?_eq_getElem _)) [k]
    exact ⟨o, ho⟩
  obtain ⟨outs, c1, a, -, -, -, -, c2, -, -, c5, -⟩ := check_inv hout
  obtain ⟨-, c3, c4⟩ := (checkRules_ok rs 0 _).1 c1
  simp only at c3 c4
  refine ⟨out, hout, by rw [c5, List.length_map, c3, hlen], fun k A d G hx => ?_⟩
  obtain ⟨l2, -⟩ := List.getElem?_eq_some_iff.1 hx
  have hr : rs[k]? = some (rs[k]'(by omega)) := List.getElem?_eq_getElem _
  obtain ⟨o, ho, e1, e2⟩ := C104_rule_partial he hp hm hc (hrule k _ _ hr hx) [0 + k]
  obtain ⟨o', ho', e3⟩ := c4 k _ hr
  obtain rfl : o' = o := by rw [ho] at ho'; exact (Except.ok.inj ho').symm
  rw [c2, c5, List.getElem?_map, List.getElem?_map, e3]
  refine ⟨fun hA => ⟨by simp [(e1 hA).1], fun hd => ⟨o'.extra, by simp, (e1 hA).2 hd⟩⟩, fun hA => ⟨by simp [(e2 hA).1], by simp [(e2 hA).2]⟩⟩

/-- **C104** for a policy that is loaded with its tables. -/
theorem C104_loaded_partial (he : Assumed env) (hp : PathsOk env) (hm : MsgOk env base) (hc : Carries env base root msg none) {bodies : List Rule}
    {xs : List (Prop × Decision × (List Extra → Prop))} (hb : ∀ b ∈ bodies, b.converted = false)
    (h : List.Forall₂ (fun b x => WrittenAsks env t base root (msg.rawI.isSome) b x.1 x.2.1 x.2.2) bodies xs) :
    ∃ rs, loadWithTables env t bodies = .ok (rs, none) ∧ rs.map (·.body) = bodies ∧ ∀ g, ∃ out, check env g msg rs = .ok out ∧ AsksAnswer xs out := by
  have hfresh : ∀ b ∈ bodies, Fresh (parsedRule b) := fun b h => ⟨rfl, rfl, hb b h⟩
  obtain ⟨rs, hrs⟩ := loadLoop_total (env := env) (t := t) (bs := bodies) (i := 0) (done := []) fun j b hj => by
    obtain ⟨l1, rfl⟩ := List.getElem?_eq_some_iff.1 hj
    have hx := h.get l1 (h.length_eq ▸ l1)
    generalize (xs.get _).1 = A, (xs.get _).2.1 = d, (xs.get _).2.2 = G at hx
    cases hx with
    | mk hc hs hv ht hok hpl hd hpa hda =>
      exact asked_sets he (hfresh _ (List.getElem_mem l1)) hc hs hv ht hok hpa _
  refine ⟨rs, hrs, (C68_loaded he.order hrs).1, fun g => C104_policy_partial he hp hm hc ?_⟩
  obtain ⟨new, e, hlen, hnew⟩ := loadLoop_ok hrs
  simp at e
  subst e
  refine List.forall₂_iff_get.2 ⟨by rw [hlen, h.length_eq], fun k h1 h2 => ?_⟩
  have hk : bodies[k]? = some (bodies[k]'(by omega)) := List.getElem?_eq_getElem _
  obtain ⟨r, e1, e2⟩ := hnew k _ hk
  obtain rfl : rs.get ⟨k, h1⟩ = r := by
    rw [List.getElem?_eq_getElem h1] at e1
    simpa using e1
  exact ⟨_, t, .prepared (hfresh _ (List.getElem_mem _)) e2, h.get (by omega) h2⟩

/-- Claims do not change what an AND returns. -/
theorem givesLast_claims (fs : List Claim) {qs : List Ask} {b xs : List Extra} :
    Ask.GivesLast env t base root (fs.map Ask.claim ++ qs) b xs ↔ Ask.GivesLast env t base root qs b xs := by
  induction fs with
  | nil => rfl
  | cons f fs ih =>
    simp only [List.map_cons, List.cons_append, Ask.GivesLast, Ask.Gives]
    constructor
    · rintro ⟨x, rfl, h, -⟩; exact ih.1 (h rfl)
    · intro h; exact ⟨[], rfl, fun _ => ih.2 h, by simp⟩

/-- **C104**, values flow up (manual, example 6e): an AND of claims and of one condition that returns values returns these values. -/
theorem C104_flows (fs gs' : List Claim) {q : Ask} {xs : List Extra} :
    (Ask.and (fs.map Ask.claim ++ q :: gs'.map Ask.claim)).Gives env t base root xs ↔ q.Gives env t base root xs := by
  have last : ∀ b, Ask.GivesLast env t base root (gs'.map Ask.claim) b xs ↔ xs = b := fun b => by
    have := givesLast_claims (env := env) (t := t) (base := base) (root := root) gs' (qs := []) (b := b) (xs := xs)
    rw [List.append_nil] at this
    rw [this, Ask.GivesLast]
  simp only [Ask.Gives, givesLast_claims, Ask.GivesLast, last]
  constructor
  · rintro ⟨x, h, h1, h2⟩
    by_cases e : x = []
    · subst e; rw [h1 rfl]; exact h
    · rw [h2 e]; exact h
  · exact fun h => ⟨xs, h, fun e => e, fun _ => rfl⟩

/-- Violation of C104: values do not flow up through AND if a later condition returns values, too. Whatever the first of two conditions returns is lost. -/
theorem C104_violated_and {q1 q2 : Ask} {xs : List Extra} (h : (Ask.and [q1, q2]).Gives env t base root xs) (h2 : ¬ q2.Gives env t base root []) : q2.Gives env t base root xs := by
  simp only [Ask.Gives, Ask.GivesLast] at h
  obtain ⟨x, -, ha, hb⟩ := h
  by_cases hx : x = []
  · obtain ⟨y, hy, h3, h4⟩ := ha hx
    by_cases e : y = []
    · subst e; exact absurd hy h2
    · rw [h4 e]; exact hy
  · obtain ⟨y, hy, h3, h4⟩ := hb hx
    by_cases e : y = []
    · subst e; exact absurd hy h2
    · rw [h4 e]; exact hy

/-- What a rule with these conditions returns for a document. -/
def returned (n : Node) (doc : Json) : Option (Nat × List Extra) := match (Demo.rule gs"block" (some n)).check Demo.env {} [] { Demo.msgI with rawI := some doc } with
  | .ok o => some (o.result, o.extra)
  | .error _ => none

set_option maxRecDepth 100000 in
/-- The same with a concrete rule: OR returns the values of both lists, AND those of the second only, in either order of the lists. -/
theorem C104_violated_lost : ∃ (n1 n2 : Node) (doc : Json),
    n1 = .any (anyFields Demo.env gs"jsonpath:$.xs" [(gs"x", gs"jsonpath:$RELATIVE.a")]) (leaf gs"jsonpath:$RELATIVE.a" gs"GT" gs"0") ∧
    n2 = .any (anyFields Demo.env gs"jsonpath:$.ys" [(gs"y", gs"jsonpath:$RELATIVE.a")]) (leaf gs"jsonpath:$RELATIVE.a" gs"GT" gs"0") ∧
    returned (.or [n1, n2]) doc = some (3, [[(gs"x", .num (.fin 1))], [(gs"x", .num (.fin 2))], [(gs"y", .num (.fin 3))]]) ∧
    returned (.and [n1, n2]) doc = some (3, [[(gs"y", .num (.fin 3))]]) ∧
    returned (.and [n2, n1]) doc = some (3, [[(gs"x", .num (.fin 1))], [(gs"x", .num (.fin 2))]]) :=
  ⟨_, _, .obj [(gs"xs", .arr [.obj [(gs"a", .num (.fin 1))], .obj [(gs"a", .num (.fin 2))]]), (gs"ys", .arr [.obj [(gs"a", .num (.fin 3))]])], rfl, rfl,
    by with_unfolding_all rfl, by with_unfolding_all rfl, by with_unfolding_all rfl⟩

/-! ## Example -/

theorem place_missing : MissingOk placeEnv.toExt := by
  intro p s d hp hs h
  have := place_noText (k := .none) hp hs h
  rw [Mark.text, List.append_nil] at this
  rw [this]
  refine dif_neg ?_
  rintro ⟨d, hd⟩
  exact plainly_ne place_ok (plainly_congr (e := placeNumbers) (e' := placeEnv.toExt) rfl hd) rfl

/-- For each bad container, in one of two lists, its image, the first number of its cpus and its owner. -/
def placeAsk : Ask := .any [mainPath, initPath] [⟨gs"image", [.field gs"image"]⟩, ⟨gs"cpu", [.field gs"cpu", .item 0]⟩, ⟨gs"owner", [.field gs"owner"]⟩] badContainer

noncomputable def askRule : Rule := { (Demo.rule gs"block").body with conditions := some (placeAsk.tree placeEnv) }

theorem nginx_good : ¬ badContainer.Holds placeEnv policyTables placeMsg placeDoc (some (placeContainer gs"nginx" 2)) := by
  simp only [badContainer, Claim.Holds, Claim.AllHold, and_true]
  rintro ⟨-, o, w, P, h1, h2, h3, h4⟩
  obtain ⟨k1, k2, k3⟩ := place_cpu gs"nginx" 2 (by decide)
  cases path_unique k1 h1
  obtain rfl := resolves_unique k2 h2
  have h5 : parseNumber placeEnv.toExt gs"5" = some (.fin 5) := number_parse place_ok (s := gs"5") (q := 5) (wholeText_number 5) (wholeText_noE 5) (place_whole 5 (by decide)).2
  cases h3 with
  | @number k _ _ _ x y hm hw hv =>
    rw [h5] at hw
    cases hw
    cases hv
    cases k with
    | ge => revert h4; decide +kernel
    | _ => revert hm; decide
  | text hP hv hy =>
    cases hv with
    | whole h =>
      have := hy ⟨.ge, by decide⟩
      rw [number_parse place_ok (s := wholeText 2) (q := 2) (wholeText_number 2) (wholeText_noE 2) (place_whole 2 (by decide)).2] at this
      cases this
  | there hm h => revert hm; decide

theorem ask_rule (parsed : Prop) : WrittenAsks placeEnv policyTables placeMsg placeDoc parsed askRule
    (WrittenParts askRule gs"*" gs"*" placeMsg ∧ ∀ q ∈ some placeAsk, q.Holds placeEnv policyTables placeMsg placeDoc) .block
    (fun xs => (some placeAsk = none → xs = []) ∧ ∀ q ∈ some placeAsk, q.Gives placeEnv policyTables placeMsg placeDoc xs) := by
  have sound : Sound placeEnv policyTables placeAsk.bare.statement := by
    rw [placeAsk, Ask.bare, Claim.statement, Sound]
    exact ⟨paths_ok (by simp) (by simp), bad_sound⟩
  have plain : placeAsk.bare.Plain := by
    rw [placeAsk, Ask.bare, Claim.Plain]
    exact ⟨paths_plain (by simp), bad_plain⟩
  have clear : placeAsk.bare.Clear placeEnv policyTables placeMsg placeDoc none := by
    rw [placeAsk, Ask.bare, Claim.Clear]
    refine ⟨fun p hp => ?_, .inr place_quiet⟩
    simp only [List.mem_cons, List.not_mem_nil, or_false] at hp
    rcases hp with rfl | rfl
    · exact ⟨_, .there place_list, bad_clear⟩
    · exact ⟨_, .missing place_noList, by simp⟩
  have asked : placeAsk.Plain placeEnv.toExt := by
    rw [placeAsk, Ask.Plain]
    refine ⟨by simp, by decide, fun w hw => ?_⟩
    simp only [List.mem_cons, List.not_mem_nil, or_false] at hw
    rcases hw with rfl | rfl | rfl
    · exact ⟨one_plain (field_plain (by decide)), fun _ => rfl⟩
    · exact ⟨plainSteps_cons.2 ⟨fun n e => by cases e; exact field_plain (by decide), fun n hn => by simp at hn⟩, fun _ => rfl⟩
    · exact ⟨one_plain (field_plain (by decide)), fun _ => rfl⟩
  have given : placeAsk.Clear placeEnv.toExt policyTables placeMsg placeDoc parsed := by
    rw [placeAsk, Ask.Clear]
    intro p hp l hl e he _ w hw
    simp only [List.mem_cons, List.not_mem_nil, or_false] at hp
    have hl : e = placeContainer gs"nginx" 2 ∨ e = placeContainer gs"redis" 7 := by
      rcases hp with rfl | rfl
      · cases path_unique place_list hl
        simpa using he
      · cases path_unique place_noList hl
    simp only [List.mem_cons, List.not_mem_nil, or_false] at hw
    rcases hl with rfl | rfl <;> rcases hw with rfl | rfl | rfl
    all_goals first
      | exact ⟨_, .field rfl (.here _), .inr ⟨by simp, fun _ => place_missing⟩⟩
      | exact ⟨_, .field rfl (.item rfl (.here _)), .inr ⟨by simp, fun _ => place_missing⟩⟩
      | exact ⟨_, .noField rfl, .inr ⟨by simp, fun _ => place_missing⟩⟩
  refine WrittenAsks.mk (body := askRule) (c := some placeAsk) rfl (.plain (by simp [askRule, Demo.rule])) (.plain (by simp [askRule, Demo.rule])) ⟨?_, ?_, ?_, ?_⟩ ?_ ?_ ?_ ?_ ?_
  · show PlainPattern _; decide
  · show PlainPattern _; decide
  · show PlainPattern gs"*"; decide
  · show PlainPattern gs"*"; decide
  all_goals simp [sound, plain, clear, asked, given]

/-- The rule blocks the message and returns the values of the bad container only, for the document as a text and parsed. The owner, which the container does not have, is null or left out. -/
example : ∀ msg ∈ [{ placeMsg with rawI := some placeDoc }, { placeMsg with jsonRaw := some placeText }],
    ∃ rs, loadWithTables placeEnv policyTables [askRule] = .ok (rs, none) ∧ ∀ g, ∃ out, check placeEnv g msg rs = .ok out ∧ out.results[0]? = some 3 ∧
      (out.extraData = [[[(gs"image", .str gs"redis"), (gs"cpu", .num (.fin 7))]]] ∨
        out.extraData = [[[(gs"image", .str gs"redis"), (gs"cpu", .num (.fin 7)), (gs"owner", .null)]]]) := by
  intro msg hmsg
  have car : Carries placeEnv.toExt placeMsg placeDoc msg none := by
    simp only [List.mem_cons, List.not_mem_nil, or_false] at hmsg
    rcases hmsg with rfl | rfl
    · exact .parsed (r := none) (by simp)
    · exact .text (r := none) place_text (by simp)
  have applies : WrittenParts askRule gs"*" gs"*" placeMsg ∧ ∀ q ∈ some placeAsk, q.Holds placeEnv policyTables placeMsg placeDoc := by
    refine ⟨⟨?_, ?_, ?_, ?_⟩, ?_⟩
    · exact ⟨.inl rfl, gs"*", mem_split_iff.1 (by decide), by show Glob gs"*" gs"a"; simp [Glob]⟩
    · exact ⟨.inl rfl, gs"*", mem_split_iff.1 (by decide), by show Glob gs"*" gs"b"; simp [Glob]⟩
    · trivial
    · trivial
    · intro q hq
      cases hq
      rw [placeAsk, Ask.Holds, Ask.bare, Claim.Holds]
      exact ⟨mainPath, by simp, _, place_list, _, .tail _ (.head _), bad_holds⟩
  obtain ⟨rs, h1, -, h2⟩ := C104_loaded_partial (bodies := [askRule]) (xs := [(_, .block, _)]) place_assumed place_ok placeMsg_ok car (by simp [askRule, Demo.rule]) (.cons (ask_rule _) .nil)
  refine ⟨rs, h1, fun g => ?_⟩
  obtain ⟨out, h3, h4, h5⟩ := h2 g
  obtain ⟨k1, k2⟩ := (h5 0 _ _ _ rfl).1 applies
  obtain ⟨es, k3, -, k4⟩ := k2 (by simp)
  refine ⟨out, h3, k1, ?_⟩
  have k5 := k4 _ rfl
  rw [placeAsk, Ask.Gives] at k5
  obtain ⟨ls, g1, g2⟩ := k5
  have hls : ls.flatten = [placeContainer gs"nginx" 2, placeContainer gs"redis" 7] := by
    cases g1 with
    | cons a b =>
      cases b with
      | cons b c =>
        cases c
        cases a with
        | missing h => cases path_unique place_list h
        | there h =>
          cases path_unique place_list h
          cases b with
          | there h => cases path_unique place_noList h
          | missing h => rfl
  rw [hls] at g2
  obtain ⟨x, hx⟩ : ∃ x, out.extraData = [x] := by
    match h : out.extraData, h4 with
    | [x], _ => exact ⟨x, rfl⟩
  rw [hx] at k3 ⊢
  simp only [List.getElem?_cons_zero, Option.some.injEq] at k3
  subst k3
  cases g2 with
  | yes h => exact absurd h nginx_good
  | no h g2 =>
    cases g2 with
    | no h => exact absurd bad_holds h
    | yes h hv hs =>
      cases hs
      have i1 : Leads (placeContainer gs"redis" 7) [.field gs"image"] (some (.str gs"redis")) := .field rfl (.here _)
      have i2 : Leads (placeContainer gs"redis" 7) [.field gs"cpu", .item 0] (some (.num (.fin 7))) := .field rfl (.item rfl (.here _))
      have i3 : Leads (placeContainer gs"redis" 7) [.field gs"owner"] none := .noField rfl
      cases hv with
      | missing h => cases leads_unique i1 h
      | null h => cases leads_unique i1 h
      | found h hv =>
        cases leads_unique i1 h
        cases hv with
        | missing h => cases leads_unique i2 h
        | null h => cases leads_unique i2 h
        | found h hv =>
          cases leads_unique i2 h
          cases hv with
          | found h => cases leads_unique i3 h
          | missing h hv => cases hv; exact .inl rfl
          | null h hv => cases hv; exact .inr rfl

end Mapl.Props

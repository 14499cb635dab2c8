import Verif.Spec.Together
import Verif.Props.Narrow
import Verif.Props.Concurrent
import Verif.Props.Grow
import Verif.Lemmas.Bare
import Verif.Lemmas.MemoryRules
import Verif.Lemmas.Shuffle

/-!
# C59 for policies as they are written

`C59_partial` is about prepared trees. Here the condition is one on the rules as they are written, and the answer is given by what the rules say (C74).
-/

namespace Mapl.Props

open Spec

variable {env : Env} {g t : Predef} {msg : Msg}

theorem document_rel {q : Str} (h : AbsolutePath q) : pathRel q = false := by
  obtain ⟨h1, h2, h3⟩ := h
  have h4 : hasPrefix q gs"$RELATIVE." = false := by
    cases hp : hasPrefix q gs"$RELATIVE." with
    | false => rfl
    | true =>
      obtain ⟨r, rfl⟩ := hasPrefix_iff.1 hp
      exact absurd rfl h1
  have h5 : (q == gs"$RELATIVE") = false := by
    cases hq : q == gs"$RELATIVE" with
    | false => rfl
    | true => exact absurd (by rw [eq_of_beq hq]; rfl) h1
  simp only [Bool.not_eq_true] at h2 h3
  simp [pathRel, sliceHasPrefix, h2, h3, h4, h5]

theorem document_condition {a m v : Str} {c : Condition} (h : (parsed env a m v none).prepare env t = .ok c) (ha : ∀ q, a = gs"jsonpath:" ++ q → AbsolutePath q) :
    c.attrIsJsonpathRelative = false ∧ c.ret = none := by
  refine ⟨?_, by rw [prepare_ret h, parsed_eq]⟩
  obtain ⟨w, e, -, -, -, hp, hf⟩ := prepare_inv h
  have key : e.attrIsJsonpathRelative = false := by
    have hr : (valuePart (baseOf env a m v w none)).attrIsJsonpathRelative = false := (valuePart_flags (baseOf env a m v w none)).2.1
    clear hf
    generalize valuePart (baseOf env a m v w none) = d at hp hr
    cases hp with
    | path hq => exact document_rel (ha _ rfl)
    | _ => exact hr
  cases hf with
  | plain => exact key
  | path => exact key

theorem document_parent {rs : List Str} {a : AnyAll} (hq : Parent.Ok env (.document rs)) (h : (anyFields env (gs"jsonpath:" ++ (Parent.document rs).text) []).prepare env = .ok a) :
    AbsolutePath a.parent ∧ (∀ q ∈ a.parentArr, AbsolutePath q) ∧ ∀ r ∈ a.ret, r.rel = false := by
  obtain ⟨a', h1, h2, -, h3, h4⟩ := parent_prepare hq
  rw [h1] at h
  cases h
  rw [h2, h3, h4]
  have start : ∀ r : Str, AbsolutePath (gs"$." ++ r) := fun r => by simp [AbsolutePath, hasPrefix, List.isPrefixOf]
  refine ⟨?_, ?_, by simp⟩
  · cases rs with
    | nil => exact absurd rfl hq.1
    | cons r rs =>
      cases rs with
      | nil => exact start r
      | cons r' rs =>
        simp only [Parent.text, List.map_cons]
        exact start _
  · intro q hq
    simp only [Parent.paths, List.mem_map] at hq
    obtain ⟨r, -, rfl⟩ := hq
    exact start r

mutual
theorem document_tree : ∀ (f : Statement) {n : Node}, Sound env t f → f.FromDocument → (f.tree env).prepare env t = .ok n → AbsoluteTree n
  | .cond a m v, n, _, hd, h => by
    simp only [Statement.tree, condNode, Node.prepare, Go.bind_eq_ok] at h
    obtain ⟨c, hc, h⟩ := h
    simp at h; subst h
    rw [Statement.FromDocument] at hd
    obtain ⟨h1, h2⟩ := document_condition hc hd
    rw [AbsoluteTree]
    exact ⟨h1, fun ret h => by rw [h2] at h; cases h⟩
  | .and fs, n, hs, hd, h => by
    simp only [Statement.tree, Node.prepare, Go.bind_eq_ok] at h
    obtain ⟨l, hl, h⟩ := h
    simp at h; subst h
    rw [Statement.FromDocument] at hd
    rw [Sound] at hs
    rw [AbsoluteTree]
    exact document_trees fs hs.2 hd hl
  | .or fs, n, hs, hd, h => by
    simp only [Statement.tree, Node.prepare, Go.bind_eq_ok] at h
    obtain ⟨l, hl, h⟩ := h
    simp at h; subst h
    rw [Statement.FromDocument] at hd
    rw [Sound] at hs
    rw [AbsoluteTree]
    exact document_trees fs hs.2 hd hl
  | .not f, n, hs, hd, h => by
    simp only [Statement.tree, Node.prepare, Go.bind_eq_ok] at h
    obtain ⟨l, hl, h⟩ := h
    simp at h; subst h
    rw [Statement.FromDocument] at hd
    rw [Sound] at hs
    rw [AbsoluteTree]
    exact document_tree f hs hd hl
  | .any q f, n, hs, hd, h => by
    simp only [Statement.tree, Node.prepare, Go.bind_eq_ok] at h
    obtain ⟨l, hl, a, ha, h⟩ := h
    simp at h; subst h
    rw [Statement.FromDocument] at hd
    rw [Sound] at hs
    obtain ⟨⟨rs, rfl⟩, hd⟩ := hd
    rw [AbsoluteTree]
    exact ⟨document_parent hs.1 ha, document_tree f hs.2 hd hl⟩
  | .all q f, n, hs, hd, h => by
    simp only [Statement.tree, Node.prepare, Go.bind_eq_ok] at h
    obtain ⟨l, hl, a, ha, h⟩ := h
    simp at h; subst h
    rw [Statement.FromDocument] at hd
    rw [Sound] at hs
    obtain ⟨⟨rs, rfl⟩, hd⟩ := hd
    rw [AbsoluteTree]
    exact ⟨document_parent hs.1 ha, document_tree f hs.2 hd hl⟩

theorem document_trees : ∀ (fs : List Statement) {ns : List Node}, SoundAll env t fs → Statement.AllFromDocument fs → prepareNodes env t (Statement.trees env fs) = .ok ns →
    ∀ n ∈ ns, AbsoluteTree n
  | [], ns, _, _, h => by simp [Statement.trees, prepareNodes] at h; subst h; simp
  | f :: fs, ns, hs, hd, h => by
    simp only [Statement.trees, prepareNodes, Go.bind_eq_ok] at h
    obtain ⟨x, hx, l, hl, h⟩ := h
    simp at h; subst h
    rw [SoundAll] at hs
    rw [Statement.AllFromDocument] at hd
    intro n hn
    rcases List.mem_cons.1 hn with rfl | hn
    · exact document_tree f hs.1 hd.1 hx
    · exact document_trees fs hs.2 hd.2 hl n hn
end

/-- A rule whose paths, as written, start at the document. -/
theorem document_rule {r : RuleObj} {x : Wording} (ho : env.OrdOk) (h : StandsFor env g t msg r x) (hd : ∀ f ∈ x.conditions, f.FromDocument) : AbsoluteRule env g r := by
  have hc : ∀ n, x.body.conditions = some n → Copyable env n := by
    intro n hn
    rw [h.ok.conditions] at hn
    obtain ⟨f, hf, rfl⟩ := Option.map_eq_some_iff.1 hn
    exact sound_copyable f (h.ok.sound f hf)
  have key : ∀ {p : List Nat} {copy rule : Rule} {n : Node}, copyRule env p x.body = .ok copy → prepareOneRule env t copy = .ok rule → rule.conditions = some n → AbsoluteTree n := by
    intro p copy rule n h1 h2 hn
    rw [copyRule_copyable ho hc] at h1
    cases h1
    obtain ⟨n0, h3, h4⟩ := prepareOneRule_tree h2 hn
    have h3 : x.body.conditions = some n0 := h3
    rw [h.ok.conditions] at h3
    obtain ⟨f, hf, rfl⟩ := Option.map_eq_some_iff.1 h3
    exact document_tree f (h.ok.sound f hf) (hd f hf) h4
  have hl := h.loaded
  generalize hb : x.body = b at hl
  cases hl with
  | parsed hf =>
    refine ⟨.inr hf.prepared, fun p r' rule n h1 h2 hn => ?_⟩
    simp only [RuleObj.ensure, hf.ready, Bool.false_eq_true, if_false] at h1
    cases hs : r.setPredefined env p g with
    | error e => rw [hs] at h1; cases h1
    | ok y =>
      obtain ⟨r1, e⟩ := y
      rw [hs] at h1
      cases h1
      cases e with
      | none =>
        obtain ⟨copy, rule', c1, c2, rfl⟩ := setPredefined_ok hs
        simp at h2; subst h2
        rw [← hb] at c1
        exact key c1 c2 hn
      | some e =>
        rw [(setPredefined_failed hs).2.1, hf.prepared] at h2
        cases h2
  | @prepared r0 _ p0 _ hf hs =>
    obtain ⟨copy, rule, c1, c2, rfl⟩ := setPredefined_ok hs
    refine ⟨.inl rfl, fun p r' rule' n h1 h2 hn => ?_⟩
    rw [ensure_of_ready rfl] at h1
    cases h1
    simp at h2; subst h2
    rw [← hb] at c1
    exact key c1 c2 hn

/-- **C59**, partial: a policy whose paths, as written, start at the document is decided by what its rules say, in every interleaving with any checks of the same message or of others. (The full
statement is about all policies: `C59_violated_block`.) -/
theorem C59_policy_partial (heap : Nat → Msg) (jobs : List Job) (schedule : List Nat) {i : Nat} {j : Job} {r : Go CheckOut} {xs : List (Predef × Wording)} (hj : jobs[i]? = some j)
    (he : Assumed j.env) (hm : MsgOk j.env (heap j.addr))
    (h : List.Forall₂ (fun r x => StandsFor j.env j.global x.1 (heap j.addr) r x.2 ∧ ∀ f ∈ x.2.conditions, f.FromDocument) j.rules xs)
    (hr : ((start heap jobs).exec schedule).result i = some r) :
    ∃ out, r = .ok out ∧ Decides (xs.map fun x => (x.2.Holds j.env x.1 (heap j.addr), x.2.decision)) out := by
  have hs := C59_partial heap jobs schedule hj (fun rule hrule => by
    obtain ⟨k, hk, rfl⟩ := List.getElem_of_mem hrule
    have hk' : k < xs.length := h.length_eq ▸ hk
    obtain ⟨h1, h2⟩ := h.get hk hk'
    exact document_rule he.order h1 h2) hr
  have key : List.Forall₂ (fun r y => RuleSays j.env j.global (heap j.addr) r y.1 y.2) j.rules (xs.map fun x => (x.2.Holds j.env x.1 (heap j.addr), x.2.decision)) := by
    rw [List.forall₂_map_right_iff]
    exact h.imp fun r x hx => standsFor_says hx.1
  obtain ⟨out, o1, o2⟩ := C74_policy he hm key
  rw [Job.alone, o1] at hs
  cases r with
  | error e => cases hs
  | ok out' =>
    have hv : CheckOut.values out' = CheckOut.values out := by simpa [Except.map] using hs
    simp only [CheckOut.values, Prod.mk.injEq] at hv
    obtain ⟨d, a1, a2, a3, a4, a5, a6⟩ := o2
    exact ⟨out', rfl, d, by rw [hv.1, a1], by rw [hv.2.1, a2], a3, a4, by rw [hv.2.2.2.1]; exact a5, by rw [hv.2.2.2.1]; exact a6⟩

/-- The hypotheses hold for the rule of C107, with any number of checks of the same message that have an ANY over a list of the document. -/
example (others : List Job) (schedule : List Nat) {r : Go CheckOut}
    (hr : ((start (fun _ => { policyMsg with requestUseragent := gs"wget" }) (⟨policyEnv, moreTables, [parsedRule (clientsWording gs"a,b").body], 0⟩ ::
      ⟨policyEnv, policyTables, policyRules.map parsedRule, 0⟩ :: others)).exec schedule).result 0 = some r) : ∃ out, r = .ok out ∧ out.results.length = 1 := by
  have hm : MsgOk policyEnv { policyMsg with requestUseragent := gs"wget" } := ⟨rfl, rfl, policyMsg_ok.3, policyMsg_ok.4, policyMsg_ok.5, policyMsg_ok.6, policyMsg_ok.7, policyMsg_ok.8⟩
  have p2 : ∀ x ∈ [gs"curl", gs"wget"], PlainWord x := by unfold PlainWord; decide
  have s := clients_stands (msg := { policyMsg with requestUseragent := gs"wget" }) (t := moreTables) (l := [gs"a", gs"b"]) (ws := [gs"curl", gs"wget"]) rfl rfl (by decide) p2
    (by simp) more_sound
  obtain ⟨out, h1, h2⟩ := C59_policy_partial (xs := [(moreTables, clientsWording gs"a,b")]) _ _ schedule rfl policyEnv_ok hm (.cons ⟨s, fun f hf => by
    obtain rfl : Statement.cond gs"requestUseragent" gs"IN" gs"#agents" = f := by simpa [clientsWording] using hf
    rw [Statement.FromDocument]
    intro q hq
    simp at hq⟩ .nil) hr
  obtain ⟨-, -, -, -, -, h3, -⟩ := h2
  exact ⟨out, h1, h3⟩

end Mapl.Props

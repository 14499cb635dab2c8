import Verif.Model.InPlace
import Verif.Spec.InPlace
import Verif.Lemmas.Hash
import Verif.Lemmas.Documents
import Verif.Lemmas.Names
import Verif.Lemmas.Copy
import Verif.Lemmas.State
import Verif.Lemmas.Match
import Verif.Lemmas.Bare

/-!
# Preparation in place
-/

namespace Mapl

open Spec

/-- What a step in place returns. -/
def outcome {α : Type} (x : α × Option Fail) : Go α :=
  match x.2 with
  | none => .ok x.1
  | some e => .error e

theorem outcome_ok {α : Type} {x : α × Option Fail} {a : α} : outcome x = .ok a ↔ x = (a, none) := by
  obtain ⟨b, _ | e⟩ := x <;> simp [outcome]

theorem outcome_error {α : Type} {x : α × Option Fail} {e : Fail} : outcome x = .error e ↔ x.2 = some e := by
  obtain ⟨b, _ | e⟩ := x <;> simp [outcome]

theorem validateIn_outcome (env : Ext) (c : Condition) : outcome (validateIn env c) = validateOneCondition env c := by
  unfold validateIn validateOneCondition
  cases validateAttribute c with
  | error e => rfl
  | ok u =>
    simp only [Go.ok_bind]
    cases validateMethod env c with
    | error e => rfl
    | ok u =>
      simp only [Go.ok_bind]
      cases convertAndValidateNumericalValues env c <;> rfl

theorem convertIn_outcome (env : Ext) (c : Condition) : outcome (convertIn env c) = convertCondition env c := by
  unfold convertIn convertCondition failIf
  simp only
  split
  · rfl
  · simp only [Go.pure_eq, Go.ok_bind]
    cases handleLabels { setRegex env (setNumbers env (convertMethod c)) with
        valueStringRegex := compile env (convertStringToRegex (setRegex env (setNumbers env (convertMethod c))).value (setRegex env (setNumbers env (convertMethod c))).origMethod) } with
    | error e => rfl
    | ok d =>
      simp only [Go.ok_bind]
      cases handleJsonpath (handleObjects d) with
      | error e => rfl
      | ok d' =>
        simp only [Go.ok_bind]
        split <;> rfl

theorem condition_outcome (env : Ext) (t : Predef) (c : Condition) : outcome (c.prepareIn env t) = c.prepare env t := by
  unfold Condition.prepareIn Condition.prepare
  cases replaceStringsAndListsInCondition env c t with
  | error e => rfl
  | ok c1 =>
    simp only [Go.ok_bind]
    rw [← validateIn_outcome]
    obtain ⟨c2, _ | e⟩ := validateIn env c1
    · simp only [outcome, Go.ok_bind]
      rw [← convertIn_outcome]
      obtain ⟨c3, _ | e⟩ := convertIn env c2
      · simp only [outcome, Go.ok_bind]
        cases c3.setQuery env <;> rfl
      · rfl
    · rfl

theorem appendQueries_outcome (env : Ext) : ∀ (done : List JPath) (qs : List Str), outcome (appendQueries env done qs) = (qs.mapM (prepareJsonpathQuery env)).map (done ++ ·)
  | done, [] => by simp [appendQueries, outcome, Except.map]
  | done, q :: qs => by
    simp only [appendQueries, List.mapM_cons]
    cases prepareJsonpathQuery env q with
    | error e => rfl
    | ok p =>
      simp only [Go.ok_bind]
      rw [appendQueries_outcome env (done ++ [p]) qs]
      cases qs.mapM (prepareJsonpathQuery env) <;> simp [Except.map]

theorem anyAll_outcome (env : Ext) (a : AnyAll) : outcome (a.prepareIn env) = a.prepare env := by
  unfold AnyAll.prepareIn AnyAll.prepare
  have := appendQueries_outcome env a.queries (split ',' a.parent)
  cases h : (split ',' a.parent).mapM (prepareJsonpathQuery env) with
  | error e =>
    rw [h] at this
    have := outcome_error.1 (this.trans rfl)
    simp only
    rw [this, h]; rfl
  | ok qs =>
    rw [h] at this
    have := outcome_ok.1 (this.trans rfl)
    simp only
    rw [this, h]; rfl

mutual
theorem node_outcome (env : Ext) (t : Predef) : ∀ n : Node, outcome (n.prepareIn env t) = n.prepare env t
  | .nil => rfl
  | .and ns => by
    have := nodes_outcome env t ns
    simp only [Node.prepareIn, Node.prepare, ← this]
    obtain ⟨x, _ | e⟩ := prepareNodesIn env t ns <;> rfl
  | .or ns => by
    have := nodes_outcome env t ns
    simp only [Node.prepareIn, Node.prepare, ← this]
    obtain ⟨x, _ | e⟩ := prepareNodesIn env t ns <;> rfl
  | .not n => by
    have := node_outcome env t n
    simp only [Node.prepareIn, Node.prepare, ← this]
    obtain ⟨x, _ | e⟩ := n.prepareIn env t <;> rfl
  | .any a n => by
    have := node_outcome env t n
    have ha := anyAll_outcome env a
    simp only [Node.prepareIn, Node.prepare, ← this, ← ha]
    obtain ⟨x, _ | e⟩ := n.prepareIn env t
    · obtain ⟨y, _ | e⟩ := a.prepareIn env <;> rfl
    · rfl
  | .all a n => by
    have := node_outcome env t n
    have ha := anyAll_outcome env a
    simp only [Node.prepareIn, Node.prepare, ← this, ← ha]
    obtain ⟨x, _ | e⟩ := n.prepareIn env t
    · obtain ⟨y, _ | e⟩ := a.prepareIn env <;> rfl
    · rfl
  | .tt => rfl
  | .ff => rfl
  | .cond c => by
    have := condition_outcome env t c
    simp only [Node.prepareIn, Node.prepare, ← this]
    obtain ⟨x, _ | e⟩ := c.prepareIn env t <;> rfl

theorem nodes_outcome (env : Ext) (t : Predef) : ∀ ns : List Node, outcome (prepareNodesIn env t ns) = prepareNodes env t ns
  | [] => rfl
  | n :: ns => by
    have h := node_outcome env t n
    have hs := nodes_outcome env t ns
    simp only [prepareNodesIn, prepareNodes, ← h, ← hs]
    obtain ⟨x, _ | e⟩ := n.prepareIn env t
    · obtain ⟨y, _ | e⟩ := prepareNodesIn env t ns <;> rfl
    · rfl
end

theorem convertFields_outcome (env : Ext) (r : Rule) : outcome (convertFieldsToRegex env r) = convertFields env r := by
  unfold convertFields
  obtain ⟨x, _ | e⟩ := convertFieldsToRegex env r <;> rfl

theorem rule_outcome (env : Ext) (t : Predef) (r : Rule) : outcome (prepareOneRuleIn env t r) = prepareOneRule env t r := by
  have hc : outcome (prepareConditionsIn env t r) = prepareConditions env t r := by
    unfold prepareConditionsIn prepareConditions
    cases r.conditions with
    | none => rfl
    | some n =>
      simp only [← node_outcome]
      obtain ⟨x, _ | e⟩ := n.prepareIn env t <;> rfl
  have hn : ∀ r, outcome (replaceNamesIn t r) = replaceStringsAndListsInOneRule r t := by
    intro r
    unfold replaceNamesIn replaceStringsAndListsInOneRule
    cases replaceName r.senderName t with
    | error e => rfl
    | ok s =>
      simp only [Go.ok_bind]
      cases replaceName r.receiverName t <;> rfl
  unfold prepareOneRuleIn prepareOneRule
  rw [← hc]
  obtain ⟨x, _ | e⟩ := prepareConditionsIn env t r
  · simp only [outcome, Go.ok_bind]
    rw [← hn]
    obtain ⟨y, _ | e⟩ := replaceNamesIn t x
    · simp only [outcome, Go.ok_bind]
      exact convertFields_outcome env y
    · rfl
  · rfl

theorem prepareEach_ok {f : Rule → Rule × Option Fail} : ∀ {rs rs' : List Rule}, prepareEach f rs = (rs', none) ↔ List.Forall₂ (fun r r' => f r = (r', none)) rs rs'
  | [], rs' => by simp [prepareEach, eq_comm]
  | r :: rs, rs' => by
    simp only [prepareEach]
    rcases h : f r with ⟨r1, _ | e⟩
    · simp only [List.forall₂_cons_left_iff, h, Prod.mk.injEq, and_true]
      constructor
      · rintro ⟨rfl, h2⟩
        exact ⟨r1, _, rfl, prepareEach_ok.1 (Prod.ext rfl h2), rfl⟩
      · rintro ⟨b, u, rfl, h2, rfl⟩
        have := prepareEach_ok.2 h2
        rw [this]; exact ⟨rfl, rfl⟩
    · simp [List.forall₂_cons_left_iff, h]

theorem prepareEach_error {f : Rule → Rule × Option Fail} {e : Fail} : ∀ {rs rs' : List Rule}, prepareEach f rs = (rs', some e) ↔
    ∃ pre pre' r r' post, rs = pre ++ r :: post ∧ rs' = pre' ++ r' :: post ∧ List.Forall₂ (fun r r' => f r = (r', none)) pre pre' ∧ f r = (r', some e)
  | [], rs' => by simp [prepareEach]
  | r :: rs, rs' => by
    simp only [prepareEach]
    rcases h : f r with ⟨r1, _ | e1⟩
    · simp only [Prod.mk.injEq]
      constructor
      · rintro ⟨rfl, h2⟩
        obtain ⟨pre, pre', x, x', post, g1, g2, g3, g4⟩ := prepareEach_error.1 (Prod.ext (x := prepareEach f rs) (y := ((prepareEach f rs).1, some e)) rfl h2)
        exact ⟨r :: pre, r1 :: pre', x, x', post, by rw [g1]; rfl, by rw [g2]; rfl, .cons h g3, g4⟩
      · rintro ⟨pre, pre', x, x', post, g1, g2, g3, g4⟩
        cases g3 with
        | nil =>
          simp only [List.nil_append, List.cons.injEq] at g1
          obtain ⟨rfl, rfl⟩ := g1
          rw [h] at g4; simp at g4
        | cons ha hb =>
          simp only [List.cons_append, List.cons.injEq] at g1
          obtain ⟨rfl, rfl⟩ := g1
          rw [h] at ha
          simp only [Prod.mk.injEq, and_true] at ha
          have := prepareEach_error.2 ⟨_, _, x, x', post, rfl, rfl, hb, g4⟩
          rw [this, g2, ha]; exact ⟨rfl, rfl⟩
    · simp only [Prod.mk.injEq, Option.some.injEq]
      constructor
      · rintro ⟨rfl, rfl⟩
        exact ⟨[], [], r, r1, rs, rfl, rfl, .nil, h⟩
      · rintro ⟨pre, pre', x, x', post, g1, g2, g3, g4⟩
        cases g3 with
        | nil =>
          simp only [List.nil_append, List.cons.injEq] at g1
          obtain ⟨rfl, rfl⟩ := g1
          rw [h] at g4
          simp only [Prod.mk.injEq, Option.some.injEq] at g4
          rw [g2, g4.1, g4.2]; exact ⟨rfl, rfl⟩
        | cons ha hb =>
          simp only [List.cons_append, List.cons.injEq] at g1
          obtain ⟨rfl, rfl⟩ := g1
          rw [h] at ha
          simp at ha

/-! ## Copies of rules that are partly prepared -/

variable {t t' : Predef}

theorem Spec.Extends.value (h : Extends t t') {env : Ext} {m v w : Str} (hv : ValueResolves env t m v w) : ValueResolves env t' m v w := by
  cases hv with
  | plain h => exact .plain h
  | list hl hm => exact .list (h.lists _ _ hl) hm
  | alternatives hl hm hr => exact .alternatives (h.lists _ _ hl) hm hr
  | string hl hs => exact .string (h.strings _ _ hl hs).1 (h.strings _ _ hl hs).2

theorem Spec.Extends.name (h : Extends t t') {x s : Str} (hv : Resolves t x s) : Resolves t' x s := by
  cases hv with
  | plain h => exact .plain h
  | list hl => exact .list (h.lists _ _ hl)
  | string hl hs => exact .string (h.strings _ _ hl hs).1 (h.strings _ _ hl hs).2

theorem Spec.SettledTables.value (h : SettledTables t) {env : Ext} {m v w : Str} (hv : ValueResolves env t m v w) :
    (w = v ∧ ∀ k, v ≠ '#' :: k) ∨ (Settled w ∧ ∃ k, v = '#' :: k) := by
  cases hv with
  | plain h => exact .inl ⟨rfl, h⟩
  | list hl hm => exact .inr ⟨(h.lists _ _ hl).1, _, rfl⟩
  | alternatives hl hm hr => exact .inr ⟨(h.lists _ _ hl).2, _, rfl⟩
  | string hl hs => exact .inr ⟨h.strings _ _ hs, _, rfl⟩

theorem Spec.SettledTables.name (h : SettledTables t) {x s : Str} (hv : Resolves t x s) : ∀ k, s ≠ '#' :: k := by
  cases hv with
  | plain h => exact h
  | list hl => exact (h.lists _ _ hl).1.2.2
  | string hl hs => exact (h.strings _ _ hs).2.2

/-- The texts that a prepared condition is written with. -/
theorem prepare_written {env : Ext} {a m v w : Str} {r : Option (List RetVal)} {c : Condition} (h : (parsed env a m v r).prepare env t = .ok c)
    (hw : ValueResolves env t m v w) (hm : w = [] → m ∉ [gs"IN", gs"NIN", gs"IS"]) : marshalCondition c = marshalCondition (parsed env a m w r) := by
  obtain ⟨w', e, hw', hacc, _, hpart, hfin⟩ := prepare_inv h
  obtain rfl := resolves_unique hw hw'
  have hval : w = [] → finalValue m w = [] := by
    intro h
    have := hm h
    simp only [List.mem_cons, List.not_mem_nil, or_false, not_or] at this
    simp [finalValue, this, h]
  have hmne : m ≠ [] := by
    have := hacc.method
    rintro rfl
    exact absurd this (by decide)
  have hane : a ≠ [] := by
    rintro rfl
    generalize hx : ([] : Str) = x at hpart
    cases hpart with
    | simple h => subst hx; exact absurd h (by decide)
    | _ => simp at hx
  have hv : ∀ d : Condition, (valuePart d).origAttr = d.origAttr ∧ (valuePart d).origMethod = d.origMethod ∧ (valuePart d).origValue = d.origValue ∧
      (d.value = [] → (valuePart d).value = []) ∧ (valuePart d).ret = d.ret := by
    intro d
    unfold valuePart
    split
    · next h => exact ⟨rfl, rfl, rfl, fun hd => by rw [hd] at h; exact absurd h (by decide), rfl⟩
    · split
      · next h => exact ⟨rfl, rfl, rfl, fun hd => by rw [hd] at h; exact absurd h (by decide), rfl⟩
      · exact ⟨rfl, rfl, rfl, id, rfl⟩
  obtain ⟨v1, v2, v3, v4, v5⟩ := hv (baseOf env a m v w r)
  have he : e.origAttr = a ∧ e.origMethod = m ∧ e.origValue = w ∧ (w = [] → e.value = []) ∧ e.ret = r := by
    have h4 : w = [] → (valuePart (baseOf env a m v w r)).value = [] := fun h => v4 (hval h)
    cases hpart <;> exact ⟨v1, v2, v3, h4, v5⟩
  have hc : c.origAttr = a ∧ c.origMethod = m ∧ c.origValue = w ∧ (w = [] → c.value = []) ∧ c.ret = r := by
    cases hfin <;> exact he
  obtain ⟨c1, c2, c3, c4, c5⟩ := hc
  rw [parsed_eq]
  simp only [marshalCondition, orOrig, c1, c2, c3, c5]
  rw [if_pos (List.length_pos_iff.2 hane), if_pos (List.length_pos_iff.2 hmne)]
  by_cases hw0 : w = []
  · simp [hw0, c4 hw0]
  · rw [if_pos (List.length_pos_iff.2 hw0)]; simp

theorem parseNumber_reference {env : Ext} (hn : NumbersOk env) (k : Str) : parseNumber env ('#' :: k) = none := hn.not_number (.inl rfl)

theorem parseInt_reference {env : Ext} (hn : NumbersOk env) (k : Str) : parseInt ('#' :: k) = none := by
  cases h : parseInt ('#' :: k) with
  | none => rfl
  | some n =>
    obtain ⟨x, hx⟩ := hn.int _ _ (intText_iff.2 h)
    exact absurd rfl (hn.start _ _ _ hx).1

/-- The value that a reference stands for may be written in its place. -/
theorem prepare_settled {env : Ext} (hn : NumbersOk env) {a m v w : Str} {r : Option (List RetVal)} {c : Condition} (h : (parsed env a m v r).prepare env t' = .ok c)
    (hw : ValueResolves env t' m v w) (hk : (w = v ∧ ∀ k, v ≠ '#' :: k) ∨ (Settled w ∧ ∃ k, v = '#' :: k)) : (parsed env a m w r).prepare env t' = .ok c := by
  rcases hk with ⟨rfl, -⟩ | ⟨hs, k, rfl⟩
  · exact h
  · obtain ⟨w', e, hw', hacc, hre, he, hfin⟩ := prepare_iff.1 h
    obtain rfl := resolves_unique hw hw'
    have hb : baseOf env a m w w r = baseOf env a m ('#' :: k) w r := by
      simp [baseOf, parseNumber_reference hn, parseInt_reference hn]
    exact prepare_iff.2 ⟨w, e, .plain hs.2.2, hacc, hre, by rw [hb]; exact he, by rw [hb]; exact hfin⟩

/-- What a child leaves behind when it is prepared in place, for preparing a copy later. -/
def Again (env : Ext) (t' : Predef) (n' m : Node) : Prop :=
  n' ≠ .nil ∧ ∃ n1, Copyable env n1 ∧ marshal env n' = marshal env n1 ∧ n1.prepare env t' = .ok m

theorem leaf_mem {c : Condition} {n : Node} (hc : c ∈ leaves n) : ∀ {ns : List Node}, n ∈ ns → c ∈ leavesOf ns
  | [], h => by simp at h
  | x :: ns, h => by
    simp only [leavesOf, List.mem_append]
    rcases List.mem_cons.1 h with rfl | h
    · exact .inl hc
    · exact .inr (leaf_mem hc h)

theorem copyable_not_nil {env : Ext} {n : Node} (hc : Copyable env n) : n ≠ .nil := by rintro rfl; cases hc

theorem again_cond {env : Ext} (hn : NumbersOk env) (hx : Extends t t') (ht : SettledTables t) {a m v : Str} {r : Option (List (Str × Str))} {n' : Node} (ok : Acceptable env a m v)
    (ha : NoControl a) (hv : NoControl v) (hr : ∀ l, r = some l → (l.map (·.1)).Nodup) (hIS : m = gs"IS" → v ≠ [])
    (hp : (condNode env a m v r).prepare env t' = .ok n') : Again env t' ((condNode env a m v r).prepareIn env t).1 n' := by
  have hcop : Copyable env (condNode env a m v r) := .cond ok ha hv hr
  generalize hR : (r.map (·.map (condRetVal env))) = R
  have hcn : ∀ u, condNode env a m u r = .cond (parsed env a m u R) := fun u => by rw [condNode, hR]
  rw [hcn] at hp ⊢
  simp only [Node.prepare, Go.bind_eq_ok] at hp
  obtain ⟨c, hp, hc⟩ := hp
  simp only [Go.pure_eq, Except.ok.injEq] at hc
  subst hc
  refine ⟨by simp [Node.prepareIn], ?_⟩
  simp only [Node.prepareIn]
  cases hrep : replaceStringsAndListsInCondition env (parsed env a m v R) t with
  | error e =>
    have h1 : ((parsed env a m v R).prepareIn env t).1 = parsed env a m v R := by unfold Condition.prepareIn; rw [hrep]
    rw [h1]
    exact ⟨_, by rw [← hcn]; exact hcop, rfl, by simp [Node.prepare, hp]⟩
  | ok c1 =>
    obtain ⟨w, hw, -⟩ := replaceCondition_iff.1 hrep
    obtain ⟨e1, e2, e3⟩ := (parsed_texts (e := env) (a := a) (m := m) (v := v) (r := R))
    rw [e2, e3.1] at hw
    have hw' := hx.value hw
    have hk := ht.value hw
    have hst := prepare_settled hn hp hw' hk
    obtain ⟨w2, x, hw2, hacc, hre, he, hfin⟩ := prepare_iff.1 hp
    obtain rfl := resolves_unique hw' hw2
    have hpt : (parsed env a m v R).prepare env t = .ok c := prepare_iff.2 ⟨w, x, hw, hacc, hre, he, hfin⟩
    have h1 := outcome_ok.1 ((condition_outcome env t _).trans hpt)
    rw [h1]
    have hne : w = [] → m ∉ [gs"IN", gs"NIN", gs"IS"] := by
      rintro rfl hm
      simp only [List.mem_cons, List.not_mem_nil, or_false] at hm
      rcases hm with rfl | rfl | rfl
      · exact (hacc.value.list (.inl rfl)).1 rfl
      · exact (hacc.value.list (.inr rfl)).1 rfl
      · rcases hk with ⟨rfl, -⟩ | ⟨hs, -⟩
        · exact hIS rfl rfl
        · exact hs.1 rfl
    refine ⟨condNode env a m w r, .cond hacc ha ?_ hr, ?_, ?_⟩
    · rcases hk with ⟨rfl, -⟩ | ⟨hs, -⟩
      · exact hv
      · exact hs.2.1
    · rw [hcn]
      simp only [marshal, prepare_written hpt hw hne]
    · rw [hcn]
      simp [Node.prepare, hst]

theorem again_list {env : Ext} : ∀ {ns ms : List Node}, (∀ n ∈ ns, Copyable env n) → (∀ n ∈ ns, ∀ m, n.prepare env t' = .ok m → Again env t' (n.prepareIn env t).1 m) →
    prepareNodes env t' ns = .ok ms → ∃ ns1, (∀ n ∈ ns1, Copyable env n) ∧ marshalList env (prepareNodesIn env t ns).1 = marshalList env ns1 ∧ prepareNodes env t' ns1 = .ok ms ∧
      ns1.length = ns.length ∧ (prepareNodesIn env t ns).1.length = ns.length
  | [], ms, _, _, hp => ⟨[], by simp, rfl, hp, rfl, rfl⟩
  | n :: ns, ms, hc, ih, hp => by
    simp only [prepareNodes, Go.bind_eq_ok] at hp
    obtain ⟨m, hm, ms', hms, hp⟩ := hp
    simp only [Go.pure_eq, Except.ok.injEq] at hp
    subst hp
    obtain ⟨-, n1, g1, g2, g3⟩ := ih n (by simp) m hm
    rcases hx : n.prepareIn env t with ⟨n', _ | e⟩
    · obtain ⟨ns1, k1, k2, k3, k4, k5⟩ := again_list (fun x hx => hc x (by simp [hx])) (fun x hx => ih x (by simp [hx])) hms
      rw [hx] at g2
      refine ⟨n1 :: ns1, by simp [g1]; exact k1, ?_, ?_, by simp [k4], by simp [prepareNodesIn, hx, k5]⟩
      · simp only [prepareNodesIn, hx, marshalList, g2, k2]
      · simp [prepareNodes, g3, k3]
    · rw [hx] at g2
      refine ⟨n1 :: ns, ?_, ?_, ?_, rfl, by simp [prepareNodesIn, hx]⟩
      · intro x hx
        rcases List.mem_cons.1 hx with rfl | hx
        · exact g1
        · exact hc x (by simp [hx])
      · simp only [prepareNodesIn, hx, marshalList, g2]
      · simp [prepareNodes, g3, hms]

theorem again_node {env : Ext} (hn : NumbersOk env) (hx : Extends t t') (ht : SettledTables t) {n : Node} (hc : Copyable env n) :
    ∀ {m : Node}, (∀ c ∈ leaves n, c.method = gs"IS" → c.value ≠ []) → n.prepare env t' = .ok m → Again env t' (n.prepareIn env t).1 m := by
  induction hc with
  | @cond a m v r ok ha hv hr =>
    intro n' hIS hp
    refine again_cond hn hx ht ok ha hv hr (fun hm => ?_) hp
    have := hIS _ (by rw [condNode]; exact List.mem_singleton.2 rfl)
    obtain ⟨e1, e2, e3⟩ := (parsed_texts (e := env) (a := a) (m := m) (v := v) (r := r.map (·.map (condRetVal env))))
    rw [e2, e3.1] at this
    exact this hm
  | @and ns hne hcs ih =>
    intro m hIS hp
    simp only [Node.prepare, Go.bind_eq_ok] at hp
    obtain ⟨ms, hms, hp⟩ := hp
    simp only [Go.pure_eq, Except.ok.injEq] at hp
    subst hp
    obtain ⟨ns1, k1, k2, k3, k4, k5⟩ := again_list (t := t) hcs (fun n hm m hp => ih n hm (fun c hc => hIS c (leaf_mem hc hm)) hp) hms
    refine ⟨by simp [Node.prepareIn], .and ns1, .and (by rintro rfl; exact hne (List.length_eq_zero_iff.1 k4.symm)) k1, ?_, by simp [Node.prepare, k3]⟩
    simp only [Node.prepareIn]
    generalize (prepareNodesIn env t ns).1 = l at k2 k5
    cases l with
    | nil => exact absurd (List.length_eq_zero_iff.1 k5.symm) hne
    | cons x l =>
      cases ns1 with
      | nil => exact absurd (List.length_eq_zero_iff.1 k4.symm) hne
      | cons y ns1 => simp only [marshal, k2]
  | @or ns hne hcs ih =>
    intro m hIS hp
    simp only [Node.prepare, Go.bind_eq_ok] at hp
    obtain ⟨ms, hms, hp⟩ := hp
    simp only [Go.pure_eq, Except.ok.injEq] at hp
    subst hp
    obtain ⟨ns1, k1, k2, k3, k4, k5⟩ := again_list (t := t) hcs (fun n hm m hp => ih n hm (fun c hc => hIS c (leaf_mem hc hm)) hp) hms
    refine ⟨by simp [Node.prepareIn], .or ns1, .or (by rintro rfl; exact hne (List.length_eq_zero_iff.1 k4.symm)) k1, ?_, by simp [Node.prepare, k3]⟩
    simp only [Node.prepareIn]
    generalize (prepareNodesIn env t ns).1 = l at k2 k5
    cases l with
    | nil => exact absurd (List.length_eq_zero_iff.1 k5.symm) hne
    | cons x l =>
      cases ns1 with
      | nil => exact absurd (List.length_eq_zero_iff.1 k4.symm) hne
      | cons y ns1 => simp only [marshal, k2]
  | @not n hc ih =>
    intro m hIS hp
    simp only [Node.prepare, Go.bind_eq_ok] at hp
    obtain ⟨m', hm, hp⟩ := hp
    simp only [Go.pure_eq, Except.ok.injEq] at hp
    subst hp
    obtain ⟨g0, n1, g1, g2, g3⟩ := ih hIS hm
    refine ⟨by simp [Node.prepareIn], .not n1, .not g1, ?_, by simp [Node.prepare, g3]⟩
    simp only [Node.prepareIn]
    rw [marshal, marshal, g2]
    · exact copyable_not_nil g1
    · exact g0
  | @any parent ret n hpar hv hd hr hc ih =>
    intro m hIS hp
    simp only [Node.prepare, Go.bind_eq_ok] at hp
    obtain ⟨m', hm, a', ha, hp⟩ := hp
    simp only [Go.pure_eq, Except.ok.injEq] at hp
    subst hp
    obtain ⟨g0, n1, g1, g2, g3⟩ := ih hIS hm
    rcases hx : n.prepareIn env t with ⟨n', _ | e⟩ <;> rw [hx] at g2
    · refine ⟨by simp [Node.prepareIn, hx], .any (anyFields env parent ret) n1, .any hpar hv hd hr g1, ?_, by simp [Node.prepare, g3, ha]⟩
      simp only [Node.prepareIn, hx, marshal, g2]; rfl
    · refine ⟨by simp [Node.prepareIn, hx], .any (anyFields env parent ret) n1, .any hpar hv hd hr g1, ?_, by simp [Node.prepare, g3, ha]⟩
      simp only [Node.prepareIn, hx, marshal, g2]
  | @all parent ret n hpar hv hd hr hc ih =>
    intro m hIS hp
    simp only [Node.prepare, Go.bind_eq_ok] at hp
    obtain ⟨m', hm, a', ha, hp⟩ := hp
    simp only [Go.pure_eq, Except.ok.injEq] at hp
    subst hp
    obtain ⟨g0, n1, g1, g2, g3⟩ := ih hIS hm
    rcases hx : n.prepareIn env t with ⟨n', _ | e⟩ <;> rw [hx] at g2
    · refine ⟨by simp [Node.prepareIn, hx], .all (anyFields env parent ret) n1, .all hpar hv hd hr g1, ?_, by simp [Node.prepare, g3, ha]⟩
      simp only [Node.prepareIn, hx, marshal, g2]; rfl
    · refine ⟨by simp [Node.prepareIn, hx], .all (anyFields env parent ret) n1, .all hpar hv hd hr g1, ?_, by simp [Node.prepare, g3, ha]⟩
      simp only [Node.prepareIn, hx, marshal, g2]

/-! ## Rules -/

theorem convertFieldsToRegex_failed {env : Ext} {r r' : Rule} {e : Fail} (h : convertFieldsToRegex env r = (r', some e)) :
    ∃ sl rl op, r' = { r with senderList := sl, receiverList := rl, operationRegex := op } ∧ r.converted = false := by
  unfold convertFieldsToRegex at h
  cases hc : r.converted with
  | true => simp [hc] at h
  | false =>
    simp only [hc, Bool.false_eq_true, if_false] at h
    split at h
    · cases h; exact ⟨_, _, _, rfl, rfl⟩
    · split at h
      · cases h; exact ⟨_, _, _, rfl, rfl⟩
      · split at h
        · cases h; exact ⟨_, _, _, rfl, rfl⟩
        · split at h
          · cases h; exact ⟨_, _, _, rfl, rfl⟩
          · cases h

/-- The state of a rule whose preparation in place failed. -/
theorem prepareOneRuleIn_failed {env : Ext} {r r' : Rule} {e : Fail} (h : prepareOneRuleIn env t r = (r', some e)) :
    ∃ s v sl rl op, r' = { r with conditions := r.conditions.map fun n => (n.prepareIn env t).1, senderName := s, receiverName := v, senderList := sl, receiverList := rl, operationRegex := op } ∧
      (s = r.senderName ∨ Resolves t r.senderName s) ∧ (v = r.receiverName ∨ Resolves t r.receiverName v) := by
  have hcond : ∀ {x y}, prepareConditionsIn env t r = (x, y) → x = { r with conditions := r.conditions.map fun n => (n.prepareIn env t).1 } := by
    intro x y h
    unfold prepareConditionsIn at h
    cases hc : r.conditions with
    | none => rw [hc] at h; cases h; cases r; simp_all
    | some n => rw [hc] at h; cases h; rfl
  unfold prepareOneRuleIn at h
  rcases h1 : prepareConditionsIn env t r with ⟨r1, _ | e1⟩
  · obtain rfl := hcond h1
    rw [h1] at h
    simp only [replaceNamesIn] at h
    cases hs : replaceName r.senderName t with
    | error e => rw [hs] at h; cases h; exact ⟨_, _, _, _, _, rfl, .inl rfl, .inl rfl⟩
    | ok s =>
      rw [hs] at h
      simp only at h
      have hs' := replaceName_iff.1 hs
      cases hv : replaceName r.receiverName t with
      | error e => rw [hv] at h; cases h; exact ⟨_, _, _, _, _, rfl, .inr hs', .inl rfl⟩
      | ok v =>
        rw [hv] at h
        simp only at h
        obtain ⟨sl, rl, op, rfl, -⟩ := convertFieldsToRegex_failed h
        exact ⟨s, v, sl, rl, op, rfl, .inr hs', .inr (replaceName_iff.1 hv)⟩
  · obtain rfl := hcond h1
    rw [h1] at h
    cases h
    exact ⟨_, _, _, _, _, rfl, .inl rfl, .inl rfl⟩

/-- Conversion does not look at what was derived before. -/
theorem convertFields_derived {env : Ext} {r r' : Rule} (sl rl : List ExpandedSR) (op re : Option Re) (hc : r.converted = false) (h : convertFields env r = .ok r') :
    convertFields env { r with senderList := sl, receiverList := rl, operationRegex := op, resourceNameRegex := re } = .ok r' := by
  unfold convertFields convertFieldsToRegex at h ⊢
  simp only [hc, Bool.false_eq_true, if_false] at h ⊢
  split at h <;> rename_i h1
  · split at h1
    · cases h1
    · rename_i a ha
      split at h1
      · cases h1
      · rename_i b hb
        split at h1
        · cases h1
        · rename_i c hcc
          split at h1
          · cases h1
          · rename_i d hd
            cases h1
            cases h
            simp [ha, hb, hcc, hd]
  · cases h

theorem copyConditions_marshal {env : Env} {n n' : Node} (hn : n ≠ .nil) (hn' : n' ≠ .nil) (h : marshal env n' = marshal env n) (p : List Nat) :
    copyConditions env p (some n') = copyConditions env p (some n) := by
  have : marshalConditions env (some n') = marshalConditions env (some n) := by
    cases n <;> cases n' <;> first | exact absurd rfl hn | exact absurd rfl hn' | simp only [marshalConditions, h]
  rw [copyConditions, copyConditions, this]

theorem resolves_again (hx : Extends t t') (ht : SettledTables t) {x s s' : Str} (hs : s = x ∨ Resolves t x s) (h : Resolves t' x s') : Resolves t' s s' := by
  rcases hs with rfl | hs
  · exact h
  · have h1 := hx.name hs
    have : s' = s := by
      have a := replaceName_iff.2 h
      have b := replaceName_iff.2 h1
      rw [a] at b; cases b; rfl
    subst this
    exact .plain (ht.name hs)

/-- After a failure in place the copy that `SetPredefinedStringsAndLists` prepares becomes what it would have become without. -/
theorem retry_rule {env : Env} {r r1 x : Rule} {e : Fail} (ho : env.OrdOk) (hn : NumbersOk env.toExt) (hx : Extends t t') (ht : SettledTables t) (hconv : r.converted = false)
    (hc : ∀ n, r.conditions = some n → Copyable env n ∧ ∀ c ∈ leaves n, c.method = gs"IS" → c.value ≠ []) (h1 : prepareOneRuleIn env t r = (r1, some e))
    {copy : Rule} (hcopy : copyRule env p r = .ok copy) (hp : prepareOneRule env t' copy = .ok x) :
    ∃ copy1, copyRule env p r1 = .ok copy1 ∧ prepareOneRule env t' copy1 = .ok x := by
  obtain ⟨s, v, sl, rl, op, rfl, hs, hv⟩ := prepareOneRuleIn_failed h1
  rw [copyRule_copyable ho (fun n hb => (hc n hb).1)] at hcopy
  cases hcopy
  simp only [prepareOneRule, Go.bind_eq_ok] at hp
  obtain ⟨y, hy, z, hz, hp⟩ := hp
  have fin : ∀ (c1 : Option Node), prepareConditions env t' { r with conditions := c1, senderList := r.senderList.map copySR, receiverList := r.receiverList.map copySR, resourceNameRegex := none, operationRegex := none } = .ok y →
      prepareOneRule env t' { r with conditions := c1, senderName := s, receiverName := v, senderList := sl.map copySR, receiverList := rl.map copySR, resourceNameRegex := none, operationRegex := none } = .ok x := by
    intro c1 h
    have hy' : ∃ c, y = { r with conditions := c, senderList := r.senderList.map copySR, receiverList := r.receiverList.map copySR, resourceNameRegex := none, operationRegex := none } ∧
        prepareConditions env t' { r with conditions := c1, senderName := s, receiverName := v, senderList := sl.map copySR, receiverList := rl.map copySR, resourceNameRegex := none, operationRegex := none } =
          .ok { r with conditions := c, senderName := s, receiverName := v, senderList := sl.map copySR, receiverList := rl.map copySR, resourceNameRegex := none, operationRegex := none } := by
      unfold prepareConditions at h ⊢
      cases c1 with
      | none => cases h; exact ⟨_, rfl, rfl⟩
      | some n =>
        simp only [Go.bind_eq_ok] at h ⊢
        obtain ⟨m, hm, h⟩ := h
        cases h
        exact ⟨_, rfl, m, hm, rfl⟩
    obtain ⟨c, rfl, hcond⟩ := hy'
    rw [prepareOneRule, hcond, Go.ok_bind]
    unfold replaceStringsAndListsInOneRule at hz ⊢
    simp only [Go.bind_eq_ok] at hz
    obtain ⟨s', hs', v', hv', hz⟩ := hz
    cases hz
    have e1 := replaceName_iff.2 (resolves_again hx ht hs (replaceName_iff.1 hs'))
    have e2 := replaceName_iff.2 (resolves_again hx ht hv (replaceName_iff.1 hv'))
    simp only [e1, e2, Go.ok_bind, Go.pure_eq]
    refine convertFields_derived (r := { r with senderName := s', receiverName := v', conditions := c, senderList := r.senderList.map copySR, receiverList := r.receiverList.map copySR, resourceNameRegex := none, operationRegex := none }) (sl.map copySR) (rl.map copySR) none none hconv hp
  cases hb : r.conditions with
  | none =>
    refine ⟨_, copyRule_copyable ho (by simp) p, ?_⟩
    refine fin none ?_
    rw [hb] at hy; exact hy
  | some n =>
    rw [hb] at hy
    have hy' := hy
    simp only [prepareConditions, Go.bind_eq_ok] at hy'
    obtain ⟨m, hm, hy'⟩ := hy'
    cases hy'
    obtain ⟨g0, n1, g1, g2, g3⟩ := again_node (t := t) hn hx ht (hc n hb).1 (hc n hb).2 hm
    refine ⟨{ r with conditions := some n1, senderName := s, receiverName := v, senderList := sl.map copySR, receiverList := rl.map copySR, resourceNameRegex := none, operationRegex := none }, ?_, ?_⟩
    · simp only [copyRule, Option.map_some]
      rw [copyConditions_marshal (copyable_not_nil g1) g0 g2, copy_copyable ho g1]
      rfl
    · refine fin (some n1) ?_
      simp [prepareConditions, g3]

end Mapl

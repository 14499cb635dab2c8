import Verif.Lemmas.TreeLaws
import Verif.Props.Crash
import Verif.Props.Identity

/-!
# C76: different ways to write a policy

`Equivalent` (Spec/Refactor.lean): on every message, under all orders in which maps can be iterated, the two policies can give
the same decisions, and the one can fail exactly if the other can. The full statement, for all lists of names and all laws of
propositional logic, is false: see `C76_violated_references` and `C76_violated_order`.
-/

namespace Mapl.Props

open Spec

variable {env : Env} {g : Predef} {r : Rule} {a b : Str} {n n' : Node} {ns : List Node}

/-- **C76.** Equivalent policies: if all executions with the one return the decision `d`, then so do all executions with the other. -/
theorem C76_meaning {rs rs' : List RuleObj} (h : Equivalent env g rs rs') (m : Msg) (d : Decision) :
    (∀ env', Run env env' → ∃ out, check env' g m rs = .ok out ∧ out.decision = d.rank) ↔
      ∀ env', Run env env' → ∃ out, check env' g m rs' = .ok out ∧ out.decision = d.rank := by
  have half : ∀ {rs rs' : List RuleObj}, Equivalent env g rs rs' →
      (∀ env', Run env env' → ∃ out, check env' g m rs = .ok out ∧ out.decision = d.rank) →
      ∀ env', Run env env' → ∃ out, check env' g m rs' = .ok out ∧ out.decision = d.rank := by
    intro rs rs' h hall env' hr
    cases hc : check env' g m rs' with
    | error x =>
      obtain ⟨E, y, hE, hy⟩ := (h.failures m).2 ⟨env', x, hr, hc⟩
      obtain ⟨out, ho, -⟩ := hall E hE
      rw [ho] at hy; simp at hy
    | ok out =>
      refine ⟨out, rfl, ?_⟩
      obtain ⟨d', hd'⟩ : ∃ d' : Decision, out.decision = d'.rank := by
        obtain ⟨_, _, _, d', hd', _⟩ := check_summary hc
        exact ⟨d', hd'⟩
      obtain ⟨E, o, hE, ho, hoe⟩ := (h.decisions m d').2 ⟨env', out, hr, hc, hd'⟩
      obtain ⟨o', ho', he'⟩ := hall E hE
      rw [ho] at ho'; simp at ho'; subst ho'
      rw [hd', ← hoe, he']
  exact ⟨half h, half ⟨fun m d => (h.decisions m d).symm, fun m => (h.failures m).symm⟩⟩

/-- **C76.** Part of a policy can be replaced by an equivalent part. -/
theorem C76_context (ho : env.OrdOk) {rs rs' : List RuleObj} (h : Equivalent env g rs rs') (pre post : List RuleObj) :
    Equivalent env g (pre ++ rs ++ post) (pre ++ rs' ++ post) := h.context ho pre post

/-- **C76.** The order of the rules does not matter. -/
theorem C76_order (ho : env.OrdOk) {rs rs' : List RuleObj} (h : rs.Perm rs') : Equivalent env g rs rs' := perm_equivalent ho h

/-- **C76.** A rule that is there twice can be dropped once. -/
theorem C76_twice (ho : env.OrdOk) (x : RuleObj) : Equivalent env g [x, x] [x] := twice_equivalent ho x

/-- **C76.** A rule for a list of senders is a rule for each part of the list. -/
theorem C76_senders_partial (ho : env.OrdOk) (hc : r.converted = false) (ha : PlainList a) (hb : PlainList b) :
    Equivalent env g [sentBy r (a ++ gs"," ++ b)] [sentBy r a, sentBy r b] := sender_equivalent ho hc ha hb

/-- **C76.** A rule for a list of receivers is a rule for each part of the list. -/
theorem C76_receivers_partial (ho : env.OrdOk) (hc : r.converted = false) (ha : PlainList a) (hb : PlainList b) :
    Equivalent env g [sentTo r (a ++ gs"," ++ b)] [sentTo r a, sentTo r b] := receiver_equivalent ho hc ha hb

/-- **C76.** A rule whose conditions are a disjunction is a rule for each part of the disjunction. -/
theorem C76_disjunction (ho : env.OrdOk) (hc : r.converted = false) (hne : ns ≠ []) (h : ∀ n ∈ ns, Copyable env n) :
    Equivalent env g [provided r (.or ns)] (ns.map (provided r)) := ors_equivalent ho hc hne h

/-- **C76.** Conditions can be rewritten with the laws of `Law`; those that change which conditions are evaluated ask that these
do not fail. -/
theorem C76_laws_partial (ho : env.OrdOk) (hc : r.converted = false) (ha : Copyable env n) (hb : Copyable env n')
    (h : Law (NeverFails env g) n n') : Equivalent env g [provided r n] [provided r n'] := trees_equivalent ho hc ha hb (law_can ho h)

/-- Conditions on texts of the request never fail. -/
theorem neverFails_text {m v : Str} (hn : NumbersOk env) (h1 : a ∉ [gs"payloadSize", gs"utcHoursFromMidnight", gs"encryptionVersion"])
    (h2 : ∀ q, a ≠ gs"jsonpath:" ++ q) : NeverFails env g (condNode env a m v none) := by
  intro E x q msg hE hx
  simp only [condNode, Option.map_none, Node.prepare, Go.bind_eq_ok, Go.pure_eq, Except.ok.injEq] at hx
  obtain ⟨c, hc, rfl⟩ := hx
  obtain ⟨-, k2, -⟩ := prepared_origin hc
  have hs : CondSafe env.toExt c msg := by
    refine ⟨fun e => ?_, fun e => ?_, fun e => ?_, fun q e => ?_, fun ret e => ?_⟩
    · rw [k2] at e; simp [e] at h1
    · rw [k2] at e; simp [e] at h1
    · rw [k2] at e; simp [e] at h1
    · rw [k2] at e; exact absurd e (h2 q)
    · obtain ⟨w, _, hw, -⟩ := prepare_inv hc
      rw [(prepare_leaf hc hw).ret] at e; simp at e
  rw [← hE.ext] at hc hs hn
  have := returns_eval E hn (.cond c) q msg (by simpa [leaves] using ⟨_, _, _, _, _, hc⟩) (by rw [Safe]; exact hs)
  exact this

/-- Conditions on texts in the document never fail, unless they are about the entry in scope. -/
theorem neverFails_path {q m v : Str} (hn : NumbersOk env) (hq : ¬ AsksEntry q) (hm : ¬ Compares m) :
    NeverFails env g (condNode env (gs"jsonpath:" ++ q) m v none) := by
  intro E x p msg hE hx
  simp only [condNode, Option.map_none, Node.prepare, Go.bind_eq_ok, Go.pure_eq, Except.ok.injEq] at hx
  obtain ⟨c, hc, rfl⟩ := hx
  obtain ⟨-, k2, k3⟩ := prepared_origin hc
  have hs : CondSafe env.toExt c msg := by
    refine ⟨fun e => ?_, fun e => ?_, fun e => ?_, fun q' e => ?_, fun ret e => ?_⟩
    · rw [k2] at e; simp at e
    · rw [k2] at e; simp at e
    · rw [k2] at e; simp at e
    · rw [k2] at e
      obtain rfl := List.append_cancel_left e
      exact ⟨fun _ h => absurd h hq, fun _ h => absurd (k3 ▸ h) hm⟩
    · obtain ⟨w, _, hw, -⟩ := prepare_inv hc
      rw [(prepare_leaf hc hw).ret] at e; simp at e
  rw [← hE.ext] at hc hs hn
  have := returns_eval E hn (.cond c) p msg (by simpa [leaves] using ⟨_, _, _, _, _, hc⟩) (by rw [Safe]; exact hs)
  exact this

/-! ## Examples -/

def imageIs : Node := condNode Demo.env gs"jsonpath:$RELATIVE.image" gs"RE" gs"nginx" none
def nameIs : Node := condNode Demo.env gs"jsonpath:$RELATIVE.name" gs"NRE" gs"web" none
def containers : AnyAll := anyFields Demo.env gs"jsonpath:$.spec.containers[:]" []

def hostIs : Node := condNode Demo.env gs"domain" gs"EQ" gs"example" none
def agentIs : Node := condNode Demo.env gs"requestUseragent" gs"RE" gs"curl" none
def sizeOdd : Node := condNode Demo.env gs"payloadSize" gs"GT" gs"1Ki" none

theorem hostIs_copyable : Copyable Demo.ext hostIs := copyable_condition ⟨_, rfl⟩ (by unfold NoControl; decide) (by unfold NoControl; decide)
theorem agentIs_copyable : Copyable Demo.ext agentIs := copyable_condition ⟨_, rfl⟩ (by unfold NoControl; decide) (by unfold NoControl; decide)
theorem sizeOdd_copyable : Copyable Demo.ext sizeOdd := copyable_condition ⟨_, rfl⟩ (by unfold NoControl; decide) (by unfold NoControl; decide)

example : Demo.env.OrdOk ∧ (Demo.rule gs"block").body.converted = false ∧ PlainList gs"shop.*" ∧ PlainList gs"bank.*" :=
  ⟨Demo.env_ordOk, rfl, fun _ => by simp, fun _ => by simp⟩

/-- A disjunction that is split. -/
example : Equivalent Demo.env {} [provided (Demo.rule gs"block").body (.or [hostIs, agentIs])]
    [provided (Demo.rule gs"block").body hostIs, provided (Demo.rule gs"block").body agentIs] :=
  C76_disjunction Demo.env_ordOk rfl (by simp) (by
    simp only [List.mem_cons, List.not_mem_nil, or_false]
    rintro n (rfl | rfl)
    · exact hostIs_copyable
    · exact agentIs_copyable)

/-- Conditions that are exchanged and pulled out of a disjunction. -/
example : Equivalent Demo.env {} [provided (Demo.rule gs"block").body (.and [hostIs, .or [agentIs, .not hostIs]])]
    [provided (Demo.rule gs"block").body (.or [.and [hostIs, .not hostIs], .and [hostIs, agentIs]])] := by
  have hh := hostIs_copyable
  have ha := agentIs_copyable
  have f1 : NeverFails Demo.env {} hostIs := neverFails_text demo_numbers (by decide) (by intro q; simp)
  have f2 : NeverFails Demo.env {} agentIs := neverFails_text demo_numbers (by decide) (by intro q; simp)
  have f3 : NeverFails Demo.env {} (.not hostIs) := by
    intro E x q m hE hx
    simp only [Node.prepare, Go.bind_eq_ok, Go.pure_eq, Except.ok.injEq] at hx
    obtain ⟨y, hy, rfl⟩ := hx
    obtain ⟨o, ho⟩ := f1 E y (1 :: q) m hE hy
    exact ⟨_, by rw [eval, ho]; rfl⟩
  refine C76_laws_partial Demo.env_ordOk rfl (.and (by simp) ?_) (.or (by simp) ?_) (.trans (.distribute _ (by simp) f1 ?_) (.orderOr (.swap _ _ [])))
  · simp only [List.mem_cons, List.not_mem_nil, or_false]
    rintro n (rfl | rfl)
    · exact hh
    · refine .or (by simp) ?_
      simp only [List.mem_cons, List.not_mem_nil, or_false]
      rintro n (rfl | rfl)
      · exact ha
      · exact .not hh
  · simp only [List.mem_cons, List.not_mem_nil, or_false]
    rintro n (rfl | rfl) <;> refine .and (by simp) ?_ <;> simp only [List.mem_cons, List.not_mem_nil, or_false] <;> rintro n (rfl | rfl)
    · exact hh
    · exact .not hh
    · exact hh
    · exact ha
  · simp only [List.mem_cons, List.not_mem_nil, or_false]
    rintro n (rfl | rfl)
    · exact f2
    · exact f3

theorem neverFails_image : NeverFails Demo.env {} imageIs := neverFails_path (q := gs"$RELATIVE.image") demo_numbers
  (by
    have e : pathQuery gs"$RELATIVE.image" = gs"$.image" := by decide
    rw [AsksEntry, e]
    rintro (h | ⟨z, h⟩) <;> simp at h) (by rintro ⟨k, hk⟩; revert hk; cases k <;> decide)

theorem neverFails_name : NeverFails Demo.env {} nameIs := neverFails_path (q := gs"$RELATIVE.name") demo_numbers
  (by
    have e : pathQuery gs"$RELATIVE.name" = gs"$.name" := by decide
    rw [AsksEntry, e]
    rintro (h | ⟨z, h⟩) <;> simp at h) (by rintro ⟨k, hk⟩; revert hk; cases k <;> decide)

/-- "Some container has the image or not the name": some container has the image, or some container has not the name. -/
example : Equivalent Demo.env {} [provided (Demo.rule gs"block").body (.not (.any containers (.or [imageIs, nameIs])))]
    [provided (Demo.rule gs"block").body (.not (.or [.any containers nameIs, .any containers imageIs]))] := by
  have h1 : Copyable Demo.ext imageIs := copyable_condition ⟨_, rfl⟩ (by unfold NoControl; decide) (by unfold NoControl; decide)
  have h2 : Copyable Demo.ext nameIs := copyable_condition ⟨_, rfl⟩ (by unfold NoControl; decide) (by unfold NoControl; decide)
  have ha : ∀ {n}, Copyable Demo.ext n → Copyable Demo.ext (.any containers n) := fun h =>
    .any (.inr (.inl ⟨_, rfl⟩)) (by unfold Verbatim; decide) (by simp) (by simp) h
  refine C76_laws_partial Demo.env_ordOk rfl (.not (ha (.or (by simp) ?_))) (.not (.or (by simp) ?_))
    (.inNot (.trans (.anyOr (by simp) rfl ?_) (.orderOr (.swap _ _ []))))
  · simp only [List.mem_cons, List.not_mem_nil, or_false]
    rintro n (rfl | rfl)
    · exact h1
    · exact h2
  · simp only [List.mem_cons, List.not_mem_nil, or_false]
    rintro n (rfl | rfl)
    · exact ha h2
    · exact ha h1
  · simp only [List.mem_cons, List.not_mem_nil, or_false]
    rintro n (rfl | rfl)
    · exact neverFails_image
    · exact neverFails_name

/-- The same law for ALL, inside another ALL. -/
example : Equivalent Demo.env {} [provided (Demo.rule gs"block").body (.all containers (.all containers (.and [imageIs, .not (.not nameIs)])))]
    [provided (Demo.rule gs"block").body (.all containers (.and [.all containers imageIs, .all containers nameIs]))] := by
  have h1 : Copyable Demo.ext imageIs := copyable_condition ⟨_, rfl⟩ (by unfold NoControl; decide) (by unfold NoControl; decide)
  have h2 : Copyable Demo.ext nameIs := copyable_condition ⟨_, rfl⟩ (by unfold NoControl; decide) (by unfold NoControl; decide)
  have ha : ∀ {n}, Copyable Demo.ext n → Copyable Demo.ext (.all containers n) := fun h =>
    .all (.inr (.inl ⟨_, rfl⟩)) (by unfold Verbatim; decide) (by simp) (by simp) h
  refine C76_laws_partial Demo.env_ordOk rfl (ha (ha (.and (by simp) ?_))) (ha (.and (by simp) ?_))
    (.inAll _ (.trans (.inAll _ (.inAnd [imageIs] [] (.notNot nameIs))) (.allAnd _ (ns := [imageIs, nameIs]) (by simp) ?_)))
  · simp only [List.mem_cons, List.not_mem_nil, or_false]
    rintro n (rfl | rfl)
    · exact h1
    · exact .not (.not h2)
  · simp only [List.mem_cons, List.not_mem_nil, or_false]
    rintro n (rfl | rfl)
    · exact ha h1
    · exact ha h2
  · simp only [List.mem_cons, List.not_mem_nil, or_false]
    rintro n (rfl | rfl)
    · exact neverFails_image
    · exact neverFails_name

/-! ## What is not equivalent -/

/-- Tables with two lists. -/
def twoLists : Predef := { lists := [(gs"a", [gs"shop"]), (gs"b", [gs"bank"])], listsNoRefs := [(gs"a", [gs"shop"]), (gs"b", [gs"bank"])] }

/-- **C76 fails** for references: `#a,#b` is not the two lists one after the other, the rule cannot be prepared. -/
theorem C76_violated_references : ∃ (r : Rule) (g : Predef), r.converted = false ∧
    ¬ Equivalent Demo.env g [sentBy r (gs"#a" ++ gs"," ++ gs"#b")] [sentBy r gs"#a", sentBy r gs"#b"] := by
  refine ⟨(Demo.rule gs"block").body, twoLists, rfl, fun h => ?_⟩
  have hd : CanDecide Demo.env twoLists Demo.msgI [sentBy (Demo.rule gs"block").body gs"#a", sentBy (Demo.rule gs"block").body gs"#b"] .default := by
    have : (Demo.summary (check Demo.env twoLists Demo.msgI
        [sentBy (Demo.rule gs"block").body gs"#a", sentBy (Demo.rule gs"block").body gs"#b"])).map (·.1) = some 0 := by decide +kernel
    cases hc : check Demo.env twoLists Demo.msgI [sentBy (Demo.rule gs"block").body gs"#a", sentBy (Demo.rule gs"block").body gs"#b"] with
    | error x => rw [hc] at this; simp [Demo.summary] at this
    | ok out =>
      rw [hc] at this
      exact ⟨Demo.env, out, ⟨rfl, Demo.env_ordOk⟩, hc, by rw [show Decision.default.rank = 0 from rfl]; simpa [Demo.summary] using this⟩
  rw [← h.decisions, canDecide_one Demo.env_ordOk, gives_iff] at hd
  obtain ⟨E, p, hE, hr⟩ := hd
  rw [res_iff ⟨rfl, rfl, rfl⟩] at hr
  obtain ⟨⟨sl, rl, op, re, hst⟩, -⟩ := hr
  obtain ⟨s, hs, -⟩ := hst.sender
  exact absurd hs (by
    have : replaceName (sentBy (Demo.rule gs"block").body (gs"#a" ++ gs"," ++ gs"#b")).body.senderName twoLists = .error (.err .undefinedRef) := rfl
    rw [this]; simp)

/-- **C76 fails** for the order of a conjunction: a condition that fails is not reached behind one that is not met. -/
theorem C76_violated_order : ∃ (r : Rule) (a b : Node), r.converted = false ∧ Copyable Demo.env a ∧ Copyable Demo.env b ∧
    ¬ Equivalent Demo.env {} [provided r (.and [a, b])] [provided r (.and [b, a])] := by
  refine ⟨(Demo.rule gs"block").body, hostIs, sizeOdd, rfl, hostIs_copyable, sizeOdd_copyable, fun h => ?_⟩
  have c2 : Copyable Demo.ext (.and [sizeOdd, hostIs]) := .and (by simp) (by
    simp only [List.mem_cons, List.not_mem_nil, or_false]
    rintro n (rfl | rfl)
    · exact sizeOdd_copyable
    · exact hostIs_copyable)
  have hd : CanDecide Demo.env {} Demo.msgI [provided (Demo.rule gs"block").body (.and [hostIs, sizeOdd])] .default := by
    have : (Demo.summary (check Demo.env {} Demo.msgI [provided (Demo.rule gs"block").body (.and [hostIs, sizeOdd])])).map (·.1) = some 0 := by
      decide +kernel
    cases hc : check Demo.env {} Demo.msgI [provided (Demo.rule gs"block").body (.and [hostIs, sizeOdd])] with
    | error x => rw [hc] at this; simp [Demo.summary] at this
    | ok out =>
      rw [hc] at this
      exact ⟨Demo.env, out, ⟨rfl, Demo.env_ordOk⟩, hc, by rw [show Decision.default.rank = 0 from rfl]; simpa [Demo.summary] using this⟩
  have hf : CanFail Demo.env {} Demo.msgI [provided (Demo.rule gs"block").body (.and [sizeOdd, hostIs])] := by
    have : panics (check Demo.env {} Demo.msgI [provided (Demo.rule gs"block").body (.and [sizeOdd, hostIs])]) = true := by decide +kernel
    cases hc : check Demo.env {} Demo.msgI [provided (Demo.rule gs"block").body (.and [sizeOdd, hostIs])] with
    | error x => exact ⟨Demo.env, x, ⟨rfl, Demo.env_ordOk⟩, hc⟩
    | ok out => rw [hc] at this; simp [panics] at this
  rw [h.decisions, canDecide_one Demo.env_ordOk, gives_provided Demo.env_ordOk rfl c2] at hd
  rw [canFail_one Demo.env_ordOk, breaks_provided Demo.env_ordOk rfl c2] at hf
  obtain ⟨h1, h2, h3⟩ := hd
  rcases hf with h | h | ⟨h4, -⟩
  · exact h h1
  · exact h h2
  rcases h3 with ⟨-, f, h5, -⟩ | ⟨h5, -⟩
  · obtain ⟨a, b, h6, -, h7⟩ := can_and_cons.1 h5
    cases a with
    | none => simp [andO] at h7
    | some a =>
      obtain ⟨x, y, k1, ⟨E, q, hE, rfl⟩, k3⟩ := h6
      simp only [sizeOdd, condNode, Option.map_none, Node.prepare, Go.bind_eq_ok, Go.pure_eq, Except.ok.injEq] at k1
      obtain ⟨c, hc, rfl⟩ := k1
      have := C32_size_crashes (env := E) (p := 0 :: 0 :: q) (msg := Demo.msgI) (by rw [hE.ext]; exact hc) (.plain (by intro k; simp)) ⟨.gt, by decide⟩ (intText_none.2 (by decide))
      simp [ev, eval, this, Except.map, Except.toOption] at k3
  · exact h5 h4

end Mapl.Props

import Verif.Lemmas.Laws
import Verif.Lemmas.Report
import Verif.Props.Match
import Verif.Props.Decision

/-!
# C17–C22, C24: condition trees

`eval env n p m = .ok o` reads "`Eval` of tree `n` on message `m` returned `o`"; `p` is the position of the call in the
execution `env`. `Run env env'` are two executions that differ only in map iteration order.
-/

namespace Mapl.Props

open Spec

variable {env env' : Env} {p p' : List Nat} {m : Msg} {n n' : Node} {a : AnyAll} {o o' : EvalOut}

/-- **C17.** Whenever evaluation returns, its flag is the truth value of the tree as a formula. -/
theorem C17_tree_is_formula (ho : env.OrdOk) (hk : KeySafe env n m) (h : eval env n p m = .ok o) :
    o.flag = true ↔ Sat env n m := eval_sat ho hk h

/-- **C17** without any restriction, in one execution. -/
theorem C17_tree_is_formula_execution (h : eval env n p m = .ok o) : o.flag = true ↔ Holds env n p m :=
  eval_holds env n p m o h

/-- **C17.** The formula is unrestricted for trees without `$KEY`/`$VALUE` leaves. -/
theorem C17_no_entry_leaves (ho : env.OrdOk) (hk : NoEntryLeaf n) (h : eval env n p m = .ok o) :
    o.flag = true ↔ Sat env n m := eval_sat ho (noEntryLeaf_safe env n m hk) h

/-- **C17.** On a parsed document, ANY/ALL range over the elements their (prepared) parent paths select in the document
in force: list elements, flattened one level if all are lists, or the entries of an object. -/
theorem C17_elements (ho : env.OrdOk) (hm : m.rawI.isSome) (hq : a.queries ≠ []) (hs : a.parent ≠ gs"$RELATIVE*")
    {d : Json} (hd : parentDoc a m = some d) {l : List Msg} (h : scopes env p a m = .ok (some l)) :
    l.Perm ((a.queries.flatMap fun q => elementsOf (env.jpGet q.src d).1).map fun v => { m with rawIRel := some v }) := by
  rw [scopes, if_pos ⟨hm, hq⟩, Go.map_eq_ok] at h
  obtain ⟨l1, h1, h⟩ := h
  simp at h; subst h
  apply List.Perm.map
  unfold getArrayOfInterfaces at h1
  unfold parentDoc at hd
  split at h1
  · next hr =>
    rw [if_pos hr] at hd
    rw [hd] at h1
    exact queryElements_elements ho h1
  · next hr =>
    rw [if_neg hr] at hd
    rw [hd] at h1
    exact queryElements_elements ho h1

/-- **C17.** The path `$RELATIVE*` ranges over the entries of the object in scope. -/
theorem C17_elements_of_scope (ho : env.OrdOk) (hm : m.rawI.isSome) (hq : a.queries ≠ []) (hs : a.parent = gs"$RELATIVE*")
    {kvs : List (Str × Json)} (hd : m.rawIRel = some (.obj kvs)) {l : List Msg} (h : scopes env p a m = .ok (some l)) :
    l.Perm (kvs.map fun kv => { m with rawIRel := some (.obj [kv]) }) := by
  rw [scopes, if_pos ⟨hm, hq⟩, Go.map_eq_ok] at h
  obtain ⟨l1, h1, h⟩ := h
  simp at h; subst h
  unfold getArrayOfInterfaces at h1
  have hr : isRelativeParent gs"$RELATIVE*" = true := rfl
  rw [hs] at h1
  simp only [hr, if_true, hd, deref, Go.ok_bind, Go.pure_eq, Except.ok.injEq] at h1
  subst h1
  simp only [singletons, List.map_map]
  exact (ho _ kvs).map _

/-- The tree of the examples, prepared. -/
def demoTree : Node :=
  match (Node.and [Demo.cond gs"jsonpath:$.kind" gs"EQ" gs"Pod",
    Demo.anyOf gs"jsonpath:$.containers" (Demo.cond gs"jsonpath:$RELATIVE.cpu" gs"GT" gs"5")]).prepare Demo.env {} with
  | .ok n => n
  | .error _ => .nil

/-- It satisfies the hypotheses, is evaluated to true, and its ANY ranges over two elements. -/
example : NoEntryLeaf demoTree ∧ (eval Demo.env demoTree [] Demo.msgI).map (·.flag) = .ok true ∧
    (eval Demo.env demoTree [] Demo.msgB).map (·.flag) = .ok true := by
  refine ⟨?_, ?_, ?_⟩ <;> decide +kernel

/-- **C18.** NOT AND is OR of NOTs, in any two executions that return. -/
theorem C18_not_and {l : List Node} (ho : env.OrdOk) (hrun : Run env env') (hk : KeySafe env (.and l) m)
    (h : eval env (.not (.and l)) p m = .ok o) (h' : eval env' (.or (l.map .not)) p' m = .ok o') : o.flag = o'.flag := by
  have hl := laws_sat (env := env.toExt) (Laws.not_and l) m
  have hk1 : KeySafe env (.not (.and l)) m := by simpa [KeySafe] using hk
  have h1 := eval_sat ho hk1 h
  have h2 := eval_sat hrun.ord (by rw [hrun.ext]; exact hl.2.1 hk1) h'
  rw [hrun.ext, ← hl.1, ← h1] at h2
  exact (Bool.eq_iff_iff.2 h2).symm

/-- **C18.** NOT OR is AND of NOTs. -/
theorem C18_not_or {l : List Node} (ho : env.OrdOk) (hrun : Run env env') (hk : KeySafe env (.or l) m)
    (h : eval env (.not (.or l)) p m = .ok o) (h' : eval env' (.and (l.map .not)) p' m = .ok o') : o.flag = o'.flag := by
  have hl := laws_sat (env := env.toExt) (Laws.not_or l) m
  have hk1 : KeySafe env (.not (.or l)) m := by simpa [KeySafe] using hk
  have h1 := eval_sat ho hk1 h
  have h2 := eval_sat hrun.ord (by rw [hrun.ext]; exact hl.2.1 hk1) h'
  rw [hrun.ext, ← hl.1, ← h1] at h2
  exact (Bool.eq_iff_iff.2 h2).symm

/-- **C18.** Double NOT is neutral. -/
theorem C18_not_not (ho : env.OrdOk) (hrun : Run env env') (hk : KeySafe env n m)
    (h : eval env (.not (.not n)) p m = .ok o) (h' : eval env' n p' m = .ok o') : o.flag = o'.flag := by
  have h1 := eval_sat ho (by simpa [KeySafe] using hk) h
  have h2 := eval_sat hrun.ord (by rw [hrun.ext]; exact hk) h'
  rw [hrun.ext] at h2
  simp only [Sat, not_not] at h1
  rw [← h1] at h2
  exact (Bool.eq_iff_iff.2 h2).symm

/-- **C18** and the other laws of propositional logic, used any number of times anywhere in a tree. -/
theorem C18_laws_anywhere (hl : Laws n n') (ho : env.OrdOk) (hrun : Run env env') (hk : KeySafe env n m)
    (h : eval env n p m = .ok o) (h' : eval env' n' p' m = .ok o') : o.flag = o'.flag := by
  have hl := laws_sat (env := env.toExt) hl m
  have h1 := eval_sat ho hk h
  have h2 := eval_sat hrun.ord (by rw [hrun.ext]; exact hl.2.1 hk) h'
  rw [hrun.ext, ← hl.1, ← h1] at h2
  exact (Bool.eq_iff_iff.2 h2).symm

/-- **C18.** Double NOT also returns exactly when the tree does. -/
theorem C18_not_not_returns : (∃ o, eval env (.not (.not n)) p m = .ok o) ↔ ∃ o, eval env n (1 :: 1 :: p) m = .ok o := by
  simp only [eval, Go.bind_eq_ok]
  constructor
  · rintro ⟨o, o1, ⟨o2, h, _⟩, _⟩; exact ⟨o2, h⟩
  · rintro ⟨o, h⟩; exact ⟨_, _, ⟨o, h, rfl⟩, rfl⟩

example : (eval Demo.env (.not demoTree) [] Demo.msgI).map (·.flag) = .ok false ∧
    Laws (.not (.and [n, n'])) (.or [.not n', .not n]) :=
  ⟨by decide +kernel, (Laws.not_and [n, n']).trans (.or_perm (List.Perm.swap _ _ _))⟩

/-- **C19** (partial: the selection of elements must not have failed). ALL is NOT ANY NOT. -/
theorem C19_dual_partial (ho : env.OrdOk) (hrun : Run env env') (hk : KeySafe env (.all a n) m)
    (hsel : scopes (plain env) [] a m ≠ .ok none)
    (h : eval env (.all a n) p m = .ok o) (h' : eval env' (.not (.any a (.not n))) p' m = .ok o') : o.flag = o'.flag := by
  have h1 := eval_sat ho hk h
  have hk' : KeySafe env' (.not (.any a (.not n))) m := by
    rw [hrun.ext]
    simpa only [KeySafe] using hk
  have h2 := eval_sat hrun.ord hk' h'
  rw [hrun.ext] at h2
  have hok : ∃ l, scopes (plain env) [] a m = .ok (some l) := by
    rw [eval] at h
    obtain ⟨l?, hl, _⟩ := evalAll_flag (fun i m o h => eval_msg env n _ m o h) h
    cases l? with
    | none => exact absurd (scopes_none (.plain ho) p [] a m hl) hsel
    | some l =>
      obtain ⟨l', hl', _⟩ := scopes_perm (.plain ho) p [] a m hl
      exact ⟨l', hl'⟩
  obtain ⟨l, hl⟩ := hok
  have : Sat env (.all a n) m ↔ Sat env (.not (.any a (.not n))) m := by
    simp [Sat, hl]
  rw [← this, ← h1] at h2
  exact (Bool.eq_iff_iff.2 h2).symm

/-- **C19** in full for parsed documents. -/
theorem C19_dual_parsed (hm : m.rawI.isSome) (hq : a.queries ≠ []) (ho : env.OrdOk) (hrun : Run env env')
    (hk : KeySafe env (.all a n) m) (h : eval env (.all a n) p m = .ok o)
    (h' : eval env' (.not (.any a (.not n))) p' m = .ok o') : o.flag = o'.flag := by
  refine C19_dual_partial ho hrun hk ?_ h h'
  intro hc
  rw [scopes, if_pos ⟨hm, hq⟩, Go.map_eq_ok] at hc
  obtain ⟨l, _, hc⟩ := hc
  simp at hc

/-- A tree for the next examples: ALL over `$.containers` of `cpu > 5`, prepared. -/
def demoAll : AnyAll × Node :=
  match (Demo.allOf gs"jsonpath:$.containers" (Demo.cond gs"jsonpath:$RELATIVE.cpu" gs"GT" gs"5")).prepare Demo.env {} with
  | .ok (.all a n) => (a, n)
  | _ => ({}, .nil)

example : demoAll.1.queries ≠ [] ∧ NoEntryLeaf (.all demoAll.1 demoAll.2) ∧
    (eval Demo.env (.all demoAll.1 demoAll.2) [] Demo.msgI).map (·.flag) = .ok false ∧
    (eval Demo.env (.not (.any demoAll.1 (.not demoAll.2))) [] Demo.msgI).map (·.flag) = .ok false := by
  refine ⟨?_, ?_, ?_, ?_⟩ <;> decide +kernel

/-- **C19 is violated** on JSON text in which the path cannot be followed (here: malformed text): ANY and ALL are both
false, so ALL differs from NOT ANY NOT. -/
theorem C19_dual_violated : ∃ (env : Env) (a : AnyAll) (n : Node) (m : Msg) (o o' : EvalOut), env.OrdOk ∧ NoEntryLeaf n ∧
    eval env (.all a n) [] m = .ok o ∧ eval env (.not (.any a (.not n))) [] m = .ok o' ∧ o.flag = false ∧ o'.flag = true :=
  ⟨Demo.env, demoAll.1, .tt, { jsonRaw := some gs"{" }, ⟨false, [], { jsonRaw := some gs"{" }⟩,
    ⟨true, [], { jsonRaw := some gs"{" }⟩, Demo.env_ordOk, trivial, rfl, rfl, rfl, rfl⟩

/-- **C19.** Over no elements ANY is false and ALL is true, whatever the child. -/
theorem C19_empty (hl : scopes env p a m = .ok (some [])) :
    (∃ o, eval env (.any a n) p m = .ok o ∧ o.flag = false) ∧ (∃ o, eval env (.all a n) p m = .ok o ∧ o.flag = true) := by
  unfold scopes at hl
  simp only [eval, evalAny, evalAll]
  split at hl
  · next hc =>
    rw [Go.map_eq_ok] at hl
    obtain ⟨l, h1, hl⟩ := hl
    simp at hl; subst hl
    simp only [if_pos hc, h1, Go.ok_bind, anyLoop, allLoop]
    exact ⟨⟨_, rfl, rfl⟩, ⟨_, rfl, rfl⟩⟩
  · next hc =>
    rw [Go.map_eq_ok] at hl
    obtain ⟨l, h1, hl⟩ := hl
    cases l with
    | none => simp at hl
    | some l =>
      simp at hl; subst hl
      simp only [if_neg hc, h1, Go.ok_bind, anyLoop, allLoop]
      exact ⟨⟨_, rfl, rfl⟩, ⟨_, rfl, rfl⟩⟩

example : scopes Demo.env [] demoAll.1 { rawI := some (.obj [(gs"containers", .arr [])]) } = .ok (some []) := rfl

/-- **C20.** Reordering children of AND/OR nodes anywhere in the tree does not change the flag, in any two executions
that return. -/
theorem C20_child_order (hr : Reordered n n') (ho : env.OrdOk) (hrun : Run env env') (hk : KeySafe env n m)
    (h : eval env n p m = .ok o) (h' : eval env' n' p' m = .ok o') : o.flag = o'.flag := by
  have hl := reordered_sat (env := env.toExt) hr m
  have h1 := eval_sat ho hk h
  have h2 := eval_sat hrun.ord (by rw [hrun.ext]; exact hl.2.1 hk) h'
  rw [hrun.ext, ← hl.1, ← h1] at h2
  exact (Bool.eq_iff_iff.2 h2).symm

example (x y : Node) : Reordered (.not (.and [.any a (.or [x, y]), .tt])) (.not (.and [.tt, .any a (.or [y, x])])) :=
  .in_not (.trans (.in_and [] [.tt] (.in_any a (.or_perm (List.Perm.swap _ _ _)))) (.and_perm (List.Perm.swap _ _ _)))

/-- **C21.** ANY with return values: one report per element that satisfies the condition, in element order, computed on
that element (no report if the selection of elements failed). -/
theorem C21_any_reports (hr : a.ret ≠ []) (h : eval env (.any a n) p m = .ok o) :
    (scopes env p a m = .ok none ∧ o.extra = []) ∨ ∃ l, scopes env p a m = .ok (some l) ∧
      Reports (fun i m' => Holds env n (i :: p) m')
        (fun m' e => e = reportOn env (m.rawI.isSome ∧ a.queries ≠ []) a.ret m') 1 l o.extra := evalAny_reports hr h

/-- **C21.** ANY without return values, NOT and ALL report nothing. -/
theorem C21_no_reports :
    (a.ret = [] → eval env (.any a n) p m = .ok o → o.extra = []) ∧
    (eval env (.not n) p m = .ok o → o.extra = []) ∧ (eval env (.all a n) p m = .ok o → o.extra = []) := by
  refine ⟨evalAny_noret, ?_, evalAll_extra⟩
  intro h
  simp only [eval, Go.bind_eq_ok] at h
  obtain ⟨o1, _, h⟩ := h
  simp at h; subst h; rfl

/-- **C21.** OR concatenates the reports of its true children in order. -/
theorem C21_or_concatenates {ns : List Node} (h : eval env (.or ns) p m = .ok o) :
    ∃ outs : List EvalOut, outs.length = ns.length ∧
      (∀ (k : Nat) (n : Node), ns[k]? = some n → ∃ oc, outs[k]? = some oc ∧ eval env n ((k + 1) :: p) m = .ok oc) ∧
      o.extra = (outs.filter (·.flag)).flatMap (·.extra) := by
  rw [eval] at h
  obtain ⟨outs, h1, h2, h3⟩ := evalOr_outs h
  refine ⟨outs, h1, ?_, by simpa using h3⟩
  intro k n hk
  obtain ⟨oc, h4, h5⟩ := h2 k n hk
  exact ⟨oc, h4, by rw [← h5, Nat.add_comm]⟩

/-- ANY over containers returning the image of those with `cpu > 5`, prepared. -/
def demoAny : AnyAll × Node :=
  (({ demoAll.1 with ret := [⟨gs"img", gs"jsonpath:$RELATIVE.image", gs"$.image", some ⟨gs"$.image"⟩, true⟩] }), demoAll.2)

/-- The extra data of an outcome. -/
def extraOf (x : Go EvalOut) : List Extra := match x with | .ok o => o.extra | .error _ => []

/-- The extra data as text. -/
def extraText (x : Go EvalOut) : List (List (Str × Str)) := (extraOf x).map fun e => e.map fun kv => (kv.1, Demo.render kv.2)

example : demoAny.1.ret ≠ [] ∧
    extraText (eval Demo.env (.any demoAny.1 demoAny.2) [] Demo.msgI) = [[(gs"img", gs"\"redis\"")]] ∧
    extraText (eval Demo.env (.any demoAny.1 .tt) [] Demo.msgI) =
      [[(gs"img", gs"\"nginx\"")], [(gs"img", gs"\"redis\"")]] := by
  refine ⟨?_, ?_, ?_⟩ <;> decide +kernel

/-- **C22.** Checking a rule reports extra data only when the result is not `default` (rules as parsed). -/
theorem C22_rule_extra_only_with_match {g : Predef} {r : RuleObj} {o : RuleOut} (h : r.check env g p m = .ok o)
    (hd : o.result = Decision.default.rank) : o.extra = [] := by
  obtain ⟨r1, rule0, _, _, rule, r2, _, _, h⟩ := ruleCheck_inv h
  rcases h with ⟨rfl, _⟩ | ⟨_, _, _, _, ⟨_, rfl⟩ | ⟨n, e, r3, _, he, ⟨_, rfl⟩ | ⟨_, rfl⟩⟩⟩
  · rfl
  · rfl
  · rfl
  · simp only [Decision.rank] at hd
    simp only [hd, if_true]

/-- **C22** (partial: not for AND at the root). A tree evaluated to false yields no extra data. -/
theorem C22_tree_extra_partial (hn : ∀ ns, n ≠ .and ns) (h : eval env n p m = .ok o) (hf : o.flag = false) : o.extra = [] := by
  cases n with
  | nil => simp [eval] at h
  | and ns => exact absurd rfl (hn ns)
  | or ns => rw [eval] at h; exact evalOr_false (by simp) h hf
  | not n => exact (C21_no_reports (a := {})).2.1 h
  | any a n => exact evalAny_false h hf
  | all a n => exact evalAll_extra h
  | tt => simp [eval] at h; subst h; rfl
  | ff => simp [eval] at h; subst h; rfl
  | cond c =>
    simp only [eval, Go.bind_eq_ok] at h
    obtain ⟨⟨f, e⟩, h1, h⟩ := h
    simp at h; subst h
    simp only at hf; subst hf
    exact testOneCondition_false h1

/-- **C22 is violated** for AND: a false AND reports what a true child reported. -/
theorem C22_tree_extra_violated : ∃ (env : Env) (n : Node) (m : Msg) (o : EvalOut), env.OrdOk ∧
    eval env n [] m = .ok o ∧ o.flag = false ∧ o.extra ≠ [] := by
  refine ⟨Demo.env, .and [.any demoAny.1 .tt, .ff], Demo.msgI, _, Demo.env_ordOk, rfl, rfl, ?_⟩
  show extraOf (eval Demo.env (.and [.any demoAny.1 .tt, .ff]) [] Demo.msgI) ≠ []
  intro h
  have : (extraOf (eval Demo.env (.and [.any demoAny.1 .tt, .ff]) [] Demo.msgI)).length = 2 := rfl
  rw [h] at this
  simp at this

/-- **C24.** The flag of a tree is the same in any two executions. -/
theorem C24_flag (ho : env.OrdOk) (hrun : Run env env') (hk : KeySafe env n m) (h : eval env n p m = .ok o)
    (h' : eval env' n p' m = .ok o') : o.flag = o'.flag :=
  C20_child_order (.refl n) ho hrun hk h h'

/-- **C24.** The decision on a prepared rule is the same in any two executions. -/
theorem C24_prepared_rule_determined {g : Predef} {r : RuleObj} {rule : Rule} (hr : r.ready = true)
    (hp : r.prepared = some rule) (hx : Expanded rule) (hk : RuleKeySafe env rule m) : Determined env g m r := by
  rintro d e d' e' ⟨env1, p1, o1, hr1, h1, hd1, _⟩ ⟨env2, p2, o2, hr2, h2, hd2, _⟩
  have c1 := C09_rule_applies hr1.ord hr hp hx (by rw [hr1.ext]; exact hk) h1
  have c2 := C09_rule_applies hr2.ord hr hp hx (by rw [hr2.ext]; exact hk) h2
  rw [hr1.ext] at c1
  rw [hr2.ext] at c2
  apply rank_inj
  rw [← hd1, ← hd2]
  by_cases ha : Applies env rule m
  · rw [c1.1 ha, c2.1 ha]
  · rw [(c1.2 ha).1, (c2.2 ha).1]

/-- **C24.** `Check` gives the same decision and the same results in any two executions if the single rules are
determined. -/
theorem C24_check {g : Predef} {rs : List RuleObj} {out out' : CheckOut} (ho : env.OrdOk) (hrun : Run env env')
    (hdet : ∀ r ∈ rs, Determined env g m r) (h : check env g m rs = .ok out) (h' : check env' g m rs = .ok out') :
    out'.decision = out.decision := (C03_rule_order_determined ho hrun (List.Perm.refl _) hdet h h').1

/-- **C24 is violated** when `$KEY` (or `$VALUE`) is asked of an object with several entries: here the same rule blocks
the same message in one execution and does not apply in another. -/
theorem C24_violated : ∃ (env env' : Env) (m : Msg) (rs : List RuleObj) (out out' : CheckOut), env.OrdOk ∧ Run env env' ∧
    check env {} m rs = .ok out ∧ check env' {} m rs = .ok out' ∧ out.decision = 3 ∧ out'.decision = 0 := by
  have h1 : Demo.summary (check Demo.env {} Demo.msgI [Demo.rule gs"block" (some (Demo.anyOf gs"jsonpath:$.containers"
    (Demo.cond gs"jsonpath:$KEY" gs"EQ" gs"image")))]) = some (3, [3], 0, [0]) := by decide +kernel
  have h2 : Demo.summary (check Demo.envRev {} Demo.msgI [Demo.rule gs"block" (some (Demo.anyOf gs"jsonpath:$.containers"
    (Demo.cond gs"jsonpath:$KEY" gs"EQ" gs"image")))]) = some (0, [0], -1, []) := by decide +kernel
  obtain ⟨out, e1, d1⟩ := Demo.summary_ok h1
  obtain ⟨out', e2, d2⟩ := Demo.summary_ok h2
  exact ⟨Demo.env, Demo.envRev, Demo.msgI, _, out, out', Demo.env_ordOk, ⟨rfl, Demo.envRev_ordOk⟩, e1, e2, d1, d2⟩

end Mapl.Props

import Verif.Lemmas.Parse
import Verif.Demo

/-!
# C46, C47, C48: parsing conditions documents
-/

namespace Mapl.Props
open Spec

variable {env : Env}

/-! ## C46 -/

/-- **C46.** Parsing a document that writes a tree gives that tree, whatever the order in which its maps are iterated. -/
theorem C46_tree (ho : env.OrdOk) {j : Json} {n : Node} (h : Writes env [] j n) (p : List Nat) : parseConditionsTree env p j = .ok n :=
  interpret_of_reads ho h p

/-- The same through the decoder of rules. -/
theorem C46_rule (ho : env.OrdOk) {j : Json} {n : Node} (h : Writes env [] j n) (p : List Nat) : unmarshalConditions env p j = .ok (some n) := by
  have hp := C46_tree ho h p
  unfold unmarshalConditions
  split
  · simp [parseConditionsTree, interpret, handleMap, isConditionNode, getKeys, interpretKids, singleKid] at hp
  · simp [parseConditionsTree, interpret, handleArray, interpretList] at hp
  · rw [hp]; rfl

/-- A condition can be written. -/
theorem cond_written {e : Ext} {a m v : Str} {r : Option (List (Str × Str))} (ok : Acceptable e a m v) (hr : ∀ l, r = some l → (l.map (·.1)).Nodup) :
    ∃ j, IsMap j ∧ Writes e gs"condition" j (condNode e a m v r) := by
  cases r with
  | none =>
    refine ⟨.obj [(gs"attribute", .str a), (gs"method", .str m), (gs"value", .str v)], .obj (by simp) ?_, .cond (by simp) ⟨by simp, ?_, ?_, ?_, ?_, ?_, ?_, ?_⟩ ok⟩
    · simp only [List.mem_cons, List.not_mem_nil, or_false]; rintro x (rfl | rfl | rfl) <;> exact .str _
    · exact ⟨_, .valued (ka := gs"attribute") (km := gs"method") (kv := gs"value") (kr := []) (by simp [attrKeys]) (by simp [methodKeys]) (by simp [valueKeys]) (.inl rfl),
        .refl _⟩
    all_goals simp [attrKeys, methodKeys, valueKeys, returnKeys, fmtV, valueWritten_iff]
  | some l =>
    refine ⟨.obj [(gs"attribute", .str a), (gs"method", .str m), (gs"value", .str v), (gs"returnValueJsonpath", textMap l)], .obj (by simp) ?_,
      .cond (by simp) ⟨by simp, ?_, ?_, ?_, ?_, ?_, ?_, ?_⟩ ok⟩
    · simp only [List.mem_cons, List.not_mem_nil, or_false]
      rintro x (rfl | rfl | rfl | rfl)
      · exact .str _
      · exact .str _
      · exact .str _
      · refine .obj ?_ ?_
        · simpa [List.map_map, Function.comp_def] using hr l rfl
        · intro x hx
          obtain ⟨y, _, rfl⟩ := List.mem_map.1 hx
          exact .str _
    · exact ⟨_, .valued (ka := gs"attribute") (km := gs"method") (kv := gs"value") (kr := [gs"returnValueJsonpath"]) (by simp [attrKeys]) (by simp [methodKeys])
        (by simp [valueKeys]) (.inr ⟨_, by simp [returnKeys], rfl⟩), .refl _⟩
    all_goals simp [attrKeys, methodKeys, valueKeys, returnKeys, fmtV, valueWritten_iff]

/-- ANY and ALL can be written. -/
theorem quantifier_written {e : Ext} {kw k parent : Str} {ret : List (Str × Str)} {n : Node} {v : Json} (hk : kw = gs"ANY" ∨ kw = gs"ALL") (hp : ParentOk parent)
    (hd : (ret.map (·.1)).Nodup) (hr : ∀ x ∈ ret, ∃ q, x.2 = gs"jsonpath:$RELATIVE" ++ q) (hv : IsMap v) (h1 : k ≠ parentKey) (h2 : k ≠ returnKey)
    (h : Writes e k v n) : ∃ j, IsMap j ∧ Writes e kw j (quantifier kw (anyFields e parent ret) n) := by
  have hpr : parentKey ≠ returnKey := by decide
  refine ⟨.obj [(parentKey, .str parent), (returnKey, textMap ret), (k, v)], .obj (by simp [h1.symm, h2.symm, hpr]) ?_, .quantifier hk ?_ ?_ ?_ h⟩
  · simp only [List.mem_cons, List.not_mem_nil, or_false]
    rintro x (rfl | rfl | rfl)
    · exact .str _
    · refine .obj ?_ ?_
      · simpa [List.map_map, Function.comp_def] using hd
      · intro x hx
        obtain ⟨y, _, rfl⟩ := List.mem_map.1 hx
        exact .str _
    · exact hv
  · refine ⟨by simp [h1.symm, h2.symm, hpr], by simp, by simp, hp, ?_, by simp, hr⟩
    intro x hx
    simp [hpr.symm, h2.symm] at hx
    exact hx
  · exact ⟨by simp, h1, h2⟩
  · rintro x ⟨hx, g1, g2⟩
    simp only [List.mem_cons, List.not_mem_nil, or_false] at hx
    rcases hx with rfl | rfl | rfl
    · exact absurd rfl g1
    · exact absurd rfl g2
    · rfl

theorem writesAll_of {e : Ext} : ∀ {ns : List Node}, (∀ n ∈ ns, ∃ j, IsMap j ∧ Writes e [] j n) → ∃ l : List Json, (∀ x ∈ l, IsMap x) ∧ ReadsAll e False False l ns
  | [], _ => ⟨[], by simp, .nil⟩
  | n :: ns, h => by
    obtain ⟨j, hj, hw⟩ := h n (by simp)
    obtain ⟨l, hl, hs⟩ := writesAll_of (ns := ns) fun n hn => h n (by simp [hn])
    exact ⟨j :: l, by simpa [hj] using hl, .cons hw hs⟩

theorem written_key {e : Ext} {n : Node} (h : Writable e n) :
    ∃ k v, IsMap v ∧ k ≠ parentKey ∧ k ≠ returnKey ∧ Writes e k v n := by
  have top : ∀ {n}, (∃ k v, IsMap v ∧ k ≠ parentKey ∧ k ≠ returnKey ∧ Writes e k v n) → ∃ j, IsMap j ∧ Writes e [] j n := by
    rintro n ⟨k, v, hv, -, -, h⟩
    exact ⟨.obj [(k, v)], .obj (by simp) (by simpa using hv), .key (by simp) h⟩
  induction h with
  | cond ok hr =>
    obtain ⟨j, hj, hw⟩ := cond_written ok hr
    exact ⟨gs"condition", j, hj, by decide, by decide, hw⟩
  | and _ ih =>
    obtain ⟨l, hl, hs⟩ := writesAll_of fun n hn => top (ih n hn)
    exact ⟨gs"AND", .arr l, .arr hl, by decide, by decide, .and hs⟩
  | or _ ih =>
    obtain ⟨l, hl, hs⟩ := writesAll_of fun n hn => top (ih n hn)
    exact ⟨gs"OR", .arr l, .arr hl, by decide, by decide, .or hs⟩
  | not _ ih =>
    obtain ⟨k, v, hv, -, -, hw⟩ := ih
    exact ⟨gs"NOT", .obj [(k, v)], .obj (by simp) (by simpa using hv), by decide, by decide, .not hw⟩
  | any hp hd hr _ ih =>
    obtain ⟨k, v, hv, h1, h2, hw⟩ := ih
    obtain ⟨j, hj, hw⟩ := quantifier_written (.inl rfl) hp hd hr hv h1 h2 hw
    exact ⟨gs"ANY", j, hj, by decide, by decide, hw⟩
  | all hp hd hr _ ih =>
    obtain ⟨k, v, hv, h1, h2, hw⟩ := ih
    obtain ⟨j, hj, hw⟩ := quantifier_written (.inr rfl) hp hd hr hv h1 h2 hw
    exact ⟨gs"ALL", j, hj, by decide, by decide, hw⟩

/-- **C46.** Every tree of acceptable conditions can be written, so that parsing gives it. -/
theorem C46_every_tree (ho : env.OrdOk) {n : Node} (h : Writable env n) : ∃ j, IsMap j ∧ Writes env [] j n ∧ ∀ p, parseConditionsTree env p j = .ok n := by
  obtain ⟨k, v, hv, -, -, hw⟩ := written_key h
  have hw' : Writes env [] (.obj [(k, v)]) n := .key (by simp) hw
  exact ⟨_, .obj (by simp) (by simpa using hv), hw', C46_tree ho hw'⟩

/-- **C46.** Wrapping a document in `condition`, `conditions` or `conditionsTree` does not change what it writes. -/
theorem C46_wrappers {e : Ext} {k : Str} {j : Json} {n : Node} (hk : k ∈ [gs"condition", gs"conditions", gs"conditionsTree"])
    {k' : Str} {v : Json} (hj : j = .obj [(k', v)]) (h : Writes e [] j n) : Writes e [] (.obj [(k, j)]) n := by
  refine .key (by simp) ?_
  subst hj
  have : Writes e k' v n := by
    cases h with
    | cond _ hm _ =>
      have := condMap_node hm
      rw [oneKey_not_condition] at this; simp at this
    | key _ h => exact h
    | quantifier hk _ _ _ _ => simp at hk
    | dropped hl _ _ => exact hl.elim
    | noChild hl _ _ _ => exact hl.elim
    | twoChildren ha _ _ _ _ _ _ _ => exact ha.elim
  exact .key (by simp at hk ⊢; tauto) this

/-- A tree with every kind of node can be written. -/
example : Writable Demo.env (.and [.not (condNode Demo.env gs"payloadSize" gs"GT" gs"10" none),
    .any (anyFields Demo.env gs"jsonpath:$.containers" [(gs"image", gs"jsonpath:$RELATIVE.image")])
      (.or [condNode Demo.env gs"jsonpath:$RELATIVE.image" gs"EQ" gs"nginx" none, condNode Demo.env gs"jsonpath:$RELATIVE.name" gs"EX" [] none])]) := by
  have ok : ∀ {a m v r}, Acceptable Demo.env a m v → r = none → Writable Demo.env (condNode Demo.env a m v r) := by
    rintro a m v r h rfl
    exact .cond h (by simp)
  have path : ∀ a m v, (∃ c', validateOneCondition Demo.env { attr := a, method := m, value := v } = .ok c') → Acceptable Demo.env a m v := by
    rintro a m v ⟨c', h⟩
    exact (validateOneCondition_iff.1 h).1
  refine .and ?_
  simp only [List.mem_cons, List.not_mem_nil, or_false]
  rintro n (rfl | rfl)
  · exact .not (ok (path _ _ _ ⟨_, rfl⟩) rfl)
  · refine .any (.inr (.inl ⟨gs"containers", rfl⟩)) (by simp) (by simp) (.or ?_)
    simp only [List.mem_cons, List.not_mem_nil, or_false]
    rintro n (rfl | rfl)
    · exact ok (path _ _ _ ⟨_, rfl⟩) rfl
    · exact ok (path _ _ _ ⟨_, rfl⟩) rfl

/-! ## C47 -/

/-- **C47.** A scalar in place of a node is an error. -/
theorem C47_scalar {j : Json} {kw : Str} (p : List Nat) (h : (∀ l, j ≠ .arr l) ∧ ∀ kvs, j ≠ .obj kvs) : ∃ e, interpret env j kw p = .error (.err e) := by
  cases j with
  | arr l => exact absurd rfl (h.1 l)
  | obj kvs => exact absurd rfl (h.2 kvs)
  | _ => exact ⟨_, rfl⟩

/-- **C47.** A list of several nodes (or none) without a connective is an error. -/
theorem C47_list {l : List Json} (p : List Nat) (h : l.length ≠ 1) : ∃ e, parseConditionsTree env p (.arr l) = .error (.err e) := by
  match l with
  | [] => exact ⟨.badNode, rfl⟩
  | [j] => exact absurd rfl h
  | _ :: _ :: _ => exact ⟨.badNode, rfl⟩

/-- **C47.** A map with several keys that is not a condition, outside of ANY and ALL, is an error. -/
theorem C47_many_keys {kvs : List (Str × Json)} {kw : Str} (p : List Nat) (hk : kw ≠ gs"ANY" ∧ kw ≠ gs"ALL") (hl : kvs.length ≠ 1)
    (hc : ¬ ∃ ks, CondKeys True ks ∧ (kvs.map (·.1)).Perm ks) : ∃ e, interpret env (.obj kvs) kw p = .error (.err e) := by
  have hnc : isConditionNode kvs = false := by
    by_contra h
    rw [Bool.not_eq_false, isConditionNode_keys] at h
    exact hc (condKeys_of_B h)
  have hs : singleKid (interpretKids env kvs p 2) = .error (.err .badNode) := by
    match kvs with
    | [] => rfl
    | [x] => exact absurd rfl hl
    | _ :: _ :: _ => rfl
  rw [interpret, handleMap, if_neg (by simp [hnc]), if_neg (by simp [hk])]
  by_cases hn : kw = gs"NOT"
  · rw [if_pos hn, hs]; exact ⟨_, rfl⟩
  · rw [if_neg hn]
    split
    · exact ⟨_, hs⟩
    · exact ⟨_, rfl⟩

/-- **C47.** An ANY or ALL without a parent path is not accepted. -/
theorem C47_no_parent (ho : env.OrdOk) {kvs : List (Str × Json)} {kw : Str} {p : List Nat} {n : Node} (hj : IsMap (.obj kvs)) (hk : kw = gs"ANY" ∨ kw = gs"ALL")
    (hp : parentKey ∉ kvs.map (·.1)) : interpret env (.obj kvs) kw p ≠ .ok n := by
  intro h
  have hr := reads_of_interpret ho _ hj h
  have no : ∀ {parent ret}, ¬ AnyMap kvs parent ret := fun h => hp (List.mem_map_of_mem (f := (·.1)) h.hasParent)
  cases hr with
  | cond hk' _ _ => rcases hk with rfl | rfl <;> simp at hk'
  | andCond _ _ => simp at hk
  | orCond _ _ => simp at hk
  | notCond _ _ => simp at hk
  | key hk' _ => rcases hk with rfl | rfl <;> simp at hk'
  | not _ => simp at hk
  | quantifier _ h' _ _ _ => exact no h'
  | dropped _ hk' _ => rcases hk with rfl | rfl <;> simp at hk'
  | noChild _ _ h' _ => exact no h'
  | twoChildren _ _ h' _ _ _ _ _ => exact no h'

/-- **C47.** Nothing below an unknown keyword is accepted. -/
theorem C47_unknown (ho : env.OrdOk) {j : Json} {kw : Str} {p : List Nat} {n : Node} (hj : IsMap j) (hk : kw ∉ keywords) : interpret env j kw p ≠ .ok n := by
  intro h
  have hr := reads_of_interpret ho _ hj h
  simp only [keywords, List.mem_cons, List.not_mem_nil, or_false, not_or] at hk
  obtain ⟨h1, h2, h3, h4, h5, h6, h7, h8, h9⟩ := hk
  cases hr with
  | cond hk' _ _ => simp [h1, h2, h4] at hk'
  | andCond _ _ => exact h5 rfl
  | orCond _ _ => exact h6 rfl
  | notCond _ _ => exact h7 rfl
  | key hk' _ => simp [h1, h2, h3, h4] at hk'
  | single _ => exact h1 rfl
  | and _ => exact h5 rfl
  | or _ => exact h6 rfl
  | not _ => exact h7 rfl
  | notSingle _ => exact h7 rfl
  | quantifier hk' _ _ _ _ => simp [h8, h9] at hk'
  | dropped _ hk' _ => simp [h5, h6] at hk'
  | notLast _ _ _ => exact h7 rfl
  | notNone _ => exact h7 rfl
  | noChild _ hk' _ _ => simp [h8, h9] at hk'
  | twoChildren _ hk' _ _ _ _ _ _ => simp [h8, h9] at hk'

/-- **C47**, partial: a document that is accepted is one of the grammar, at any depth. Missing from the property: the grammar
has four forms (`dropped`, `notLast`, `notNone`, `noChild`) and three details of conditions (numeric keys, and return values that
are no map) in which something is silently dropped, and one (`twoChildren`) in which one of two children is. -/
theorem C47_partial (ho : env.OrdOk) {j : Json} {p : List Nat} {n : Node} (hj : IsMap j) (h : parseConditionsTree env p j = .ok n) :
    Reads env True True [] j n := reads_of_interpret ho j hj h

/-- `NOT: [true, false]`: the first condition is dropped. `AND: {OR: [..]}`: so is the connective. -/
def notTwo : Json := .obj [(gs"NOT", .arr [.obj [(gs"attribute", .str gs"true"), (gs"method", .str gs"EX")], .obj [(gs"attribute", .str gs"false"), (gs"method", .str gs"EX")]])]

def andOr : Json := .obj [(gs"AND", .obj [(gs"OR", .arr [.obj [(gs"attribute", .str gs"false"), (gs"method", .str gs"EX")]])])]

/-- **C47** fails: documents are accepted of which a part is silently dropped. The two documents differ in a condition, and in a connective, that the
trees do not have. -/
theorem C47_violated : ∃ (env : Env) (n m : Node), env.OrdOk ∧ parseConditionsTree env [] notTwo = .ok (.not n) ∧
    (∃ a, n = condNode env a gs"EX" [] none ∧ a = gs"false") ∧ parseConditionsTree env [] andOr = .ok m ∧ m = .or [n] :=
  ⟨Demo.env, condNode Demo.env gs"false" gs"EX" [] none, _, Demo.env_ordOk, rfl, ⟨_, rfl, rfl⟩, rfl, rfl⟩

/-! ## C48 -/

/-- **C48**, partial: if no ANY or ALL has two children, then what a document is parsed to does not depend on the order of iteration (nor on
the run). Missing: ANY and ALL with two children; and which of several errors is reported. -/
theorem C48_partial {env' : Env} (ho : env.OrdOk) (ho' : env'.OrdOk) (he : env'.toExt = env.toExt) {j : Json} (hj : IsMap j) (h1 : OneChild j)
    (p p' : List Nat) (n : Node) : parseConditionsTree env p j = .ok n ↔ parseConditionsTree env' p' j = .ok n := by
  constructor
  · intro h
    have := reads_oneChild (reads_of_interpret ho j hj h) h1
    rw [← he] at this
    exact interpret_of_reads ho' this p'
  · intro h
    have := reads_oneChild (reads_of_interpret ho' j hj h) h1
    rw [he] at this
    exact interpret_of_reads ho this p

/-- **C48.** The same for documents that lose nothing: they have one tree. -/
theorem C48_writes {j : Json} {n n' : Node} (h : Writes env [] j n) (h' : Writes env [] j n') : n = n' := by
  have ho : ({ env with ord := fun _ l => l } : Env).OrdOk := fun _ _ => .refl _
  have e1 := C46_tree (env := { env with ord := fun _ l => l }) ho h []
  have e2 := C46_tree (env := { env with ord := fun _ l => l }) ho h' []
  rw [e1] at e2
  simpa using e2

/-- `ANY` with two children. -/
def anyTwo : Json := .obj [(gs"ANY", .obj [(gs"parentJsonpathAttribute", .str gs"jsonpath:$.a"),
  (gs"condition", .obj [(gs"attribute", .str gs"true"), (gs"method", .str gs"EX")]),
  (gs"conditionsTree", .obj [(gs"attribute", .str gs"false"), (gs"method", .str gs"EX")])])]

/-- **C48** fails: an ANY with two children gives different trees in different orders. -/
theorem C48_violated : ∃ (env env' : Env) (n n' : Node), env.OrdOk ∧ env'.OrdOk ∧ env'.toExt = env.toExt ∧
    parseConditionsTree env [] anyTwo = .ok n ∧ parseConditionsTree env' [] anyTwo = .ok n' ∧ n ≠ n' := by
  refine ⟨Demo.env, Demo.envRev, .any (anyFields Demo.env gs"jsonpath:$.a" []) (condNode Demo.env gs"false" gs"EX" [] none),
    .any (anyFields Demo.env gs"jsonpath:$.a" []) (condNode Demo.env gs"true" gs"EX" [] none), Demo.env_ordOk, Demo.envRev_ordOk, rfl, rfl, rfl, ?_⟩
  intro h
  simp only [Node.any.injEq, condNode, Node.cond.injEq, true_and] at h
  have := congrArg Condition.attr h
  exact absurd this (by decide)

/-- `ANY` with one child. -/
def anyOne : Json := .obj [(gs"ANY", .obj [(gs"parentJsonpathAttribute", .str gs"jsonpath:$.a"), (gs"condition", .obj [(gs"attribute", .str gs"true"), (gs"method", .str gs"EX")])])]

example : IsMap anyOne ∧ OneChild anyOne ∧ ∃ n, parseConditionsTree Demo.env [] anyOne = .ok n := by
  have k : ∀ s : Str, IsMap (.str s) ∧ OneChild (.str s) := fun s => ⟨.str s, .str s⟩
  refine ⟨?_, ?_, _, rfl⟩
  · refine .obj (by simp) ?_
    simp only [List.mem_singleton, forall_eq]
    refine .obj (by simp) ?_
    simp only [List.mem_cons, List.not_mem_nil, or_false, forall_eq_or_imp, forall_eq, k, true_and]
    refine .obj (by simp) ?_
    simp [k]
  · refine .obj (by simp [parentKey]) ?_
    simp only [List.mem_singleton, forall_eq]
    refine .obj ?_ ?_
    · rintro - x y ⟨hx, h1, h2⟩ ⟨hy, g1, g2⟩
      simp only [List.mem_cons, List.not_mem_nil, or_false] at hx hy
      rcases hx with rfl | rfl
      · exact absurd rfl h1
      · rcases hy with rfl | rfl
        · exact absurd rfl g1
        · rfl
    · simp only [List.mem_cons, List.not_mem_nil, or_false, forall_eq_or_imp, forall_eq, k, true_and]
      refine .obj (by simp [parentKey]) ?_
      simp [k]

end Mapl.Props

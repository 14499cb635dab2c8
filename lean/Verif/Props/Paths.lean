import Verif.Props.Find

/-!
# ANY and ALL with several paths

C97. The paths of an ANY or ALL may be a list with commas. An ANY with several paths says what the OR of the ANYs with one path each says, an ALL what the AND of the ALLs says.
-/

namespace Mapl.Spec

/-- The ANY for each path, with OR between them. -/
def apartAny (ps : List ListPath) (f : Claim) : Claim := .or (ps.map fun p => .any [p] f)

/-- The ALL for each path, with AND between them. -/
def apartAll (ps : List ListPath) (f : Claim) : Claim := .and (ps.map fun p => .all [p] f)

/-- Every path leads to a list, not empty if it is marked, or it is no error if there are no elements. -/
def EachFound (env : Ext) (root : Json) (cur : Option Json) (ps : List ListPath) : Prop :=
  (∀ p ∈ ps, ∃ l, p.Leads root cur (some (.arr l)) ∧ (p.mark ≠ .none → l ≠ [])) ∨ QuietAbsent env

/-- The rule has the claim as its conditions, which say something of the document, and its sender and its receiver are the texts `s` and `v`. -/
structure Tells (env : Env) (t : Predef) (base : Msg) (root : Json) (body : Rule) (s v : Str) (f : Claim) : Prop where
  written : body.conditions = some (f.statement.tree env)
  sender : Resolves t body.senderName s
  receiver : Resolves t body.receiverName v
  texts : TextsOk body s v
  sound : Sound env t f.statement
  plain : f.Plain
  clear : f.Clear env t base root none

end Mapl.Spec

namespace Mapl.Props

open Mapl.Spec

variable {env : Env} {g t : Predef} {base msg : Msg} {root : Json} {cur : Option Json} {ps : List ListPath} {f : Claim}

/-! ## One by one -/

theorem someHolds_map {h : ListPath → Claim} : ∀ {ps : List ListPath}, Claim.SomeHolds env t base root (ps.map h) cur ↔ ∃ p ∈ ps, (h p).Holds env t base root cur
  | [] => by simp [Claim.SomeHolds]
  | p :: ps => by rw [List.map_cons, Claim.SomeHolds, someHolds_map]; simp

theorem allHold_map {h : ListPath → Claim} : ∀ {ps : List ListPath}, Claim.AllHold env t base root (ps.map h) cur ↔ ∀ p ∈ ps, (h p).Holds env t base root cur
  | [] => by simp [Claim.AllHold]
  | p :: ps => by rw [List.map_cons, Claim.AllHold, allHold_map]; simp

theorem allClear_map {h : ListPath → Claim} : ∀ {ps : List ListPath}, (∀ p ∈ ps, (h p).Clear env t base root cur) → Claim.AllClear env t base root (ps.map h) cur
  | [], _ => by simp [Claim.AllClear]
  | p :: ps, hc => by rw [List.map_cons, Claim.AllClear]; exact ⟨hc p (by simp), allClear_map fun q hq => hc q (.tail _ hq)⟩

theorem clearInTurn_map {h : ListPath → Claim} : ∀ {ps : List ListPath}, (∀ p ∈ ps, (h p).Clear env t base root cur) → Claim.ClearInTurn env t base root (ps.map h) cur
  | [], _ => by simp [Claim.ClearInTurn]
  | p :: ps, hc => by rw [List.map_cons, Claim.ClearInTurn]; exact ⟨hc p (by simp), fun _ => clearInTurn_map fun q hq => hc q (.tail _ hq)⟩

theorem allPlain_map {h : ListPath → Claim} : ∀ {ps : List ListPath}, (∀ p ∈ ps, (h p).Plain) → Claim.AllPlain (ps.map h)
  | [], _ => by simp [Claim.AllPlain]
  | p :: ps, hc => by rw [List.map_cons, Claim.AllPlain]; exact ⟨hc p (by simp), allPlain_map fun q hq => hc q (.tail _ hq)⟩

theorem soundAll_map {h : ListPath → Claim} : ∀ {ps : List ListPath}, (∀ p ∈ ps, Sound env t (h p).statement) → SoundAll env t (Claim.statements (ps.map h))
  | [], _ => by simp [Claim.statements, SoundAll]
  | p :: ps, hc => by rw [List.map_cons, Claim.statements, SoundAll]; exact ⟨hc p (by simp), soundAll_map fun q hq => hc q (.tail _ hq)⟩

theorem statements_ne {fs : List Claim} (h : fs ≠ []) : Claim.statements fs ≠ [] := by
  cases fs with
  | nil => exact absurd rfl h
  | cons f fs => simp [Claim.statements]

/-- Each of several paths can be looked up alone. -/
theorem parentOf_one {e : Ext} {st : Start} (hst : ∀ p ∈ ps, p.start = st ∧ PlainSteps p.steps) (h : (parentOf ps).Ok e) {p : ListPath} (hp : p ∈ ps) : (parentOf [p]).Ok e := by
  have key : ∀ {rs : List Str}, rs = (ps.map fun p => p.tail ++ p.mark.text) → (∀ r ∈ rs, PlainPath r ∧ e.jpOk (gs"$." ++ r) = true) →
      PlainPath (p.tail ++ p.mark.text) ∧ e.jpOk (gs"$." ++ (p.tail ++ p.mark.text)) = true := fun hrs h => h _ (by rw [hrs]; exact List.mem_map_of_mem hp)
  cases st with
  | document =>
    rw [parentOf_document fun q hq => (hst q hq).1] at h
    rw [parentOf_document fun q hq => by rw [List.mem_singleton.1 hq]; exact (hst p hp).1]
    exact ⟨by simp, fun r hr => by rw [List.map_cons, List.map_nil, List.mem_singleton] at hr; rw [hr]; exact key rfl h.2⟩
  | element =>
    rw [parentOf_element (List.ne_nil_of_mem hp) fun q hq => (hst q hq).1] at h
    rw [parentOf_element (by simp) fun q hq => by rw [List.mem_singleton.1 hq]; exact (hst p hp).1]
    exact ⟨by simp, fun r hr => by rw [List.map_cons, List.map_nil, List.mem_singleton] at hr; rw [hr]; exact key rfl h.2⟩

theorem apartAny_holds : (apartAny ps f).Holds env t base root cur ↔ (Claim.any ps f).Holds env t base root cur := by
  rw [apartAny, Claim.Holds, someHolds_map, Claim.Holds]
  refine exists_congr fun p => and_congr_right fun _ => ?_
  rw [Claim.Holds]
  simp

theorem apartAll_holds : (apartAll ps f).Holds env t base root cur ↔ (Claim.all ps f).Holds env t base root cur := by
  rw [apartAll, Claim.Holds, allHold_map, Claim.Holds]
  refine forall_congr' fun p => imp_congr_right fun _ => ?_
  rw [Claim.Holds]
  simp

theorem each_clear {Q : Json → Prop} (h : ∀ p ∈ ps, ∃ l, Gathers root cur p l ∧ ∀ e ∈ l, Q e) (he : EachFound env root cur ps) {p : ListPath} (hp : p ∈ ps) :
    (∀ q ∈ [p], ∃ l, Gathers root cur q l ∧ ∀ e ∈ l, Q e) ∧
    ((∃ q ∈ [p].getLast?, ∃ l, q.Leads root cur (some (.arr l)) ∧ (q.mark ≠ .none → l ≠ [])) ∨ QuietAbsent env) :=
  ⟨fun q hq => by rw [List.mem_singleton.1 hq]; exact h p hp, he.imp (fun he => ⟨p, rfl, he p hp⟩) id⟩

theorem apartAny_clear (h : (Claim.any ps f).Clear env t base root cur) (he : EachFound env root cur ps) : (apartAny ps f).Clear env t base root cur := by
  rw [Claim.Clear] at h
  rw [apartAny, Claim.Clear]
  refine allClear_map fun p hp => ?_
  rw [Claim.Clear]
  exact each_clear h.1 he hp

theorem apartAll_clear (h : (Claim.all ps f).Clear env t base root cur) (he : EachFound env root cur ps) : (apartAll ps f).Clear env t base root cur := by
  rw [Claim.Clear] at h
  rw [apartAll, Claim.Clear]
  refine clearInTurn_map fun p hp => ?_
  rw [Claim.Clear]
  exact each_clear h.1 he hp

theorem apartAny_plain (h : (Claim.any ps f).Plain) : (apartAny ps f).Plain := by
  rw [Claim.Plain] at h
  rw [apartAny, Claim.Plain]
  refine allPlain_map fun p hp => ?_
  rw [Claim.Plain]
  obtain ⟨⟨st, hst⟩, hf⟩ := h
  exact ⟨⟨st, fun q hq => by rw [List.mem_singleton.1 hq]; exact hst p hp⟩, hf⟩

theorem apartAll_plain (h : (Claim.all ps f).Plain) : (apartAll ps f).Plain := by
  rw [Claim.Plain] at h
  rw [apartAll, Claim.Plain]
  refine allPlain_map fun p hp => ?_
  rw [Claim.Plain]
  obtain ⟨⟨st, hst⟩, hf⟩ := h
  exact ⟨⟨st, fun q hq => by rw [List.mem_singleton.1 hq]; exact hst p hp⟩, hf⟩

theorem apartAny_sound (hpl : (Claim.any ps f).Plain) (h : Sound env t (Claim.any ps f).statement) : Sound env t (apartAny ps f).statement := by
  rw [Claim.Plain] at hpl
  rw [Claim.statement, Sound] at h
  obtain ⟨⟨st, hst⟩, -⟩ := hpl
  rw [apartAny, Claim.statement, Sound]
  refine ⟨statements_ne (by simpa using parentOf_ne h.1), soundAll_map fun p hp => ?_⟩
  rw [Claim.statement, Sound]
  exact ⟨parentOf_one hst h.1 hp, h.2⟩

theorem apartAll_sound (hpl : (Claim.all ps f).Plain) (h : Sound env t (Claim.all ps f).statement) : Sound env t (apartAll ps f).statement := by
  rw [Claim.Plain] at hpl
  rw [Claim.statement, Sound] at h
  obtain ⟨⟨st, hst⟩, -⟩ := hpl
  rw [apartAll, Claim.statement, Sound]
  refine ⟨statements_ne (by simpa using parentOf_ne h.1), soundAll_map fun p hp => ?_⟩
  rw [Claim.statement, Sound]
  exact ⟨parentOf_one hst h.1 hp, h.2⟩

/-! ## Rules -/

/-- Rules whose claims say the same get the same result. -/
theorem tells_same {r r' : RuleObj} {body body' : Rule} {s v : Str} {f f' : Claim} (he : Assumed env) (hp : PathsOk env) (hm : MsgOk env base) (hl : Loaded env g r body t)
    (hl' : Loaded env g r' body' t) (h : Tells env t base root body s v f) (h' : Tells env t base root body' s v f')
    (hb : body' = { body with conditions := body'.conditions }) (hf : f'.Holds env t base root none ↔ f.Holds env t base root none) (hc : Carries env base root msg none) (p p' : List Nat) :
    ∃ o o', r.check env g p msg = .ok o ∧ r'.check env g p' msg = .ok o' ∧ o.result = o'.result := by
  have hA : WrittenClaims env t base root body (WrittenParts body s v base ∧ ∀ f' ∈ some f, f'.Holds env t base root none) (decisionOf body.decision) :=
    .mk (c := some f) h.written h.sender h.receiver h.texts (by simp [h.sound]) (by simp [h.plain]) (by simp [h.clear])
  have hA' : WrittenClaims env t base root body' (WrittenParts body' s v base ∧ ∀ f ∈ some f', f.Holds env t base root none) (decisionOf body'.decision) :=
    .mk (c := some f') h'.written h'.sender h'.receiver h'.texts (by simp [h'.sound]) (by simp [h'.plain]) (by simp [h'.clear])
  obtain ⟨o, ho, k1, k2⟩ := rule_says he (carries_msg hc hm) ⟨body, t, hl, writtenClaims he hp hc hA⟩ p
  obtain ⟨o', ho', k1', k2'⟩ := rule_says he (carries_msg hc hm) ⟨body', t, hl', writtenClaims he hp hc hA'⟩ p'
  refine ⟨o, o', ho, ho', ?_⟩
  have hw : WrittenParts body' s v base ↔ WrittenParts body s v base := by
    rw [hb]
    exact ⟨fun ⟨a, b, c, d⟩ => ⟨a, b, c, d⟩, fun ⟨a, b, c, d⟩ => ⟨a, b, c, d⟩⟩
  have hd : decisionOf body'.decision = decisionOf body.decision := by rw [hb]
  by_cases hx : WrittenParts body s v base ∧ ∀ f' ∈ some f, f'.Holds env t base root none
  · rw [k1 hx, k1' ⟨hw.2 hx.1, by simpa [hf] using hx.2⟩, hd]
  · rw [(k2 hx).1, (k2' fun h => hx ⟨hw.1 h.1, by simpa [hf] using h.2⟩).1]

/-- **C97**, conditions: an ANY with several paths means the OR of the ANYs with one path each. -/
theorem C97_any_partial (he : Assumed env) (hp : PathsOk env) (hpl : (Claim.any ps f).Plain) (hs : Sound env t (Claim.any ps f).statement)
    (hd : (Claim.any ps f).Clear env t base root cur) (hf : EachFound env root cur ps) (hc : Carries env base root msg cur) :
    Sound env t (apartAny ps f).statement ∧ Defined env t (Claim.any ps f).statement msg ∧ Defined env t (apartAny ps f).statement msg ∧
      (Meaning env t (Claim.any ps f).statement msg ↔ Meaning env t (apartAny ps f).statement msg) := by
  have hs' := apartAny_sound hpl hs
  obtain ⟨h1, h2⟩ := claim_meaning he hp _ msg cur hpl hs hc hd
  obtain ⟨h3, h4⟩ := claim_meaning he hp _ msg cur (apartAny_plain hpl) hs' hc (apartAny_clear hd hf)
  exact ⟨hs', h1, h3, h2.trans (apartAny_holds.symm.trans h4.symm)⟩

/-- **C97**, conditions: an ALL with several paths means the AND of the ALLs with one path each. -/
theorem C97_all_partial (he : Assumed env) (hp : PathsOk env) (hpl : (Claim.all ps f).Plain) (hs : Sound env t (Claim.all ps f).statement)
    (hd : (Claim.all ps f).Clear env t base root cur) (hf : EachFound env root cur ps) (hc : Carries env base root msg cur) :
    Sound env t (apartAll ps f).statement ∧ Defined env t (Claim.all ps f).statement msg ∧ Defined env t (apartAll ps f).statement msg ∧
      (Meaning env t (Claim.all ps f).statement msg ↔ Meaning env t (apartAll ps f).statement msg) := by
  have hs' := apartAll_sound hpl hs
  obtain ⟨h1, h2⟩ := claim_meaning he hp _ msg cur hpl hs hc hd
  obtain ⟨h3, h4⟩ := claim_meaning he hp _ msg cur (apartAll_plain hpl) hs' hc (apartAll_clear hd hf)
  exact ⟨hs', h1, h3, h2.trans (apartAll_holds.symm.trans h4.symm)⟩

/-- **C97.** A rule with an ANY of several paths and the rule with the OR of the ANYs get the same result in a check. -/
theorem C97_any_check_partial {r r' : RuleObj} {body : Rule} {s v : Str} (he : Assumed env) (hp : PathsOk env) (hm : MsgOk env base) (hl : Loaded env g r body t)
    (hl' : Loaded env g r' { body with conditions := some ((apartAny ps f).statement.tree env) } t) (h : Tells env t base root body s v (.any ps f))
    (hf : EachFound env root none ps) (hc : Carries env base root msg none) (p p' : List Nat) :
    ∃ o o', r.check env g p msg = .ok o ∧ r'.check env g p' msg = .ok o' ∧ o.result = o'.result :=
  tells_same he hp hm hl hl' h ⟨rfl, h.sender, h.receiver, ⟨h.texts.1, h.texts.2, h.texts.3, h.texts.4⟩, apartAny_sound h.plain h.sound, apartAny_plain h.plain, apartAny_clear h.clear hf⟩ rfl apartAny_holds hc p p'

/-- **C97.** A rule with an ALL of several paths and the rule with the AND of the ALLs get the same result in a check. -/
theorem C97_all_check_partial {r r' : RuleObj} {body : Rule} {s v : Str} (he : Assumed env) (hp : PathsOk env) (hm : MsgOk env base) (hl : Loaded env g r body t)
    (hl' : Loaded env g r' { body with conditions := some ((apartAll ps f).statement.tree env) } t) (h : Tells env t base root body s v (.all ps f))
    (hf : EachFound env root none ps) (hc : Carries env base root msg none) (p p' : List Nat) :
    ∃ o o', r.check env g p msg = .ok o ∧ r'.check env g p' msg = .ok o' ∧ o.result = o'.result :=
  tells_same he hp hm hl hl' h ⟨rfl, h.sender, h.receiver, ⟨h.texts.1, h.texts.2, h.texts.3, h.texts.4⟩, apartAll_sound h.plain h.sound, apartAll_plain h.plain, apartAll_clear h.clear hf⟩ rfl apartAll_holds hc p p'

/-! ## Violations -/

theorem collect_last {e : Ext} {m : Msg} {raw q : Str} (hr : m.jsonRaw = some raw) (hq : isRelativeParent q = false) (hx : (e.jsGet raw q).2 = true) :
    ∀ (qs : List Str) (data : Str) (err : Bool) (out : Option Str), collectJsons e m data err (qs ++ [q]) = .ok out → out = none
  | [], data, err, out, h => by
    simp only [List.nil_append, collectJsons, hq, Bool.false_eq_true, if_false, hr, deref, Go.ok_bind, hx, if_true, Go.pure_eq, Except.ok.injEq] at h
    exact h.symm
  | q' :: qs, data, err, out, h => by
    rw [List.cons_append, collectJsons] at h
    split at h
    · obtain ⟨x, -, h⟩ := Go.bind_eq_ok.1 h
      exact collect_last hr hq hx qs _ _ out h
    · obtain ⟨x, -, h⟩ := Go.bind_eq_ok.1 h
      exact collect_last hr hq hx qs _ _ out h

/-- Violation of C97: if looking up the last path in a text is an error, neither ANY nor ALL holds, whatever is under the other paths and whatever the condition is. -/
theorem C97_violated_last {a : AnyAll} {n : Node} {p : List Nat} {qs : List Str} {q raw : Str} {o : EvalOut} (ha : a.parentArr = qs ++ [q]) (hI : msg.rawI = none)
    (hr : msg.jsonRaw = some raw) (hq : isRelativeParent q = false) (hx : (env.jsGet raw q).2 = true) :
    (eval env (.any a n) p msg = .ok o → o.flag = false) ∧ (eval env (.all a n) p msg = .ok o → o.flag = false) := by
  have key : ∀ l, getArrayOfJsons env p a msg = .ok l → l = none := by
    intro l h
    simp only [getArrayOfJsons, Go.bind_eq_ok] at h
    obtain ⟨x, hx', h⟩ := h
    rw [ha] at hx'
    rw [collect_last hr hq hx qs _ _ x hx'] at h
    simp only [Go.pure_eq, Except.ok.injEq] at h
    exact h.symm
  constructor
  · intro h
    simp only [eval, evalAny, hI, Option.isSome_none, Bool.false_eq_true, false_and, if_false, Go.bind_eq_ok] at h
    obtain ⟨l, hl, h⟩ := h
    rw [key l hl] at h
    simp only [Go.pure_eq, Except.ok.injEq] at h
    rw [← h]
  · intro h
    simp only [eval, evalAll, hI, Option.isSome_none, Bool.false_eq_true, false_and, if_false, Go.bind_eq_ok] at h
    obtain ⟨l, hl, h⟩ := h
    rw [key l hl] at h
    simp only [Go.pure_eq, Except.ok.injEq] at h
    rw [← h]

/-- Libraries that report an error if a path leads to nothing. -/
def loudEnv : Env := { Demo.env with jsGet := fun s q => if (Demo.env.jsGet s q).1 = [] then ([], true) else Demo.env.jsGet s q }

/-- Violation of C97: with such libraries the order of the paths matters for a text. The document has a list `xs` and no list `ys`. -/
theorem C97_violated_order : ∃ (raw : Str) (d : Json) (c : Node) (r r' : RuleObj), JsonDoc loudEnv raw d ∧
    r = Demo.rule gs"block" (some (Demo.anyOf gs"jsonpath:$.ys,$.xs" c)) ∧ r' = Demo.rule gs"block" (some (Demo.anyOf gs"jsonpath:$.xs,$.ys" c)) ∧
    Demo.summary (check loudEnv {} { rawI := some d } [r]) = some (3, [3], 0, [0]) ∧ Demo.summary (check loudEnv {} { rawI := some d } [r']) = some (3, [3], 0, [0]) ∧
    Demo.summary (check loudEnv {} { jsonRaw := some raw } [r]) = some (3, [3], 0, [0]) ∧ Demo.summary (check loudEnv {} { jsonRaw := some raw } [r']) = some (0, [0], -1, []) :=
  ⟨gs"{\"xs\":[{\"a\":1}]}", .obj [(gs"xs", .arr [.obj [(gs"a", .num (.fin 1))]])], Demo.cond gs"jsonpath:$RELATIVE.a" gs"EX" [], _, _, jsonScan_iff.1 (by rfl), rfl, rfl,
    by decide +kernel, by decide +kernel, by decide +kernel, by decide +kernel⟩

/-- Violation of C97 and C96: a list of paths is taken for one field in a query. The rule applies to the document, the query does not find it; the query of the OR does. -/
theorem C97_violated_query : ∃ (n n1 n2 : Node) (kvs : List (Str × Json)), n = anyIn gs"jsonpath:$.xs,$.ys" (leaf gs"jsonpath:$RELATIVE.a" gs"EQ" gs"1") ∧
    n1 = anyIn gs"jsonpath:$.xs" (leaf gs"jsonpath:$RELATIVE.a" gs"EQ" gs"1") ∧ n2 = anyIn gs"jsonpath:$.ys" (leaf gs"jsonpath:$RELATIVE.a" gs"EQ" gs"1") ∧
    blocks n (.obj kvs) = some true ∧ blocks (.or [n1, n2]) (.obj kvs) = some true ∧
    found gs"raw" n (stored kvs) = some false ∧ found gs"raw" (.or [n1, n2]) (stored kvs) = some true :=
  ⟨_, _, _, [(gs"xs", .arr [.obj [(gs"a", .num (.fin 1))]])], rfl, rfl, rfl, by decide +kernel, by decide +kernel, by decide +kernel, by decide +kernel⟩

/-! ## Example -/

theorem place_quiet : QuietAbsent placeEnv.toExt := by
  intro p k s d hp hs h
  cases h with
  | missing h => rw [place_noText hp hs h]
  | empty h =>
    obtain ⟨u, hu, -⟩ := place_getText (k := k) hp hs h
    rw [hu]

/-- A bad container, in one of two lists. -/
noncomputable def pathsRule : Rule := { (Demo.rule gs"block").body with conditions := some ((Claim.any [mainPath, initPath] badContainer).statement.tree placeEnv) }

/-- The rule says something of the document, which has the first list and not the second. -/
theorem paths_tells : Tells placeEnv policyTables placeMsg placeDoc pathsRule gs"*" gs"*" (.any [mainPath, initPath] badContainer) where
  written := rfl
  sender := .plain (by simp [pathsRule, Demo.rule])
  receiver := .plain (by simp [pathsRule, Demo.rule])
  texts := by
    refine ⟨?_, ?_, ?_, ?_⟩
    · show PlainPattern _; decide
    · show PlainPattern _; decide
    · show PlainPattern gs"*"; decide
    · show PlainPattern gs"*"; decide
  sound := by
    rw [Claim.statement, Sound]
    exact ⟨paths_ok (by simp) (by simp), bad_sound⟩
  plain := by
    rw [Claim.Plain]
    exact ⟨paths_plain (by simp), bad_plain⟩
  clear := by
    rw [Claim.Clear]
    refine ⟨fun p hp => ?_, .inr place_quiet⟩
    simp only [List.mem_cons, List.not_mem_nil, or_false] at hp
    rcases hp with rfl | rfl
    · exact ⟨_, .there place_list, bad_clear⟩
    · exact ⟨_, .missing place_noList, by simp⟩

/-- The hypotheses are met, for the document as a text. -/
example : ∃ o o', ({ body := pathsRule } : RuleObj).check placeEnv policyTables [] { placeMsg with jsonRaw := some placeText } = .ok o ∧
    ({ body := { pathsRule with conditions := some ((apartAny [mainPath, initPath] badContainer).statement.tree placeEnv) } } : RuleObj).check placeEnv policyTables []
      { placeMsg with jsonRaw := some placeText } = .ok o' ∧ o.result = o'.result :=
  C97_any_check_partial place_assumed place_ok placeMsg_ok (.parsed ⟨rfl, rfl, rfl⟩) (.parsed ⟨rfl, rfl, rfl⟩) paths_tells (.inr place_quiet) (.text (r := none) place_text (by simp)) [] []

/-- Both block the message. -/
example : (Claim.any [mainPath, initPath] badContainer).Holds placeEnv policyTables placeMsg placeDoc none := by
  rw [Claim.Holds]
  exact ⟨mainPath, by simp, _, place_list, _, .tail _ (.head _), bad_holds⟩

end Mapl.Props

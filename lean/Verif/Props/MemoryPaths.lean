import Verif.Lemmas.MemoryLast
import Verif.Props.MemoryFrame
import Verif.Lemmas.MemoryClaims

/-! # C97, C89: two and three parent paths for documents in memory -/

namespace Mapl.Props
open Spec

variable {env : MemEnv} {mm : MMsg} {mem : Mem} {s : Slice} {p : List Nat} {a : AnyAll} {n : Node} {q q' : Str}

/-- **C97**, documents in memory: the first ANY with two paths that looks at a text has the result and the returned values that it has for the text as a value, although it
may write over a byte of the document. The condition inside is about the current element and names no further lists of paths. Missing: a document where the byte behind
what the first path leads to is part of what the second leads to, more than two paths, and what looks at the document afterwards; see the violations. -/
theorem C97_any_memory_partial (hp : PlaceOk env) (hI : mm.msg.rawI = none) (hrel : mm.rel = none) (hraw : mm.raw = some s) (hs : Inside mem s)
    (ha : a.parentArr = [q, q']) (hq : isRelativeParent q = false) (hq' : isRelativeParent q' = false) (hc : NotBehind env (mem.read s) q q')
    (hn : Parents (fun a => a.parentArr.length ≤ 1) n) (hab : AboutElement n) (hret : ∀ r ∈ a.ret, r.rel = true) :
    (evalM env (.any a n) p mm mem).map (fun o => (o.flag, o.extra)) = (eval env.toEnv (.any a n) p (mm.view mem)).map fun o => (o.flag, o.extra) :=
  (any_two hp (evalM_spec (fun _ h => collects_one hp h) n hn) hab hret hI hrel hraw hs ha hq hq' hc).symm

/-- **C97**, documents in memory: the same for ALL. -/
theorem C97_all_memory_partial (hp : PlaceOk env) (hI : mm.msg.rawI = none) (hrel : mm.rel = none) (hraw : mm.raw = some s) (hs : Inside mem s)
    (ha : a.parentArr = [q, q']) (hq : isRelativeParent q = false) (hq' : isRelativeParent q' = false) (hc : NotBehind env (mem.read s) q q')
    (hn : Parents (fun a => a.parentArr.length ≤ 1) n) (hab : AboutElement n) :
    (evalM env (.all a n) p mm mem).map (fun o => (o.flag, o.extra)) = (eval env.toEnv (.all a n) p (mm.view mem)).map fun o => (o.flag, o.extra) :=
  (all_two hp (evalM_spec (fun _ h => collects_one hp h) n hn) hab hI hrel hraw hs ha hq hq' hc).symm

/-- Non-vacuity: the document of the caller is written over, and the result is right. -/
example : ∃ (a : AnyAll) (n : Node), someNine.prepare memEnv.toEnv {} = .ok (.any a n) ∧ a.parentArr = [gs"$.a", gs"$.b"] ∧ NotBehind memEnv (bytes.read ⟨0, 0, 35⟩) gs"$.a" gs"$.b" ∧
    Parents (fun a => a.parentArr.length ≤ 1) n ∧ AboutElement n ∧ a.ret = [] ∧
    (evalM memEnv (.any a n) [] request bytes).toOption.map (fun o => (o.flag, o.mem.read ⟨0, 0, 35⟩ == bytes.read ⟨0, 0, 35⟩)) = some (false, false) := by
  refine ⟨_, _, rfl, by decide +kernel, ?_, by rw [Parents] <;> simp, ?_, rfl, by decide +kernel⟩
  · intro i i' h h'
    have e1 : memEnv.place (bytes.read ⟨0, 0, 35⟩) gs"$.a" = some 5 := by decide +kernel
    have e2 : memEnv.place (bytes.read ⟨0, 0, 35⟩) gs"$.b" = some 19 := by decide +kernel
    rw [e1] at h; rw [e2] at h'
    cases h; cases h'
    left; decide +kernel
  · unfold AboutElement
    exact fun _ => ⟨by decide +kernel, by intro l h; cases h⟩

/-- **C97**, documents in memory, whole checks: the last condition that the last rule of a policy looks at may be an ANY or ALL with two paths. All results of the check,
returned values included, are those for the text as a value. What comes before names one path each; the document may be damaged afterwards. Missing: as above. -/
theorem C97_check_memory_partial {g : Predef} {rs : List RuleObj} {r : RuleObj} (hp : PlaceOk env) (ho : env.OrdOk) (hI : mm.msg.rawI = none) (hrel : mm.rel = none)
    (hraw : mm.raw = some s) (hs : Inside mem s) (hrs : ∀ r ∈ rs, ReadWith env.toEnv g OneParent r)
    (hr : ReadWith env.toEnv g (fun n => ∀ t n', n.prepare env.toExt t = .ok n' → TwoPaths env (mem.read s) n') r) :
    (checkM env g mm mem (rs ++ [r])).map (fun o => CheckOut.answer o.out) = (check env.toEnv g (mm.view mem) (rs ++ [r])).map CheckOut.answer := by
  refine check_rules (checkRulesM_last (Q := fun a => a.parentArr.length ≤ 1) (fun _ h => collects_one hp h)
    (fun r h _ _ he => ensure_readyWith ho (fun _ _ _ h hn => oneParent_prepare h hn) (hrs r h) he) ⟨fun x hx => ?_, fun x hx => ?_⟩ fun p mem' hu => ?_)
  · rw [hraw] at hx; cases hx; exact hs
  · rw [hrel] at hx; cases hx
  · refine ruleM_out fun r1 h1 => ?_
    refine ensure_tree ho (fun t n n' h hn => ?_) hr h1
    exact two_out hp hI hrel hraw (hs.mono hu) (by rw [hs.read hu]; exact h t n' hn)

section

variable {g t : Predef} {base : Msg} {root : Json} {ps : List ListPath} {f : Claim} {r r' : RuleObj} {body : Rule} {n' v : Str}

theorem apart_memory {p p' : List Nat} (hp : PlaceOk env) (ho : env.OrdOk) (hI : mm.msg.rawI = none) (hrel : mm.rel = none) (hraw : mm.raw = some s) (hs : Inside mem s)
    (hr : ReadWith env.toEnv g (fun n => ∀ t n', n.prepare env.toExt t = .ok n' → TwoPaths env (mem.read s) n') r) (hr' : ReadWith env.toEnv g OneParent r')
    (h : ∃ o o', r.check env.toEnv g p (mm.view mem) = .ok o ∧ r'.check env.toEnv g p' (mm.view mem) = .ok o' ∧ o.result = o'.result) :
    ∃ o o', r.checkM env g p mm mem = .ok o ∧ r'.checkM env g p' mm mem = .ok o' ∧ o.result = o'.result := by
  obtain ⟨o, o', h1, h2, h3⟩ := h
  have k1 : SameRuleOutM (r.check env.toEnv g p (mm.view mem)) (r.checkM env g p mm mem) :=
    ruleM_out fun r1 h1 => ensure_tree ho (fun t n n' h hn => two_out hp hI hrel hraw hs (h t n' hn)) hr h1
  have k2 := ruleM_spec (g := g) (p := p') (Q := fun a => a.parentArr.length ≤ 1) (fun _ h => collects_one hp h) (r := r') (mm := mm) (mem := mem)
    (fun r1 he => ensure_readyWith ho (fun _ _ _ h hn => oneParent_prepare h hn) hr' he)
    ⟨fun x hx => by rw [hraw] at hx; cases hx; exact hs, fun x hx => by rw [hrel] at hx; cases hx⟩
  rw [h2] at k2
  obtain ⟨mem', k2, -⟩ := k2
  rw [h1] at k1
  unfold SameRuleOutM at k1
  cases hv : r.checkM env g p mm mem with
  | error e => rw [hv] at k1; cases k1
  | ok x =>
    rw [hv] at k1
    exact ⟨x, _, rfl, k2, (Prod.mk.inj (Except.ok.inj k1)).1.symm.trans h3⟩

/-- **C97** in memory, for two paths: a rule with an ANY of two paths from the whole document and the rule with the OR of the two ANYs get the same result, each in a check of its own of the same bytes.
The claim under the ANY is about the current element. -/
theorem C97_any_apart_memory_partial (hp : PlaceOk env) (hI : mm.msg.rawI = none) (hrel : mm.rel = none) (hraw : mm.raw = some s) (hs : Inside mem s)
    (hps : TwoLists env (mem.read s) ps) (hof : f.OfElement) (he : Assumed env.toEnv) (hpo : PathsOk env.toExt) (hm : MsgOk env.toExt base) (hl : Loaded env.toEnv g r body t)
    (hl' : Loaded env.toEnv g r' { body with conditions := some ((apartAny ps f).statement.tree env.toExt) } t) (h : Tells env.toEnv t base root body n' v (.any ps f))
    (hf : EachFound env.toExt root none ps) (hc : Carries env.toExt base root (mm.view mem) none) (p p' : List Nat) :
    ∃ o o', r.checkM env g p mm mem = .ok o ∧ r'.checkM env g p' mm mem = .ok o' ∧ o.result = o'.result := by
  have hpl := h.plain
  rw [Claim.Plain] at hpl
  refine apart_memory hp he.order hI hrel hraw hs ⟨body, t, hl, fun n hn => ?_⟩ ⟨_, t, hl', fun n hn => ?_⟩ (C97_any_check_partial he hpo hm hl hl' h hf hc p p')
  · rw [h.written] at hn
    cases hn
    exact ⟨sound_copyable _ h.sound, fun t' n' hn => (claim_two hps hof hpl.2).1 h.sound hn⟩
  · cases hn
    exact ⟨sound_copyable _ (apartAny_sound h.plain h.sound), (apart_one hof).1 (apartAny_sound h.plain h.sound)⟩

/-- **C97** in memory, for two paths: the same for ALL and AND. -/
theorem C97_all_apart_memory_partial (hp : PlaceOk env) (hI : mm.msg.rawI = none) (hrel : mm.rel = none) (hraw : mm.raw = some s) (hs : Inside mem s)
    (hps : TwoLists env (mem.read s) ps) (hof : f.OfElement) (he : Assumed env.toEnv) (hpo : PathsOk env.toExt) (hm : MsgOk env.toExt base) (hl : Loaded env.toEnv g r body t)
    (hl' : Loaded env.toEnv g r' { body with conditions := some ((apartAll ps f).statement.tree env.toExt) } t) (h : Tells env.toEnv t base root body n' v (.all ps f))
    (hf : EachFound env.toExt root none ps) (hc : Carries env.toExt base root (mm.view mem) none) (p p' : List Nat) :
    ∃ o o', r.checkM env g p mm mem = .ok o ∧ r'.checkM env g p' mm mem = .ok o' ∧ o.result = o'.result := by
  have hpl := h.plain
  rw [Claim.Plain] at hpl
  refine apart_memory hp he.order hI hrel hraw hs ⟨body, t, hl, fun n hn => ?_⟩ ⟨_, t, hl', fun n hn => ?_⟩ (C97_all_check_partial he hpo hm hl hl' h hf hc p p')
  · rw [h.written] at hn
    cases hn
    exact ⟨sound_copyable _ h.sound, fun t' n' hn => (claim_two hps hof hpl.2).2 h.sound hn⟩
  · cases hn
    exact ⟨sound_copyable _ (apartAll_sound h.plain h.sound), (apart_one hof).2 (apartAll_sound h.plain h.sound)⟩

end

/-- The functions of the example for C97, with documents in memory. -/
noncomputable def placeMem : MemEnv := { placeEnv with place := fun t q => index (placeEnv.jsGet t q).1 t }

theorem placeMem_ok : PlaceOk placeMem := fun t q i h => by
  obtain ⟨a, b, h1, h2⟩ := index_some h
  exact ⟨a, b, h1, h2⟩

/-- There is nothing under the second path. -/
theorem placeMem_two : TwoLists placeMem placeText [mainPath, initPath] := by
  refine ⟨_, _, rfl, rfl, rfl, fun i i' _ h' => .inr ?_⟩
  have e : (placeMem.jsGet placeText (gs"$." ++ (initPath.tail ++ initPath.mark.text))).1 = [] := by
    have := place_noText (p := [.field gs"spec", .field gs"initContainers"]) (k := .slice) (by intro n hn; simp only [List.mem_cons, Step.field.injEq, List.not_mem_nil, or_false] at hn; rcases hn with rfl | rfl <;> (unfold FieldName; decide)) place_text (.field rfl (.noField rfl))
    exact congrArg Prod.fst this
  have h2 : index (placeMem.jsGet placeText (gs"$." ++ (initPath.tail ++ initPath.mark.text))).1 placeText = some i' := h'
  rw [e] at h2 ⊢
  have : i' = 0 := by
    have : index [] placeText = some 0 := by decide +kernel
    rw [this] at h2; cases h2; rfl
  subst this
  exact Nat.zero_le _

/-- Non-vacuity: there is a bad container in one of two lists, for a document in memory with a byte in front. -/
example : ∃ o o', ({ body := pathsRule } : RuleObj).checkM placeMem policyTables [] { msg := placeMsg, raw := some ⟨0, 1, placeText.length⟩, rel := none } [' ' :: placeText] = .ok o ∧
    ({ body := { pathsRule with conditions := some ((apartAny [mainPath, initPath] badContainer).statement.tree placeEnv) } } : RuleObj).checkM placeMem policyTables []
      { msg := placeMsg, raw := some ⟨0, 1, placeText.length⟩, rel := none } [' ' :: placeText] = .ok o' ∧ o.result = o'.result := by
  have hread : Mem.read [' ' :: placeText] ⟨0, 1, placeText.length⟩ = placeText := by simp [Mem.read, Mem.array]
  have hel : badContainer.OfElement := by simp [badContainer, Claim.OfElement, Claim.AllOfElement]
  exact C97_any_apart_memory_partial (env := placeMem) (base := placeMsg) (root := placeDoc) (t := policyTables) (ps := [mainPath, initPath]) (body := pathsRule) (r := { body := pathsRule }) (n' := gs"*") (v := gs"*") placeMem_ok rfl rfl rfl ⟨_, rfl, by simp [Nat.add_comm]⟩ (by rw [hread]; exact placeMem_two) hel place_assumed place_ok placeMsg_ok
    (.parsed ⟨rfl, rfl, rfl⟩) (.parsed ⟨rfl, rfl, rfl⟩) paths_tells (.inr place_quiet)
    (by rw [MMsg.view]; simp only [Option.map_some, hread]; exact .text (r := none) place_text (by simp)) [] []

/-- Block requests where some element of `a` or `b` has 2 as its `x`. -/
def bothLists : RuleObj := Demo.rule gs"block" (some (.any (anyFields memEnv.toExt gs"jsonpath:$.a,$.b" []) (condNode memEnv.toExt gs"jsonpath:$RELATIVE.x" gs"EQ" gs"2" none)))

theorem bothLists_behind : NotBehind memEnv (bytes.read ⟨0, 0, 35⟩) gs"$.a" gs"$.b" := by
  intro i i' h h'
  have e1 : memEnv.place (bytes.read ⟨0, 0, 35⟩) gs"$.a" = some 5 := by decide +kernel
  have e2 : memEnv.place (bytes.read ⟨0, 0, 35⟩) gs"$.b" = some 19 := by decide +kernel
  rw [e1] at h; rw [e2] at h'
  cases h; cases h'
  left; decide +kernel

theorem bothLists_ok : ReadWith memEnv.toEnv {} (fun n => ∀ t n', n.prepare memEnv.toExt t = .ok n' → TwoPaths memEnv (bytes.read ⟨0, 0, 35⟩) n') bothLists := by
  have hc {a m v : Str} (h : ∃ r, validateOneCondition memEnv.toExt { attr := a, method := m, value := v } = .ok r) (ha : NoControl a) (hv : NoControl v) :
      Copyable memEnv.toExt (condNode memEnv.toExt a m v none) := .cond (C42_accepted_iff { attr := _, method := _, value := _ } |>.1 h) ha hv (by simp)
  refine ⟨_, {}, .parsed ⟨rfl, rfl, rfl⟩, fun n hn => ?_⟩
  cases hn
  refine ⟨.any (.inr (.inl ⟨_, rfl⟩)) (by unfold Verbatim; decide) (by simp) (by simp) (hc ⟨_, rfl⟩ (by unfold NoControl; decide) (by unfold NoControl; decide)), ?_⟩
  intro t n' h
  simp only [Node.prepare, Go.bind_eq_ok, condNode] at h
  obtain ⟨c, ⟨c', h1, h2⟩, a, h3, h4⟩ := h
  cases h2; cases h4
  have ha : a.parentArr = [gs"$.a", gs"$.b"] ∧ a.ret = [] := by
    have : (anyFields memEnv.toExt gs"jsonpath:$.a,$.b" []).prepare memEnv.toExt = .ok a := h3
    simp only [AnyAll.prepare, Go.bind_eq_ok] at this
    obtain ⟨qs, -, this⟩ := this
    cases this
    exact ⟨show split ',' (anyFields memEnv.toExt gs"jsonpath:$.a,$.b" []).parent = _ by decide +kernel, rfl⟩
  have h5 : c'.attrIsJsonpathRelative = true ∧ c'.ret = none := by
    generalize hx : parsed memEnv.toExt gs"jsonpath:$RELATIVE.x" gs"EQ" gs"2" (Option.map (fun x => List.map (condRetVal memEnv.toExt) x) none) = x at h1
    have e : x.prepare memEnv.toExt t = x.prepare memEnv.toExt {} := by subst hx; rfl
    have e2 : (x.prepare memEnv.toExt {}).toOption.map (fun c => (c.attrIsJsonpathRelative, c.ret.isNone)) = some (true, true) := by subst hx; decide +kernel
    rw [← e, h1] at e2
    simpa [Except.toOption] using e2
  refine .any ⟨_, _, ha.1, rfl, rfl, bothLists_behind⟩ (by rw [ha.2]; simp) (by rw [Parents] <;> simp) ?_
  unfold AboutElement
  exact fun _ => ⟨h5.1, by rw [h5.2]; simp⟩

/-- Non-vacuity: a rule for `c`, and a rule with two paths; both apply. -/
example : memEnv.OrdOk ∧ (∀ r ∈ onePath, ReadWith memEnv.toEnv {} OneParent r) ∧
    ReadWith memEnv.toEnv {} (fun n => ∀ t n', n.prepare memEnv.toExt t = .ok n' → TwoPaths memEnv (bytes.read ⟨0, 0, 35⟩) n') bothLists ∧
    answerM (checkM memEnv {} request bytes (onePath ++ [bothLists])) = some (3, [3, 3, 3]) :=
  ⟨fun _ _ => List.Perm.refl _, onePath_ok, bothLists_ok, by decide +kernel⟩

/-! ## Violations -/

/-- A document with three lists. -/
def threeLists : Mem := [gs"{\"a\":[{\"x\":1}],\"b\":[{\"x\":2}],\"c\":[{\"x\":3}]}"]

def threeRequest : MMsg := { request with raw := some ⟨0, 0, 45⟩ }

/-- Some element under one of these paths has 3 as its `x`. -/
def someThree (ps : Str) : Node := Demo.anyOf (gs"jsonpath:" ++ ps) (Demo.cond gs"jsonpath:$RELATIVE.x" gs"EQ" gs"3")

/-- Violation of **C97** for documents in memory: the text of the second path is written over the document behind the first, and the third path is looked up in what is left.
The rule with three paths does not apply, the OR of the rules with one path does, and so does the rule for the text as a value. -/
theorem C97_violated_three : answerM (checkM memEnv {} threeRequest threeLists [Demo.rule gs"block" (some (someThree gs"$.a,$.b,$.c"))]) = some (0, [0]) ∧
    answerM (checkM memEnv {} threeRequest threeLists [Demo.rule gs"block" (some (.or [someThree gs"$.a", someThree gs"$.b", someThree gs"$.c"]))]) = some (3, [3]) ∧
    (check Demo.env {} (threeRequest.view threeLists) [Demo.rule gs"block" (some (someThree gs"$.a,$.b,$.c"))]).toOption.map (·.decision) = some 3 := by decide +kernel

/-- A document where one list is the last part of an object. -/
def nested : Mem := [gs"{\"o\":{\"x\":3,\"a\":[{\"x\":1}]}}"]

def nestedRequest : MMsg := { request with raw := some ⟨0, 0, 29⟩ }

/-- Violation of **C97** for two paths: the byte behind the first list closes the object that the second path leads to. It becomes a comma before the text of the object is
used, so the rule does not apply. The rule for the text as a value does. -/
theorem C97_violated_nested : answerM (checkM memEnv {} nestedRequest nested [Demo.rule gs"block" (some (someThree gs"$.o.a,$.o"))]) = some (0, [0]) ∧
    answerM (checkM memEnv {} nestedRequest nested [Demo.rule gs"block" (some (.or [someThree gs"$.o.a", someThree gs"$.o"]))]) = some (3, [3]) ∧
    (check Demo.env {} (nestedRequest.view nested) [Demo.rule gs"block" (some (someThree gs"$.o.a,$.o"))]).toOption.map (·.decision) = some 3 := by decide +kernel

end Mapl.Props

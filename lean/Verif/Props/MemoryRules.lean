import Verif.Lemmas.MemoryParsed
import Verif.Lemmas.MemoryCopied
import Verif.Props.Memory
import Verif.Props.Tree
import Verif.Props.Policy

/-!
# What C89 means for the other claims

The other files have documents as values. Here are the claims that a document shared by all rules of a check can break, for documents in
memory: they hold if no ANY and no ALL names several parent paths or if the document is parsed, and are false otherwise.
-/

namespace Mapl.Props
open Spec

variable {env env' : MemEnv} {g : Predef} {mm : MMsg} {mem : Mem} {rs : List RuleObj}

/-- **C89** for messages without text documents: any number of parent paths. -/
theorem C89_parsed (ho : env.OrdOk) (hm : NoBytes mm) (hr : ∀ r ∈ rs, ReadWith env.toEnv g (fun _ => True) r) :
    SameCheckM mm mem (check env.toEnv g (mm.view mem) rs) (checkM env g mm mem rs) := by
  rw [checkM_copying hm hr ho]
  exact C89_copies (env := copying env) (fun _ _ => rfl) ho hr (noBytes_in hm mem)

/-- **C89** for several parent paths, if `jsonslice.Get` makes copies for all of them but the last. Missing: other lists of parent paths, for which
this is false. -/
theorem C89_several_partial (hp : PlaceOk env) (ho : env.OrdOk) (hr : ∀ r ∈ rs, ReadWith env.toEnv g (CopiedParents env) r) (hm : InMemory mem mm) :
    SameCheckM mm mem (check env.toEnv g (mm.view mem) rs) (checkM env g mm mem rs) :=
  checkM_spec (Q := fun a => ∀ q ∈ a.parentArr.dropLast, Copied env q) (fun _ h => collects_copied hp h)
    (fun r h _ _ he => ensure_readyWith ho (fun _ _ _ h hn => copiedParents_prepare h hn) (hr r h) he) hm

theorem safe_check (ho : env.OrdOk) (h : SafeDocuments env g mem mm rs) : SameCheckM mm mem (check env.toEnv g (mm.view mem) rs) (checkM env g mm mem rs) := by
  cases h with
  | onePath hp hm hr => exact C89_partial hp ho hr hm
  | copied hp hm hr => exact C89_several_partial hp ho hr hm
  | parsed hm hr => exact C89_parsed ho hm hr

theorem safe_values (ho : env.OrdOk) (hs : SafeDocuments env g mem mm rs) {o : CheckOutM} (h : checkM env g mm mem rs = .ok o) :
    check env.toEnv g (mm.view mem) rs = .ok o.out ∧ o.mm = mm ∧ Untouched mem o.mem := by
  have := safe_check ho hs
  cases hv : check env.toEnv g (mm.view mem) rs with
  | error e => rw [hv] at this; rw [show checkM env g mm mem rs = .error e from this] at h; cases h
  | ok v =>
    rw [hv] at this
    obtain ⟨mem', h1, hu⟩ := this
    rw [h1] at h
    cases h
    exact ⟨rfl, rfl, hu⟩

/-- **C02**, documents in memory: a rule that alone can only block makes the check block. Missing: text documents and several parent paths, for
which this is false. -/
theorem C02_memory_partial (ho : env.OrdOk) (hs : SafeDocuments env g mem mm rs) {o : CheckOutM} (h : checkM env g mm mem rs = .ok o) {r : RuleObj} (hr : r ∈ rs)
    (hb : ∀ d e, Verdict env.toEnv g (mm.view mem) r d e → d = .block) : o.out.decision = Decision.block.rank ∧ o.out.decisionString = gs"block" :=
  C02_block_overrides ho (safe_values ho hs h).1 hr hb

/-- **C03**, documents in memory: the order of the rules does not matter. Missing: as in C02. -/
theorem C03_memory_partial (ho : env.OrdOk) (hrun : Run env.toEnv env'.toEnv) {rs' : List RuleObj} (hp : rs.Perm rs') (hs : SafeDocuments env g mem mm rs)
    (hs' : SafeDocuments env' g mem mm rs') (hdet : ∀ r ∈ rs, Determined env.toEnv g (mm.view mem) r) {o o' : CheckOutM}
    (h : checkM env g mm mem rs = .ok o) (h' : checkM env' g mm mem rs' = .ok o') : o'.out.decision = o.out.decision ∧ o'.out.results.Perm o.out.results :=
  C03_rule_order_determined ho hrun hp hdet (safe_values ho hs h).1 (safe_values hrun.ord hs' h').1

/-- **C06**, documents in memory: an additional rule does not make the decision less restrictive. Missing: as in C02. -/
theorem C06_memory_partial (ho : env.OrdOk) (hrun : Run env.toEnv env'.toEnv) {l1 l2 : List RuleObj} {r : RuleObj} (hs : SafeDocuments env g mem mm (l1 ++ l2))
    (hs' : SafeDocuments env' g mem mm (l1 ++ r :: l2)) (hdet : ∀ x ∈ l1 ++ l2, Determined env.toEnv g (mm.view mem) x) {o o' : CheckOutM}
    (h : checkM env g mm mem (l1 ++ l2) = .ok o) (h' : checkM env' g mm mem (l1 ++ r :: l2) = .ok o') : o.out.decision ≤ o'.out.decision :=
  C06_monotone_determined ho hrun hdet (safe_values ho hs h).1 (safe_values hrun.ord hs' h').1

/-- **C07**, documents in memory: what is reported for a rule is a verdict on this rule alone. Missing: as in C02. -/
theorem C07_memory_partial (ho : env.OrdOk) (hs : SafeDocuments env g mem mm rs) {o : CheckOutM} (h : checkM env g mm mem rs = .ok o) :
    o.out.results.length = rs.length ∧ o.out.extraData.length = rs.length ∧
    ∀ (i : Nat) (r : RuleObj), rs[i]? = some r → ∃ (d : Decision) (e : List Extra), o.out.results[i]? = some d.rank ∧ o.out.extraData[i]? = some e ∧
      Verdict env.toEnv g (mm.view mem) r d e :=
  C07_rules_independent ho (safe_values ho hs h).1

/-- **C08**, documents in memory: after a check the message is what it was, and so are all bytes that there were. Missing: as in C02. -/
theorem C08_memory_partial (ho : env.OrdOk) (hs : SafeDocuments env g mem mm rs) {o : CheckOutM} (h : checkM env g mm mem rs = .ok o) :
    o.mm = mm ∧ (∀ (i : Nat) (t : Str), mem[i]? = some t → o.mem[i]? = some t) ∧ o.mm.view o.mem = mm.view mem := by
  obtain ⟨-, h1, hu⟩ := safe_values ho hs h
  refine ⟨h1, hu, ?_⟩
  rw [h1]
  cases hs with
  | onePath hp hm hr => exact hm.view hu
  | copied hp hm hr => exact hm.view hu
  | parsed hm hr => exact (noBytes_in hm mem).view hu

/-- **C74**, documents in memory: the check returns and decides by the written meaning of the rules, and changes no bytes. Missing: as in C02. -/
theorem C74_memory_partial (he : Assumed env.toEnv) (hm : MsgOk env.toEnv (mm.view mem)) (hs : SafeDocuments env g mem mm rs) {xs : List (Prop × Decision)}
    (h : List.Forall₂ (fun r x => RuleSays env.toEnv g (mm.view mem) r x.1 x.2) rs xs) :
    ∃ o, checkM env g mm mem rs = .ok o ∧ Decides xs o.out ∧ o.mm = mm ∧ Untouched mem o.mem := by
  obtain ⟨out, h1, h2⟩ := C74_policy he hm h
  have := safe_check he.order hs
  rw [h1] at this
  obtain ⟨mem', h3, hu⟩ := this
  exact ⟨_, h3, h2, rfl, hu⟩

section trees

variable {n n' : Node} {p p' : List Nat} {o o' : EvalOutM}

theorem safe_tree (hs : SafeTree env mem mm n) : SameAsValues mm mem (eval env.toEnv n p (mm.view mem)) (evalM env n p mm mem) := by
  cases hs with
  | paths hp hm hn => exact evalM_spec (fun _ h => collects_copied hp h) n hn p mm mem hm
  | parsed hm =>
    rw [evalM_copying n p mm mem hm]
    exact evalM_spec (env := copying env) (P := fun _ => True) (fun _ _ => collects_copies (fun _ _ => rfl) _) n (parents_true n) p mm mem (noBytes_in hm mem)

theorem safe_flag (hs : SafeTree env mem mm n) (h : evalM env n p mm mem = .ok o) : ∃ v, eval env.toEnv n p (mm.view mem) = .ok v ∧ v.flag = o.flag := by
  have := safe_tree (p := p) hs
  cases hv : eval env.toEnv n p (mm.view mem) with
  | error e => rw [hv] at this; rw [same_error this] at h; cases h
  | ok v =>
    rw [hv] at this
    obtain ⟨mem', h1, -⟩ := this
    rw [h1] at h
    cases h
    exact ⟨v, rfl, rfl⟩

/-- **C17**, documents in memory: the flag is the truth value of the tree as a formula. Missing: as in C02. -/
theorem C17_memory_partial (ho : env.OrdOk) (hs : SafeTree env mem mm n) (hk : KeySafe env.toExt n (mm.view mem)) (h : evalM env n p mm mem = .ok o) :
    o.flag = true ↔ Sat env.toExt n (mm.view mem) := by
  obtain ⟨v, h1, h2⟩ := safe_flag hs h
  rw [← h2]
  exact C17_tree_is_formula ho hk h1

/-- **C20**, documents in memory: the order of the children of AND and OR does not matter. Missing: as in C02. -/
theorem C20_memory_partial (hr : Reordered n n') (ho : env.OrdOk) (hrun : Run env.toEnv env'.toEnv) (hs : SafeTree env mem mm n) (hs' : SafeTree env' mem mm n')
    (hk : KeySafe env.toExt n (mm.view mem)) (h : evalM env n p mm mem = .ok o) (h' : evalM env' n' p' mm mem = .ok o') : o.flag = o'.flag := by
  obtain ⟨v, h1, h2⟩ := safe_flag hs h
  obtain ⟨v', h1', h2'⟩ := safe_flag hs' h'
  rw [← h2, ← h2']
  exact C20_child_order hr ho hrun hk h1 h1'

end trees

/-! ## Where they do not hold -/

/-- The decision and the results. -/
def answerM (r : Go CheckOutM) : Option (Nat × List Nat) :=
  match r with
  | .ok o => some (o.out.decision, o.out.results)
  | .error _ => none

/-- Violation of **C02**: the rule `blockC` blocks the request, but not if `blockX` stands before it. -/
theorem C02_violated_memory : answerM (checkM memEnv {} request bytes [blockC]) = some (3, [3]) ∧
    answerM (checkM memEnv {} request bytes [blockX gs"9", blockC]) = some (0, [0, 0]) := by refine ⟨?_, ?_⟩ <;> decide +kernel

/-- Violation of **C03**: the same two rules in both orders. -/
theorem C03_violated_memory : answerM (checkM memEnv {} request bytes [blockX gs"9", blockC]) = some (0, [0, 0]) ∧
    answerM (checkM memEnv {} request bytes [blockC, blockX gs"9"]) = some (3, [3, 0]) := by refine ⟨?_, ?_⟩ <;> decide +kernel

/-- Violation of **C06**: inserting a rule, one that would block, makes the decision less restrictive. -/
theorem C06_violated_memory : ∃ (l1 l2 : List RuleObj) (r : RuleObj) (d d' : Nat × List Nat), r.body.decision = gs"block" ∧
    answerM (checkM memEnv {} request bytes (l1 ++ l2)) = some d ∧ answerM (checkM memEnv {} request bytes (l1 ++ r :: l2)) = some d' ∧ d'.1 < d.1 :=
  ⟨[], [blockC], blockX gs"9", (3, [3]), (0, [0, 0]), rfl, C02_violated_memory.1, C02_violated_memory.2, by decide⟩

/-- Violation of **C07**: the result of the second rule is not the one that it has alone. -/
theorem C07_violated_memory : ∃ (rs : List RuleObj) (r : RuleObj) (d d' : Nat × List Nat), rs[1]? = some r ∧
    answerM (checkM memEnv {} request bytes rs) = some d ∧ answerM (checkM memEnv {} request bytes [r]) = some d' ∧ d.2[1]? ≠ d'.2[0]? :=
  ⟨[blockX gs"9", blockC], blockC, (0, [0, 0]), (3, [3]), rfl, C02_violated_memory.2, C02_violated_memory.1, by decide⟩

/-- The text of the document after a check. -/
def documentAfter (r : Go CheckOutM) : Option (Option Str) :=
  match r with
  | .ok o => some (o.mm.view o.mem).jsonRaw
  | .error _ => none

/-- Violation of **C08**: after the check the document of the message is another one, and no JSON. -/
theorem C08_violated_memory : (request.view bytes).jsonRaw = some gs"{\"a\":[{\"x\":1}],\"b\":[{\"x\":2}],\"c\":3}" ∧
    documentAfter (checkM memEnv {} request bytes [blockX gs"2"]) = some (some gs"{\"a\":[{\"x\":1}],[{\"x\":2}]:2}],\"c\":3}") := by
  refine ⟨?_, ?_⟩ <;> decide +kernel

/-- One rule with two conditions. -/
def both (x y : Node) : RuleObj := Demo.rule gs"block" (some (.and [x, y]))

/-- Some element of `a` or of `b` has 2 as its `x`. -/
def someX : Node := Demo.anyOf gs"jsonpath:$.a,$.b" (Demo.cond gs"jsonpath:$RELATIVE.x" gs"EQ" gs"2")

/-- `c` is 3. -/
def isC : Node := Demo.cond gs"jsonpath:$.c" gs"EQ" gs"3"

/-- Violation of **C17**, **C20** and **C74**: both conditions hold of the document, and each alone blocks. AND of them blocks in one order and not in the other; with
documents as values it blocks in both. -/
theorem C20_violated_memory : answerM (checkM memEnv {} request bytes [both someX isC]) = some (0, [0]) ∧
    answerM (checkM memEnv {} request bytes [both isC someX]) = some (3, [3]) ∧
    answerM (checkM memEnv {} request bytes [Demo.rule gs"block" (some someX)]) = some (3, [3]) ∧
    answerM (checkM memEnv {} request bytes [Demo.rule gs"block" (some isC)]) = some (3, [3]) ∧
    (Demo.summary (check memEnv.toEnv {} (request.view bytes) [both someX isC])).map (·.2.1) = some [3] ∧
    (Demo.summary (check memEnv.toEnv {} (request.view bytes) [both isC someX])).map (·.2.1) = some [3] := by
  refine ⟨?_, ?_, ?_, ?_, ?_, ?_⟩ <;> decide +kernel

/-! ## Cases that meet the conditions -/

/-- A request with the document parsed. -/
def parsedRequest : MMsg := { msg := { Demo.msgI with rawI := Demo.ext.jsonUnmarshal gs"{\"a\":[{\"x\":1}],\"b\":[{\"x\":2}],\"c\":3}" }, raw := none, rel := none }

/-- A rule with two parent paths, as it is read. -/
def twoPaths : List RuleObj :=
  [Demo.rule gs"block" (some (.any (anyFields memEnv.toExt gs"jsonpath:$.a,$.b" []) (condNode memEnv.toExt gs"jsonpath:$RELATIVE.x" gs"EQ" gs"2" none)))]

theorem twoPaths_with {P : Node → Prop} (h : ∀ n, P (.any (anyFields memEnv.toExt gs"jsonpath:$.a,$.b" []) (.cond n))) : ∀ r ∈ twoPaths, ReadWith memEnv.toEnv {} P r := by
  intro r hr
  simp only [twoPaths, List.mem_cons, List.not_mem_nil, or_false] at hr
  subst hr
  refine ⟨_, {}, .parsed ⟨rfl, rfl, rfl⟩, fun n hn => ?_⟩
  cases hn
  refine ⟨.any (.inr (.inl ⟨_, rfl⟩)) (by unfold Verbatim; decide) (by simp) (by simp) (.cond (C42_accepted_iff { attr := _, method := _, value := _ } |>.1 ⟨_, rfl⟩) (by unfold NoControl; decide) (by unfold NoControl; decide) (by simp)), ?_⟩
  exact h _

theorem twoPaths_ok : ∀ r ∈ twoPaths, ReadWith memEnv.toEnv {} (fun _ => True) r := twoPaths_with fun _ => trivial

/-- Non-vacuity: one parent path and a text document, and two parent paths and a parsed document. -/
example : SafeDocuments memEnv {} bytes request onePath ∧ SafeDocuments memEnv {} bytes parsedRequest twoPaths ∧
    answerM (checkM memEnv {} request bytes onePath) = some (3, [3, 3]) ∧ answerM (checkM memEnv {} parsedRequest bytes twoPaths) = some (3, [3]) :=
  ⟨.onePath memEnv_ok request_ok onePath_ok, .parsed ⟨rfl, rfl⟩ twoPaths_ok, by decide +kernel, by decide +kernel⟩

/-- The functions of the examples; the result for `$.a` is copied, all others are parts of the input. -/
def mixedEnv : MemEnv := { Demo.env with place := fun t q => if q = gs"$.a" then none else index (Demo.ext.jsGet t q).1 t }

theorem mixedEnv_ok : PlaceOk mixedEnv := fun t q i h => by
  change (if q = gs"$.a" then none else index (Demo.ext.jsGet t q).1 t) = some i at h
  split at h
  · cases h
  · obtain ⟨a, b, h1, h2⟩ := index_some h
    exact ⟨a, b, h1, h2⟩

theorem twoPaths_copied : ∀ r ∈ twoPaths, ReadWith mixedEnv.toEnv {} (CopiedParents mixedEnv) r := by
  refine twoPaths_with fun n => ?_
  unfold CopiedParents
  rw [Parents]
  refine ⟨fun q hq => ?_, by rw [Parents] <;> simp⟩
  rw [← split_earlier_iff, show (split ',' (anyFields memEnv.toExt gs"jsonpath:$.a,$.b" []).parent).dropLast = [gs"$.a"] by decide, List.mem_singleton] at hq
  subst hq
  exact ⟨⟨gs"a", rfl⟩, fun t => rfl⟩

/-- Non-vacuity of `C89_several_partial`: two parent paths, the first copied, and a text document. -/
example : SafeDocuments mixedEnv {} bytes request twoPaths ∧ summaryM (checkM mixedEnv {} request bytes twoPaths) = some ([3], bytes) :=
  ⟨.copied mixedEnv_ok request_ok twoPaths_copied, by decide +kernel⟩

/-- Non-vacuity of the claims on trees. -/
example : SafeTree memEnv bytes request (.and [isC, .all { parentArr := [gs"$.a"] } .tt]) ∧ SafeTree memEnv bytes parsedRequest someX := by
  refine ⟨.paths memEnv_ok request_ok ?_, .parsed ⟨rfl, rfl⟩⟩
  simp [Parents, ParentsAll, isC, Demo.cond]

end Mapl.Props

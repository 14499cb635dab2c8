import Verif.Lemmas.MemoryRules
import Verif.Lemmas.Validate
import Verif.Demo

/-!
# C89: checks do not write into the documents of the caller

A request may carry its document as text, as a slice of bytes that belongs to the caller. `jsonslice.Get` returns a part of this slice when it
can, and check.go:987-996 appends to what it returned. If ANY or ALL name several parent paths, separated by commas, this writes the elements
of the second path into the document of the caller.
-/

namespace Mapl.Props
open Spec

variable {env : MemEnv} {g : Predef} {mm : MMsg} {mem : Mem} {rs : List RuleObj}

/-- **C89, the part that holds.** If no ANY and no ALL names more than one parent path, then a check with the document in memory gives the
results of the check with the document as a value, and leaves the message and all bytes that there are as they are. Missing: several parent
paths, for which this is false. -/
theorem C89_partial (hp : PlaceOk env) (ho : env.OrdOk) (hr : ∀ r ∈ rs, ReadWith env.toEnv g OneParent r) (hm : InMemory mem mm) :
    SameCheckM mm mem (check env.toEnv g (mm.view mem) rs) (checkM env g mm mem rs) :=
  checkM_spec (Q := fun a => a.parentArr.length ≤ 1) (fun _ h => collects_one hp h)
    (fun r h _ _ he => ensure_readyWith ho (fun _ _ _ h hn => oneParent_prepare h hn) (hr r h) he) hm

/-- If `jsonslice.Get` never returned a part of its input, this would hold for any number of parent paths. -/
theorem C89_copies (hn : ∀ t q, env.place t q = none) (ho : env.OrdOk) (hr : ∀ r ∈ rs, ReadWith env.toEnv g (fun _ => True) r) (hm : InMemory mem mm) :
    SameCheckM mm mem (check env.toEnv g (mm.view mem) rs) (checkM env g mm mem rs) :=
  checkM_spec (Q := fun _ => True) (fun _ _ => collects_copies hn _)
    (fun r h _ _ he => ensure_readyWith ho (fun _ _ _ _ hn => prepare_parents (P := fun _ => True) (fun _ _ _ _ => trivial) _ _ (parents_true _) hn) (hr r h) he) hm

/-- Under the conditions of C89 the text of the document is the same after a check as before it. -/
theorem C89_text (hp : PlaceOk env) (ho : env.OrdOk) (hr : ∀ r ∈ rs, ReadWith env.toEnv g OneParent r) (hm : InMemory mem mm) {o : CheckOutM}
    (h : checkM env g mm mem rs = .ok o) {s : Slice} (hs : mm.raw = some s) : o.mm.raw = some s ∧ o.mem.read s = mem.read s := by
  have := C89_partial hp ho hr hm
  cases hv : check env.toEnv g (mm.view mem) rs with
  | error e => rw [hv] at this; rw [show checkM env g mm mem rs = .error e from this] at h; cases h
  | ok v =>
    rw [hv] at this
    obtain ⟨mem', h1, hu⟩ := this
    rw [h1] at h
    cases h
    exact ⟨hs, ((hm.1 s hs).read hu)⟩

/-- Under the conditions of C89 a second check of the same request, with the same or with other rules, gives what it gives without the first. -/
theorem C89_again (hp : PlaceOk env) (ho : env.OrdOk) (hr : ∀ r ∈ rs, ReadWith env.toEnv g OneParent r) {rs' : List RuleObj} (hr' : ∀ r ∈ rs', ReadWith env.toEnv g OneParent r)
    (hm : InMemory mem mm) {o : CheckOutM} (h : checkM env g mm mem rs = .ok o) :
    SameCheckM mm o.mem (check env.toEnv g (mm.view mem) rs') (checkM env g o.mm o.mem rs') := by
  have := C89_partial hp ho hr hm
  cases hv : check env.toEnv g (mm.view mem) rs with
  | error e => rw [hv] at this; rw [show checkM env g mm mem rs = .error e from this] at h; cases h
  | ok v =>
    rw [hv] at this
    obtain ⟨mem', h1, hu⟩ := this
    rw [h1] at h
    cases h
    rw [← hm.view hu]
    exact C89_partial hp ho hr' (hm.mono hu)

/-! ## Where it does not hold -/

/-- The functions of the examples; results of `jsonslice.Get` are parts of the input. -/
def memEnv : MemEnv := { Demo.env with place := fun t q => index (Demo.ext.jsGet t q).1 t }

theorem memEnv_ok : PlaceOk memEnv := fun t q i h => by
  obtain ⟨a, b, h1, h2⟩ := index_some h
  exact ⟨a, b, h1, h2⟩

/-- The bytes of the caller. -/
def bytes : Mem := [gs"{\"a\":[{\"x\":1}],\"b\":[{\"x\":2}],\"c\":3}"]

/-- A request with these bytes as its document. -/
def request : MMsg := { msg := { Demo.msgI with rawI := none }, raw := some ⟨0, 0, 35⟩, rel := none }

theorem request_ok : InMemory bytes request :=
  ⟨fun s hs => by cases hs; exact ⟨_, rfl, by decide⟩, fun s hs => by cases hs⟩

/-- Block requests where some element of `a` or of `b` has this `x`. -/
def blockX (v : Str) : RuleObj := Demo.rule gs"block" (some (Demo.anyOf gs"jsonpath:$.a,$.b" (Demo.cond gs"jsonpath:$RELATIVE.x" gs"EQ" v)))

/-- Block requests where `c` is 3. -/
def blockC : RuleObj := Demo.rule gs"block" (some (Demo.cond gs"jsonpath:$.c" gs"EQ" gs"3"))

/-- What is observable of a result. -/
def summaryM (r : Go CheckOutM) : Option (List Nat × List Str) :=
  match r with
  | .ok o => some (o.out.results, o.mem.take 1)
  | .error _ => none

/-- Violation of C89: checking a request with one rule overwrites the document that the request carries. -/
theorem C89_violated_document : summaryM (checkM memEnv {} request bytes [blockX gs"2"]) =
    some ([3], [gs"{\"a\":[{\"x\":1}],[{\"x\":2}]:2}],\"c\":3}"]) := by decide +kernel

/-- Violation of C89: the second rule does not block, although alone it does, and although the check with the document as a value does; in the
other order it blocks. -/
theorem C89_violated_rules : summaryM (checkM memEnv {} request bytes [blockX gs"9", blockC]) = some ([0, 0], [gs"{\"a\":[{\"x\":1}],[{\"x\":2}]:2}],\"c\":3}"]) ∧
    (summaryM (checkM memEnv {} request bytes [blockC])).map (·.1) = some [3] ∧
    (Demo.summary (check memEnv.toEnv {} (request.view bytes) [blockX gs"9", blockC])).map (·.2.1) = some [0, 3] ∧
    (summaryM (checkM memEnv {} request bytes [blockC, blockX gs"9"])).map (·.1) = some [3, 0] := by
  refine ⟨?_, ?_, ?_, ?_⟩ <;> decide +kernel

/-- A request is checked twice. -/
def twiceM (r : RuleObj) : Option (List Nat × List Nat) :=
  match checkM memEnv {} request bytes [r] with
  | .ok o => match checkM memEnv {} o.mm o.mem [r] with
    | .ok o' => some (o.out.results, o'.out.results)
    | .error _ => none
  | .error _ => none

/-- Violation of C89: a request that was blocked is not blocked when it is checked again. -/
theorem C89_violated_again : twiceM (blockX gs"2") = some ([3], [0]) := by decide +kernel

/-- Block requests where `c` is 3, and requests where some element of `b` has 2 as its `x`, as the rules are read. -/
def onePath : List RuleObj :=
  [Demo.rule gs"block" (some (condNode memEnv.toExt gs"jsonpath:$.c" gs"EQ" gs"3" none)),
   Demo.rule gs"block" (some (.any (anyFields memEnv.toExt gs"jsonpath:$.b" []) (condNode memEnv.toExt gs"jsonpath:$RELATIVE.x" gs"EQ" gs"2" none)))]

theorem onePath_ok : ∀ r ∈ onePath, ReadWith memEnv.toEnv {} OneParent r := by
  have hc {a m v : Str} (h : ∃ r, validateOneCondition memEnv.toExt { attr := a, method := m, value := v } = .ok r) (ha : NoControl a) (hv : NoControl v) :
      Copyable memEnv.toExt (condNode memEnv.toExt a m v none) := .cond (C42_accepted_iff { attr := _, method := _, value := _ } |>.1 h) ha hv (by simp)
  intro r hr
  simp only [onePath, List.mem_cons, List.not_mem_nil, or_false] at hr
  rcases hr with rfl | rfl
  · refine ⟨_, {}, .parsed ⟨rfl, rfl, rfl⟩, fun n hn => ?_⟩
    cases hn
    refine ⟨hc ⟨_, rfl⟩ (by unfold NoControl; decide) (by unfold NoControl; decide), ?_⟩
    unfold OneParent condNode
    rw [Parents] <;> simp
  · refine ⟨_, {}, .parsed ⟨rfl, rfl, rfl⟩, fun n hn => ?_⟩
    cases hn
    refine ⟨.any (.inr (.inl ⟨_, rfl⟩)) (by unfold Verbatim; decide) (by simp) (by simp) (hc ⟨_, rfl⟩ (by unfold NoControl; decide) (by unfold NoControl; decide)), ?_⟩
    unfold OneParent condNode
    rw [Parents]
    refine ⟨by decide, ?_⟩
    rw [Parents] <;> simp

/-- Non-vacuity: these rules and this request meet the conditions of C89; both rules block. -/
example : PlaceOk memEnv ∧ memEnv.OrdOk ∧ (∀ r ∈ onePath, ReadWith memEnv.toEnv {} OneParent r) ∧ InMemory bytes request ∧
    summaryM (checkM memEnv {} request bytes onePath) = some ([3, 3], bytes) :=
  ⟨memEnv_ok, fun _ _ => List.Perm.refl _, onePath_ok, request_ok, by decide +kernel⟩

/-- The same functions, if `jsonslice.Get` made copies. -/
def copyEnv : MemEnv := { Demo.env with place := fun _ _ => none }

/-- Non-vacuity of `C89_copies`: the rules with two parent paths, without the violations. -/
example : summaryM (checkM copyEnv {} request bytes [blockX gs"2", blockX gs"9", blockC]) = some ([3, 0, 3], bytes) := by decide +kernel

end Mapl.Props

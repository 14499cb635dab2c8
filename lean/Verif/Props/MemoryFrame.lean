import Verif.Props.MemoryRules
import Verif.Props.Frame

/-! # C18 and C75 for documents in memory -/

namespace Mapl.Props
open Spec

variable {env env' : MemEnv} {g : Predef} {mm mm' : MMsg} {mem mem' : Mem} {rs : List RuleObj}

/-! ## What a decision depends on -/

/-- **C75**, documents in memory: messages that agree on what the rules look at get the same answer, wherever their documents are. Missing: text documents and several
parent paths, for which this is false. -/
theorem C75_memory_partial (ho : env.OrdOk) (hu : ∀ r ∈ rs, Usable env.toEnv r) (hs : SafeDocuments env g mem mm rs) (hs' : SafeDocuments env g mem' mm' rs)
    (hr : ∀ r ∈ rs, SameFor r.body (mm.view mem) (mm'.view mem')) (hf : ∀ r ∈ rs, ∀ f, RuleMentions env.toEnv g r f → f.Same (mm.view mem) (mm'.view mem')) :
    (checkM env g mm mem rs).map (fun o => CheckOut.answer o.out) = (checkM env g mm' mem' rs).map (fun o => CheckOut.answer o.out) := by
  have key {mm : MMsg} {mem : Mem} (hs : SafeDocuments env g mem mm rs) :
      (checkM env g mm mem rs).map (fun o => CheckOut.answer o.out) = (check env.toEnv g (mm.view mem) rs).map CheckOut.answer := by
    have := safe_check ho hs
    cases hv : check env.toEnv g (mm.view mem) rs with
    | error e => rw [hv] at this; rw [show checkM env g mm mem rs = .error e from this]; rfl
    | ok o => rw [hv] at this; obtain ⟨m1, h1, -⟩ := this; rw [h1]; rfl
  rw [key hs, key hs']
  exact C75_parts ho hu hr hf

/-- A document in an array of its size, and the same document in a larger array. -/
def tight : Mem := [gs"{\"c\":3,\"b\":[{\"x\":2}],\"a\":[{\"x\":1}],\"z\":0}"]

def roomy : Mem := [gs"{\"c\":3,\"b\":[{\"x\":2}],\"a\":[{\"x\":1}],\"z\":0}          "]

/-- Requests with this document. -/
def tightRequest : MMsg := { request with raw := some ⟨0, 0, 41⟩ }

/-- Violation of **C75**: the two requests are the same, except for the room behind the document. The second rule blocks one of them. -/
theorem C75_violated_memory : tightRequest.view tight = tightRequest.view roomy ∧
    answerM (checkM memEnv {} tightRequest tight [blockX gs"9", blockC]) = some (3, [0, 3]) ∧
    answerM (checkM memEnv {} tightRequest roomy [blockX gs"9", blockC]) = some (0, [0, 0]) := by
  refine ⟨?_, ?_, ?_⟩
  · unfold MMsg.view
    rw [show tightRequest.raw = some ⟨0, 0, 41⟩ from rfl, Option.map_some, Option.map_some, show tight.read ⟨0, 0, 41⟩ = roomy.read ⟨0, 0, 41⟩ by decide +kernel]
    rfl
  · decide +kernel
  · decide +kernel

/-- Non-vacuity: the same two requests, rules with one parent path. -/
example : SafeDocuments memEnv {} tight tightRequest onePath ∧ SafeDocuments memEnv {} roomy tightRequest onePath ∧
    answerM (checkM memEnv {} tightRequest tight onePath) = some (3, [3, 3]) ∧ answerM (checkM memEnv {} tightRequest roomy onePath) = some (3, [3, 3]) :=
  ⟨.onePath memEnv_ok ⟨fun s hs => by cases hs; exact ⟨_, rfl, by decide⟩, fun s hs => by cases hs⟩ onePath_ok,
   .onePath memEnv_ok ⟨fun s hs => by cases hs; exact ⟨_, rfl, by decide⟩, fun s hs => by cases hs⟩ onePath_ok, by decide +kernel, by decide +kernel⟩

/-! ## Laws -/

section

variable {n : Node} {l : List Node} {p p' : List Nat} {o o' : EvalOutM}

/-- **C18**, documents in memory: NOT AND is OR of NOTs. Missing: as in C75. -/
theorem C18_not_and_memory_partial (ho : env.OrdOk) (hrun : Run env.toEnv env'.toEnv) (hs : SafeTree env mem mm (.not (.and l))) (hs' : SafeTree env' mem mm (.or (l.map .not)))
    (hk : KeySafe env.toExt (.and l) (mm.view mem)) (h : evalM env (.not (.and l)) p mm mem = .ok o) (h' : evalM env' (.or (l.map .not)) p' mm mem = .ok o') : o.flag = o'.flag := by
  obtain ⟨v, h1, h2⟩ := safe_flag hs h
  obtain ⟨v', h1', h2'⟩ := safe_flag hs' h'
  rw [← h2, ← h2']
  exact C18_not_and ho hrun hk h1 h1'

/-- **C18**, documents in memory: NOT OR is AND of NOTs. Missing: as in C75. -/
theorem C18_not_or_memory_partial (ho : env.OrdOk) (hrun : Run env.toEnv env'.toEnv) (hs : SafeTree env mem mm (.not (.or l))) (hs' : SafeTree env' mem mm (.and (l.map .not)))
    (hk : KeySafe env.toExt (.or l) (mm.view mem)) (h : evalM env (.not (.or l)) p mm mem = .ok o) (h' : evalM env' (.and (l.map .not)) p' mm mem = .ok o') : o.flag = o'.flag := by
  obtain ⟨v, h1, h2⟩ := safe_flag hs h
  obtain ⟨v', h1', h2'⟩ := safe_flag hs' h'
  rw [← h2, ← h2']
  exact C18_not_or ho hrun hk h1 h1'

/-- **C18**, documents in memory: double NOT is neutral. Missing: as in C75. -/
theorem C18_not_not_memory_partial (ho : env.OrdOk) (hrun : Run env.toEnv env'.toEnv) (hs : SafeTree env mem mm (.not (.not n))) (hs' : SafeTree env' mem mm n)
    (hk : KeySafe env.toExt n (mm.view mem)) (h : evalM env (.not (.not n)) p mm mem = .ok o) (h' : evalM env' n p' mm mem = .ok o') : o.flag = o'.flag := by
  obtain ⟨v, h1, h2⟩ := safe_flag hs h
  obtain ⟨v', h1', h2'⟩ := safe_flag hs' h'
  rw [← h2, ← h2']
  exact C18_not_not ho hrun hk h1 h1'

/-- **C18**, documents in memory, all documents and paths: double NOT is the tree in the order of iteration that it was evaluated in, and leaves the same message and
the same bytes behind. -/
theorem C18_not_not_memory_order (h : evalM env (.not (.not n)) p mm mem = .ok o) : ∃ o', evalM env n (1 :: 1 :: p) mm mem = .ok o' ∧ o.flag = o'.flag ∧ o.mm = o'.mm ∧ o.mem = o'.mem := by
  rw [evalM, Go.bind_eq_ok] at h
  obtain ⟨o1, h1, h⟩ := h
  rw [evalM, Go.bind_eq_ok] at h1
  obtain ⟨o2, h2, h1⟩ := h1
  cases h1; cases h
  exact ⟨o2, h2, by simp, rfl, rfl⟩

end

/-- Some element of `a` or `b` has 9 as its `x`. -/
def someNine : Node := Demo.anyOf gs"jsonpath:$.a,$.b" (Demo.cond gs"jsonpath:$RELATIVE.x" gs"EQ" gs"9")

/-- `c` is not 3. -/
def otherC : Node := Demo.cond gs"jsonpath:$.c" gs"NEQ" gs"3"

/-- Violation of **C18** inside of a tree: AND stops at its first condition that is false, and OR goes on, so OR of NOTs writes over the document and NOT AND does not.
The condition that comes next sees it. -/
theorem C18_violated_memory : answerM (checkM memEnv {} request bytes [both (.not (.and [otherC, someNine])) isC]) = some (3, [3]) ∧
    answerM (checkM memEnv {} request bytes [both (.or [.not otherC, .not someNine]) isC]) = some (0, [0]) ∧
    (check Demo.env {} (request.view bytes) [both (.or [.not otherC, .not someNine]) isC]).toOption.map (·.decision) = some 3 := by decide +kernel

/-- Backwards for maps that are deeper in the tree. -/
def turnEnv : MemEnv := { memEnv with ord := fun p l => if p.length > 6 then l.reverse else l }

/-- A document with an object. -/
def objectBytes : Mem := [gs"{\"m\":{\"k\":1,\"l\":1},\"a\":[{\"x\":1}],\"b\":[{\"x\":2}],\"c\":3}"]

def objectRequest : MMsg := { request with raw := some ⟨0, 0, 53⟩ }

/-- Some entry of `m` has the key `k` and there is an `x` that is 9, or has the key `l` and `c` is 3. -/
def someEntry : Node := Demo.anyOf gs"jsonpath:$.m" (.or [.and [Demo.cond gs"jsonpath:$KEY" gs"EQ" gs"k", someNine], .and [Demo.cond gs"jsonpath:$KEY" gs"EQ" gs"l", isC]])

/-- Violation of **C18** for double NOT: Go chooses the order in which the entries of an object are looked at, and with it whether the document is written over before `c` is
looked at. -/
theorem C18_not_not_violated_memory : answerM (checkM turnEnv {} objectRequest objectBytes [Demo.rule gs"block" (some someEntry)]) = some (0, [0]) ∧
    answerM (checkM turnEnv {} objectRequest objectBytes [Demo.rule gs"block" (some (.not (.not someEntry)))]) = some (3, [3]) := by decide +kernel

/-- Non-vacuity of the three laws: parsed documents. -/
example : SafeTree memEnv bytes parsedRequest (.not (.and [otherC, someNine])) ∧ SafeTree memEnv bytes parsedRequest (.or [.not otherC, .not someNine]) ∧
    SafeTree memEnv bytes parsedRequest (.not (.not someNine)) := by
  refine ⟨.parsed ?_, .parsed ?_, .parsed ?_⟩ <;> exact ⟨rfl, rfl⟩

end Mapl.Props

import Verif.Lemmas.TreeLaws
import Verif.Lemmas.Names

/-! # Lists of operations and of resources -/

namespace Mapl
open Spec

variable {env : Env} {g : Predef} {m : Msg} {p : List Nat} {r : RuleObj}

/-! ## What of a rule does not depend on its conditions -/

/-- Sender, receiver, operation and resource match. -/
def Fits (env : Ext) (g : Predef) (r : Rule) (m : Msg) : Prop :=
  ∃ sl rl op re, Static env g r sl rl op re ∧ senderLoop env m sl = .ok true ∧ receiverLoop env m rl = .ok true ∧
    Accepts env (some op) m.requestMethod ∧ testResource env { r with resourceNameRegex := some re } m = .ok true

/-- The result of a rule that fits. -/
def restJudge (env : Env) (decision : Str) (n : Option Node) (q : List Nat) (m : Msg) : Go Nat :=
  match n with
  | none => pure (decisionCode decision)
  | some n => do
    let o ← eval env n q m
    return if o.flag then decisionCode decision else DEFAULT

/-- The results that a rule that fits can have. -/
def Rest (env : Env) (g : Predef) (p : List Nat) (decision : Str) (c : Option Node) (m : Msg) (d : Nat) : Prop :=
  ∃ c' n, copyConditions env (0 :: p) c = .ok c' ∧ ConditionsPrepare env g c' n ∧ restJudge env decision n (1 :: 1 :: p) m = .ok d

theorem rest_unique {decision : Str} {c : Option Node} {d d' : Nat} (h : Rest env g p decision c m d) (h' : Rest env g p decision c m d') : d = d' := by
  obtain ⟨c1, n, h1, h2, h3⟩ := h
  obtain ⟨c1', n', h1', h2', h3'⟩ := h'
  rw [h1] at h1'
  cases h1'
  obtain rfl := conditionsPrepare_unique h2 h2'
  rw [h3] at h3'
  exact Except.ok.inj h3'

theorem res_fits (hf : Fresh r) {d : Nat} : Res env g p r m d ↔ Loads env g r.body ∧ Readies env g p r.body.conditions ∧
    ((Fits env g r.body m ∧ Rest env g p r.body.decision r.body.conditions m d) ∨ (¬ Fits env g r.body m ∧ d = DEFAULT)) := by
  rw [res_iff hf]
  refine and_congr_right fun ⟨sl, rl, op, re, hs⟩ => and_congr_right fun ⟨c, n, hc, hn⟩ => ?_
  have hfit : Fits env g r.body m ↔ Meets env g r.body m ∧ Accepts env (some op) m.requestMethod ∧
      testResource env { r.body with resourceNameRegex := some re } m = .ok true := by
    constructor
    · rintro ⟨sl', rl', op', re', h, h1, h2, h3, h4⟩
      obtain ⟨rfl, rfl, rfl, rfl⟩ := static_unique hs h
      exact ⟨⟨_, _, _, _, h, h1, h2⟩, h3, h4⟩
    · rintro ⟨⟨sl', rl', op', re', h, h1, h2⟩, h3, h4⟩
      obtain ⟨rfl, rfl, rfl, rfl⟩ := static_unique hs h
      exact ⟨_, _, _, _, h, h1, h2, h3, h4⟩
  have htail : Tail env g p r.body m d ↔ tailJudge env r.body op re n (1 :: 1 :: p) m = .ok d := by
    constructor
    · rintro ⟨op', re', c', n', h1, h2, h3, h4, h5⟩
      rw [hs.operation] at h1; rw [hs.resource] at h2; rw [hc] at h3
      cases h1; cases h2; cases h3
      rw [conditionsPrepare_unique hn h4]
      exact h5
    · exact fun h => ⟨op, re, c, n, hs.operation, hs.resource, hc, hn, h⟩
  have hrest : Rest env g p r.body.decision r.body.conditions m d ↔ restJudge env r.body.decision n (1 :: 1 :: p) m = .ok d := by
    constructor
    · rintro ⟨c', n', h1, h2, h3⟩
      rw [hc] at h1
      cases h1
      obtain rfl := conditionsPrepare_unique hn h2
      exact h3
    · exact fun h => ⟨c, n, hc, hn, h⟩
  obtain ⟨b, hb⟩ := testResource_returns (e := env.toExt) (r := r.body) (re := re) (m := m)
  rw [htail, hfit, hrest]
  have hj : tailJudge env r.body op re n (1 :: 1 :: p) m = if env.reMatch op.src m.requestMethod = true ∧ b = true then
      restJudge env r.body.decision n (1 :: 1 :: p) m else .ok DEFAULT := by
    unfold tailJudge restJudge
    have hma : matchPtr env.toExt (some op) m.requestMethod = .ok (env.reMatch op.src m.requestMethod) := rfl
    rw [hma, hb]
    simp only [Go.ok_bind]
    cases env.reMatch op.src m.requestMethod <;> cases b <;> first | rfl | (cases n <;> rfl)
  have ha : Accepts env.toExt (some op) m.requestMethod ↔ env.reMatch op.src m.requestMethod = true := by simp [Accepts]
  have hb' : (Except.ok b : Go Bool) = .ok true ↔ b = true := by simp
  rw [hj, ha, hb, hb']
  by_cases h1 : Meets env g r.body m <;> by_cases h2 : env.reMatch op.src m.requestMethod = true ∧ b = true
  · simp only [h1, h2, if_pos, true_and, not_true, false_and, or_false]
  · rw [if_neg h2]
    simp only [h1, h2, true_and, not_true, false_and, or_false, not_false_eq_true, false_or]
    exact ⟨fun h => (Except.ok.inj h).symm, fun h => by rw [h]⟩
  · simp only [h1, h2, false_and, not_false_eq_true, true_and, false_or]
  · simp only [h1, h2, false_and, not_false_eq_true, true_and, false_or]

theorem static_parts {e : Ext} {r : Rule} {sl rl : List ExpandedSR} {op re : Re} : Static e g r sl rl op re ↔
    ((∃ s, replaceName r.senderName g = .ok s ∧ convertStringToExpandedSenderReceiver e s r.senderType = .ok sl) ∧
      ∃ s, replaceName r.receiverName g = .ok s ∧ convertStringToExpandedSenderReceiver e s r.receiverType = .ok rl) ∧
      compile e (convertOperationStringToRegex r.operation) = some op ∧ compile e (convertStringToRegex r.resourceName gs"WithWildcards") = some re :=
  ⟨fun ⟨a, b, c, d⟩ => ⟨⟨a, b⟩, c, d⟩, fun ⟨⟨a, b⟩, c, d⟩ => ⟨a, b, c, d⟩⟩

/-- If a rule fits where one of two others does, and the three are the same otherwise, then it is equivalent to the two. -/
theorem fits_equivalent (ho : env.OrdOk) {r r1 r2 : RuleObj} (hf : Fresh r) (hf1 : Fresh r1) (hf2 : Fresh r2)
    (hl : Loads env g r.body ↔ Loads env g r1.body ∧ Loads env g r2.body)
    (hm : ∀ m, Fits env g r.body m ↔ Fits env g r1.body m ∨ Fits env g r2.body m)
    (hc1 : r1.body.conditions = r.body.conditions) (hc2 : r2.body.conditions = r.body.conditions)
    (hd1 : r1.body.decision = r.body.decision) (hd2 : r2.body.decision = r.body.decision) : Equivalent env g [r] [r1, r2] := by
  refine split_by ho (L1 := Loads env g r1.body) (L2 := Loads env g r2.body) (M1 := Fits env g r1.body) (M2 := Fits env g r2.body)
    (C := fun E p => Readies E g p r.body.conditions) (T := fun E p => Rest E g p r.body.decision r.body.conditions) rest_unique ?_ ?_ ?_
  · intro E p m d hE
    rw [res_fits hf, hE.ext, hl, hm]
  · intro E p m d hE
    rw [res_fits hf1, hE.ext, hc1, hd1]
  · intro E p m d hE
    rw [res_fits hf2, hE.ext, hc2, hd2]

/-! ## Patterns of lists -/

/-- Lists of patterns always compile, and accept what one of the patterns does. -/
theorem listed_accepts {e : Ext} (hok : RegexpOk e) {s : Str} (hp : PlainPattern s) : ∃ re, compile e (convertStringToRegex s gs"WithWildcards") = some re ∧
    ∀ text, Accepts e (some re) text ↔ ∃ q ∈ split ',' s, GlobN (trimSpace q) text := by
  have hpat : convertStringToRegex s gs"WithWildcards" = gs"(" ++ wildAlternatives (split ',' s) ++ gs")" := by
    simp [convertStringToRegex]
  rw [hpat]
  obtain ⟨r, hr, hf⟩ := readPattern_alternatives (split_ne_nil (sep := ',') s)
    (fun p hp' => plain_mono hp fun c hc => (mem_split hp' c (trimSpace_subset p c hc)).1)
  refine ⟨⟨gs"(" ++ wildAlternatives (split ',' s) ++ gs")"⟩, ?_, fun text => ?_⟩
  · rw [compile, if_pos (hok _ _ hr).1]
  · rw [← hf, ← (hok _ _ hr).2]
    simp [Accepts]

theorem plain_list {a b : Str} (ha : PlainPattern a) (hb : PlainPattern b) : PlainPattern (a ++ gs"," ++ b) := by
  intro c hc
  simp only [List.mem_append, List.mem_singleton] at hc
  rcases hc with (hc | rfl) | hc
  · exact ha c hc
  · decide
  · exact hb c hc

theorem list_accepts {e : Ext} (hok : RegexpOk e) {a b : Str} (ha : PlainPattern a) (hb : PlainPattern b) {r ra rb : Re}
    (h : compile e (convertStringToRegex (a ++ gs"," ++ b) gs"WithWildcards") = some r) (h1 : compile e (convertStringToRegex a gs"WithWildcards") = some ra)
    (h2 : compile e (convertStringToRegex b gs"WithWildcards") = some rb) (text : Str) :
    Accepts e (some r) text ↔ Accepts e (some ra) text ∨ Accepts e (some rb) text := by
  obtain ⟨x, k1, f⟩ := listed_accepts hok (plain_list ha hb)
  obtain ⟨xa, k2, fa⟩ := listed_accepts hok ha
  obtain ⟨xb, k3, fb⟩ := listed_accepts hok hb
  rw [h] at k1; rw [h1] at k2; rw [h2] at k3
  cases k1; cases k2; cases k3
  rw [f, fa, fb, show a ++ gs"," ++ b = a ++ ',' :: b by simp, split_append]
  simp [or_and_right, exists_or]

theorem operation_list {s : Str} (h : s ∉ operationWords) : convertOperationStringToRegex s = convertStringToRegex s gs"WithWildcards" := by
  simp only [operationWords, List.mem_cons, List.not_mem_nil, or_false, not_or] at h
  simp [convertOperationStringToRegex, h]

theorem not_word {a b : Str} : a ++ gs"," ++ b ∉ operationWords := by
  have hc : ',' ∈ a ++ gs"," ++ b := by simp
  intro h
  simp only [operationWords, List.mem_cons, List.not_mem_nil, or_false] at h
  rcases h with h | h | h | h | h <;> rw [h] at hc <;> revert hc <;> decide

/-! ## Rules -/

theorem operation_equivalent (ho : env.OrdOk) (hok : RegexpOk env) {r : Rule} {a b : Str} (hc : r.converted = false) (ha : PlainPattern a) (hb : PlainPattern b)
    (wa : a ∉ operationWords) (wb : b ∉ operationWords) : Equivalent env g [doing r (a ++ gs"," ++ b)] [doing r a, doing r b] := by
  obtain ⟨x, k, f⟩ := listed_accepts hok (plain_list ha hb)
  obtain ⟨xa, ka, fa⟩ := listed_accepts hok ha
  obtain ⟨xb, kb, fb⟩ := listed_accepts hok hb
  have hx := list_accepts hok ha hb k ka kb
  have e0 : ∀ {op}, compile env.toExt (convertOperationStringToRegex (a ++ gs"," ++ b)) = some op ↔ op = x := by
    intro op; rw [operation_list not_word, k]; simp [eq_comm]
  have e1 : ∀ {op}, compile env.toExt (convertOperationStringToRegex a) = some op ↔ op = xa := by
    intro op; rw [operation_list wa, ka]; simp [eq_comm]
  have e2 : ∀ {op}, compile env.toExt (convertOperationStringToRegex b) = some op ↔ op = xb := by
    intro op; rw [operation_list wb, kb]; simp [eq_comm]
  refine fits_equivalent ho ⟨rfl, rfl, hc⟩ ⟨rfl, rfl, hc⟩ ⟨rfl, rfl, hc⟩ ?_ ?_ rfl rfl rfl rfl
  · simp only [Loads, static_parts, doing, e0, e1, e2]
    constructor
    · rintro ⟨sl, rl, op, re, h1, -, h2⟩
      exact ⟨⟨sl, rl, xa, re, h1, rfl, h2⟩, ⟨sl, rl, xb, re, h1, rfl, h2⟩⟩
    · rintro ⟨⟨sl, rl, op, re, h1, -, h2⟩, -⟩
      exact ⟨sl, rl, x, re, h1, rfl, h2⟩
  · intro m
    simp only [Fits, static_parts, doing, e0, e1, e2]
    constructor
    · rintro ⟨sl, rl, op, re, ⟨h1, rfl, h2⟩, h3, h4, h5, h6⟩
      exact ((hx _).1 h5).imp (fun h5 => ⟨sl, rl, _, re, ⟨h1, rfl, h2⟩, h3, h4, h5, h6⟩) (fun h5 => ⟨sl, rl, _, re, ⟨h1, rfl, h2⟩, h3, h4, h5, h6⟩)
    · rintro (⟨sl, rl, op, re, ⟨h1, rfl, h2⟩, h3, h4, h5, h6⟩ | ⟨sl, rl, op, re, ⟨h1, rfl, h2⟩, h3, h4, h5, h6⟩)
      · exact ⟨sl, rl, _, re, ⟨h1, rfl, h2⟩, h3, h4, (hx _).2 (.inl h5), h6⟩
      · exact ⟨sl, rl, _, re, ⟨h1, rfl, h2⟩, h3, h4, (hx _).2 (.inr h5), h6⟩

theorem testResource_list {e : Ext} {r ra rb : Rule} {x xa xb : Re} (h : ∀ text, Accepts e (some x) text ↔ Accepts e (some xa) text ∨ Accepts e (some xb) text)
    (hr : r.resourceNameRegex = some x) (ha : ra = { r with resourceName := ra.resourceName, resourceNameRegex := some xa })
    (hb : rb = { r with resourceName := rb.resourceName, resourceNameRegex := some xb }) :
    testResource e r m = .ok true ↔ testResource e ra m = .ok true ∨ testResource e rb m = .ok true := by
  have acc : ∀ (y : Re) (t : Str), matchPtr e (some y) t = .ok true ↔ Accepts e (some y) t := by
    intro y t
    simp [matchPtr, Accepts, Re.matches]
  rw [ha, hb]
  unfold testResource
  dsimp only
  rw [hr]
  split
  · rw [acc, acc, acc, h]
  · split
    · split
      · simp
      · split
        · simp
        · rw [acc, acc, acc, h]
    · simp

theorem resource_equivalent (ho : env.OrdOk) (hok : RegexpOk env) {r : Rule} {a b : Str} (hc : r.converted = false) (ha : PlainPattern a) (hb : PlainPattern b) :
    Equivalent env g [touching r (a ++ gs"," ++ b)] [touching r a, touching r b] := by
  obtain ⟨x, k, f⟩ := listed_accepts hok (plain_list ha hb)
  obtain ⟨xa, ka, fa⟩ := listed_accepts hok ha
  obtain ⟨xb, kb, fb⟩ := listed_accepts hok hb
  have hx := list_accepts hok ha hb k ka kb
  have e0 : ∀ {re}, compile env.toExt (convertStringToRegex (a ++ gs"," ++ b) gs"WithWildcards") = some re ↔ re = x := by
    intro op; rw [k]; simp [eq_comm]
  have e1 : ∀ {re}, compile env.toExt (convertStringToRegex a gs"WithWildcards") = some re ↔ re = xa := by
    intro op; rw [ka]; simp [eq_comm]
  have e2 : ∀ {re}, compile env.toExt (convertStringToRegex b gs"WithWildcards") = some re ↔ re = xb := by
    intro op; rw [kb]; simp [eq_comm]
  refine fits_equivalent ho ⟨rfl, rfl, hc⟩ ⟨rfl, rfl, hc⟩ ⟨rfl, rfl, hc⟩ ?_ ?_ rfl rfl rfl rfl
  · simp only [Loads, static_parts, touching, e0, e1, e2]
    constructor
    · rintro ⟨sl, rl, op, re, h1, h2, -⟩
      exact ⟨⟨sl, rl, op, xa, h1, h2, rfl⟩, ⟨sl, rl, op, xb, h1, h2, rfl⟩⟩
    · rintro ⟨⟨sl, rl, op, re, h1, h2, -⟩, -⟩
      exact ⟨sl, rl, op, x, h1, h2, rfl⟩
  · intro m
    simp only [Fits, static_parts, touching, e0, e1, e2]
    have key := fun (r : Rule) (hr : r.resourceNameRegex = some x) => testResource_list (m := m) hx hr (ra := { r with resourceName := a, resourceNameRegex := some xa })
      (rb := { r with resourceName := b, resourceNameRegex := some xb }) rfl rfl
    constructor
    · rintro ⟨sl, rl, op, re, ⟨h1, h2, rfl⟩, h3, h4, h5, h6⟩
      exact ((key _ rfl).1 h6).imp (fun h6 => ⟨sl, rl, _, _, ⟨h1, h2, rfl⟩, h3, h4, h5, h6⟩) (fun h6 => ⟨sl, rl, _, _, ⟨h1, h2, rfl⟩, h3, h4, h5, h6⟩)
    · rintro (⟨sl, rl, op, re, ⟨h1, h2, rfl⟩, h3, h4, h5, h6⟩ | ⟨sl, rl, op, re, ⟨h1, h2, rfl⟩, h3, h4, h5, h6⟩)
      · exact ⟨sl, rl, _, _, ⟨h1, h2, rfl⟩, h3, h4, h5, (key { r with resourceName := a ++ gs"," ++ b, resourceNameRegex := some x } rfl).2 (.inl h6)⟩
      · exact ⟨sl, rl, _, _, ⟨h1, h2, rfl⟩, h3, h4, h5, (key { r with resourceName := a ++ gs"," ++ b, resourceNameRegex := some x } rfl).2 (.inr h6)⟩

end Mapl

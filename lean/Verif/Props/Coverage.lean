import Verif.Lemmas.Decision
import Verif.Lemmas.Parse
import Verif.Spec.Coverage
import Verif.Demo

/-!
# C54, C55: coverage
-/

namespace Mapl
open Spec

variable {env : Env} {g : Predef} {rules : List RuleObj} {ms : List Msg} {out : CheckOut}

theorem lookup_mapSet {α : Type} (k k' : Str) (v : α) (l : List (Str × α)) :
    lookup k' (mapSet k v l) = if k' = k then some v else lookup k' l := by
  induction l with
  | nil => simp [mapSet, lookup]
  | cons x l ih =>
    obtain ⟨a, b⟩ := x
    simp only [mapSet]
    split
    · next h => subst h; simp only [lookup]; split <;> rfl
    · next h =>
      simp only [lookup, ih]
      by_cases h1 : k' = a <;> by_cases h2 : k' = k <;> simp_all

theorem keys_mapSet {α : Type} (k : Str) (v : α) (l : List (Str × α)) (h : (l.map (·.1)).Nodup) : ((mapSet k v l).map (·.1)).Nodup := by
  induction l with
  | nil => simp [mapSet]
  | cons x l ih =>
    obtain ⟨a, b⟩ := x
    simp only [mapSet]
    simp only [List.map_cons, List.nodup_cons] at h
    split
    · next hk => subst hk; simpa using h
    · next hk =>
      simp only [List.map_cons, List.nodup_cons]
      refine ⟨fun hm => ?_, ih h.2⟩
      have : lookup a (mapSet k v l) ≠ none := fun hn => lookup_none.1 hn hm
      rw [lookup_mapSet, if_neg (fun e => hk e.symm)] at this
      exact this (lookup_none.2 h.1)

theorem lookup_empty (id : Str) : lookup id (emptyCoverage rules) = if id ∈ rules.map (fun r => r.body.ruleID) then some [] else none := by
  have gen : ∀ (rs : List RuleObj) (rc : List (Str × List Str)), lookup id (rs.foldl (fun rc r => mapSet r.body.ruleID [] rc) rc) =
      if id ∈ rs.map (fun r => r.body.ruleID) then some [] else lookup id rc := by
    intro rs
    induction rs with
    | nil => simp
    | cons r rs ih =>
      intro rc
      rw [List.foldl_cons, ih, lookup_mapSet]
      by_cases h1 : id ∈ rs.map (fun r => r.body.ruleID) <;> by_cases h2 : id = r.body.ruleID <;> simp_all
  exact gen rules []

theorem lookup_addMessage (m id : Str) : ∀ (ids : List Str) (rc : List (Str × List Str)), (∀ x ∈ ids, lookup x rc ≠ none) →
    lookup id (addMessage m ids rc) = (lookup id rc).map fun l => l ++ List.replicate (ids.count id) m
  | [], rc, _ => by simp [addMessage]
  | x :: ids, rc, h => by
    obtain ⟨l, hl⟩ := Option.ne_none_iff_exists'.1 (h x (by simp))
    rw [addMessage, lookup_addMessage m id ids _ (fun y hy => ?_), lookup_mapSet]
    · by_cases hx : id = x
      · subst hx
        simp [hl, List.replicate_succ]
      · rw [if_neg hx, List.count_cons_of_ne (fun e => hx e.symm)]
    · rw [lookup_mapSet]; split
      · simp
      · exact h y (by simp [hy])

theorem appliedIds_eq (rules : List RuleObj) : ∀ (ds : List (Nat × Str)) (rs pre : List RuleObj) (a : Agg) (l : List Str),
    rules = pre ++ rs → ds.length = rs.length → appliedIds rules a.applied = .ok l →
    appliedIds rules (aggregate pre.length a ds).applied =
      .ok (l ++ ((rs.zip (ds.map (·.1))).filter fun x => decide (x.2 ≠ Decision.default.rank)).map fun x => x.1.body.ruleID)
  | [], rs, pre, a, l, hr, hl, h => by
    simp only [aggregate]; simp [h]
  | (res, desc) :: ds, [], pre, a, l, hr, hl, h => by simp at hl
  | (res, desc) :: ds, r :: rs, pre, a, l, hr, hl, h => by
    have snoc : ∀ (is : List Nat) (l : List Str), appliedIds rules is = .ok l → appliedIds rules (is ++ [pre.length]) = .ok (l ++ [r.body.ruleID]) := by
      intro is
      induction is with
      | nil => intro l h; simp [appliedIds] at h; subst h; simp [appliedIds, hr]
      | cons i is ih =>
        intro l h
        simp only [appliedIds] at h
        cases hi : rules[i]? with
        | none => rw [hi] at h; simp at h
        | some r' =>
          rw [hi] at h
          simp only [Go.bind_eq_ok] at h
          obtain ⟨l', hl', h⟩ := h
          simp at h; subst h
          simp [appliedIds, hi, ih l' hl']
    have key := fun (b : Agg) (l' : List Str) (hb : appliedIds rules b.applied = .ok l') =>
      appliedIds_eq rules ds rs (pre ++ [r]) b l' (by simp [hr]) (by simpa using hl) hb
    simp only [List.length_append, List.length_cons, List.length_nil, Nat.zero_add] at key
    simp only [aggregate, List.map_cons, List.zip_cons_cons, List.filter_cons]
    by_cases h0 : res = 0
    · subst h0
      simp only [DEFAULT, gt_iff_lt, Nat.lt_irrefl, if_false, Nat.not_lt_zero, Decision.rank, ne_eq, not_true_eq_false, decide_false]
      exact key a l h
    · have hpos : res > DEFAULT := Nat.pos_of_ne_zero h0
      rw [if_pos hpos]
      have hs := snoc _ _ h
      have hc : decide ((r, res).2 ≠ Decision.default.rank) = true := decide_eq_true h0
      rw [if_pos hc, List.map_cons]
      rw [List.append_cons l]
      split
      · exact key { a with applied := a.applied ++ [pre.length], maxDecision := res, description := desc, relevant := pre.length } _ hs
      · exact key { a with applied := a.applied ++ [pre.length] } _ hs

theorem check_applied {m : Msg} (h : check env g m rules = .ok out) :
    appliedIds rules out.appliedRulesIndices = .ok ((applying rules out).map fun x => x.1.body.ruleID) := by
  obtain ⟨outs, h1, a, ha, hn, hd, hrel, hr, happ, hdesc, _, _⟩ := check_inv h
  obtain ⟨_, hl, hk⟩ := (checkRules_ok rules 0 _).1 h1
  simp only at hl
  have := appliedIds_eq rules ((outs.map (·.1)).zip (rules.map describe)) rules [] {} [] rfl (by simp [hl]) rfl
  rw [happ, ha]
  rw [List.length_nil] at this
  rw [this, applying, hr]
  simp only [List.nil_append]
  rw [List.map_fst_zip (by simp [hl])]

theorem check_results {m : Msg} (h : check env g m rules = .ok out) :
    nonDefaultDecisions out.results = (applying rules out).map fun x => x.2 := by
  obtain ⟨outs, h1, a, ha, hn, hd, hrel, hr, happ, hdesc, _, _⟩ := check_inv h
  obtain ⟨_, hl, hk⟩ := (checkRules_ok rules 0 _).1 h1
  simp only at hl
  have hlen : out.results.length = rules.length := by rw [hr]; simpa using hl
  unfold nonDefaultDecisions applying
  generalize out.results = res at hlen
  clear * - hlen
  induction rules generalizing res with
  | nil => cases res <;> simp_all
  | cons r rs ih =>
    cases res with
    | nil => simp at hlen
    | cons x xs =>
      simp only [List.zip_cons_cons, List.filter_cons, Decision.rank]
      have := ih xs (by simpa using hlen)
      simp only [Decision.rank] at this
      by_cases hx : x = 0
      · simpa [hx] using this
      · simpa [hx] using this

theorem call_run (ho : env.OrdOk) (k : Nat) : Run env (env.call k) := ⟨rfl, fun _ _ => ho _ _⟩

/-- What the loop does. -/
theorem coverLoop_ok (ho : env.OrdOk) : ∀ (ms : List Msg) (k : Nat) (mc mc' : List (Str × MessageCoverage)) (rc rc' : List (Str × List Str)),
    (∀ r ∈ rules, lookup r.body.ruleID rc ≠ none) →
    coverLoop env g rules k ms (mc, rc) = .ok (mc', rc') → ∃ outs, CheckAnswers env g rules ms outs ∧
      mc' = (ms.zip outs).foldl (fun mc x => mapSet x.1.messageID (reported rules x.2) mc) mc ∧
      ∀ id, lookup id rc' = (lookup id rc).map fun l => l ++ (ms.zip outs).flatMap fun x =>
        List.replicate (((applying rules x.2).map fun y => y.1.body.ruleID).count id) x.1.messageID
  | [], k, mc, mc', rc, rc', _, h => by
    simp [coverLoop] at h
    obtain ⟨rfl, rfl⟩ := h
    exact ⟨[], .nil, rfl, by simp⟩
  | m :: ms, k, mc, mc', rc, rc', hk, h => by
    simp only [coverLoop, Go.bind_eq_ok] at h
    obtain ⟨out, h1, ids, h2, h⟩ := h
    rw [check_applied h1] at h2
    cases h2
    have hin : ∀ x ∈ (applying rules out).map fun x => x.1.body.ruleID, lookup x rc ≠ none := by
      intro x hx
      obtain ⟨y, hy, rfl⟩ := List.mem_map.1 hx
      have : y.1 ∈ rules := (List.of_mem_zip (List.mem_filter.1 hy).1).1
      exact hk _ this
    have hlook := fun id => lookup_addMessage m.messageID id _ rc hin
    obtain ⟨outs, e1, e2, e3⟩ := coverLoop_ok ho ms _ _ _ _ _ (fun r hr => by
      rw [hlook]
      simpa using hk r hr) h
    refine ⟨out :: outs, .cons ⟨_, call_run ho k, h1⟩ e1, ?_, fun id => ?_⟩
    · rw [e2, check_results h1]
      simp only [List.zip_cons_cons, List.foldl_cons, reported, Decision.rank, ne_eq]
      congr 2
    · rw [e3, hlook]
      simp [Function.comp_def]

end Mapl

namespace Mapl.Props
open Spec

variable {env : Env} {g : Predef} {rules : List RuleObj} {ms : List Msg} {mc : List (Str × MessageCoverage)} {rc : List (Str × List Str)}

/-- **C54**, for messages whose id no later message has: the report on the message says covered exactly when the decision of `Check` is not
`default`, and gives that decision and the ids and results of the applying rules, in order. There are no reports but those. The claim
is false for messages with repeated ids (see below). -/
theorem C54_partial (ho : env.OrdOk) (h : coverage env g ms rules = .ok (mc, rc)) :
    ∃ outs, CheckAnswers env g rules ms outs ∧
      (∀ (i : Nat) (m : Msg) (out : CheckOut), ms[i]? = some m → outs[i]? = some out → (∀ j m', i < j → ms[j]? = some m' → m'.messageID ≠ m.messageID) →
        lookup m.messageID mc = some (reported rules out)) ∧
      ∀ id, lookup id mc ≠ none ↔ id ∈ ms.map fun m => m.messageID := by
  obtain ⟨outs, h1, h2, _⟩ := coverLoop_ok ho ms 0 _ _ _ _ (fun r hr => by
    rw [lookup_empty, if_pos (List.mem_map_of_mem hr)]; simp) h
  have gen : ∀ (ms : List Msg) (outs : List CheckOut) (mc : List (Str × MessageCoverage)), ms.length = outs.length →
      (∀ (i : Nat) (m : Msg) (out : CheckOut), ms[i]? = some m → outs[i]? = some out → (∀ j m', i < j → ms[j]? = some m' → m'.messageID ≠ m.messageID) →
        lookup m.messageID ((ms.zip outs).foldl (fun mc x => mapSet x.1.messageID (reported rules x.2) mc) mc) = some (reported rules out)) ∧
      ∀ id, lookup id ((ms.zip outs).foldl (fun mc x => mapSet x.1.messageID (reported rules x.2) mc) mc) =
        if id ∈ ms.map (fun m => m.messageID) then lookup id ((ms.zip outs).foldl (fun mc x => mapSet x.1.messageID (reported rules x.2) mc) mc)
        else lookup id mc := by
    intro ms
    induction ms with
    | nil => intro outs mc _; simp
    | cons m ms ih =>
      intro outs mc hl
      cases outs with
      | nil => simp at hl
      | cons out outs =>
        obtain ⟨i1, i2⟩ := ih outs (mapSet m.messageID (reported rules out) mc) (by simpa using hl)
        simp only [List.zip_cons_cons, List.foldl_cons]
        constructor
        · intro i m' out' hm ho hj
          cases i with
          | zero =>
            simp at hm ho
            subst hm ho
            rw [i2, if_neg, lookup_mapSet, if_pos rfl]
            intro hc
            obtain ⟨m', hm', he⟩ := List.mem_map.1 hc
            obtain ⟨j, hj', rfl⟩ := List.mem_iff_getElem.1 hm'
            exact hj (j + 1) _ (by omega) (by simp) he
          | succ i => exact i1 i m' out' (by simpa using hm) (by simpa using ho) fun j m'' hlt hj' => hj (j + 1) m'' (by omega) (by simpa using hj')
        · intro id
          split
          · rfl
          · next hid =>
            simp only [List.map_cons, List.mem_cons, not_or] at hid
            rw [i2, if_neg hid.2, lookup_mapSet, if_neg hid.1]
  obtain ⟨g1, g2⟩ := gen ms outs [] h1.length_eq
  subst h2
  refine ⟨outs, h1, g1, fun id => ⟨fun hne => ?_, fun hid => ?_⟩⟩
  · by_contra hc
    rw [g2, if_neg hc] at hne
    exact hne rfl
  · have ex : ∀ (ms : List Msg), id ∈ ms.map (fun m => m.messageID) → ∃ (i : Nat) (m : Msg), ms[i]? = some m ∧ m.messageID = id ∧
        ∀ j m', i < j → ms[j]? = some m' → m'.messageID ≠ m.messageID := by
      intro ms
      induction ms with
      | nil => simp
      | cons m ms ih =>
        intro hm
        by_cases hr : id ∈ ms.map (fun m => m.messageID)
        · obtain ⟨i, m', h1, h2, h3⟩ := ih hr
          refine ⟨i + 1, m', by simpa using h1, h2, fun j m'' hlt hj => ?_⟩
          cases j with
          | zero => omega
          | succ j => exact h3 j m'' (by omega) (by simpa using hj)
        · simp only [List.map_cons, List.mem_cons, hr, or_false] at hm
          refine ⟨0, m, rfl, hm.symm, fun j m'' hlt hj => ?_⟩
          cases j with
          | zero => omega
          | succ j =>
            simp only [List.getElem?_cons_succ] at hj
            intro he
            exact hr (List.mem_map.2 ⟨m'', List.mem_of_getElem? hj, by rw [he, hm]⟩)
    obtain ⟨i, m, h3, h4, h5⟩ := ex ms hid
    have hlt : i < outs.length := by
      rw [← h1.length_eq]
      exact (List.getElem?_eq_some_iff.1 h3).1
    rw [← h4, g1 i m outs[i] h3 (List.getElem?_eq_getElem hlt) h5]
    simp

/-- The same if the ids of the messages are distinct: every message has its report. -/
theorem C54_distinct_partial (ho : env.OrdOk) (hd : (ms.map fun m => m.messageID).Nodup) (h : coverage env g ms rules = .ok (mc, rc)) :
    ∃ outs, CheckAnswers env g rules ms outs ∧ List.Forall₂ (fun m out => lookup m.messageID mc = some (reported rules out)) ms outs := by
  obtain ⟨outs, h1, h2, _⟩ := C54_partial ho h
  refine ⟨outs, h1, List.forall₂_iff_get.2 ⟨h1.length_eq, fun i hi hi' => ?_⟩⟩
  refine h2 i _ _ (by simp) (by simp) fun j m' hlt hj => ?_
  obtain ⟨hj', rfl⟩ := List.getElem?_eq_some_iff.1 hj
  intro he
  have := (List.Nodup.getElem_inj_iff hd (i := j) (j := i) (hi := by simpa using hj') (hj := by simpa using hi)).1 (by simpa using he)
  omega

/-- **C55.** Every rule id has an entry, and no other id has one. The entry lists, in the order of the messages, the ids of the messages to which
a rule with that id applies, once for every such rule. -/
theorem C55_rule_coverage (ho : env.OrdOk) (h : coverage env g ms rules = .ok (mc, rc)) :
    ∃ outs, CheckAnswers env g rules ms outs ∧
      ∀ id, lookup id rc = if id ∈ rules.map (fun r => r.body.ruleID) then some ((ms.zip outs).flatMap fun x =>
        ((applying rules x.2).filter fun y => y.1.body.ruleID = id).map fun _ => x.1.messageID) else none := by
  obtain ⟨outs, h1, _, h3⟩ := coverLoop_ok ho ms 0 _ _ _ _ (fun r hr => by
    rw [lookup_empty, if_pos (List.mem_map_of_mem hr)]; simp) h
  refine ⟨outs, h1, fun id => ?_⟩
  rw [h3, lookup_empty]
  split
  · simp only [Option.map_some, List.nil_append, Option.some.injEq]
    congr 1
    funext x
    rw [List.map_const', List.count, List.countP_map, List.countP_eq_length_filter]
    congr 3
    funext y
    simp [beq_eq_decide]
  · rfl

/-- **C55** if the ids of the rules are distinct: the entry of a rule lists the messages to which it applies, each once. -/
theorem C55_distinct (ho : env.OrdOk) (hd : (rules.map fun r => r.body.ruleID).Nodup) (h : coverage env g ms rules = .ok (mc, rc)) :
    ∃ outs, CheckAnswers env g rules ms outs ∧ ∀ r ∈ rules, lookup r.body.ruleID rc =
      some (((ms.zip outs).filter fun x => appliesId rules r.body.ruleID x.2).map fun x => x.1.messageID) := by
  obtain ⟨outs, h1, h2⟩ := C55_rule_coverage ho h
  refine ⟨outs, h1, fun r hr => ?_⟩
  rw [h2, if_pos (List.mem_map_of_mem hr)]
  congr 1
  have one : ∀ out : CheckOut, ((applying rules out).filter fun y => y.1.body.ruleID = r.body.ruleID).length = if appliesId rules r.body.ruleID out then 1 else 0 := by
    intro out
    have hsub : ((applying rules out).map fun y => y.1.body.ruleID).Nodup := by
      have : ((rules.zip out.results).map fun y => y.1.body.ruleID).Nodup := by
        have hz : (rules.zip out.results).map (fun y => y.1.body.ruleID) = (rules.take out.results.length).map fun r => r.body.ruleID := by
          rw [show (fun y : RuleObj × Nat => y.1.body.ruleID) = (fun r : RuleObj => r.body.ruleID) ∘ Prod.fst from rfl, ← List.map_map]
          congr 1
          generalize out.results = l
          clear * -
          induction rules generalizing l with
          | nil => simp
          | cons r rs ih =>
            cases l with
            | nil => simp
            | cons x l => simp [ih l]
        rw [hz]
        exact ((List.take_sublist _ _).map _).nodup hd
      exact (List.filter_sublist.map _).nodup this
    have hc := List.nodup_iff_count_le_one.1 hsub r.body.ruleID
    rw [List.count, List.countP_map, List.countP_eq_length_filter] at hc
    have he : (fun y : RuleObj × Nat => decide (y.1.body.ruleID = r.body.ruleID)) =
        ((fun x => x == r.body.ruleID) ∘ fun y : RuleObj × Nat => y.1.body.ruleID) := by funext y; simp [beq_eq_decide]
    rw [← he] at hc
    by_cases ha : appliesId rules r.body.ruleID out = true
    · rw [if_pos ha]
      obtain ⟨y, hy, hy'⟩ := List.any_eq_true.1 ha
      have : y ∈ (applying rules out).filter fun y => y.1.body.ruleID = r.body.ruleID := List.mem_filter.2 ⟨hy, hy'⟩
      have := List.length_pos_of_mem this
      omega
    · rw [if_neg ha, List.length_eq_zero_iff, List.filter_eq_nil_iff]
      intro y hy hy'
      exact ha (List.any_eq_true.2 ⟨y, hy, hy'⟩)
  clear h2 h1
  generalize ms.zip outs = l
  induction l with
  | nil => rfl
  | cons x l ih =>
    rw [List.flatMap_cons, ih, List.filter_cons, List.map_const', one]
    split <;> simp

/-- Messages for the examples: large ones are blocked. -/
def big (id : Str) (size : Int) : Msg := { Demo.msgI with messageID := id, requestSize := size }
def named (id : Str) (r : RuleObj) : RuleObj := { r with body := { r.body with ruleID := id } }
def sizeRules : List RuleObj := [named gs"0" (Demo.rule gs"block" (some (condNode Demo.env gs"payloadSize" gs"GT" gs"10" none))),
  named gs"1" (Demo.rule gs"alert" (some (condNode Demo.env gs"payloadSize" gs"GT" gs"20" none)))]

theorem toOption_ok {α : Type} {x : Go α} {a : α} (h : x.toOption = some a) : x = .ok a := by
  cases x with
  | ok b => simp [Except.toOption] at h; rw [h]
  | error e => simp [Except.toOption] at h

/-- Three messages, two rules. -/
example : Demo.env.OrdOk ∧ ([big gs"a" 5, big gs"b" 50, big gs"c" 15].map fun m => m.messageID).Nodup ∧
    (sizeRules.map fun r => r.body.ruleID).Nodup ∧
    coverage Demo.env {} [big gs"a" 5, big gs"b" 50, big gs"c" 15] sizeRules =
      .ok ([(gs"a", ⟨false, 0, [], []⟩), (gs"b", ⟨true, 3, [gs"0", gs"1"], [3, 2]⟩), (gs"c", ⟨true, 3, [gs"0"], [3]⟩)],
        [(gs"0", [gs"b", gs"c"]), (gs"1", [gs"b"])]) :=
  ⟨Demo.env_ordOk, by decide, by decide, toOption_ok (by decide +kernel)⟩

/-- Violation of C54: a blocked message is reported as not covered because a later message has the same id. -/
theorem C54_violated : ∃ (m m' : Msg) (mc : List (Str × MessageCoverage)) (rc : List (Str × List Str)) (out : CheckOut),
    coverage Demo.env {} [m, m'] sizeRules = .ok (mc, rc) ∧ check Demo.env {} m sizeRules = .ok out ∧ out.decision = Decision.block.rank ∧
    lookup m.messageID mc = some ⟨false, 0, [], []⟩ := by
  obtain ⟨out, h1, h2⟩ : ∃ out, check Demo.env {} (big gs"a" 50) sizeRules = .ok out ∧ out.decision = 3 := by
    have h : Demo.summary (check Demo.env {} (big gs"a" 50) sizeRules) = some (3, [3, 2], 0, [0, 1]) := by decide +kernel
    match hc : check Demo.env {} (big gs"a" 50) sizeRules with
    | .ok out => rw [hc] at h; simp [Demo.summary] at h; exact ⟨out, rfl, h.1⟩
    | .error e => rw [hc] at h; simp [Demo.summary] at h
  exact ⟨big gs"a" 50, big gs"a" 5, [(gs"a", ⟨false, 0, [], []⟩)], [(gs"0", [gs"a"]), (gs"1", [gs"a"])], out, toOption_ok (by decide +kernel), h1, h2, rfl⟩

end Mapl.Props

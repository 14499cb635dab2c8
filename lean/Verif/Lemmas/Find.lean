import Verif.Spec.Find
import Verif.Lemmas.Added
import Verif.Lemmas.Mongo
import Verif.Lemmas.Words
import Verif.Lemmas.Policy
import Verif.Props.Mongo
import Verif.Props.Place

/-!
# Queries and claims
-/

namespace Mapl
open Spec

variable {env : Ext} {t : Predef}

/-! ## Paths -/

/-- The name of a step in a dotted path. -/
def stepName : Step → Str
  | .field n => n
  | .item i => decimal i

theorem leads_sub {d : Json} {s : Step} {v : Json} (h : Leads d [s] (some v)) (hn : NoNumberNames d) : NoNumberNames v := by
  intro p kvs i hp
  cases h with
  | field h h' => cases h'; exact hn (_ :: p) kvs i (.field h hp)
  | item h h' => cases h'; exact hn (_ :: p) kvs i (.item h hp)

theorem reach_item {l : List Json} {i : Nat} {ss : List Str} (hn : NoNumberNames (.arr l)) :
    reach (decimal i :: ss) (.arr l) = match l[i]? with
      | some v => reach ss v
      | none => [] := by
  rw [reach, numeral_iff.1 (Props.numeral_decimal i)]
  refine Eq.trans (congrArg _ (List.flatMap_eq_nil_iff.2 ?_)) (List.append_nil _)
  intro e he
  obtain ⟨j, hj⟩ := List.getElem?_of_mem he
  cases e with
  | obj kvs =>
    have := hn [.item j] kvs i (.item hj (.here _))
    simp [this]
  | _ => rfl

theorem reach_leads {d : Json} {p : List Step} {o : Option Json} (h : Leads d p o) (hn : NoNumberNames d) : reach (p.map stepName) d = o.toList := by
  induction h with
  | here v => rfl
  | field h _ ih =>
    rw [List.map_cons, stepName, reach, h]
    exact ih (leads_sub (.field h (.here _)) hn)
  | noField h => rw [List.map_cons, stepName, reach, h]; rfl
  | item h _ ih =>
    rw [List.map_cons, stepName, reach_item hn, h]
    exact ih (leads_sub (.item h (.here _)) hn)
  | noItem h => rw [List.map_cons, stepName, reach_item hn, h]; rfl

theorem reach_base : ∀ {names ss : List Str} {doc root : Json}, Leads doc (names.map .field) (some root) → reach (names ++ ss) doc = reach ss root
  | [], ss, doc, root, h => by cases h; rfl
  | n :: names, ss, doc, root, h => by
    cases h with
    | field h h' => rw [List.cons_append, reach, h]; exact reach_base h'

theorem leads_append {d v : Json} {p q : List Step} {o o' : Option Json} (h : Leads d p o') (ho : o' = some v) (h' : Leads v q o) : Leads d (p ++ q) o := by
  induction h with
  | here => cases ho; exact h'
  | field hk _ ih => exact .field hk (ih ho)
  | noField => cases ho
  | item hk _ ih => exact .item hk (ih ho)
  | noItem => cases ho

theorem noNumbers_element {d e : Json} {p : List Step} {l : List Json} (h : Leads d p (some (.arr l))) (he : e ∈ l) (hn : NoNumberNames d) : NoNumberNames e := by
  intro q kvs i hq
  obtain ⟨j, hj⟩ := List.getElem?_of_mem he
  exact hn (p ++ .item j :: q) kvs i (leads_append h rfl (.item hj hq))

theorem join_append {l l' : List Str} (h : l ≠ []) (h' : l' ≠ []) : join gs"." (l ++ l') = join gs"." l ++ gs"." ++ join gs"." l' := by
  induction l with
  | nil => exact absurd rfl h
  | cons x l ih =>
    cases l with
    | nil => rw [List.cons_append, List.nil_append, join_cons h']; rfl
    | cons y l =>
      rw [List.cons_append, join_cons (by simp), ih (by simp), join_cons (l := y :: l) (by simp)]
      simp

theorem fieldName_pathName {n : Str} (h : FieldName n) : PathName n := by
  refine ⟨h.1, fun c hc hm => ?_⟩
  rcases h.2.1 c hc with h | h
  · simp only [List.mem_cons, List.not_mem_nil, or_false] at hm
    rcases hm with rfl | rfl | rfl | rfl | rfl <;> revert h <;> decide
  · subst h; revert hm; decide

theorem decimal_pathName (i : Nat) : PathName (decimal i) := by
  refine ⟨(Props.digitText_decimal i).1, fun c hc hm => ?_⟩
  have := decimal_digits i c hc
  simp only [List.mem_cons, List.not_mem_nil, or_false] at hm
  rcases hm with rfl | rfl | rfl | rfl | rfl <;> revert this <;> decide

theorem stepName_pathName {p : List Step} (h : PlainSteps p) : ∀ n ∈ p.map stepName, PathName n := by
  intro n hn
  obtain ⟨s, hs, rfl⟩ := List.mem_map.1 hn
  cases s with
  | field n => exact fieldName_pathName (h n hs)
  | item i => exact decimal_pathName i

theorem split_names {l : List Str} (hl : l ≠ []) (h : ∀ n ∈ l, PathName n) : split '.' (join gs"." l) = l :=
  split_join hl fun x hx hm => (h x hx).2 _ hm (by simp)

/-- How the translation sees a step. -/
def stepSeg : Step → Seg
  | .field n => .dot n
  | .item i => .index (decimal i)

theorem stepSeg_name (s : Step) : (stepSeg s).name = stepName s := by cases s <;> rfl

theorem tail_pathText (p : Path) : p.tail = pathText p.name (p.rest.map stepSeg) := by
  rw [Path.tail, pathText, stepsText, List.flatMap_map]
  congr 1
  refine List.flatMap_congr fun s _ => ?_
  cases s with
  | field n => rfl
  | item i => simp [Step.text, stepSeg, Seg.text]

theorem tail_dotted (p : Path) : dotted p.name (p.rest.map stepSeg) = join gs"." (p.steps.map stepName) := by
  rw [dotted, List.map_map, Path.steps, List.map_cons]
  congr 2
  exact List.map_congr_left fun s _ => stepSeg_name s

/-! ## Single conditions -/

theorem comparison_num {f : Str} {d : Json} {q : Rat} (num : F64 → F64 → Bool) (str : Str → Str → Bool) (x : F64)
    (h : reach (split '.' f) d = [.num (.fin q)]) : someValue f d (comparison num str (.num x)) = num (.fin q) x := by
  simp [someValue, h, comparison, items]

theorem comparison_str {f : Str} {d : Json} {s : Str} (num : F64 → F64 → Bool) (str : Str → Str → Bool) (x : MVal)
    (h : reach (split '.' f) d = [.str s]) : someValue f d (comparison num str x) = match x with | .num _ => false | .str w => str s w := by
  cases x <;> simp [someValue, h, comparison, items]

theorem someValue_nothing {f : Str} {d : Json} (p : Json → Bool) (h : reach (split '.' f) d = []) : someValue f d p = false := by
  simp [someValue, h]

theorem someValue_str {f : Str} {d : Json} {s : Str} (p : Json → Bool) (h : reach (split '.' f) d = [.str s]) : someValue f d p = p (.str s) := by
  simp [someValue, h, items]

theorem fin_eq (q : Rat) (x : F64) : (F64.fin q == x) = decide (NumMethod.eq.holdsF (.fin q) x) := by
  rw [← f64_eq]
  cases x <;> simp [F64.eq, BEq.beq]

/-- Methods by number. -/
def methodNo (m : Str) : Nat :=
  if m ∈ [gs"EQ", gs"eq"] then 0 else if m ∈ [gs"NEQ", gs"NE", gs"neq", gs"ne"] then 1 else if m ∈ [gs"GT", gs"gt"] then 2
  else if m ∈ [gs"GE", gs"ge"] then 3 else if m ∈ [gs"LT", gs"lt"] then 4 else if m ∈ [gs"LE", gs"le"] then 5
  else if m ∈ [gs"EX", gs"ex"] then 6 else if m ∈ [gs"NEX", gs"nex"] then 7 else if m ∈ [gs"RE", gs"re"] then 8
  else if m ∈ [gs"NRE", gs"nre"] then 9 else if m ∈ [gs"IN", gs"IS"] then 10 else 11

def methodQuery (env : Ext) (f w : Str) : Nat → MQuery
  | 0 => .field f (.eq (mongoValue env w))
  | 1 => .field f (.ne (mongoValue env w))
  | 2 => .field f (.gt (mongoValue env w))
  | 3 => .field f (.gte (mongoValue env w))
  | 4 => .field f (.lt (mongoValue env w))
  | 5 => .field f (.lte (mongoValue env w))
  | 6 => .field f (.exist true)
  | 7 => .field f (.exist false)
  | 8 => .field f (.regex w)
  | 9 => .and [.field f (.notRegex w), .field f (.exist true)]
  | 10 => .field f (.regex (listPattern w))
  | _ => .and [.field f (.notRegex (listPattern w)), .field f (.exist true)]

theorem compared_value {w : Str} {x : MVal} (h : ComparedWith env w x) : x = mongoValue env w := by
  cases h with
  | num h => rw [mongoValue, h]
  | str h => rw [mongoValue, h]

theorem methodNo_of {k : Nat} {l : List Str} {m : Str} (hm : m ∈ l) (h : ∀ x ∈ l, methodNo x = k) : methodNo m = k := h m hm

theorem operator_query {f w m : Str} {q : MQuery} (h : OperatorOf env f w m q) : q = methodQuery env f w (methodNo m) := by
  cases h with
  | eq hm h => rw [methodNo_of hm (k := 0) (by decide), compared_value h]; rfl
  | ne hm h => rw [methodNo_of hm (k := 1) (by decide), compared_value h]; rfl
  | gt hm h => rw [methodNo_of hm (k := 2) (by decide), compared_value h]; rfl
  | ge hm h => rw [methodNo_of hm (k := 3) (by decide), compared_value h]; rfl
  | lt hm h => rw [methodNo_of hm (k := 4) (by decide), compared_value h]; rfl
  | le hm h => rw [methodNo_of hm (k := 5) (by decide), compared_value h]; rfl
  | ex hm => rw [methodNo_of hm (k := 6) (by decide)]; rfl
  | nex hm => rw [methodNo_of hm (k := 7) (by decide)]; rfl
  | re hm => rw [methodNo_of hm (k := 8) (by decide)]; rfl
  | nre hm => rw [methodNo_of hm (k := 9) (by decide)]; rfl
  | list hm => rw [methodNo_of hm (k := 10) (by decide)]; rfl
  | notList hm => subst hm; rfl

/-- The operators on nothing. -/
theorem query_nothing {f w : Str} {d : Json} {k : Nat} (h : reach (split '.' f) d = []) :
    selects (mongoDB env) (methodQuery env f w k) d = decide (k = 1 ∨ k = 7) := by
  match k with
  | 0 | 1 | 2 | 3 | 4 | 5 | 6 | 7 | 8 | 9 | 10 => simp [methodQuery, selects, selectsAll, mongoDB, mongoTest, someValue_nothing _ h, h]
  | k + 11 => simp [methodQuery, selects, selectsAll, mongoDB, mongoTest, someValue_nothing _ h, h]

/-- The operators that ask for a value, on any value. -/
theorem query_there {f w : Str} {d v : Json} {k : Nat} (h : reach (split '.' f) d = [v]) (hk : k = 6 ∨ k = 7) :
    selects (mongoDB env) (methodQuery env f w k) d = decide (k = 6) := by
  rcases hk with rfl | rfl <;> simp [methodQuery, selects, mongoDB, mongoTest, h]

def numberNo : NumMethod → Nat
  | .eq => 0
  | .ne => 1
  | .gt => 2
  | .ge => 3
  | .lt => 4
  | .le => 5

theorem numMethod_no {k : NumMethod} {m : Str} (hm : m ∈ k.spellings) : methodNo m = numberNo k := by
  cases k
  · exact methodNo_of hm (by decide)
  · exact methodNo_of hm (by decide)
  · exact methodNo_of hm (by decide)
  · exact methodNo_of hm (by decide)
  · exact methodNo_of hm (by decide)
  · exact methodNo_of hm (by decide)

/-- The operators on numbers. -/
theorem query_number {f w m : Str} {d : Json} {q : Rat} {k : NumMethod} {x : F64} (h : reach (split '.' f) d = [.num (.fin q)]) (hm : m ∈ k.spellings)
    (hw : env.parseFloat w = some x) : selects (mongoDB env) (methodQuery env f w (methodNo m)) d = decide (k.holdsF (.fin q) x) := by
  rw [numMethod_no hm]
  have hv : mongoValue env w = .num x := by rw [mongoValue, hw]
  cases k
  · simp only [numberNo, methodQuery, selects, mongoDB, mongoTest, hv, comparison_num _ _ x h, fin_eq]
  · simp only [numberNo, methodQuery, selects, mongoDB, mongoTest, hv, comparison_num _ _ x h]
    rw [← f64_ne, fin_eq, f64_eq]
  · simp only [numberNo, methodQuery, selects, mongoDB, mongoTest, hv, comparison_num _ _ x h, f64_lt]
  · simp only [numberNo, methodQuery, selects, mongoDB, mongoTest, hv, comparison_num _ _ x h, f64_le]
  · simp only [numberNo, methodQuery, selects, mongoDB, mongoTest, hv, comparison_num _ _ x h, f64_gt]
  · simp only [numberNo, methodQuery, selects, mongoDB, mongoTest, hv, comparison_num _ _ x h, f64_ge]

/-- The operators on texts that are no numbers. -/
theorem query_text {f w m s : Str} {d : Json} {P : Str → Prop} (hre : RegexpOk env) (h : reach (split '.' f) d = [.str s]) (hP : ScalarMeans m w P)
    (hn : (∃ k : NumMethod, m ∈ k.spellings) → env.parseFloat s = none) : selects (mongoDB env) (methodQuery env f w (methodNo m)) d = true ↔ P s := by
  have eq : ∀ (hs : env.parseFloat s = none), someValue f d (comparison (fun a b => a == b) (fun a b => a == b) (mongoValue env w)) = decide (s = w) := by
    intro hs
    rw [comparison_str _ _ _ h, mongoValue]
    cases hw : env.parseFloat w with
    | none => simp only [beq_eq_decide]
    | some x =>
      have : s ≠ w := fun e => by rw [e, hw] at hs; cases hs
      simp [this]
  have re : ∀ {p : Str} {r : RE}, readPattern p = some r → (someValue f d (fun v => match v with | .str s => env.reMatch p s | _ => false) = true ↔ Finds r s) := by
    intro p r hr
    rw [someValue_str _ h]
    exact (hre p r hr).2 s
  cases hP with
  | eq hm _ =>
    have hs := hn ⟨.eq, hm⟩
    rw [methodNo_of hm (k := 0) (by decide)]
    simp only [methodQuery, selects, mongoDB, mongoTest, eq hs, decide_eq_true_eq]
  | ne hm _ =>
    have hs := hn ⟨.ne, (by decide : ∀ x ∈ [gs"NEQ", gs"neq"], x ∈ NumMethod.ne.spellings) m hm⟩
    rw [methodNo_of hm (k := 1) (by decide)]
    simp only [methodQuery, selects, mongoDB, mongoTest, eq hs, Bool.not_eq_true', decide_eq_false_iff_not, ne_eq]
  | found hm hw =>
    rw [methodNo_of hm (k := 8) (by decide)]
    exact re hw
  | notFound hm hw =>
    rw [methodNo_of hm (k := 9) (by decide)]
    simp only [methodQuery, selects, selectsAll, mongoDB, mongoTest, h, List.isEmpty_cons, Bool.not_false, BEq.rfl, Bool.and_true]
    rw [Bool.not_eq_true', ← Bool.not_eq_true]
    exact not_congr (re hw)
  | there hm => rw [methodNo_of hm (k := 6) (by decide), query_there h (.inl rfl)]; simp
  | notThere hm => rw [methodNo_of hm (k := 7) (by decide), query_there h (.inr rfl)]; simp
  | isIn hm hl hne hw =>
    rw [methodNo_of hm (k := 10) (by decide)]
    obtain ⟨r, h1, h2⟩ := readPattern_words hl hne hw
    exact (re h1).trans (h2 s)
  | notIn hm hl hne hw =>
    rw [methodNo_of (l := [gs"NIN"]) (by simp [hm]) (k := 11) (by decide)]
    obtain ⟨r, h1, h2⟩ := readPattern_words hl hne hw
    simp only [methodQuery, selects, selectsAll, mongoDB, mongoTest, h, List.isEmpty_cons, Bool.not_false, BEq.rfl, Bool.and_true]
    rw [Bool.not_eq_true', ← Bool.not_eq_true]
    exact not_congr ((re h1).trans (h2 s))

theorem test_query {f w m : Str} {d : Json} {o : Option Json} {q : MQuery} {P : Prop} (hre : RegexpOk env) (hp : PathsOk env) (ho : OperatorOf env f w m q)
    (hS : TestSays env o m w P) (hk : OneKind env o m w) (hr : reach (split '.' f) d = o.toList) : selects (mongoDB env) q d = true ↔ P := by
  rw [operator_query ho]
  cases hk with
  | nothing hm =>
    cases hS with
    | missing =>
      have none : ∀ (k : Nat) (l : List Str), (∀ x ∈ l, methodNo x = k) → ¬ (k = 1 ∨ k = 7) → (∀ x ∈ l, ¬ (x = gs"NEX" ∨ x = gs"nex")) → m ∈ l →
          (selects (mongoDB env) (methodQuery env f w (methodNo m)) d = true ↔ m = gs"NEX" ∨ m = gs"nex") := by
        intro k l h1 h2 h3 hl
        rw [h1 m hl, query_nothing hr, decide_eq_true_eq]
        exact iff_of_false h2 (h3 m hl)
      cases ho with
      | eq hm' => exact none 0 _ (by decide) (by decide) (by decide) hm'
      | gt hm' => exact none 2 _ (by decide) (by decide) (by decide) hm'
      | ge hm' => exact none 3 _ (by decide) (by decide) (by decide) hm'
      | lt hm' => exact none 4 _ (by decide) (by decide) (by decide) hm'
      | le hm' => exact none 5 _ (by decide) (by decide) (by decide) hm'
      | ex hm' => exact none 6 _ (by decide) (by decide) (by decide) hm'
      | re hm' => exact none 8 _ (by decide) (by decide) (by decide) hm'
      | nre hm' => exact none 9 _ (by decide) (by decide) (by decide) hm'
      | list hm' => exact none 10 _ (by decide) (by decide) (by decide) hm'
      | ne hm' => exact absurd ((by decide : ∀ x ∈ [gs"NEQ", gs"NE", gs"neq", gs"ne"], x ∈ NumMethod.ne.spellings) m hm') hm
      | nex hm' =>
        rw [methodNo_of hm' (k := 7) (by decide), query_nothing hr]
        exact iff_of_true rfl (by simpa using hm')
      | notList hm' => exact none 11 [gs"NIN"] (by decide) (by decide) (by decide) (by simp [hm'])
  | number hm hw hu =>
    cases hS with
    | number hm' hw' hv =>
      cases hv
      rw [hu] at hw'
      cases hw'
      rw [query_number hr hm' hw, decide_eq_true_eq]
    | text hP hv hy =>
      cases hv with
      | @whole n hn =>
        obtain ⟨h1, h2⟩ := hp.whole n hn
        obtain ⟨h3, h4, h5⟩ := hp.print n h1
        rw [h2] at h3 h4 h5
        rw [number_parse hp h3 h4 h5] at hy
        cases hy hm
    | there hm' => exact absurd hm (numMethod_not hm')
  | text hs hn =>
    cases hS with
    | emptyText => exact absurd rfl hs
    | number hm hw hv =>
      cases hv with
      | str _ _ h =>
        rw [(hn ⟨_, hm⟩).2] at h
        cases h
    | text hP hv hy =>
      cases hv
      exact query_text hre hr hP fun h => (hn h).1
  | there hm h1 h2 =>
    have hk : methodNo m = 6 ∨ methodNo m = 7 := (by decide : ∀ x ∈ [gs"EX", gs"ex", gs"NEX", gs"nex"], methodNo x = 6 ∨ methodNo x = 7) m hm
    have h6 : methodNo m = 6 ↔ m = gs"EX" ∨ m = gs"ex" :=
      (by decide : ∀ x ∈ [gs"EX", gs"ex", gs"NEX", gs"nex"], methodNo x = 6 ↔ x = gs"EX" ∨ x = gs"ex") m hm
    rw [query_there hr hk, decide_eq_true_eq, h6]
    cases hS with
    | emptyText => exact absurd rfl h1
    | emptyList => exact absurd rfl h2
    | number hm' => exact absurd ⟨_, hm'⟩ (numMethod_not hm)
    | there => exact Iff.rfl
    | text hP hv hy =>
      cases hP with
      | there hm' => simpa using hm'
      | notThere hm' => exact iff_of_false (by rintro (rfl | rfl) <;> simp at hm') (by simp)
      | eq hm' => exact absurd ⟨.eq, hm'⟩ (numMethod_not hm)
      | ne hm' => exact absurd ⟨.ne, (by decide : ∀ x ∈ [gs"NEQ", gs"neq"], x ∈ NumMethod.ne.spellings) m hm'⟩ (numMethod_not hm)
      | found hm' => exact absurd hm ((by decide : ∀ x ∈ [gs"RE", gs"re"], x ∉ [gs"EX", gs"ex", gs"NEX", gs"nex"]) m hm')
      | notFound hm' => exact absurd hm ((by decide : ∀ x ∈ [gs"NRE", gs"nre"], x ∉ [gs"EX", gs"ex", gs"NEX", gs"nex"]) m hm')
      | isIn hm' => exact absurd hm ((by decide : ∀ x ∈ [gs"IN", gs"IS"], x ∉ [gs"EX", gs"ex", gs"NEX", gs"nex"]) m hm')
      | notIn hm' => subst hm'; exact absurd hm (by decide)

/-! ## Claims -/

theorem path_start_text {p : Path} {i : Bool} (h : p.start = if i then .element else .document) :
    p.text = (if i then gs"$RELATIVE." else gs"$.") ++ p.tail := by
  cases i <;> simp only [Bool.false_eq_true, if_false, if_true] at h ⊢ <;> rw [Path.text, h]

/-- The path of a list with its mark. -/
def Spec.ListPath.full (p : ListPath) : Str := p.text ++ p.mark.text

theorem parent_text {p : ListPath} : (parentOf [p]).text = p.full := by
  unfold parentOf ListPath.full Path.text
  simp only [List.head?_cons, Option.map_some, List.map_cons, List.map_nil]
  cases p.start <;> simp [Parent.text, join]

theorem single_plain {p : ListPath} {f : Claim} (h : (∃ st, ∀ q ∈ [p], q.start = st ∧ PlainSteps q.steps) ∧ f.Plain) : PlainSteps p.steps ∧ f.Plain := by
  obtain ⟨⟨st, hst⟩, hf⟩ := h
  exact ⟨(hst p (by simp)).2, hf⟩

theorem single_list {root : Json} {cur : Option Json} {p : ListPath} {Q : Json → Prop} (h : ∀ q ∈ [p], ∃ l, Gathers root cur q l ∧ ∀ e ∈ l, Q e) :
    ∃ l, Gathers root cur p l ∧ ∀ e ∈ l, Q e := h p (by simp)

theorem gathers_leads {root e : Json} {cur : Option Json} {p : ListPath} {l : List Json} (h : Gathers root cur p l) (he : e ∈ l) : p.Leads root cur (some (.arr l)) := by
  cases h with
  | there h => exact h
  | missing => cases he

theorem gathers_unique {root : Json} {cur : Option Json} {p : ListPath} {l l' : List Json} (h : Gathers root cur p l) (h' : p.Leads root cur (some (.arr l'))) : l = l' := by
  cases h with
  | there h =>
    cases path_unique h h'
    rfl
  | missing h => cases path_unique h h'

theorem full_start_text {p : ListPath} {i : Bool} (h : p.start = if i then .element else .document) :
    p.full = (if i then gs"$RELATIVE." else gs"$.") ++ (p.tail ++ p.mark.text) := by
  rw [ListPath.full, path_start_text h, List.append_assoc]

theorem fields_tail {p : Path} (h : ∀ s ∈ p.rest, ∃ n, s = .field n) : p.tail = join gs"." (p.steps.map stepName) := by
  rw [← tail_dotted, dotted_eq, Path.tail, stepsText, List.flatMap_map]
  congr 1
  refine List.flatMap_congr fun s hs => ?_
  obtain ⟨n, rfl⟩ := h s hs
  rfl

theorem fields_plain {p : Path} (hp : PlainSteps p.steps) (h : ∀ s ∈ p.rest, ∃ n, s = .field n) : ∀ c ∈ p.tail, c ≠ '[' ∧ c ≠ ':' := by
  intro c hc
  have hf : ∀ {n}, FieldName n → ∀ c ∈ n, c ≠ '[' ∧ c ≠ ':' := fun {n} hn c hc => by
    rcases hn.2.1 c hc with h | rfl
    · constructor <;> (rintro rfl; revert h; decide)
    · decide
  rw [Path.tail] at hc
  rcases List.mem_append.1 hc with hc | hc
  · exact hf (hp _ (.head _)) c hc
  · obtain ⟨s, hs, hc⟩ := List.mem_flatMap.1 hc
    obtain ⟨n, rfl⟩ := h s hs
    rcases List.mem_cons.1 hc with rfl | hc
    · decide
    · exact hf (hp n (.tail _ hs)) c hc

theorem unsliced_plain {r : Str} (h : '[' ∉ r) : unsliced r = r := by
  have := unsliced_skip (b := r) (r := []) h
  rw [List.append_nil] at this
  rw [this]
  exact List.append_nil r

variable {ns : List Str}

theorem Spec.BaseField.base_ne (h : BaseField ns) : join gs"." ns ≠ [] := by
  obtain ⟨x, l, rfl⟩ := List.exists_cons_of_ne_nil h.ne
  intro e
  cases l with
  | nil => exact (h.all x (by simp)).1 e
  | cons y l => rw [join_cons (by simp)] at e; simp at e

theorem Spec.BaseField.char (h : BaseField ns) : ∀ c ∈ join gs"." ns, c.isAlphanum = true ∨ c = '_' ∨ c = '.' := by
  have : ∀ {l : List Str}, (∀ n ∈ l, FieldName n) → ∀ c ∈ join gs"." l, c.isAlphanum = true ∨ c = '_' ∨ c = '.' := by
    intro l
    induction l with
    | nil => intro _ c hc; simp [join] at hc
    | cons x l ih =>
      intro hl c hc
      have hx : c ∈ x → c.isAlphanum = true ∨ c = '_' ∨ c = '.' := fun hc => ((hl x (by simp)).2.1 c hc).imp id .inl
      by_cases hne : l = []
      · subst hne; exact hx hc
      · rw [join_cons hne] at hc
        rcases List.mem_append.1 hc with hc | hc
        · rcases List.mem_append.1 hc with hc | hc
          · exact hx hc
          · right; right; simpa using hc
        · exact ih (fun n hn => hl n (by simp [hn])) c hc
  exact this h.all

theorem Spec.BaseField.absent (h : BaseField ns) {c : Char} (hc : ¬ (c.isAlphanum = true ∨ c = '_' ∨ c = '.')) : c ∉ join gs"." ns := fun hm => hc (h.char c hm)

theorem Spec.BaseField.ok (h : BaseField ns) : BaseOk (join gs"." ns) := ⟨h.absent (by decide), h.absent (by decide)⟩

theorem Spec.BaseField.names (h : BaseField ns) : BaseNames (join gs"." ns) := by
  obtain ⟨x, l, rfl⟩ := List.exists_cons_of_ne_nil h.ne
  exact .inr ⟨x, l, fieldName_pathName (h.all x (by simp)), fun n hn => fieldName_pathName (h.all n (by simp [hn])), rfl⟩

theorem Spec.BaseField.split (h : BaseField ns) {l : List Str} (hl : l ≠ []) (hp : ∀ n ∈ l, PathName n) :
    Mapl.split '.' (below (join gs"." ns) (join gs"." l)) = ns ++ l := by
  rw [below, if_neg h.base_ne, ← join_append h.ne hl]
  exact split_names (by simp [hl]) fun n hn => (List.mem_append.1 hn).elim (fun hn => fieldName_pathName (h.all n hn)) (hp n)

theorem steps_names {p : Path} (hp : PlainSteps p.steps) : p.steps.map stepName ≠ [] ∧ ∀ n ∈ p.steps.map stepName, PathName n :=
  ⟨by simp [Path.steps], stepName_pathName hp⟩

/-! ### Translation -/

theorem leaf_place {p : Path} {i : Bool} (hb : BaseField ns) (hp : PlainSteps p.steps) (h : p.start = if i then .element else .document) (pl : Spec.Place) (ps : Str) :
    LeafOk (join gs"." ns) pl ps (gs"jsonpath:" ++ p.text) := by
  have hn : PathName p.name ∧ ∀ g ∈ p.rest.map stepSeg, PathName g.name := by
    refine ⟨fieldName_pathName (hp _ (.head _)), fun g hg => ?_⟩
    obtain ⟨s, hs, rfl⟩ := List.mem_map.1 hg
    rw [stepSeg_name]
    exact stepName_pathName hp _ (List.mem_map.2 ⟨s, .tail _ hs, rfl⟩)
  rw [path_start_text h]
  cases i with
  | false =>
    refine LeafOk.absolute (r := p.tail) ?_
    rw [tail_pathText]
    exact balanced_path (fun c hc => hb.absent (by revert hc; revert c; decide)) hn.1 hn.2
  | true =>
    refine LeafOk.relative (r := p.tail) ?_
    rw [tail_pathText]
    have := balanced_path (x := []) (by simp) hn.1 hn.2
    simpa using this

theorem parent_place {p : ListPath} {i : Bool} (hb : BaseField ns) (hp : PlainSteps p.steps) (h : p.start = if i then .element else .document)
    (hf : ∀ s ∈ p.rest, ∃ n, s = .field n) : PlainParent (join gs"." ns) (gs"jsonpath:" ++ p.full) ∧
      (if i then Relative (gs"jsonpath:" ++ p.full) else Absolute (gs"jsonpath:" ++ p.full)) ∧ ¬ (∃ r, gs"jsonpath:" ++ p.full = gs"jsonpath:$.." ++ r) := by
  have hc : contains (p.tail ++ p.mark.text) gs"jsonpath:" = false := by
    have h0 : contains p.tail gs"jsonpath:" = false := contains_of_mem (c := ':') (by simp) fun hm => (fields_plain hp hf _ hm).2 rfl
    refine Bool.eq_false_iff.2 fun hct => ?_
    cases hk : p.mark with
    | none =>
      rw [hk, Mark.text, List.append_nil, h0] at hct
      cases hct
    | slice =>
      rw [hk] at hct
      rcases contains_split (x := '[') (t := gs":]") (by decide) hct (by simp) with h' | h'
      · rw [h0] at h'; cases h'
      · revert h'; decide
    | star =>
      rw [hk] at hct
      rcases contains_split (x := '[') (t := gs"*]") (by decide) hct (by simp) with h' | h'
      · rw [h0] at h'; cases h'
      · revert h'; decide
  have hd : ∀ r, p.tail ++ p.mark.text ≠ '.' :: r := by
    intro r hr
    obtain ⟨h1, h2, -⟩ := hp _ (.head _)
    rw [Path.tail] at hr
    cases hn : p.name with
    | nil => exact h1 hn
    | cons c n =>
      rw [hn] at hr
      simp only [List.cons_append, List.cons.injEq] at hr
      have := h2 c (by rw [hn]; simp)
      rw [hr.1] at this
      revert this; decide
  rw [full_start_text h]
  cases i with
  | false =>
    refine ⟨.inl ⟨p.tail ++ p.mark.text, rfl, hb.base_ne, hc⟩, ⟨p.tail ++ p.mark.text, rfl⟩, ?_⟩
    rintro ⟨r, hr⟩
    simp at hr
    exact hd r hr
  | true =>
    refine ⟨.inr ⟨p.tail ++ p.mark.text, rfl, hc⟩, ⟨p.tail ++ p.mark.text, rfl⟩, ?_⟩
    rintro ⟨r, hr⟩
    simp at hr

theorem not_asks {p : Path} {i : Bool} (h : p.start = if i then .element else .document) : asksEntry (gs"jsonpath:" ++ p.text) = false := by
  rw [path_start_text h]
  cases i
  · exact not_asks_absolute ⟨p.tail, rfl⟩
  · exact not_asks_relative ⟨p.tail, rfl⟩

theorem parent_field {p : ListPath} {i : Bool} (hf : ∀ s ∈ p.rest, ∃ n, s = .field n) (hp : PlainSteps p.steps) (h : p.start = if i then .element else .document) :
    parentName (join gs"." ns) (gs"jsonpath:" ++ p.full) =
      (if i then dotted p.name (p.rest.map stepSeg) else below (join gs"." ns) (dotted p.name (p.rest.map stepSeg))) ∧
    (Absolute (gs"jsonpath:" ++ p.full) ↔ i = false) := by
  have hu : unsliced (p.tail ++ p.mark.text) = p.tail := by
    rw [unsliced_skip fun hm => (fields_plain hp hf _ hm).1 rfl]
    cases p.mark <;> simp [Mark.text, unsliced, replaceAll, replaceAux, List.isPrefixOf]
  have ht : p.tail = dotted p.name (p.rest.map stepSeg) := by rw [fields_tail hf, tail_dotted]
  rw [full_start_text h]
  cases i with
  | false =>
    refine ⟨?_, by simp [Absolute]⟩
    have hp : hasPrefix (gs"jsonpath:$." ++ (p.tail ++ p.mark.text)) gs"jsonpath:$." = true := (hasPrefix_iff ..).2 ⟨_, rfl⟩
    simp only [Bool.false_eq_true, if_false] at *
    rw [← ht]
    exact (if_pos hp).trans (congrArg (below _) hu)
  | true =>
    have hno : ¬ Absolute (gs"jsonpath:$RELATIVE." ++ (p.tail ++ p.mark.text)) := fun h => not_absolute_relative ⟨p.tail ++ p.mark.text, rfl⟩ h
    refine ⟨?_, ?_⟩
    · have hp : ¬ hasPrefix (gs"jsonpath:$RELATIVE." ++ (p.tail ++ p.mark.text)) gs"jsonpath:$." = true := by rw [hasPrefix_iff]; rintro ⟨r, hr⟩; exact hno ⟨r, hr⟩
      simp only [if_true] at *
      rw [← ht]
      exact (if_neg hp).trans hu
    · simpa using hno

/-! ### Entries -/

/-- The names on a path. -/
def pathNames (p : Path) : List Str := p.steps.map stepName

theorem pathNames_ne (p : Path) : pathNames p ≠ [] := by simp [pathNames, Path.steps]

theorem enough_not {m : Str} (h : OneIsEnough m) : m ∉ [gs"in", gs"nin"] := fun hm => h (by
  simp only [List.mem_cons, List.not_mem_nil, or_false] at hm
  rcases hm with rfl | rfl <;> decide)

/-- The field of the object whose entries are asked for. -/
theorem entry_parent {p : Path} (hb : BaseField ns) (hp : PlainSteps p.steps) (h : p.start = .document) (hf : ∀ s ∈ p.rest, ∃ n, s = .field n) :
    parentName (join gs"." ns) (gs"jsonpath:" ++ ListPath.full { p with }) = join gs"." (ns ++ pathNames p) := by
  have := (parent_field (ns := ns) (p := { p with }) (i := false) hf hp h).1
  simp only [Bool.false_eq_true, if_false] at this
  rw [this, tail_dotted, below, if_neg hb.base_ne]
  exact (join_append hb.ne (pathNames_ne p)).symm

theorem entry_enter {p : Path} (hp : PlainSteps p.steps) (h : p.start = .document) (hf : ∀ s ∈ p.rest, ∃ n, s = .field n) :
    Spec.Place.top.enter (gs"jsonpath:" ++ ListPath.full { p with }) = .inAny := by
  have hn : ∀ y, ¬ '[' :: y <:+ gs"jsonpath:" ++ ListPath.full { p with } := by
    rintro y ⟨x, hx⟩
    have hm : '[' ∈ gs"jsonpath:" ++ ListPath.full { p with } := by rw [← hx]; simp
    rw [full_start_text (i := false) (p := { p with }) h] at hm
    simp only [Bool.false_eq_true, if_false, Mark.text, List.append_nil] at hm
    rcases List.mem_append.1 hm with hm | hm
    · revert hm; decide
    · rcases List.mem_append.1 hm with hm | hm
      · revert hm; decide
      · exact (fields_plain hp hf _ hm).1 rfl
  rw [Place.enter, if_pos]
  exact ⟨rfl, fun h => h.elim (hn _) (hn _)⟩

theorem names_path {p : Path} (hb : BaseField ns) (hp : PlainSteps p.steps) : ∀ n ∈ ns ++ pathNames p, PathName n := fun n hn =>
  (List.mem_append.1 hn).elim (fun hn => fieldName_pathName (hb.all n hn)) (stepName_pathName hp n)

theorem names_clean {l : List Str} (h : ∀ n ∈ l, PathName n) : ∀ c ∈ ['"', '\'', '[', ']'], c ∉ join gs"." l := by
  induction l with
  | nil => simp [join]
  | cons x l ih =>
    intro c hc hm
    have hx : c ∉ x := fun hm => (h x (by simp)).2 c hm (.tail _ hc)
    by_cases hne : l = []
    · subst hne; exact hx hm
    · rw [join_cons hne] at hm
      rcases List.mem_append.1 hm with hm | hm
      · rcases List.mem_append.1 hm with hm | hm
        · exact hx hm
        · cases List.mem_singleton.1 hm
          revert hc; decide
      · exact ih (fun n hn => h n (by simp [hn])) c hc hm

theorem names_balanced {p : Path} (hb : BaseField ns) (hp : PlainSteps p.steps) : Balanced (join gs"." (ns ++ pathNames p)) := by
  have := (balanced_skip (s := []) (names_clean (names_path hb hp))).2 (by unfold Balanced; decide)
  rwa [List.append_nil] at this

mutual
theorem claim_translatable (hb : BaseField ns) : ∀ (f : Claim) (i : Bool) (pl : Spec.Place) (ps : Str), (i = false → pl = .top) → f.Plain → f.Findable i →
    Translatable (join gs"." ns) pl ps (f.statement.tree env) ∧ PlainParents (join gs"." ns) (f.statement.tree env)
  | .attr _ _ _, _, _, _, _, _, hf => by rw [Claim.Findable] at hf; exact hf.elim
  | .key _ _, _, _, _, _, _, hf => by rw [Claim.Findable] at hf; exact hf.elim
  | .value _ _, _, _, _, _, _, hf => by rw [Claim.Findable] at hf; exact hf.elim
  | .anyEntry p f, i, pl, ps, hi, hpl, hf => by
    rw [Claim.Plain] at hpl
    rw [Claim.Findable] at hf
    obtain ⟨rfl, hst, hfs, hf⟩ := hf
    obtain ⟨h1, -, h3⟩ := parent_place (p := { p with }) (i := false) hb hpl.1 hst hfs
    rw [Claim.statement, Statement.tree, Translatable, PlainParents]
    show (¬ (∃ r, gs"jsonpath:" ++ (parentOf [{ p with }]).text = gs"jsonpath:$.." ++ r) ∧
      Translatable _ (pl.enter (gs"jsonpath:" ++ (parentOf [{ p with }]).text)) (parentName _ (gs"jsonpath:" ++ (parentOf [{ p with }]).text)) _) ∧
      (PlainParent _ (gs"jsonpath:" ++ (parentOf [{ p with }]).text) ∧ _)
    rw [parent_text, entry_parent hb hpl.1 hst hfs, hi rfl, entry_enter hpl.1 hst hfs]
    refine ⟨⟨h3, ?_⟩, h1, ?_⟩
    · cases hf with
      | key hm =>
        rw [Claim.statement, Statement.tree, condNode, Translatable, (parsed_fields _ _ _ _).1, (parsed_fields _ _ _ _).2]
        exact ⟨LeafOk.key (r := []) (by decide) (names_balanced hb hpl.1) (by rintro ⟨x, y, h⟩; simp at h), enough_not hm⟩
      | value hm =>
        rw [Claim.statement, Statement.tree, condNode, Translatable, (parsed_fields _ _ _ _).1, (parsed_fields _ _ _ _).2]
        exact ⟨LeafOk.value (r := []) (by decide) (by rw [List.append_nil]; exact names_balanced hb hpl.1), enough_not hm⟩
    · cases hf <;> simp [Claim.statement, Statement.tree, condNode, PlainParents]
  | .allEntries _ _, _, _, _, _, _, hf => by rw [Claim.Findable] at hf; exact hf.elim
  | .test p m v, i, pl, ps, hi, hpl, hf => by
    rw [Claim.Plain] at hpl
    rw [Claim.Findable] at hf
    rw [Claim.statement, Statement.tree, condNode]
    refine ⟨?_, by simp [PlainParents]⟩
    rw [Translatable, (parsed_fields _ _ _ _).1, (parsed_fields _ _ _ _).2]
    exact ⟨leaf_place hb hpl hf.1 pl ps, hf.2⟩
  | .and fs, i, pl, ps, hi, hpl, hf => by
    rw [Claim.Plain] at hpl
    rw [Claim.Findable] at hf
    rw [Claim.statement, Statement.tree, Translatable, PlainParents]
    exact claims_translatable hb fs i pl hi hpl hf
  | .or fs, i, pl, ps, hi, hpl, hf => by
    rw [Claim.Plain] at hpl
    rw [Claim.Findable] at hf
    rw [Claim.statement, Statement.tree, Translatable, PlainParents]
    exact claims_translatable hb fs i pl hi hpl hf
  | .not f, i, pl, ps, hi, hpl, hf => by
    rw [Claim.Plain] at hpl
    rw [Claim.Findable] at hf
    rw [Claim.statement, Statement.tree, Translatable, PlainParents]
    exact claim_translatable hb f i pl [] hi hpl hf
  | .any ps' f, i, pl, ps, hi, hpl, hf => by
    rw [Claim.Plain] at hpl
    rw [Claim.Findable] at hf
    obtain ⟨p, rfl, hf⟩ := hf
    replace hpl := single_plain hpl
    rw [Claim.statement, Statement.tree, Translatable, PlainParents]
    obtain ⟨h1, -, h3⟩ := parent_place hb hpl.1 hf.1 hf.2.1
    have hf' := hf.2.2
    show (¬ (∃ r, gs"jsonpath:" ++ (parentOf [p]).text = gs"jsonpath:$.." ++ r) ∧ _) ∧ (PlainParent _ (gs"jsonpath:" ++ (parentOf [p]).text) ∧ _)
    rw [parent_text]
    obtain ⟨k1, k2⟩ := claim_translatable hb f true (pl.enter (anyFields env (gs"jsonpath:" ++ p.full) []).parentOrig)
      (parentName (join gs"." ns) (anyFields env (gs"jsonpath:" ++ p.full) []).parentOrig) (by simp) hpl.2 hf'
    exact ⟨⟨h3, k1⟩, h1, k2⟩
  | .all ps' f, i, pl, ps, hi, hpl, hf => by
    rw [Claim.Plain] at hpl
    rw [Claim.Findable] at hf
    obtain ⟨p, rfl, hf⟩ := hf
    replace hpl := single_plain hpl
    rw [Claim.statement, Statement.tree, Translatable, PlainParents]
    obtain ⟨h1, -, h3⟩ := parent_place hb hpl.1 hf.1 hf.2.1
    have hf' := hf.2.2
    show (¬ (∃ r, gs"jsonpath:" ++ (parentOf [p]).text = gs"jsonpath:$.." ++ r) ∧ _) ∧ (PlainParent _ (gs"jsonpath:" ++ (parentOf [p]).text) ∧ _)
    rw [parent_text]
    obtain ⟨k1, k2⟩ := claim_translatable hb f true .deeper [] (by simp) hpl.2 hf'
    exact ⟨⟨h3, k1⟩, h1, k2⟩

theorem claims_translatable (hb : BaseField ns) : ∀ (fs : List Claim) (i : Bool) (pl : Spec.Place), (i = false → pl = .top) → Claim.AllPlain fs → Claim.AllFindable i fs →
    (∀ n ∈ Statement.trees env (Claim.statements fs), Translatable (join gs"." ns) pl [] n) ∧
    (∀ n ∈ Statement.trees env (Claim.statements fs), PlainParents (join gs"." ns) n)
  | [], _, _, _, _, _ => by simp [Claim.statements, Statement.trees]
  | f :: fs, i, pl, hi, hpl, hf => by
    rw [Claim.AllPlain] at hpl
    rw [Claim.AllFindable] at hf
    rw [Claim.statements, Statement.trees]
    obtain ⟨a1, a2⟩ := claim_translatable hb f i pl [] hi hpl.1 hf.1
    obtain ⟨b1, b2⟩ := claims_translatable hb fs i pl hi hpl.2 hf.2
    refine ⟨fun n hn => ?_, fun n hn => ?_⟩
    · rcases List.mem_cons.1 hn with rfl | hn
      · exact a1
      · exact b1 n hn
    · rcases List.mem_cons.1 hn with rfl | hn
      · exact a2
      · exact b2 n hn
end

/-! ### Prepared trees -/

theorem cond_prepare {a m v : Str} {n : Node} (h : (condNode env a m v none).prepare env t = .ok n) :
    ∃ c, n = .cond c ∧ (parsed env a m v none).prepare env t = .ok c ∧ c.origAttr = a := by
  simp only [condNode, Node.prepare, Go.bind_eq_ok] at h
  obtain ⟨c, hc, h⟩ := h
  simp only [Go.pure_eq, Except.ok.injEq] at h
  obtain ⟨-, -, -, ho, -⟩ := prepared_fields hc
  exact ⟨c, h.symm, hc, ho⟩

/-- The condition on an entry. -/
theorem entry_leaf {f : Claim} {n : Node} (hf : EntryTest f) (h : (f.statement.tree env).prepare env t = .ok n) : entryLeaf n = true ∧ ∀ base ps, entries base ps n = [ps] := by
  have key : ∀ {a m v : Str}, asksEntry a = true → (condNode env a m v none).prepare env t = .ok n → entryLeaf n = true ∧ ∀ base ps, entries base ps n = [ps] := by
    intro a m v ha h
    obtain ⟨c, rfl, -, ho⟩ := cond_prepare h
    rw [entryLeaf, ho]
    exact ⟨ha, fun base ps => by rw [entries, ho, if_pos ha]⟩
  cases hf with
  | key hm => rw [Claim.statement, Statement.tree] at h; exact key rfl h
  | value hm => rw [Claim.statement, Statement.tree] at h; exact key rfl h

mutual
theorem claim_scoped (hb : BaseField ns) : ∀ (f : Claim) (i : Bool) (n : Node), f.Plain → f.Findable i → (f.statement.tree env).prepare env t = .ok n →
    Scoped (join gs"." ns) i n ∧ entryLeaf n = false
  | .attr _ _ _, _, _, _, hf, _ => by rw [Claim.Findable] at hf; exact hf.elim
  | .key _ _, _, _, _, hf, _ => by rw [Claim.Findable] at hf; exact hf.elim
  | .value _ _, _, _, _, hf, _ => by rw [Claim.Findable] at hf; exact hf.elim
  | .anyEntry p f, i, n, hpl, hf, h => by
    rw [Claim.Plain] at hpl
    rw [Claim.Findable] at hf
    obtain ⟨rfl, hst, hfs, hf⟩ := hf
    simp only [Claim.statement, Statement.tree, Node.prepare, Go.bind_eq_ok] at h
    obtain ⟨l, hl, a, ha, h⟩ := h
    simp only [Go.pure_eq, Except.ok.injEq] at h
    subst h
    obtain ⟨h3, h4, -⟩ := parent_place (p := { p with }) (i := false) hb hpl.1 hst hfs
    have ho : a.parentOrig = gs"jsonpath:" ++ ListPath.full { p with } := (anyAll_prepare_orig ha).trans (by rw [← parent_text]; rfl)
    rw [Scoped, ho]
    exact ⟨⟨h3, h4, .inl ⟨rfl, (entry_leaf hf hl).1⟩⟩, rfl⟩
  | .allEntries _ _, _, _, _, hf, _ => by rw [Claim.Findable] at hf; exact hf.elim
  | .test p m v, i, n, hpl, hf, h => by
    rw [Claim.Findable] at hf
    rw [Claim.statement, Statement.tree] at h
    obtain ⟨c, rfl, -, ho⟩ := cond_prepare h
    rw [Scoped, entryLeaf, ho]
    refine ⟨?_, not_asks hf.1⟩
    rw [path_start_text hf.1]
    cases i
    · exact ⟨_, rfl⟩
    · exact ⟨_, rfl⟩
  | .and fs, i, n, hpl, hf, h => by
    rw [Claim.Plain] at hpl
    rw [Claim.Findable] at hf
    simp only [Claim.statement, Statement.tree, Node.prepare, Go.bind_eq_ok] at h
    obtain ⟨l, hl, h⟩ := h
    simp only [Go.pure_eq, Except.ok.injEq] at h
    subst h
    rw [Scoped]
    exact ⟨claims_scoped hb fs i l hpl hf hl, rfl⟩
  | .or fs, i, n, hpl, hf, h => by
    rw [Claim.Plain] at hpl
    rw [Claim.Findable] at hf
    simp only [Claim.statement, Statement.tree, Node.prepare, Go.bind_eq_ok] at h
    obtain ⟨l, hl, h⟩ := h
    simp only [Go.pure_eq, Except.ok.injEq] at h
    subst h
    rw [Scoped]
    exact ⟨claims_scoped hb fs i l hpl hf hl, rfl⟩
  | .not f, i, n, hpl, hf, h => by
    rw [Claim.Plain] at hpl
    rw [Claim.Findable] at hf
    simp only [Claim.statement, Statement.tree, Node.prepare, Go.bind_eq_ok] at h
    obtain ⟨l, hl, h⟩ := h
    simp only [Go.pure_eq, Except.ok.injEq] at h
    subst h
    rw [Scoped]
    exact ⟨(claim_scoped hb f i l hpl hf hl).1, rfl⟩
  | .any ps f, i, n, hpl, hf, h => by
    rw [Claim.Plain] at hpl
    rw [Claim.Findable] at hf
    obtain ⟨p, rfl, hf⟩ := hf
    replace hpl := single_plain hpl
    simp only [Claim.statement, Statement.tree, Node.prepare, Go.bind_eq_ok] at h
    obtain ⟨l, hl, a, ha, h⟩ := h
    simp only [Go.pure_eq, Except.ok.injEq] at h
    subst h
    obtain ⟨h1, h2⟩ := claim_scoped hb f true l hpl.2 hf.2.2 hl
    obtain ⟨h3, h4, -⟩ := parent_place hb hpl.1 hf.1 hf.2.1
    have ho : a.parentOrig = gs"jsonpath:" ++ p.full := (anyAll_prepare_orig ha).trans (by rw [← parent_text]; rfl)
    rw [Scoped, ho]
    exact ⟨⟨h3, h4, .inr ⟨h2, h1⟩⟩, rfl⟩
  | .all ps f, i, n, hpl, hf, h => by
    rw [Claim.Plain] at hpl
    rw [Claim.Findable] at hf
    obtain ⟨p, rfl, hf⟩ := hf
    replace hpl := single_plain hpl
    simp only [Claim.statement, Statement.tree, Node.prepare, Go.bind_eq_ok] at h
    obtain ⟨l, hl, a, ha, h⟩ := h
    simp only [Go.pure_eq, Except.ok.injEq] at h
    subst h
    obtain ⟨h1, h2⟩ := claim_scoped hb f true l hpl.2 hf.2.2 hl
    obtain ⟨h3, h4, -⟩ := parent_place hb hpl.1 hf.1 hf.2.1
    have ho : a.parentOrig = gs"jsonpath:" ++ p.full := (anyAll_prepare_orig ha).trans (by rw [← parent_text]; rfl)
    rw [Scoped, ho]
    exact ⟨⟨h3, h4, h2, h1⟩, rfl⟩

theorem claims_scoped (hb : BaseField ns) : ∀ (fs : List Claim) (i : Bool) (l : List Node), Claim.AllPlain fs → Claim.AllFindable i fs →
    prepareNodes env t (Statement.trees env (Claim.statements fs)) = .ok l → ∀ n ∈ l, Scoped (join gs"." ns) i n
  | [], _, l, _, _, h => by
    simp only [Claim.statements, Statement.trees, prepareNodes, Go.pure_eq, Except.ok.injEq] at h
    subst h
    simp
  | f :: fs, i, l, hpl, hf, h => by
    rw [Claim.AllPlain] at hpl
    rw [Claim.AllFindable] at hf
    simp only [Claim.statements, Statement.trees, prepareNodes, Go.bind_eq_ok] at h
    obtain ⟨n, hn, l', hl, h⟩ := h
    simp only [Go.pure_eq, Except.ok.injEq] at h
    subst h
    intro x hx
    rcases List.mem_cons.1 hx with rfl | hx
    · exact (claim_scoped hb f i _ hpl.1 hf.1 hn).1
    · exact claims_scoped hb fs i l' hpl.2 hf.2 hl x hx
end

/-! ### The formula -/

/-- Where the claim is judged: the stored document, or an element. -/
def At (doc d : Json) (cur : Option Json) (i : Bool) : Prop := if i then cur = some d ∧ NoNumberNames d else d = doc

variable {doc root : Json}

theorem path_field {p : Path} {i : Bool} {d : Json} {cur o : Option Json} (hb : BaseField ns) (hr : Leads doc (ns.map .field) (some root)) (hn : NoNumberNames root)
    (hp : PlainSteps p.steps) (h : p.start = if i then .element else .document) (ha : At doc d cur i) (hl : p.Leads root cur o) :
    reach (split '.' (if i then dotted p.name (p.rest.map stepSeg) else below (join gs"." ns) (dotted p.name (p.rest.map stepSeg)))) d = o.toList := by
  obtain ⟨h1, h2⟩ := steps_names hp
  rw [tail_dotted]
  cases i with
  | false =>
    cases hl with
    | document hs hl =>
      simp only [At, Bool.false_eq_true, if_false] at ha ⊢
      rw [hb.split h1 h2, ha, reach_base hr, reach_leads hl hn]
    | element hs => rw [hs] at h; cases h
  | true =>
    cases hl with
    | document hs hl => rw [hs] at h; cases h
    | element hs hc hl =>
      simp only [At, if_true] at ha ⊢
      rw [ha.1] at hc
      cases hc
      rw [split_names h1 h2, reach_leads hl ha.2]

theorem test_formula {p : Path} {m v : Str} {i : Bool} {c : Condition} {d : Json} {cur : Option Json} (hre : RegexpOk env) (hp : PathsOk env) (hb : BaseField ns)
    (hr : Leads doc (ns.map .field) (some root)) (hn : NoNumberNames root) (hpl : PlainSteps p.steps) (hst : p.start = if i then .element else .document)
    (hm : m ∉ [gs"in", gs"nin"]) (h : (parsed env (gs"jsonpath:" ++ p.text) m v none).prepare env t = .ok c) (ha : At doc d cur i) {o : Option Json} {w : Str} {P : Prop}
    (hl : p.Leads root cur o) (hv : ValueResolves env t m v w) (hS : TestSays env o m w P) (hk : OneKind env o m w) (hx : NoReference w) :
    Own (mongoDB env) env (join gs"." ns) [] d (.cond c) ↔ P := by
  obtain ⟨x, hc⟩ := (leaf_iff (k := 0) (pl := .top) (base := join gs"." ns) (ps := []) (by simp) h).2 ⟨leaf_place hb hpl hst .top [], hm⟩
  have hseg : PathName p.name ∧ ∀ g ∈ p.rest.map stepSeg, PathName g.name := by
    refine ⟨fieldName_pathName (hpl _ (.head _)), fun g hg => ?_⟩
    obtain ⟨s, hs, rfl⟩ := List.mem_map.1 hg
    rw [stepSeg_name]
    exact stepName_pathName hpl _ (List.mem_map.2 ⟨s, .tail _ hs, rfl⟩)
  have hop : OperatorOf env (if i then dotted p.name (p.rest.map stepSeg) else below (join gs"." ns) (dotted p.name (p.rest.map stepSeg))) w m x.1 := by
    cases i with
    | false =>
      obtain ⟨-, w', hw', h'⟩ := Props.C51_field (ps := []) (k := 0) hb.names hseg.1 hseg.2 (by rw [path_start_text hst, tail_pathText]; rfl) h hc
      rw [resolves_unique hv hw'] at hx ⊢
      exact h' ⟨hx.2, hx.1⟩
    | true =>
      obtain ⟨-, w', hw', h'⟩ := Props.C51_field_relative (ps := []) (k := 0) hseg.1 hseg.2 (by rw [path_start_text hst, tail_pathText]; rfl) h hc
      rw [resolves_unique hv hw'] at hx ⊢
      exact h' ⟨hx.2, hx.1⟩
  have := test_query hre hp hop hS hk (path_field hb hr hn hpl hst ha hl)
  rw [Own]
  constructor
  · rintro ⟨x', hx', hsel⟩
    rw [hc] at hx'
    cases hx'
    exact this.1 hsel
  · exact fun hP => ⟨x, hc, this.2 hP⟩

open Classical in
theorem elements_of {p : ListPath} {i : Bool} {d : Json} {cur : Option Json} {l : List Json} (hb : BaseField ns) (hr : Leads doc (ns.map .field) (some root)) (hn : NoNumberNames root)
    (hp : PlainSteps p.steps) (h : p.start = if i then .element else .document) (hf : ∀ s ∈ p.rest, ∃ n, s = .field n) (ha : At doc d cur i)
    (hl : Gathers root cur p l) :
    (mongoDB env).elems (parentName (join gs"." ns) (gs"jsonpath:" ++ p.full)) (if Absolute (gs"jsonpath:" ++ p.full) then doc else d) = l ∧ ∀ e ∈ l, NoNumberNames e := by
  obtain ⟨h1, h2⟩ := parent_field (ns := ns) hf hp h
  have hd : (if Absolute (gs"jsonpath:" ++ p.full) then doc else d) = d := by
    cases i with
    | false => simp only [At, Bool.false_eq_true, if_false] at ha; rw [ha]; simp
    | true => exact if_neg fun h => by simpa using h2.1 h
  refine ⟨?_, fun e he => ?_⟩
  · rw [hd, h1]
    show (reach (split '.' _) d).flatMap items = l
    cases hl with
    | there hl =>
      rw [path_field hb hr hn hp h ha hl]
      simp [items]
    | missing hl =>
      rw [path_field hb hr hn hp h ha hl]
      simp
  · cases hl with
    | missing => cases he
    | there hl => ?_
    cases hl with
    | document hs hl => exact noNumbers_element hl he hn
    | element hs hc hl =>
      cases i with
      | false => rw [hs] at h; cases h
      | true =>
        simp only [At, if_true] at ha
        rw [ha.1] at hc
        cases hc
        exact noNumbers_element hl he ha.2

mutual
/-- The steps of the query: one for each object whose entries are asked for. -/
theorem claim_entries (hb : BaseField ns) : ∀ (f : Claim) (i : Bool) (n : Node) (ps : Str), f.Plain → f.Findable i → (f.statement.tree env).prepare env t = .ok n →
    entries (join gs"." ns) ps n = f.entryPaths.map fun p => join gs"." (ns ++ pathNames p)
  | .attr _ _ _, _, _, _, _, hf, _ => by rw [Claim.Findable] at hf; exact hf.elim
  | .key _ _, _, _, _, _, hf, _ => by rw [Claim.Findable] at hf; exact hf.elim
  | .value _ _, _, _, _, _, hf, _ => by rw [Claim.Findable] at hf; exact hf.elim
  | .allEntries _ _, _, _, _, _, hf, _ => by rw [Claim.Findable] at hf; exact hf.elim
  | .test p m v, i, n, ps, hpl, hf, h => by
    rw [Claim.Findable] at hf
    rw [Claim.statement, Statement.tree] at h
    obtain ⟨c, rfl, -, ho⟩ := cond_prepare h
    rw [entries, ho, not_asks hf.1, Claim.entryPaths]
    · rfl
    all_goals simp
  | .and fs, i, n, ps, hpl, hf, h => by
    rw [Claim.Plain] at hpl
    rw [Claim.Findable] at hf
    simp only [Claim.statement, Statement.tree, Node.prepare, Go.bind_eq_ok] at h
    obtain ⟨l, hl, h⟩ := h
    simp only [Go.pure_eq, Except.ok.injEq] at h
    subst h
    rw [entries, Claim.entryPaths]
    exact claims_entries hb fs i l hpl hf hl
  | .or fs, i, n, ps, hpl, hf, h => by
    rw [Claim.Plain] at hpl
    rw [Claim.Findable] at hf
    simp only [Claim.statement, Statement.tree, Node.prepare, Go.bind_eq_ok] at h
    obtain ⟨l, hl, h⟩ := h
    simp only [Go.pure_eq, Except.ok.injEq] at h
    subst h
    rw [entries, Claim.entryPaths]
    exact claims_entries hb fs i l hpl hf hl
  | .not f, i, n, ps, hpl, hf, h => by
    rw [Claim.Plain] at hpl
    rw [Claim.Findable] at hf
    simp only [Claim.statement, Statement.tree, Node.prepare, Go.bind_eq_ok] at h
    obtain ⟨l, hl, h⟩ := h
    simp only [Go.pure_eq, Except.ok.injEq] at h
    subst h
    rw [entries, Claim.entryPaths]
    exact claim_entries hb f i l [] hpl hf hl
  | .any ps' f, i, n, ps, hpl, hf, h => by
    rw [Claim.Plain] at hpl
    rw [Claim.Findable] at hf
    obtain ⟨p, rfl, hf⟩ := hf
    simp only [Claim.statement, Statement.tree, Node.prepare, Go.bind_eq_ok] at h
    obtain ⟨l, hl, a, ha, h⟩ := h
    simp only [Go.pure_eq, Except.ok.injEq] at h
    subst h
    rw [entries, Claim.entryPaths]
    exact claim_entries hb f true l _ hpl.2 hf.2.2 hl
  | .all ps' f, i, n, ps, hpl, hf, h => by
    rw [Claim.Plain] at hpl
    rw [Claim.Findable] at hf
    obtain ⟨p, rfl, hf⟩ := hf
    simp only [Claim.statement, Statement.tree, Node.prepare, Go.bind_eq_ok] at h
    obtain ⟨l, hl, a, ha, h⟩ := h
    simp only [Go.pure_eq, Except.ok.injEq] at h
    subst h
    rw [entries, Claim.entryPaths]
    exact claim_entries hb f true l _ hpl.2 hf.2.2 hl
  | .anyEntry p f, i, n, ps, hpl, hf, h => by
    rw [Claim.Plain] at hpl
    rw [Claim.Findable] at hf
    obtain ⟨rfl, hst, hfs, hf⟩ := hf
    simp only [Claim.statement, Statement.tree, Node.prepare, Go.bind_eq_ok] at h
    obtain ⟨l, hl, a, ha, h⟩ := h
    simp only [Go.pure_eq, Except.ok.injEq] at h
    subst h
    have ho : a.parentOrig = gs"jsonpath:" ++ ListPath.full { p with } := (anyAll_prepare_orig ha).trans (by rw [← parent_text]; rfl)
    rw [entries, (entry_leaf hf hl).2, ho, entry_parent hb hpl.1 hst hfs, Claim.entryPaths]
    cases hf <;> rw [Claim.entryPaths] <;> simp

theorem claims_entries (hb : BaseField ns) : ∀ (fs : List Claim) (i : Bool) (l : List Node), Claim.AllPlain fs → Claim.AllFindable i fs →
    prepareNodes env t (Statement.trees env (Claim.statements fs)) = .ok l →
    entriesOf (join gs"." ns) l = (Claim.allEntryPaths fs).map fun p => join gs"." (ns ++ pathNames p)
  | [], _, l, _, _, h => by
    simp only [Claim.statements, Statement.trees, prepareNodes, Go.pure_eq, Except.ok.injEq] at h
    subst h
    rw [entriesOf, Claim.allEntryPaths]
    rfl
  | f :: fs, i, l, hpl, hf, h => by
    rw [Claim.AllPlain] at hpl
    rw [Claim.AllFindable] at hf
    simp only [Claim.statements, Statement.trees, prepareNodes, Go.bind_eq_ok] at h
    obtain ⟨n, hn, l', hl, h⟩ := h
    simp only [Go.pure_eq, Except.ok.injEq] at h
    subst h
    rw [entriesOf, Claim.allEntryPaths, List.map_append, claim_entries hb f i n [] hpl.1 hf.1 hn, claims_entries hb fs i l' hpl.2 hf.2 hl]
end

theorem operator_move {f f' w m : Str} {q : MQuery} (h : OperatorOf env f w m q) : OperatorOf env f' w m (methodQuery env f' w (methodNo m)) := by
  have hv := compared (env := env) w
  cases h with
  | eq hm h => rw [methodNo_of hm (k := 0) (by decide)]; exact .eq hm hv
  | ne hm h => rw [methodNo_of hm (k := 1) (by decide)]; exact .ne hm hv
  | gt hm h => rw [methodNo_of hm (k := 2) (by decide)]; exact .gt hm hv
  | ge hm h => rw [methodNo_of hm (k := 3) (by decide)]; exact .ge hm hv
  | lt hm h => rw [methodNo_of hm (k := 4) (by decide)]; exact .lt hm hv
  | le hm h => rw [methodNo_of hm (k := 5) (by decide)]; exact .le hm hv
  | ex hm => rw [methodNo_of hm (k := 6) (by decide)]; exact .ex hm
  | nex hm => rw [methodNo_of hm (k := 7) (by decide)]; exact .nex hm
  | re hm => rw [methodNo_of hm (k := 8) (by decide)]; exact .re hm
  | nre hm => rw [methodNo_of hm (k := 9) (by decide)]; exact .nre hm
  | list hm => rw [methodNo_of hm (k := 10) (by decide)]; exact .list hm
  | notList hm => subst hm; exact .notList rfl

/-- Methods for which one is enough, on all values that are reached. -/
theorem enough_any {f w m : Str} {q : MQuery} {d : Json} (hm : OneIsEnough m) (h : OperatorOf env f w m q) :
    selects (mongoDB env) q d = (reach (split '.' f) d).any fun u => selects (mongoDB env) (methodQuery env gs"x" w (methodNo m)) (.obj [(gs"x", u)]) := by
  have hx : ∀ u : Json, reach (split '.' gs"x") (.obj [(gs"x", u)]) = [u] := fun u => rfl
  cases h with
  | eq hm h => rw [methodNo_of hm (k := 0) (by decide), compared_value h]; simp only [methodQuery, selects, mongoDB, mongoTest, someValue, hx, List.any_cons, List.any_nil, Bool.or_false]
  | ne hm' h => exact absurd hm ((by unfold OneIsEnough; decide : ∀ x ∈ [gs"NEQ", gs"NE", gs"neq", gs"ne"], ¬ OneIsEnough x) m hm')
  | gt hm h => rw [methodNo_of hm (k := 2) (by decide), compared_value h]; simp only [methodQuery, selects, mongoDB, mongoTest, someValue, hx, List.any_cons, List.any_nil, Bool.or_false]
  | ge hm h => rw [methodNo_of hm (k := 3) (by decide), compared_value h]; simp only [methodQuery, selects, mongoDB, mongoTest, someValue, hx, List.any_cons, List.any_nil, Bool.or_false]
  | lt hm h => rw [methodNo_of hm (k := 4) (by decide), compared_value h]; simp only [methodQuery, selects, mongoDB, mongoTest, someValue, hx, List.any_cons, List.any_nil, Bool.or_false]
  | le hm h => rw [methodNo_of hm (k := 5) (by decide), compared_value h]; simp only [methodQuery, selects, mongoDB, mongoTest, someValue, hx, List.any_cons, List.any_nil, Bool.or_false]
  | ex hm =>
    rw [methodNo_of hm (k := 6) (by decide)]
    simp only [methodQuery, selects, mongoDB, mongoTest, hx]
    cases reach (split '.' f) d <;> simp
  | nex hm' => exact absurd hm ((by unfold OneIsEnough; decide : ∀ x ∈ [gs"NEX", gs"nex"], ¬ OneIsEnough x) m hm')
  | re hm => rw [methodNo_of hm (k := 8) (by decide)]; simp only [methodQuery, selects, mongoDB, mongoTest, someValue, hx, List.any_cons, List.any_nil, Bool.or_false]
  | nre hm' => exact absurd hm ((by unfold OneIsEnough; decide : ∀ x ∈ [gs"NRE", gs"nre"], ¬ OneIsEnough x) m hm')
  | list hm => rw [methodNo_of hm (k := 10) (by decide)]; simp only [methodQuery, selects, mongoDB, mongoTest, someValue, hx, List.any_cons, List.any_nil, Bool.or_false]
  | notList hm' => subst hm'; exact absurd hm (by unfold OneIsEnough; decide)

/-- The entries of an object. -/
def entriesIn : Option Json → List (Str × Json)
  | some (.obj kvs) => kvs
  | _ => []

/-- The entries in the added field. -/
theorem reach_entries {ks : List Str} {o : Option Json} (ho : o = none ∨ ∃ kvs, o = some (.obj kvs)) (h : Leads doc (fieldsOf ks) (some (objectToArray o))) :
    reach (ks ++ [gs"k"]) doc = ((entriesIn o).map fun kv => .str kv.1) ∧ reach (ks ++ [gs"v"]) doc = (entriesIn o).map fun kv => kv.2 := by
  rw [reach_base h, reach_base h]
  rcases ho with rfl | ⟨kvs, rfl⟩
  · exact ⟨rfl, rfl⟩
  · have hk : parseNat gs"k" = none := by decide
    have hv : parseNat gs"v" = none := by decide
    simp only [objectToArray, entriesIn, reach, hk, hv, List.nil_append, List.flatMap_map]
    clear h
    constructor
    · induction kvs with
      | nil => rfl
      | cons kv kvs ih => simp only [List.flatMap_cons, List.map_cons, ih]; rfl
    · induction kvs with
      | nil => rfl
      | cons kv kvs ih => simp only [List.flatMap_cons, List.map_cons, ih]; rfl

/-- The query of a condition on the entries. -/
theorem entry_own {p : Path} {a x m v w : Str} {c : Condition} {d : Json} (hb : BaseField ns) (hpl : PlainSteps p.steps) (hm : OneIsEnough m)
    (hax : a = gs"jsonpath:$KEY" ∧ x = gs"k" ∨ a = gs"jsonpath:$VALUE" ∧ x = gs"v")
    (h : (parsed env a m v none).prepare env t = .ok c) (hv : ValueResolves env t m v w) (hx : NoReference w) :
    ∃ q, OperatorOf env q w m (methodQuery env q w (methodNo m)) ∧ (Own (mongoDB env) env (join gs"." ns) (join gs"." (ns ++ pathNames p)) d (.cond c) ↔
      (reach (addedName :: (ns ++ pathNames p) ++ [x]) d).any (fun u => selects (mongoDB env) (methodQuery env gs"x" w (methodNo m)) (.obj [(gs"x", u)])) = true) := by
  have hleaf : LeafOk (join gs"." ns) .top (join gs"." (ns ++ pathNames p)) a := by
    rcases hax with ⟨rfl, -⟩ | ⟨rfl, -⟩
    · exact LeafOk.key (r := []) (by decide) (names_balanced hb hpl) (by rintro ⟨x, y, h⟩; simp at h)
    · exact LeafOk.value (r := []) (by decide) (by rw [List.append_nil]; exact names_balanced hb hpl)
  obtain ⟨y, hc⟩ := (leaf_iff (k := 0) (pl := .top) (base := join gs"." ns) (by simp) h).2 ⟨hleaf, enough_not hm⟩
  obtain ⟨-, w', s, f, hw', hf, hq, hop⟩ := condition_query h hc
  cases resolves_unique hv hw'
  have hnames : ∀ n ∈ addedName :: (ns ++ pathNames p), PathName n := by
    intro n hn
    rcases List.mem_cons.1 hn with rfl | hn
    · exact ⟨by decide, by decide⟩
    · exact names_path hb hpl n hn
  have hxn : PathName x := by rcases hax with ⟨-, rfl⟩ | ⟨-, rfl⟩ <;> exact ⟨by decide, by decide⟩
  have hne : join gs"." (addedName :: (ns ++ pathNames p)) ≠ [] := by rw [join_cons (by simp [hb.ne])]; simp
  have hs : s = below (join gs"." (addedName :: (ns ++ pathNames p))) (pathText x []) := by
    rw [below, if_neg hne, join_cons (by simp [hb.ne])]
    rcases hax with ⟨rfl, rfl⟩ | ⟨rfl, rfl⟩
    · have : mongoField (join gs"." ns) (join gs"." (ns ++ pathNames p)) 0 gs"jsonpath:$KEY" =
          .ok (gs"addedField." ++ join gs"." (ns ++ pathNames p) ++ gs".k", [⟨gs"addedField." ++ join gs"." (ns ++ pathNames p), join gs"." (ns ++ pathNames p)⟩]) := rfl
      rw [this] at hf
      simp only [Except.ok.injEq, Prod.mk.injEq] at hf
      rw [← hf.1]
      simp [pathText]
    · have : mongoField (join gs"." ns) (join gs"." (ns ++ pathNames p)) 0 gs"jsonpath:$VALUE" =
          .ok (gs"addedField." ++ join gs"." (ns ++ pathNames p) ++ gs".v" ++ [], [⟨gs"addedField." ++ join gs"." (ns ++ pathNames p), join gs"." (ns ++ pathNames p)⟩]) := rfl
      rw [this] at hf
      simp only [Except.ok.injEq, Prod.mk.injEq] at hf
      rw [← hf.1]
      simp [pathText]
  rw [hs, removeQuotes_base (.inr ⟨addedName, ns ++ pathNames p, hnames _ (by simp), fun n hn => hnames n (.tail _ hn), rfl⟩) hxn (by simp)] at hq
  simp only [Except.ok.injEq] at hq
  have hd : dotted x [] = join gs"." [x] := rfl
  have hsplit : split '.' f = addedName :: (ns ++ pathNames p) ++ [x] := by
    rw [← hq, below, if_neg hne, hd, ← join_append (by simp) (by simp)]
    exact split_names (by simp) fun n hn => (List.mem_append.1 hn).elim (hnames n) fun hn => by cases List.mem_singleton.1 hn; exact hxn
  have hop := hop ⟨hx.2, hx.1⟩
  refine ⟨f, operator_move hop, ?_⟩
  rw [← hsplit, ← enough_any hm hop, Own]
  constructor
  · rintro ⟨x', hx', hsel⟩
    rw [hc] at hx'
    cases hx'
    exact hsel
  · exact fun hP => ⟨y, hc, hP⟩

theorem entry_found {p : Path} {a x m v : Str} {c : Condition} {cur : Option Json} {proj : Str × Json → Json} (hre : RegexpOk env) (hp : PathsOk env) (hb : BaseField ns)
    (hpl : PlainSteps p.steps) (hst : p.start = .document) (hm : OneIsEnough m)
    (hax : (a = gs"jsonpath:$KEY" ∧ x = gs"k" ∧ proj = fun kv => .str kv.1) ∨ (a = gs"jsonpath:$VALUE" ∧ x = gs"v" ∧ proj = fun kv => kv.2))
    (h : (parsed env a m v none).prepare env t = .ok c)
    (hE : ∀ o, Leads root p.steps o → Leads doc (fieldsOf (addedName :: (ns ++ pathNames p))) (some (objectToArray o)))
    (hc : ∀ w, ValueResolves env t m v w → NoReference w)
    (hd : (∃ kvs, p.Leads root cur (some (.obj kvs)) ∧ ∀ kv ∈ kvs, ∃ w P, ValueResolves env t m v w ∧ TestSays env (some (proj kv)) m w P) ∨ p.Leads root cur none)
    (hk : ∀ kvs, p.Leads root cur (some (.obj kvs)) → ∀ kv ∈ kvs, ∀ w, ValueResolves env t m v w → OneKind env (some (proj kv)) m w) :
    Own (mongoDB env) env (join gs"." ns) (join gs"." (ns ++ pathNames p)) doc (.cond c) ↔
      ∃ kvs, p.Leads root cur (some (.obj kvs)) ∧ ∃ kv ∈ kvs, ∃ w P, ValueResolves env t m v w ∧ TestSays env (some (proj kv)) m w P ∧ P := by
  obtain ⟨w, hv, -⟩ := prepared_fields h
  obtain ⟨q, hop, hown⟩ := entry_own (p := p) (x := x) (d := doc) hb hpl hm (hax.imp (fun h => ⟨h.1, h.2.1⟩) fun h => ⟨h.1, h.2.1⟩) h hv (hc w hv)
  have hlead : ∀ {o}, p.Leads root cur o → Leads root p.steps o := by
    intro o hl
    cases hl with
    | document _ h => exact h
    | element hs => rw [hst] at hs; cases hs
  have hreach : ∀ o, p.Leads root cur o → (o = none ∨ ∃ kvs, o = some (.obj kvs)) → reach (addedName :: (ns ++ pathNames p) ++ [x]) doc =
      (entriesIn o).map proj := by
    intro o hl ho
    have := reach_entries ho (hE o (hlead hl))
    rcases hax with ⟨-, rfl, rfl⟩ | ⟨-, rfl, rfl⟩
    · exact this.1
    · exact this.2
  rw [hown]
  rcases hd with ⟨kvs, hl, hd⟩ | hl
  · rw [hreach _ hl (.inr ⟨_, rfl⟩), entriesIn]
    simp only [List.any_map, List.any_eq_true, Function.comp]
    have each : ∀ kv ∈ kvs, ∀ w' P, ValueResolves env t m v w' → TestSays env (some (proj kv)) m w' P →
        (selects (mongoDB env) (methodQuery env gs"x" w (methodNo m)) (.obj [(gs"x", proj kv)]) = true ↔ P) := by
      intro kv hkv w' P hv' hS
      cases resolves_unique hv hv'
      exact test_query hre hp (operator_move hop) hS (hk kvs hl kv hkv w hv) rfl
    constructor
    · rintro ⟨kv, hkv, hs⟩
      obtain ⟨w', P, hv', hS⟩ := hd kv hkv
      exact ⟨kvs, hl, kv, hkv, w', P, hv', hS, (each kv hkv w' P hv' hS).1 hs⟩
    · rintro ⟨kvs', hl', kv, hkv, w', P, hv', hS, hP⟩
      cases path_unique hl hl'
      exact ⟨kv, hkv, (each kv hkv w' P hv' hS).2 hP⟩
  · rw [hreach _ hl (.inl rfl)]
    refine iff_of_false (by simp [entriesIn]) ?_
    rintro ⟨kvs, hl', -⟩
    cases path_unique hl hl'

/-- A condition on the entries holds for one of them exactly if the query finds the document with the added field. -/
theorem entry_formula {msg : Msg} {p : Path} {f : Claim} {n : Node} {cur : Option Json} (hre : RegexpOk env) (hp : PathsOk env) (hb : BaseField ns) (hpl : PlainSteps p.steps)
    (hst : p.start = .document) (hf : EntryTest f) (h : (f.statement.tree env).prepare env t = .ok n)
    (hE : ∀ o, Leads root p.steps o → Leads doc (fieldsOf (addedName :: (ns ++ pathNames p))) (some (objectToArray o)))
    (hd : (Claim.anyEntry p f).Clear env t msg root cur) (hk : (Claim.anyEntry p f).Typed env t msg root cur) :
    Own (mongoDB env) env (join gs"." ns) (join gs"." (ns ++ pathNames p)) doc n ↔ (Claim.anyEntry p f).Holds env t msg root cur := by
  rw [Claim.Clear] at hd
  rw [Claim.Typed] at hk
  rw [Claim.Holds]
  cases hf with
  | @key m v hm =>
    rw [Claim.statement, Statement.tree] at h
    obtain ⟨c, rfl, hc, -⟩ := cond_prepare h
    simp only [Claim.Constant] at hk
    rw [entry_found (cur := cur) (proj := fun kv => .str kv.1) hre hp hb hpl hst hm (.inl ⟨rfl, rfl, rfl⟩) hc hE hk.1]
    · refine exists_congr fun kvs => and_congr_right fun hl => exists_congr fun kv => and_congr_right fun hkv => ?_
      rw [Claim.Holds]
      constructor
      · rintro ⟨w, P, h⟩; exact ⟨kv.1, kv.2, w, P, rfl, h⟩
      · rintro ⟨k, j, w, P, e, h⟩; cases e; exact ⟨w, P, h⟩
    · refine hd.imp (fun ⟨kvs, hl, hd⟩ => ⟨kvs, hl, fun kv hkv => ?_⟩) fun h => h.1
      have := (hd kv hkv).2
      rw [Claim.Clear] at this
      obtain ⟨k, j, w, P, e, h1, h2⟩ := this
      cases e
      exact ⟨w, P, h1, h2⟩
    · intro kvs hl kv hkv w hw
      have := hk.2 kvs hl kv hkv
      rw [Claim.Typed] at this
      exact this kv.1 kv.2 w rfl hw
  | @value m v hm =>
    rw [Claim.statement, Statement.tree] at h
    obtain ⟨c, rfl, hc, -⟩ := cond_prepare h
    simp only [Claim.Constant] at hk
    rw [entry_found (cur := cur) (proj := fun kv => kv.2) hre hp hb hpl hst hm (.inr ⟨rfl, rfl, rfl⟩) hc hE hk.1]
    · refine exists_congr fun kvs => and_congr_right fun hl => exists_congr fun kv => and_congr_right fun hkv => ?_
      rw [Claim.Holds]
      constructor
      · rintro ⟨w, P, h⟩; exact ⟨kv.1, kv.2, w, P, rfl, h⟩
      · rintro ⟨k, j, w, P, e, h⟩; cases e; exact ⟨w, P, h⟩
    · refine hd.imp (fun ⟨kvs, hl, hd⟩ => ⟨kvs, hl, fun kv hkv => ?_⟩) fun h => h.1
      have := (hd kv hkv).2
      rw [Claim.Clear] at this
      obtain ⟨k, j, w, P, e, -, h1, h2⟩ := this
      cases e
      exact ⟨w, P, h1, h2⟩
    · intro kvs hl kv hkv w hw
      have := hk.2 kvs hl kv hkv
      rw [Claim.Typed] at this
      exact this kv.1 kv.2 w rfl hw

open Classical in
mutual
theorem claim_formula {msg : Msg} (hre : RegexpOk env) (hp : PathsOk env) (hb : BaseField ns) (hr : Leads doc (ns.map .field) (some root)) (hn : NoNumberNames root) :
    ∀ (f : Claim) (i : Bool) (n : Node) (d : Json) (cur : Option Json), (∀ p ∈ f.entryPaths, ∀ o, Leads root p.steps o → Leads doc (fieldsOf (addedName :: (ns ++ pathNames p))) (some (objectToArray o))) →
      f.Plain → f.Findable i → (f.statement.tree env).prepare env t = .ok n → At doc d cur i →
      f.Clear env t msg root cur → f.Typed env t msg root cur → (Formula (mongoDB env) env (join gs"." ns) doc n d ↔ f.Holds env t msg root cur)
  | .attr _ _ _, _, _, _, _, _, _, hf, _, _, _, _ => by rw [Claim.Findable] at hf; exact hf.elim
  | .key _ _, _, _, _, _, _, _, hf, _, _, _, _ => by rw [Claim.Findable] at hf; exact hf.elim
  | .value _ _, _, _, _, _, _, _, hf, _, _, _, _ => by rw [Claim.Findable] at hf; exact hf.elim
  | .anyEntry p f, i, n, d, cur, hE, hpl, hf, h, ha, hd, hk => by
    rw [Claim.Plain] at hpl
    rw [Claim.Findable] at hf
    rw [Claim.entryPaths] at hE
    obtain ⟨rfl, hst, hfs, hf⟩ := hf
    simp only [Claim.statement, Statement.tree, Node.prepare, Go.bind_eq_ok] at h
    obtain ⟨n', hn', a, hpa, h⟩ := h
    simp only [Go.pure_eq, Except.ok.injEq] at h
    subst h
    have ho : a.parentOrig = gs"jsonpath:" ++ ListPath.full { p with } := (anyAll_prepare_orig hpa).trans (by rw [← parent_text]; rfl)
    rw [Formula, if_pos (entry_leaf hf hn').1, ho, entry_parent hb hpl.1 hst hfs]
    exact entry_formula hre hp hb hpl.1 hst hf hn' (hE p (by simp)) hd hk
  | .allEntries _ _, _, _, _, _, _, _, hf, _, _, _, _ => by rw [Claim.Findable] at hf; exact hf.elim
  | .test p m v, i, n, d, cur, hE, hpl, hf, h, ha, hd, hk => by
    rw [Claim.Plain] at hpl
    rw [Claim.Findable] at hf
    rw [Claim.statement, Statement.tree] at h
    rw [Claim.Clear] at hd
    rw [Claim.Typed] at hk
    obtain ⟨c, rfl, hc, ho⟩ := cond_prepare h
    have key : ∀ o w P, p.Leads root cur o → ValueResolves env t m v w → TestSays env o m w P →
        (Formula (mongoDB env) env (join gs"." ns) doc (.cond c) d ↔ P) := by
      intro o w P hl hv hS
      obtain ⟨k1, k2⟩ := hk o w hl hv
      have := test_formula hre hp hb hr hn hpl hf.1 hf.2 hc ha hl hv hS k1 k2
      rw [Formula, ho]
      have hd : (if Absolute (gs"jsonpath:" ++ p.text) then doc else d) = d := by
        rw [path_start_text hf.1]
        cases i with
        | false => simp only [At, Bool.false_eq_true, if_false] at ha; rw [ha]; simp
        | true => exact if_neg fun h => not_absolute_relative ⟨p.tail, rfl⟩ h
      rw [hd]
      exact this
    obtain ⟨o, w, P, hl, hv, hS⟩ := hd
    rw [Claim.Holds]
    constructor
    · exact fun h => ⟨o, w, P, hl, hv, hS, (key o w P hl hv hS).1 h⟩
    · rintro ⟨o', w', P', hl', hv', hS', hP⟩
      exact (key o' w' P' hl' hv' hS').2 hP
  | .and fs, i, n, d, cur, hE, hpl, hf, h, ha, hd, hk => by
    rw [Claim.Plain] at hpl
    rw [Claim.Findable] at hf
    rw [Claim.Clear] at hd
    rw [Claim.Typed] at hk
    simp only [Claim.statement, Statement.tree, Node.prepare, Go.bind_eq_ok] at h
    obtain ⟨l, hl, h⟩ := h
    simp only [Go.pure_eq, Except.ok.injEq] at h
    subst h
    rw [Formula, Claim.Holds]
    exact claims_formulaAll hre hp hb hr hn fs i l d cur (by rwa [Claim.entryPaths] at hE) hpl hf hl ha hd hk
  | .or fs, i, n, d, cur, hE, hpl, hf, h, ha, hd, hk => by
    rw [Claim.Plain] at hpl
    rw [Claim.Findable] at hf
    rw [Claim.Clear] at hd
    rw [Claim.Typed] at hk
    simp only [Claim.statement, Statement.tree, Node.prepare, Go.bind_eq_ok] at h
    obtain ⟨l, hl, h⟩ := h
    simp only [Go.pure_eq, Except.ok.injEq] at h
    subst h
    rw [Formula, Claim.Holds]
    exact claims_formulaSome hre hp hb hr hn fs i l d cur (by rwa [Claim.entryPaths] at hE) hpl hf hl ha hd hk
  | .not f, i, n, d, cur, hE, hpl, hf, h, ha, hd, hk => by
    rw [Claim.Plain] at hpl
    rw [Claim.Findable] at hf
    rw [Claim.Clear] at hd
    rw [Claim.Typed] at hk
    simp only [Claim.statement, Statement.tree, Node.prepare, Go.bind_eq_ok] at h
    obtain ⟨l, hl, h⟩ := h
    simp only [Go.pure_eq, Except.ok.injEq] at h
    subst h
    rw [Formula, Claim.Holds]
    exact not_congr (claim_formula hre hp hb hr hn f i l d cur (by rwa [Claim.entryPaths] at hE) hpl hf hl ha hd hk)
  | .any ps f, i, n, d, cur, hE, hpl, hf, h, ha, hd, hk => by
    rw [Claim.Plain] at hpl
    rw [Claim.Findable] at hf
    obtain ⟨p, rfl, hf⟩ := hf
    replace hpl := single_plain hpl
    rw [Claim.Clear] at hd
    rw [Claim.Typed] at hk
    simp only [Claim.statement, Statement.tree, Node.prepare, Go.bind_eq_ok] at h
    obtain ⟨n', hn', a, hpa, h⟩ := h
    simp only [Go.pure_eq, Except.ok.injEq] at h
    subst h
    obtain ⟨l, hl, hd⟩ := single_list hd.1
    have ho : a.parentOrig = gs"jsonpath:" ++ p.full := (anyAll_prepare_orig hpa).trans (by rw [← parent_text]; rfl)
    have he := elements_of (env := env) hb hr hn hpl.1 hf.1 hf.2.1 ha hl
    have each : ∀ e ∈ l, (Formula (mongoDB env) env (join gs"." ns) doc n' e ↔ f.Holds env t msg root (some e)) := fun e hem =>
      claim_formula hre hp hb hr hn f true n' e (some e) (by rwa [Claim.entryPaths] at hE) hpl.2 hf.2.2 hn' (by rw [At, if_pos rfl]; exact ⟨rfl, he.2 e hem⟩) (hd e hem).2 (hk p (by simp) l (gathers_leads hl hem) e hem)
    rw [Formula, if_neg (by rw [(claim_scoped hb f true n' hpl.2 hf.2.2 hn').2]; simp), Claim.Holds, ho, he.1]
    constructor
    · rintro ⟨e, hem, h⟩
      exact ⟨p, by simp, l, gathers_leads hl hem, e, hem, (each e hem).1 h⟩
    · rintro ⟨p', hp', l', hl', e, hem, h⟩
      cases List.mem_singleton.1 hp'
      cases gathers_unique hl hl'
      exact ⟨e, hem, (each e hem).2 h⟩
  | .all ps f, i, n, d, cur, hE, hpl, hf, h, ha, hd, hk => by
    rw [Claim.Plain] at hpl
    rw [Claim.Findable] at hf
    obtain ⟨p, rfl, hf⟩ := hf
    replace hpl := single_plain hpl
    rw [Claim.Clear] at hd
    rw [Claim.Typed] at hk
    simp only [Claim.statement, Statement.tree, Node.prepare, Go.bind_eq_ok] at h
    obtain ⟨n', hn', a, hpa, h⟩ := h
    simp only [Go.pure_eq, Except.ok.injEq] at h
    subst h
    obtain ⟨l, hl, hd⟩ := single_list hd.1
    have ho : a.parentOrig = gs"jsonpath:" ++ p.full := (anyAll_prepare_orig hpa).trans (by rw [← parent_text]; rfl)
    have he := elements_of (env := env) hb hr hn hpl.1 hf.1 hf.2.1 ha hl
    have each : ∀ e ∈ l, (Formula (mongoDB env) env (join gs"." ns) doc n' e ↔ f.Holds env t msg root (some e)) := fun e hem =>
      claim_formula hre hp hb hr hn f true n' e (some e) (by rwa [Claim.entryPaths] at hE) hpl.2 hf.2.2 hn' (by rw [At, if_pos rfl]; exact ⟨rfl, he.2 e hem⟩) (hd e hem).2 (hk p (by simp) l (gathers_leads hl hem) e hem)
    rw [Formula, Claim.Holds, ho, he.1]
    constructor
    · intro h p' hp' l' hl' e hem
      cases List.mem_singleton.1 hp'
      cases gathers_unique hl hl'
      exact (each e hem).1 (h e hem)
    · exact fun h e hem => (each e hem).2 (h p (by simp) l (gathers_leads hl hem) e hem)

theorem claims_formulaAll {msg : Msg} (hre : RegexpOk env) (hp : PathsOk env) (hb : BaseField ns) (hr : Leads doc (ns.map .field) (some root)) (hn : NoNumberNames root) :
    ∀ (fs : List Claim) (i : Bool) (l : List Node) (d : Json) (cur : Option Json),
      (∀ p ∈ Claim.allEntryPaths fs, ∀ o, Leads root p.steps o → Leads doc (fieldsOf (addedName :: (ns ++ pathNames p))) (some (objectToArray o))) → Claim.AllPlain fs → Claim.AllFindable i fs →
      prepareNodes env t (Statement.trees env (Claim.statements fs)) = .ok l → At doc d cur i →
      Claim.ClearInTurn env t msg root fs cur → Claim.TypedInTurn env t msg root fs cur →
      (FormulaAll (mongoDB env) env (join gs"." ns) doc l d ↔ Claim.AllHold env t msg root fs cur)
  | [], _, l, _, _, _, _, _, h, _, _, _ => by
    simp only [Claim.statements, Statement.trees, prepareNodes, Go.pure_eq, Except.ok.injEq] at h
    subst h
    rw [FormulaAll, Claim.AllHold]
  | f :: fs, i, l, d, cur, hE, hpl, hf, h, ha, hd, hk => by
    rw [Claim.AllPlain] at hpl
    rw [Claim.AllFindable] at hf
    rw [Claim.ClearInTurn] at hd
    rw [Claim.TypedInTurn] at hk
    simp only [Claim.statements, Statement.trees, prepareNodes, Go.bind_eq_ok] at h
    obtain ⟨n, hn', l', hl, h⟩ := h
    simp only [Go.pure_eq, Except.ok.injEq] at h
    subst h
    rw [FormulaAll, Claim.AllHold, claim_formula hre hp hb hr hn f i n d cur (fun p hp => hE p (by rw [Claim.allEntryPaths]; simp [hp])) hpl.1 hf.1 hn' ha hd.1 hk.1]
    exact and_congr_right fun hh => claims_formulaAll hre hp hb hr hn fs i l' d cur (fun p hp => hE p (by rw [Claim.allEntryPaths]; simp [hp])) hpl.2 hf.2 hl ha (hd.2 hh) (hk.2 hh)

theorem claims_formulaSome {msg : Msg} (hre : RegexpOk env) (hp : PathsOk env) (hb : BaseField ns) (hr : Leads doc (ns.map .field) (some root)) (hn : NoNumberNames root) :
    ∀ (fs : List Claim) (i : Bool) (l : List Node) (d : Json) (cur : Option Json),
      (∀ p ∈ Claim.allEntryPaths fs, ∀ o, Leads root p.steps o → Leads doc (fieldsOf (addedName :: (ns ++ pathNames p))) (some (objectToArray o))) → Claim.AllPlain fs → Claim.AllFindable i fs →
      prepareNodes env t (Statement.trees env (Claim.statements fs)) = .ok l → At doc d cur i →
      Claim.AllClear env t msg root fs cur → Claim.AllTyped env t msg root fs cur →
      (FormulaSome (mongoDB env) env (join gs"." ns) doc l d ↔ Claim.SomeHolds env t msg root fs cur)
  | [], _, l, _, _, _, _, _, h, _, _, _ => by
    simp only [Claim.statements, Statement.trees, prepareNodes, Go.pure_eq, Except.ok.injEq] at h
    subst h
    rw [FormulaSome, Claim.SomeHolds]
  | f :: fs, i, l, d, cur, hE, hpl, hf, h, ha, hd, hk => by
    rw [Claim.AllPlain] at hpl
    rw [Claim.AllFindable] at hf
    rw [Claim.AllClear] at hd
    rw [Claim.AllTyped] at hk
    simp only [Claim.statements, Statement.trees, prepareNodes, Go.bind_eq_ok] at h
    obtain ⟨n, hn', l', hl, h⟩ := h
    simp only [Go.pure_eq, Except.ok.injEq] at h
    subst h
    rw [FormulaSome, Claim.SomeHolds, claim_formula hre hp hb hr hn f i n d cur (fun p hp => hE p (by rw [Claim.allEntryPaths]; simp [hp])) hpl.1 hf.1 hn' ha hd.1 hk.1]
    exact or_congr_right (claims_formulaSome hre hp hb hr hn fs i l' d cur (fun p hp => hE p (by rw [Claim.allEntryPaths]; simp [hp])) hpl.2 hf.2 hl ha hd.2 hk.2)
end

/-! ### Paths of entries -/

mutual
theorem claim_entry_plain : ∀ (f : Claim) (i : Bool), f.Plain → f.Findable i → ∀ p ∈ f.entryPaths, PlainSteps p.steps
  | .attr _ _ _, _, _, hf => by rw [Claim.Findable] at hf; exact hf.elim
  | .key _ _, _, _, hf => by rw [Claim.Findable] at hf; exact hf.elim
  | .value _ _, _, _, hf => by rw [Claim.Findable] at hf; exact hf.elim
  | .allEntries _ _, _, _, hf => by rw [Claim.Findable] at hf; exact hf.elim
  | .test _ _ _, _, _, _ => by simp [Claim.entryPaths]
  | .and fs, i, hpl, hf => by rw [Claim.Plain] at hpl; rw [Claim.Findable] at hf; rw [Claim.entryPaths]; exact claims_entry_plain fs i hpl hf
  | .or fs, i, hpl, hf => by rw [Claim.Plain] at hpl; rw [Claim.Findable] at hf; rw [Claim.entryPaths]; exact claims_entry_plain fs i hpl hf
  | .not f, i, hpl, hf => by rw [Claim.Plain] at hpl; rw [Claim.Findable] at hf; rw [Claim.entryPaths]; exact claim_entry_plain f i hpl hf
  | .any _ f, i, hpl, hf => by
    rw [Claim.Plain] at hpl; rw [Claim.Findable] at hf; rw [Claim.entryPaths]
    obtain ⟨_, _, _, _, hf⟩ := hf
    exact claim_entry_plain f true hpl.2 hf
  | .all _ f, i, hpl, hf => by
    rw [Claim.Plain] at hpl; rw [Claim.Findable] at hf; rw [Claim.entryPaths]
    obtain ⟨_, _, _, _, hf⟩ := hf
    exact claim_entry_plain f true hpl.2 hf
  | .anyEntry p f, i, hpl, hf => by
    rw [Claim.Plain] at hpl
    rw [Claim.Findable] at hf
    obtain ⟨_, _, _, hf⟩ := hf
    intro q hq
    cases hf <;> (simp only [Claim.entryPaths, List.mem_singleton] at hq; rw [hq]; exact hpl.1)

theorem claims_entry_plain : ∀ (fs : List Claim) (i : Bool), Claim.AllPlain fs → Claim.AllFindable i fs → ∀ p ∈ Claim.allEntryPaths fs, PlainSteps p.steps
  | [], _, _, _ => by simp [Claim.allEntryPaths]
  | f :: fs, i, hpl, hf => by
    rw [Claim.AllPlain] at hpl
    rw [Claim.AllFindable] at hf
    intro p hp
    rw [Claim.allEntryPaths] at hp
    rcases List.mem_append.1 hp with hp | hp
    · exact claim_entry_plain f i hpl.1 hf.1 p hp
    · exact claims_entry_plain fs i hpl.2 hf.2 p hp
end

mutual
theorem claim_entry_fields : ∀ (f : Claim) (i : Bool), f.Findable i → ∀ p ∈ f.entryPaths, ∀ s ∈ p.steps, ∃ n, s = .field n
  | .attr _ _ _, _, hf => by rw [Claim.Findable] at hf; exact hf.elim
  | .key _ _, _, hf => by rw [Claim.Findable] at hf; exact hf.elim
  | .value _ _, _, hf => by rw [Claim.Findable] at hf; exact hf.elim
  | .allEntries _ _, _, hf => by rw [Claim.Findable] at hf; exact hf.elim
  | .test _ _ _, _, _ => by simp [Claim.entryPaths]
  | .and fs, i, hf => by rw [Claim.Findable] at hf; rw [Claim.entryPaths]; exact claims_entry_fields fs i hf
  | .or fs, i, hf => by rw [Claim.Findable] at hf; rw [Claim.entryPaths]; exact claims_entry_fields fs i hf
  | .not f, i, hf => by rw [Claim.Findable] at hf; rw [Claim.entryPaths]; exact claim_entry_fields f i hf
  | .any _ f, i, hf => by
    rw [Claim.Findable] at hf; rw [Claim.entryPaths]
    obtain ⟨_, _, _, _, hf⟩ := hf
    exact claim_entry_fields f true hf
  | .all _ f, i, hf => by
    rw [Claim.Findable] at hf; rw [Claim.entryPaths]
    obtain ⟨_, _, _, _, hf⟩ := hf
    exact claim_entry_fields f true hf
  | .anyEntry p f, i, hf => by
    rw [Claim.Findable] at hf
    obtain ⟨_, _, hfs, hf⟩ := hf
    intro q hq s hs
    have hq : q = p := by cases hf <;> simpa [Claim.entryPaths] using hq
    subst hq
    rcases List.mem_cons.1 hs with rfl | hs
    · exact ⟨_, rfl⟩
    · exact hfs s hs

theorem claims_entry_fields : ∀ (fs : List Claim) (i : Bool), Claim.AllFindable i fs → ∀ p ∈ Claim.allEntryPaths fs, ∀ s ∈ p.steps, ∃ n, s = .field n
  | [], _, _ => by simp [Claim.allEntryPaths]
  | f :: fs, i, hf => by
    rw [Claim.AllFindable] at hf
    intro p hp
    rw [Claim.allEntryPaths] at hp
    rcases List.mem_append.1 hp with hp | hp
    · exact claim_entry_fields f i hf.1 p hp
    · exact claims_entry_fields fs i hf.2 p hp
end

theorem names_prefix {p q : List Step} (hp : ∀ s ∈ p, ∃ n, s = .field n) (hq : ∀ s ∈ q, ∃ n, s = .field n) (h : p.map stepName <+: q.map stepName) : p <+: q := by
  induction p generalizing q with
  | nil => exact List.nil_prefix
  | cons s p ih =>
    cases q with
    | nil => simp at h
    | cons s' q =>
      obtain ⟨n, rfl⟩ := hp s (by simp)
      obtain ⟨n', rfl⟩ := hq s' (by simp)
      simp only [List.map_cons, stepName, List.cons_prefix_cons] at h ⊢
      exact ⟨by rw [h.1], ih (fun s hs => hp s (by simp [hs])) (fun s hs => hq s (by simp [hs])) h.2⟩

/-- The parent paths of a scoped tree are plain. -/
theorem scoped_parents {base : Str} : ∀ {n : Node} {i : Bool}, Scoped base i n → PlainParents base n
  | .nil, _, _ => by simp [PlainParents]
  | .tt, _, _ => by simp [PlainParents]
  | .ff, _, _ => by simp [PlainParents]
  | .cond _, _, _ => by simp [PlainParents]
  | .and ns, i, h => by rw [Scoped] at h; rw [PlainParents]; exact fun n hn => scoped_parents (h n hn)
  | .or ns, i, h => by rw [Scoped] at h; rw [PlainParents]; exact fun n hn => scoped_parents (h n hn)
  | .not n, i, h => by rw [Scoped] at h; rw [PlainParents]; exact scoped_parents h
  | .any a n, i, h => by
    rw [Scoped] at h
    rw [PlainParents]
    refine ⟨h.1, ?_⟩
    rcases h.2.2 with ⟨-, he⟩ | ⟨-, h⟩
    · cases n <;> first | (simp [entryLeaf] at he; done) | simp [PlainParents]
    · exact scoped_parents h
  | .all a n, i, h => by rw [Scoped] at h; rw [PlainParents]; exact ⟨h.1, scoped_parents h.2.2.2⟩

end Mapl

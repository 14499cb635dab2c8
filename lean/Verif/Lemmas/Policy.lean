import Verif.Spec.Policy
import Verif.Props.Texts
import Verif.Props.Tree
import Verif.Props.Copy
import Verif.Lemmas.Mongo
import Verif.Props.Lists

/-! # Lemmas on what policies say -/

namespace Mapl

open Spec Props

variable {env : Env} {t : Predef} {msg : Msg}

/-! ## Single conditions -/

theorem test_true {a m v w : Str} {r : Option (List RetVal)} {c : Condition} {p : List Nat} (h : Leaf env a m v w r c) (ha : a ∈ [gs"true", gs"TRUE"]) :
    testOneCondition env p c msg = .ok (true, []) := by
  simp only [List.mem_cons, List.not_mem_nil, or_false] at ha
  have : c.attr = a := leafAttr_simple (by rcases ha with rfl | rfl <;> decide) h.attr
  unfold testOneCondition
  rw [this, if_pos ha]

theorem test_false {a m v w : Str} {r : Option (List RetVal)} {c : Condition} {p : List Nat} (h : Leaf env a m v w r c) (ha : a ∈ [gs"false", gs"FALSE"]) :
    testOneCondition env p c msg = .ok (false, []) := by
  simp only [List.mem_cons, List.not_mem_nil, or_false] at ha
  have : c.attr = a := leafAttr_simple (by rcases ha with rfl | rfl <;> decide) h.attr
  unfold testOneCondition
  rw [this, if_neg (by rcases ha with rfl | rfl <;> decide), if_pos ha]

/-- The answer of a condition is what the condition says. -/
theorem says_answer {a m v w : Str} {c : Condition} {P : Prop} (hre : RegexpOk env) (hord : env.OrdOk) (hnum : NumbersOk env)
    (hj : env.jsonMarshal (.arr []) = gs"[]") (h : (parsed env a m v none).prepare env t = .ok c) (hv : ValueResolves env t m v w)
    (hs : Says env msg a m w P) (p : List Nat) : ∃ b, testOneCondition env p c msg = .ok (b, []) ∧ (b = true ↔ P) := by
  have hl := prepare_leaf h hv
  have fin_eq : ∀ {m : Str}, m ∈ [gs"EQ", gs"eq"] → ∀ w, finalValue m w = w ∧ finalMethod m = m ∧ isRegexMethod m = false := by
    intro m hm w
    simp only [List.mem_cons, List.not_mem_nil, or_false] at hm
    rcases hm with rfl | rfl <;> exact ⟨rfl, rfl, rfl⟩
  have fin_ne : ∀ {m : Str}, m ∈ [gs"NEQ", gs"neq", gs"NE", gs"ne"] → ∀ w, finalValue m w = w ∧ finalMethod m = m ∧ isRegexMethod m = false := by
    intro m hm w
    simp only [List.mem_cons, List.not_mem_nil, or_false] at hm
    rcases hm with rfl | rfl | rfl | rfl <;> exact ⟨rfl, rfl, rfl⟩
  have cmp_eq : ∀ {m : Str}, m ∈ [gs"EQ", gs"eq"] → ∀ x y, (compareString x m y = true ↔ x = y) := by
    intro m hm x y
    simp only [List.mem_cons, List.not_mem_nil, or_false] at hm
    rcases hm with rfl | rfl <;> simp [compareString]
  have cmp_ne : ∀ {m : Str}, m ∈ [gs"NEQ", gs"neq", gs"NE", gs"ne"] → ∀ x y, (compareString x m y = true ↔ x ≠ y) := by
    intro m hm x y
    simp only [List.mem_cons, List.not_mem_nil, or_false] at hm
    rcases hm with rfl | rfl | rfl | rfl <;> simp [compareString]
  cases hs with
  | yes ha => exact ⟨true, test_true hl ha, by simp⟩
  | no ha => exact ⟨false, test_false hl ha, by simp⟩
  | size hm hw => exact ⟨_, C25_payload hm h hv hw, decide_eq_true_iff⟩
  | hours hm hw => exact ⟨_, C25_hours hm h hv hw, decide_eq_true_iff⟩
  | version hm hw hy => exact ⟨_, C25_version hm h hv hw hy, decide_eq_true_iff⟩
  | text ha hP hn => exact C73_text hre ha hP h hv hn
  | sameField hm =>
    obtain ⟨k1, k2, k3⟩ := fin_eq hm _
    refine ⟨_, test_fields hl k1, ?_⟩
    rw [k2, if_neg (by simp [k3]), cmp_eq hm]
  | otherField hm =>
    obtain ⟨k1, k2, k3⟩ := fin_ne hm _
    refine ⟨_, test_fields hl k1, ?_⟩
    rw [k2, if_neg (by simp [k3]), cmp_ne hm]
  | label ha hP hm hn => exact C73_label hre ha hP hm h hv hn
  | labelThere ha hm hn => exact ⟨_, C28_ex ha hm h hv hn, Option.isSome_iff_exists⟩
  | sameLabel hm =>
    obtain ⟨k1, k2, k3⟩ := fin_eq hm _
    refine ⟨_, test_labels hl k1, ?_⟩
    rw [k2]
    rename_i k k'
    cases h1 : lookup k msg.sourceLabels <;> cases h2 : lookup k' msg.destinationLabels <;> simp [k3, cmp_eq hm, eq_comm]
  | otherLabel hm =>
    obtain ⟨k1, k2, k3⟩ := fin_ne hm _
    refine ⟨_, test_labels hl k1, ?_⟩
    rw [k2]
    rename_i k k'
    cases h1 : lookup k msg.sourceLabels <;> cases h2 : lookup k' msg.destinationLabels <;> simp [k3, cmp_ne hm]
  | number hm hw hs hy => exact ⟨_, C25_json hord hm h hv hw hs hy, decide_eq_true_iff⟩
  | scalar hP hs hy => exact C73_json hre hord hnum hP h hv hs hy
  | missing hs hx => exact ⟨_, C27_interface hord h hj hs hx, decide_eq_true_iff⟩
  | missingText hs hx => exact ⟨_, C27_bytes_partial h hs hx, decide_eq_true_iff⟩

/-! ## Paths of ANY and ALL -/

theorem split_join {sep : Char} : ∀ {l : List Str}, l ≠ [] → (∀ x ∈ l, sep ∉ x) → split sep (join [sep] l) = l
  | [], h, _ => absurd rfl h
  | [x], _, h => split_last (h x (by simp))
  | x :: y :: ys, _, h => by
    rw [join, List.append_assoc, List.singleton_append, split_part _ (h x (by simp)),
      split_join (l := y :: ys) (by simp) fun z hz => h z (by simp [hz])]

theorem replaceAux_prefix {old new s : Str} : ∀ (x : Str), replaceAux old new (x ++ s) x.length = replaceAux old new s 0
  | [] => rfl
  | _ :: x => replaceAux_prefix x

theorem replaceAll_prefix {c : Char} {cs new s : Str} : replaceAll (c :: cs ++ s) (c :: cs) new = new ++ replaceAll s (c :: cs) new := by
  unfold replaceAll
  rw [List.cons_append, replaceAux, if_pos]
  · simp only [List.length_cons, Nat.add_sub_cancel]
    rw [replaceAux_prefix]
  · rw [← List.cons_append, List.isPrefixOf_iff_prefix]; exact List.prefix_append _ _

theorem mem_join_parts {sep : Str} {c : Char} {l : List Str} (hs : c ∉ sep) (h : ∀ x ∈ l, c ∉ x) : c ∉ join sep l := by
  intro hc
  rcases mem_join hc with h' | ⟨x, hx, h'⟩
  · exact hs h'
  · exact h x hx h'

theorem infix_false {r sub : Str} (h : ¬ sub <:+: r) : contains r sub = false := by
  rw [contains_false]
  rintro ⟨a, b, hab⟩
  exact h ⟨a, b, hab.symm⟩

theorem contains_join {sub : Str} (hne : sub ≠ []) (hc : ',' ∉ sub) : ∀ {l : List Str}, (∀ x ∈ l, contains x sub = false) → contains (join gs"," l) sub = false
  | [], _ => by
    rw [join, contains_false]
    rintro ⟨a, b, hab⟩
    cases sub with
    | nil => exact hne rfl
    | cons x sub => simp at hab
  | [x], h => h x (by simp)
  | x :: y :: ys, h => by
    rw [join]
    refine Bool.eq_false_iff.2 fun hct => ?_
    rw [List.append_assoc] at hct
    rcases contains_split hc hct hne with h' | h'
    · rw [h x (by simp)] at h'; cases h'
    · have := contains_join hne hc (l := y :: ys) fun z hz => h z (.tail _ hz)
      exact Bool.false_ne_true (this.symm.trans h')

theorem parent_once {q : Parent} (h : q.Ok env) : contains q.text gs"jsonpath:" = false := by
  have key : ∀ {x r : Str}, contains x gs"jsonpath:" = false → PlainPath r → contains (x ++ '.' :: r) gs"jsonpath:" = false := by
    intro x r hx hr
    refine Bool.eq_false_iff.2 fun hct => ?_
    rcases contains_split (by decide) hct (by simp) with h' | h'
    · rw [hx] at h'; cases h'
    · rw [infix_false hr.2.2.2] at h'; cases h'
  cases q with
  | document rs =>
    refine contains_join (by simp) (by decide) fun x hx => ?_
    simp only [List.mem_map] at hx
    obtain ⟨r, hr, rfl⟩ := hx
    exact key (x := gs"$") (by decide) (h.2 r hr).1
  | element rs =>
    refine contains_join (by simp) (by decide) fun x hx => ?_
    simp only [List.mem_map] at hx
    obtain ⟨r, hr, rfl⟩ := hx
    exact key (x := gs"$RELATIVE") (by decide) (h.2 r hr).1
  | entries => decide

theorem parent_fields {q : Parent} (h : q.Ok env) :
    anyFields env (gs"jsonpath:" ++ q.text) [] = { parentOrig := gs"jsonpath:" ++ q.text, parent := q.text, ret := [] } := by
  have hr : replaceAll (gs"jsonpath:" ++ q.text) gs"jsonpath:" [] = q.text := by
    rw [replaceAll_prefix, List.nil_append]
    exact replaceAll_none (parent_once h)
  unfold anyFields
  rw [hr, List.map_nil]

theorem prepareQuery_plain {r : Str} (h : '$' ∉ r) (hok : env.jpOk (gs"$." ++ r) = true) :
    prepareJsonpathQuery env (gs"$." ++ r) = .ok ⟨gs"$." ++ r⟩ ∧ prepareJsonpathQuery env (gs"$RELATIVE." ++ r) = .ok ⟨gs"$." ++ r⟩ := by
  have e1 : replaceAll (gs"$." ++ r) gs"$RELATIVE" gs"$" = gs"$." ++ r := by
    have : replaceAll r gs"$RELATIVE" gs"$" = r := replaceAll_absent h
    unfold replaceAll at this ⊢
    simp [replaceAux, List.isPrefixOf, this]
  have e2 : replaceAll (gs"$RELATIVE." ++ r) gs"$RELATIVE" gs"$" = gs"$." ++ r := by
    have h1 : gs"$RELATIVE." ++ r = gs"$RELATIVE" ++ (gs"." ++ r) := rfl
    rw [h1, replaceAll_prefix, replaceAll_absent (by simpa using h)]
    rfl
  have no : ∀ {sub : Str} {c : Char}, c ≠ '.' → contains (gs"$." ++ r) ('$' :: c :: sub) = false := by
    intro sub c hc
    rw [contains_false]
    rintro ⟨a, b, hab⟩
    cases a with
    | nil => simp at hab; exact hc hab.1.symm
    | cons x a =>
      simp only [List.cons_append, List.nil_append, List.cons.injEq] at hab
      have : '$' ∈ '.' :: r := by rw [hab.2]; simp
      simp [h] at this
  have hne : ¬ (gs"$." ++ r = gs"$*") := by simp
  have fin : ∀ q, replaceAll q gs"$RELATIVE" gs"$" = gs"$." ++ r → prepareJsonpathQuery env q = .ok ⟨gs"$." ++ r⟩ := by
    intro q hq
    unfold prepareJsonpathQuery
    simp only [hq, if_neg hne]
    rw [if_neg (by rw [no (by decide), no (by decide)]; simp), jpPrepare, if_pos hok]
  exact ⟨fin _ e1, fin _ e2⟩

/-- The prepared queries of a path. -/
def Spec.Parent.queries : Parent → List JPath
  | .document rs => rs.map fun r => ⟨gs"$." ++ r⟩
  | .element rs => rs.map fun r => ⟨gs"$." ++ r⟩
  | .entries => [⟨gs"$.*"⟩]

theorem mapM_ok {α β : Type} {f : α → Go β} {g : α → β} : ∀ {l : List α}, (∀ x ∈ l, f x = .ok (g x)) → l.mapM f = .ok (l.map g)
  | [], _ => rfl
  | x :: l, h => by
    rw [List.mapM_cons, h x (by simp), Go.ok_bind, mapM_ok fun y hy => h y (by simp [hy])]
    rfl

/-- The single paths. -/
def Spec.Parent.paths : Parent → List Str
  | .document rs => rs.map (gs"$." ++ ·)
  | .element rs => rs.map (gs"$RELATIVE." ++ ·)
  | .entries => [gs"$RELATIVE*"]

theorem parent_prepare {q : Parent} (h : q.Ok env) : ∃ a, (anyFields env (gs"jsonpath:" ++ q.text) []).prepare env = .ok a ∧ a.parent = q.text ∧
    a.queries = q.queries ∧ a.ret = [] ∧ a.parentArr = q.paths := by
  rw [parent_fields h]
  have done : ∀ arr, split ',' q.text = arr → arr.mapM (prepareJsonpathQuery env) = .ok q.queries →
      ∃ a, AnyAll.prepare env { parentOrig := gs"jsonpath:" ++ q.text, parent := q.text, ret := [] } = .ok a ∧ a.parent = q.text ∧
        a.queries = q.queries ∧ a.ret = [] ∧ a.parentArr = arr := by
    intro arr h1 h2
    refine ⟨{ parentOrig := gs"jsonpath:" ++ q.text, parent := q.text, ret := [], parentArr := arr, queries := q.queries }, ?_, rfl, rfl, rfl, rfl⟩
    unfold AnyAll.prepare
    rw [h1]
    simp only [h2, Go.ok_bind]
    rfl
  cases q with
  | document rs =>
    refine done (rs.map (gs"$." ++ ·)) (split_join (by simpa using h.1) ?_) ?_
    · intro x hx
      simp only [List.mem_map] at hx
      obtain ⟨r, hr, rfl⟩ := hx
      simpa using (h.2 r hr).1.2.2.1
    · rw [List.mapM_map]
      exact mapM_ok fun r hr => (prepareQuery_plain (h.2 r hr).1.2.1 (h.2 r hr).2).1
  | element rs =>
    refine done (rs.map (gs"$RELATIVE." ++ ·)) (split_join (by simpa using h.1) ?_) ?_
    · intro x hx
      simp only [List.mem_map] at hx
      obtain ⟨r, hr, rfl⟩ := hx
      simpa using (h.2 r hr).1.2.2.1
    · rw [List.mapM_map]
      exact mapM_ok fun r hr => (prepareQuery_plain (h.2 r hr).1.2.1 (h.2 r hr).2).2
  | entries =>
    refine done [gs"$RELATIVE*"] rfl ?_
    have hk : prepareJsonpathQuery env gs"$RELATIVE*" = .ok ⟨gs"$.*"⟩ := by
      unfold prepareJsonpathQuery
      rw [show replaceAll gs"$RELATIVE*" gs"$RELATIVE" gs"$" = gs"$*" from rfl]
      simp only [if_true]
      rw [if_neg (by decide), jpPrepare, if_pos (by exact h)]
    rw [List.mapM_cons, hk]
    rfl

theorem join_cons_append (sep x : Str) (l : List Str) : ∃ rest, join sep (x :: l) = x ++ rest := by
  cases l with
  | nil => exact ⟨[], by simp [join]⟩
  | cons y ys => exact ⟨_, by rw [join, List.append_assoc]⟩

theorem parent_start {q : Parent} (h : q.Ok env) :
    isRelativeParent q.text = (match q with | .document _ => false | _ => true) ∧ (q.text = gs"$RELATIVE*" ↔ q = .entries) := by
  cases q with
  | document rs =>
    obtain ⟨hne, -⟩ := h
    cases rs with
    | nil => exact absurd rfl hne
    | cons r rs =>
      obtain ⟨rest, hrest⟩ := join_cons_append gs"," (gs"$." ++ r) (rs.map (gs"$." ++ ·))
      have : (Parent.document (r :: rs)).text = gs"$." ++ (r ++ rest) := by rw [Parent.text, List.map_cons, hrest, List.append_assoc]
      rw [this]
      simp [isRelativeParent, hasPrefix, List.isPrefixOf]
  | element rs =>
    obtain ⟨hne, -⟩ := h
    cases rs with
    | nil => exact absurd rfl hne
    | cons r rs =>
      obtain ⟨rest, hrest⟩ := join_cons_append gs"," (gs"$RELATIVE." ++ r) (rs.map (gs"$RELATIVE." ++ ·))
      have : (Parent.element (r :: rs)).text = gs"$RELATIVE." ++ (r ++ rest) := by rw [Parent.text, List.map_cons, hrest, List.append_assoc]
      rw [this]
      simp [isRelativeParent, hasPrefix, List.isPrefixOf]
  | entries => exact ⟨rfl, by simp [Parent.text]⟩

theorem isRelative_element {r : Str} : isRelativeParent (gs"$RELATIVE." ++ r) = true := by
  simp [isRelativeParent, hasPrefix, List.isPrefixOf]

theorem isRelative_document {r : Str} : isRelativeParent (gs"$." ++ r) = false := by
  simp [isRelativeParent, hasPrefix, List.isPrefixOf]

theorem bytesParentQuery_element {r : Str} (h : '$' ∉ r) : bytesParentQuery (gs"$RELATIVE." ++ r) = gs"$." ++ r := by
  have no : ∀ {sub : Str} {c : Char}, c ≠ '.' → contains (gs"$." ++ r) ('$' :: c :: sub) = false := by
    intro sub c hc
    rw [contains_false]
    rintro ⟨a, b, hab⟩
    cases a with
    | nil => simp at hab; exact hc hab.1.symm
    | cons x a =>
      simp only [List.cons_append, List.nil_append, List.cons.injEq] at hab
      have : '$' ∈ '.' :: r := by rw [hab.2]; simp
      simp [h] at this
  unfold bytesParentQuery
  simp only [replaceFirst_prefix]
  rw [replaceFirst_absent (no (by decide)), replaceFirst_absent (no (by decide)), if_neg (by simp)]

/-- One more part behind what is there. -/
theorem join_more {data x : Str} {l : List Str} (hx : x ≠ []) : join gs"," ([if data = [] then x else data ++ gs"," ++ x] ++ l) = join gs"," ([data].filter (· ≠ []) ++ x :: l) := by
  by_cases hd : data = []
  · simp [hd]
  · cases l with
    | nil => simp [hd, join]
    | cons y l => simp [hd, join]

/-- Collecting the parts of several paths, the last of which does not fail. -/
theorem collect_parts {raw : Str} : ∀ {paths parts : List Str} {data : Str} {err : Bool},
    (∀ q ∈ paths, (if isRelativeParent q then msg.jsonRawRel else msg.jsonRaw) = some raw) →
    List.Forall₂ (fun q x => env.jsGet raw (if isRelativeParent q then bytesParentQuery q else q) = (x, false) ∨
      (env.jsGet raw (if isRelativeParent q then bytesParentQuery q else q)).2 = true ∧ x = []) paths parts →
    (∀ q ∈ paths.getLast?, (env.jsGet raw (if isRelativeParent q then bytesParentQuery q else q)).2 = false) → (paths = [] → err = false) →
    collectJsons env msg data err paths = .ok (some (join gs"," ([data].filter (· ≠ []) ++ parts.filter (· ≠ []))))
  | [], _, data, err, _, .nil, _, h => by
    rw [collectJsons, h rfl]
    cases data <;> simp [join]
  | q :: qs, _, data, err, hq, .cons (b := x) (l₂ := xs) h hs, hlast, _ => by
    have h1 := hq q (by simp)
    have hstep : ∃ e, collectJsons env msg data err (q :: qs) = collectJsons env msg (if x = [] then data else if data = [] then x else data ++ gs"," ++ x) e qs ∧ (qs = [] → e = false) := by
      generalize hg : env.jsGet raw (if isRelativeParent q then bytesParentQuery q else q) = g at h
      refine ⟨g.2, ?_, fun hqs => ?_⟩
      · rw [collectJsons]
        have hd : (if g.2 = true then data else if data.length = 0 then g.1 else if g.1.length ≠ 0 then data ++ gs"," ++ g.1 else data) =
            if x = [] then data else if data = [] then x else data ++ gs"," ++ x := by
          rcases h with rfl | ⟨h, rfl⟩
          · cases data <;> cases x <;> simp
          · simp [h]
        by_cases hr : isRelativeParent q = true
        · rw [if_pos hr] at h1 hg ⊢
          rw [h1]
          simp only [deref, Go.ok_bind, Go.pure_eq, hg]
          rw [← hd]
        · rw [if_neg hr] at h1 hg ⊢
          rw [h1]
          simp only [deref, Go.ok_bind, Go.pure_eq, hg]
          rw [← hd]
      · subst hqs
        have := hlast q (by simp)
        rwa [hg] at this
    obtain ⟨e, hstep, he⟩ := hstep
    rw [hstep, collect_parts (fun q hq' => hq q (by simp [hq'])) hs (fun q' hq' => hlast q' (by
      cases qs with
      | nil => cases hq'
      | cons a l => rw [List.getLast?_cons_cons]; exact hq')) he]
    congr 2
    by_cases hx : x = []
    · simp [hx]
    · have hne : (if data = [] then x else data ++ gs"," ++ x) ≠ [] := by
        split
        · exact hx
        · simp
      have := join_more (data := data) (l := xs.filter (· ≠ [])) hx
      rw [if_neg hx, List.filter_cons_of_pos (a := if data = [] then x else data ++ gs"," ++ x) (by simpa using hne), List.filter_cons_of_pos (a := x) (by simpa using hx), List.filter_nil, ← this]

theorem forall₂_map_left {α β γ : Type} {R : β → γ → Prop} {f : α → β} : ∀ {l : List α} {l' : List γ}, List.Forall₂ (fun a c => R (f a) c) l l' → List.Forall₂ R (l.map f) l'
  | _, _, .nil => .nil
  | _, _, .cons h hs => .cons h (forall₂_map_left hs)

theorem getLast?_map {α β : Type} {f : α → β} {l : List α} {P : β → Prop} (h : ∀ a ∈ l.getLast?, P (f a)) : ∀ b ∈ (l.map f).getLast?, P b := by
  intro b hb
  rw [List.getLast?_map, Option.mem_map] at hb
  obtain ⟨a, ha, rfl⟩ := hb
  exact h a ha

theorem part_collect {q : Parent} {data : Str} (hq : q.Ok env) (h : SelectsPart env msg q data) :
    (∀ x ∈ q.paths, (if isRelativeParent x then msg.jsonRawRel else msg.jsonRaw).isSome) ∧ collectJsons env msg [] true q.paths = .ok (some data) := by
  have hsome : ∀ (paths : List Str) raw, (∀ q ∈ paths, (if isRelativeParent q then msg.jsonRawRel else msg.jsonRaw) = some raw) →
      ∀ x ∈ paths, (if isRelativeParent x then msg.jsonRawRel else msg.jsonRaw).isSome := fun _ _ h x hx => by rw [h x hx]; rfl
  have gives : ∀ {raw r x q' : Str}, q' = gs"$." ++ r → PathGives env raw r x → env.jsGet raw q' = (x, false) ∨ (env.jsGet raw q').2 = true ∧ x = [] := by
    rintro raw r x q' rfl h
    cases h with
    | part h => exact .inl h
    | fails h => exact .inr ⟨h, rfl⟩
  cases h with
  | @document rs raw parts hd hr hl =>
    have h1 : ∀ x ∈ rs.map (gs"$." ++ ·), (if isRelativeParent x then msg.jsonRawRel else msg.jsonRaw) = some raw := by
      simp only [List.mem_map, forall_exists_index, and_imp, forall_apply_eq_imp_iff₂]
      intro r _
      rw [isRelative_document]; exact hd
    refine ⟨hsome _ _ h1, ?_⟩
    have hq' : ∀ r, (if isRelativeParent (gs"$." ++ r) then bytesParentQuery (gs"$." ++ r) else gs"$." ++ r) = gs"$." ++ r := fun r => by rw [isRelative_document]; rfl
    have := collect_parts (data := []) (err := true) h1 (parts := parts) (forall₂_map_left (f := (gs"$." ++ ·)) (List.Forall₂.imp (fun r x h => gives (hq' r) h) hr))
      (getLast?_map (f := (gs"$." ++ ·)) (P := fun q => (env.jsGet raw (if isRelativeParent q then bytesParentQuery q else q)).2 = false) fun r hr => by rw [hq']; exact hl r hr)
      (fun h => absurd h (by simpa using hq.1))
    exact this
  | @element rs raw parts hd hr hl =>
    have h1 : ∀ x ∈ rs.map (gs"$RELATIVE." ++ ·), (if isRelativeParent x then msg.jsonRawRel else msg.jsonRaw) = some raw := by
      simp only [List.mem_map, forall_exists_index, and_imp, forall_apply_eq_imp_iff₂]
      intro r _
      rw [isRelative_element]; exact hd
    refine ⟨hsome _ _ h1, ?_⟩
    have hq' : ∀ r ∈ rs, (if isRelativeParent (gs"$RELATIVE." ++ r) then bytesParentQuery (gs"$RELATIVE." ++ r) else gs"$RELATIVE." ++ r) = gs"$." ++ r := fun r hr => by
      rw [isRelative_element, if_pos rfl, bytesParentQuery_element (hq.2 r hr).1.2.1]
    have h2 : List.Forall₂ (fun r x => env.jsGet raw (if isRelativeParent (gs"$RELATIVE." ++ r) then bytesParentQuery (gs"$RELATIVE." ++ r) else gs"$RELATIVE." ++ r) = (x, false) ∨
        (env.jsGet raw (if isRelativeParent (gs"$RELATIVE." ++ r) then bytesParentQuery (gs"$RELATIVE." ++ r) else gs"$RELATIVE." ++ r)).2 = true ∧ x = []) rs parts := by
      clear h1 hq hl
      induction hr with
      | nil => exact .nil
      | @cons r x rs xs h hs ih => exact .cons (gives (hq' r (by simp)) h) (ih fun r hr => hq' r (by simp [hr]))
    exact collect_parts (data := []) (err := true) h1 (forall₂_map_left (f := (gs"$RELATIVE." ++ ·)) h2)
      (getLast?_map (f := (gs"$RELATIVE." ++ ·)) (P := fun q => (env.jsGet raw (if isRelativeParent q then bytesParentQuery q else q)).2 = false) fun r hr => by
        rw [hq' r (List.mem_of_getLast? hr)]; exact hl r hr)
      (fun h => absurd h (by simpa [Parent.paths] using hq.1))
  | @entries raw data hd hr =>
    have e : isRelativeParent gs"$RELATIVE*" = true := rfl
    refine ⟨by simp [Parent.paths, e, hd], ?_⟩
    rw [Parent.paths, collectJsons, if_pos e, hd]
    have e2 : bytesParentQuery gs"$RELATIVE*" = gs"$*" := by decide +kernel
    simp [deref, e2, hr, collectJsons]

theorem scan_lists : ∀ {ls : List (List Item)}, (∀ l ∈ ls, ∀ i ∈ l, i.Ok Nested ∧ (i.isObject = false → ∀ c ∈ i.text, c ≠ '{' ∧ c ≠ '}')) →
    scanObjects 0 none (join gs"," (ls.map listText)) = ls.flatMap objects
  | [], _ => rfl
  | [l], h => by
    have := scan_listText (l := l) (fun i hi => (h l (by simp) i hi).1) (fun i hi => (h l (by simp) i hi).2) []
    rw [List.append_nil] at this
    simp [join, this, scanObjects]
  | l :: l' :: ls, h => by
    rw [List.map_cons, List.map_cons, join, List.append_assoc, scan_listText (fun i hi => (h l (by simp) i hi).1) (fun i hi => (h l (by simp) i hi).2),
      scan_outside (by simp)]
    have := scan_lists (ls := l' :: ls) fun l hl => h l (by simp [hl])
    rw [List.map_cons] at this
    rw [this]
    simp

/-- The elements of a text, in any execution. -/
theorem part_elements {data : Str} {l : List Str} (ho : env.OrdOk) (hd : 2 ≤ data.length) (h : PartElements env (env.ugly data) l) (p : List Nat) :
    2 ≤ (env.ugly data).length ∧ ∃ s l', getArrayFromArrayOfArrays env data = .ok (some s) ∧
      (match getArrayOfJsonsFromInterfaceArray s with
        | some l => some l
        | none => getArrayOfJsonsFromMap env p s) = some l' ∧ l'.Perm l := by
  generalize hu : env.ugly data = u at h
  cases h with
  | @lists ls hne h hl =>
    obtain ⟨l, ls, rfl⟩ := List.exists_cons_of_ne_nil hne
    obtain ⟨c', rest, hshape⟩ : ∃ c' rest, join gs"," ((l :: ls).map listText) = '[' :: c' :: rest := by
      have : ∃ r, join gs"," ((l :: ls).map listText) = listText l ++ r := join_cons_append _ _ _
      obtain ⟨r, hr⟩ := this
      rw [hr, listText]
      cases join gs"," (l.map fun i => i.before ++ (i.text ++ i.after)) with
      | nil => exact ⟨']', r, rfl⟩
      | cons c cs => exact ⟨c, cs ++ gs"]" ++ r, by simp⟩
    have hc : c' ≠ '[' := by
      rintro rfl
      exact hl rest hshape
    have hscan := scan_lists h
    rw [hshape] at hu hscan ⊢
    refine ⟨by simp, '[' :: c' :: rest, _, ?_, ?_, List.Perm.refl _⟩
    · unfold getArrayFromArrayOfArrays
      rw [if_neg (by omega), hu]
      simp [hc]
    · show some (scanObjects 0 none ('[' :: c' :: rest)) = _
      rw [hscan]
  | @nested ll hne h =>
    obtain ⟨s, h1, h2⟩ := flatten_objects hu hd hne h
    exact ⟨by simp [listsText], s, _, h1, by rw [h2], List.Perm.refl _⟩
  | @object s kvs h =>
    refine ⟨by simp, '{' :: (s ++ gs"}"), _, ?_, ?_, (ho p kvs).map fun kv => env.jsonMarshal (.obj [kv])⟩
    · unfold getArrayFromArrayOfArrays
      rw [if_neg (by omega), hu]
      simp
    · show getArrayOfJsonsFromMap env p _ = _
      rw [getArrayOfJsonsFromMap, unmarshalMap, h]

/-- The elements a prepared path ranges over. -/
theorem ranges_scopes {q : Parent} {l : List Msg} {a : AnyAll} (ho : env.OrdOk) (hq : q.Ok env) (h : Ranges env msg q l) (hp : a.parent = q.text)
    (hqs : a.queries = q.queries) (har : a.parentArr = q.paths) : SelectSafe env a msg ∧ ∀ p, ∃ l', scopes env p a msg = .ok (some l') ∧ l'.Perm l := by
  obtain ⟨s1, s2⟩ := parent_start hq
  have hne : a.queries ≠ [] := by
    rw [hqs]
    cases q with
    | document rs => simpa [Parent.queries] using hq.1
    | element rs => simpa [Parent.queries] using hq.1
    | entries => simp [Parent.queries]
  by_cases hI : msg.rawI.isSome
  · have hu : usesParsed a msg = true := usesParsed_iff.2 ⟨hI, hne⟩
    have hsafe : SelectSafe env a msg := by
      unfold SelectSafe
      rw [if_pos hu, hp, hqs]
      cases h with
      | document hd hr =>
        rw [if_neg (by rw [s2]; simp)]
        refine ⟨_, by rw [parentDoc, hp, s1]; exact hd, ?_⟩
        simpa [Parent.queries] using hr
      | element _ hd hr =>
        rw [if_neg (by rw [s2]; simp)]
        refine ⟨_, by rw [parentDoc, hp, s1]; exact hd, ?_⟩
        simpa [Parent.queries] using hr
      | entries _ hd => rw [if_pos (by rfl)]; exact ⟨_, hd⟩
      | text hn => rw [hn] at hI; simp at hI
      | nothing hn => rw [hn] at hI; simp at hI
    refine ⟨hsafe, fun p => ?_⟩
    obtain ⟨l?, hl⟩ := returns_scopes (p := p) hsafe
    have : ∃ l', l? = some l' := by
      rw [scopes, if_pos ⟨hI, hne⟩, Go.map_eq_ok] at hl
      obtain ⟨l1, -, h1⟩ := hl
      exact ⟨_, h1.symm⟩
    obtain ⟨l', rfl⟩ := this
    refine ⟨l', hl, ?_⟩
    cases h with
    | document hd hr =>
      have := C17_elements ho hI hne (by rw [hp, Ne, s2]; simp) (by rw [parentDoc, hp, s1]; exact hd) hl
      rw [hqs, Parent.queries, List.flatMap_map] at this
      exact this
    | element _ hd hr =>
      have := C17_elements ho hI hne (by rw [hp, Ne, s2]; simp) (by rw [parentDoc, hp, s1]; exact hd) hl
      rw [hqs, Parent.queries, List.flatMap_map] at this
      exact this
    | entries _ hd => exact C17_elements_of_scope ho hI hne (by rw [hp]; rfl) hd hl
    | text hn => rw [hn] at hI; simp at hI
    | nothing hn => rw [hn] at hI; simp at hI
  · cases h with
    | document hd _ => simp [hd] at hI
    | element hI' => exact absurd hI' hI
    | entries hI' => exact absurd hI' hI
    | @text q data l hn hs hd hl =>
      obtain ⟨c1, c2⟩ := part_collect hq hs
      have hu : ¬ (msg.rawI.isSome ∧ a.queries ≠ []) := fun h => hI h.1
      refine ⟨?_, fun p => ?_⟩
      · unfold SelectSafe
        rw [if_neg (by rw [usesParsed_iff]; exact hu), har]
        refine ⟨c1, fun data' hd' _ => ?_⟩
        rw [c2] at hd'
        simp at hd'; subst hd'
        exact (part_elements ho hd hl []).1
      · obtain ⟨-, s, l', h1, h2, h3⟩ := part_elements ho hd hl (0 :: 0 :: p)
        refine ⟨l'.map fun x => { msg with jsonRawRel := some x }, ?_, h3.map _⟩
        rw [scopes, if_neg hu, getArrayOfJsons, har, c2]
        simp only [Go.ok_bind]
        rw [h1]
        simp only [Go.ok_bind]
        cases hs : getArrayOfJsonsFromInterfaceArray s with
        | some l2 => rw [hs] at h2; simp at h2; subst h2; rfl
        | none => rw [hs] at h2; simp only at h2 ⊢; rw [h2]; rfl
    | @nothing q hn hs =>
      obtain ⟨c1, c2⟩ := part_collect hq hs
      have hu : ¬ (msg.rawI.isSome ∧ a.queries ≠ []) := fun h => hI h.1
      refine ⟨?_, fun p => ?_⟩
      · unfold SelectSafe
        rw [if_neg (by rw [usesParsed_iff]; exact hu), har]
        refine ⟨c1, fun data' hd' h2 => ?_⟩
        rw [c2] at hd'
        simp at hd'; subst hd'
        simp at h2
      · refine ⟨[], ?_, .nil⟩
        rw [scopes, if_neg hu, getArrayOfJsons, har, c2]
        rfl

theorem ranges_perm {q : Parent} {l l' : List Msg} (ho : env.OrdOk) (hq : q.Ok env) (h : Ranges env msg q l) (h' : Ranges env msg q l') : l.Perm l' := by
  obtain ⟨a, -, hp, hqs, -, har⟩ := parent_prepare hq
  obtain ⟨l1, h1, p1⟩ := (ranges_scopes ho hq h hp hqs har).2 []
  obtain ⟨l2, h2, p2⟩ := (ranges_scopes ho hq h' hp hqs har).2 []
  rw [h1] at h2
  simp at h2; subst h2
  exact p1.symm.trans p2

/-! ## Statements -/

theorem parent_verbatim {q : Parent} (h : q.Ok env) : Verbatim (gs"jsonpath:" ++ q.text) := by
  have key : ∀ (pre : Str) (rs : List Str), Verbatim pre → (∀ r ∈ rs, Verbatim r) → Verbatim (join gs"," (rs.map (pre ++ ·))) := by
    intro pre rs h1 h2 c hc
    rcases mem_join hc with h' | ⟨x, hx, h'⟩
    · simp at h'; subst h'; decide
    · simp only [List.mem_map] at hx
      obtain ⟨r, hr, rfl⟩ := hx
      rcases List.mem_append.1 h' with h' | h'
      · exact h1 c h'
      · exact h2 r hr c h'
  have : Verbatim q.text := by
    cases q with
    | document rs => exact key _ _ (by unfold Verbatim; decide) fun r hr => (h.2 r hr).1.1
    | element rs => exact key _ _ (by unfold Verbatim; decide) fun r hr => (h.2 r hr).1.1
    | entries => unfold Verbatim; decide
  intro c hc
  rcases List.mem_append.1 hc with hc | hc
  · clear * - hc; revert c; decide
  · exact this c hc

theorem parent_ok {q : Parent} (h : q.Ok env) : ParentOk (gs"jsonpath:" ++ q.text) := by
  cases q with
  | document rs =>
    obtain ⟨hne, -⟩ := h
    cases rs with
    | nil => exact absurd rfl hne
    | cons r rs =>
      obtain ⟨rest, hrest⟩ := join_cons_append gs"," (gs"$." ++ r) (rs.map (gs"$." ++ ·))
      exact .inr (.inl ⟨r ++ rest, by rw [Parent.text, List.map_cons, hrest]; simp⟩)
  | element rs =>
    obtain ⟨hne, -⟩ := h
    cases rs with
    | nil => exact absurd rfl hne
    | cons r rs =>
      obtain ⟨rest, hrest⟩ := join_cons_append gs"," (gs"$RELATIVE." ++ r) (rs.map (gs"$RELATIVE." ++ ·))
      exact .inr (.inr ⟨gs"." ++ r ++ rest, by rw [Parent.text, List.map_cons, hrest]; simp⟩)
  | entries => exact .inr (.inr ⟨gs"*", rfl⟩)

mutual
theorem sound_copyable : ∀ (f : Statement), Sound env t f → Copyable env (f.tree env)
  | .cond a m v, h => by
    rw [Sound] at h
    exact .cond h.1 h.2.1 h.2.2.1 (by simp)
  | .and fs, h => by
    rw [Sound] at h
    exact .and (by cases fs with | nil => exact absurd rfl h.1 | cons => simp [Statement.trees]) (sound_copyables fs h.2)
  | .or fs, h => by
    rw [Sound] at h
    exact .or (by cases fs with | nil => exact absurd rfl h.1 | cons => simp [Statement.trees]) (sound_copyables fs h.2)
  | .not f, h => by
    rw [Sound] at h
    exact .not (sound_copyable f h)
  | .any q f, h => by
    rw [Sound] at h
    exact .any (parent_ok h.1) (parent_verbatim h.1) (by simp) (by simp) (sound_copyable f h.2)
  | .all q f, h => by
    rw [Sound] at h
    exact .all (parent_ok h.1) (parent_verbatim h.1) (by simp) (by simp) (sound_copyable f h.2)

theorem sound_copyables : ∀ (fs : List Statement), SoundAll env t fs → ∀ n ∈ Statement.trees env fs, Copyable env n
  | [], _, n, hn => by simp [Statement.trees] at hn
  | f :: fs, h, n, hn => by
    rw [SoundAll] at h
    rw [Statement.trees, List.mem_cons] at hn
    rcases hn with rfl | hn
    · exact sound_copyable f h.1
    · exact sound_copyables fs h.2 n hn
end

mutual
theorem sound_prepare : ∀ (f : Statement), Sound env t f → ∃ n, (f.tree env).prepare env t = .ok n
  | .cond a m v, h => by
    rw [Sound] at h
    obtain ⟨c, hc⟩ := C42_prepared_iff (env := env.toExt) (t := t) (a := a) (m := m) (v := v) (r := none) |>.2 h.2.2.2
    exact ⟨.cond c, by rw [Statement.tree, condNode, Option.map_none, Node.prepare, hc]; rfl⟩
  | .and fs, h => by
    rw [Sound] at h
    obtain ⟨ns, hn⟩ := sound_prepares fs h.2
    exact ⟨.and ns, by rw [Statement.tree, Node.prepare, hn]; rfl⟩
  | .or fs, h => by
    rw [Sound] at h
    obtain ⟨ns, hn⟩ := sound_prepares fs h.2
    exact ⟨.or ns, by rw [Statement.tree, Node.prepare, hn]; rfl⟩
  | .not f, h => by
    rw [Sound] at h
    obtain ⟨n, hn⟩ := sound_prepare f h
    exact ⟨.not n, by rw [Statement.tree, Node.prepare, hn]; rfl⟩
  | .any q f, h => by
    rw [Sound] at h
    obtain ⟨n, hn⟩ := sound_prepare f h.2
    obtain ⟨a, ha, -⟩ := parent_prepare h.1
    exact ⟨.any a n, by rw [Statement.tree, Node.prepare, hn, Go.ok_bind, ha]; rfl⟩
  | .all q f, h => by
    rw [Sound] at h
    obtain ⟨n, hn⟩ := sound_prepare f h.2
    obtain ⟨a, ha, -⟩ := parent_prepare h.1
    exact ⟨.all a n, by rw [Statement.tree, Node.prepare, hn, Go.ok_bind, ha]; rfl⟩

theorem sound_prepares : ∀ (fs : List Statement), SoundAll env t fs → ∃ ns, prepareNodes env t (Statement.trees env fs) = .ok ns
  | [], _ => ⟨[], rfl⟩
  | f :: fs, h => by
    rw [SoundAll] at h
    obtain ⟨n, hn⟩ := sound_prepare f h.1
    obtain ⟨ns, hns⟩ := sound_prepares fs h.2
    exact ⟨n :: ns, by rw [Statement.trees, prepareNodes, hn, Go.ok_bind, hns]; rfl⟩
end

/-- What a condition means of a message of which it says something. -/
theorem meaning_cond (he : Assumed env) {a m v w : Str} {P : Prop} (hs : Sound env t (.cond a m v)) (hv : ValueResolves env t m v w)
    (hS : Says env msg a m w P) : Meaning env t (.cond a m v) msg ↔ P := by
  rw [Sound] at hs
  obtain ⟨c, hc⟩ := C42_prepared_iff (env := env.toExt) (t := t) (a := a) (m := m) (v := v) (r := none) |>.2 hs.2.2.2
  obtain ⟨b, hb, hbP⟩ := says_answer he.regexp he.order he.numbers he.empty hc hv hS []
  rw [Meaning]
  refine ⟨?_, fun h => ⟨w, P, hv, hS, h⟩⟩
  rintro ⟨w', P', hv', hS', hP'⟩
  obtain ⟨b', hb', hbP'⟩ := says_answer he.regexp he.order he.numbers he.empty hc hv' hS' []
  rw [hb] at hb'
  simp at hb'
  exact hbP.1 (hb' ▸ hbP'.2 hP')

theorem getElem?_of_perm {α : Type} {l l' : List α} (h : l.Perm l') {P : Nat → α → Prop} {Q : α → Prop} (hP : ∀ i x, l[i]? = some x → (P i x ↔ Q x)) :
    ((∃ i x, l[i]? = some x ∧ P i x) ↔ ∃ x ∈ l', Q x) ∧ ((∀ i x, l[i]? = some x → P i x) ↔ ∀ x ∈ l', Q x) := by
  constructor
  · constructor
    · rintro ⟨i, x, hx, hp⟩
      exact ⟨x, h.subset (List.mem_of_getElem? hx), (hP i x hx).1 hp⟩
    · rintro ⟨x, hx, hq⟩
      obtain ⟨i, hi⟩ := List.mem_iff_getElem?.1 (h.symm.subset hx)
      exact ⟨i, x, hi, (hP i x hi).2 hq⟩
  · constructor
    · intro hall x hx
      obtain ⟨i, hi⟩ := List.mem_iff_getElem?.1 (h.symm.subset hx)
      exact (hP i x hi).1 (hall i x hi)
    · intro hall i x hx
      exact (hP i x hx).2 (hall x (h.subset (List.mem_of_getElem? hx)))

mutual
/-- Evaluation of a prepared statement returns what the statement says. -/
theorem meaning_eval (he : Assumed env) : ∀ (f : Statement) (n : Node) (msg : Msg), Sound env t f → (f.tree env).prepare env t = .ok n →
    Defined env t f msg → ∀ p, Returns (eval env n p msg) ∧ (Holds env n p msg ↔ Meaning env t f msg)
  | .cond a m v, n, msg, hs, hn, hd, p => by
    rw [Statement.tree, condNode, Option.map_none, Node.prepare, Go.bind_eq_ok] at hn
    obtain ⟨c, hc, hn⟩ := hn
    simp at hn; subst hn
    rw [Defined] at hd
    obtain ⟨w, P, hv, hS⟩ := hd
    obtain ⟨b, hb, hbP⟩ := says_answer he.regexp he.order he.numbers he.empty hc hv hS (0 :: 0 :: p)
    constructor
    · rw [eval, hb]; exact .ok _
    · rw [Holds, hb, Meaning]
      constructor
      · rintro ⟨e, h⟩
        simp at h
        exact ⟨w, P, hv, hS, hbP.1 h.1⟩
      · rintro ⟨w', P', hv', hS', hP'⟩
        obtain ⟨b', hb', hbP'⟩ := says_answer he.regexp he.order he.numbers he.empty hc hv' hS' (0 :: 0 :: p)
        rw [hb] at hb'
        simp at hb'
        exact ⟨[], by rw [hb', hbP'.2 hP']⟩
  | .and fs, n, msg, hs, hn, hd, p => by
    rw [Statement.tree, Node.prepare, Go.bind_eq_ok] at hn
    obtain ⟨ns, hns, hn⟩ := hn
    simp at hn; subst hn
    rw [Sound] at hs
    rw [Defined] at hd
    rw [eval, Holds, Meaning]
    exact ⟨(meaning_turn he fs ns msg hs.2 hns hd p).1 1 [], (meaning_turn he fs ns msg hs.2 hns hd p).2 1⟩
  | .or fs, n, msg, hs, hn, hd, p => by
    rw [Statement.tree, Node.prepare, Go.bind_eq_ok] at hn
    obtain ⟨ns, hns, hn⟩ := hn
    simp at hn; subst hn
    rw [Sound] at hs
    rw [Defined] at hd
    rw [eval, Holds, Meaning]
    exact ⟨(meaning_evals he fs ns msg hs.2 hns hd p).1 1 false [], (meaning_evals he fs ns msg hs.2 hns hd p).2 1⟩
  | .not f, n, msg, hs, hn, hd, p => by
    rw [Statement.tree, Node.prepare, Go.bind_eq_ok] at hn
    obtain ⟨n', hn', hn⟩ := hn
    simp at hn; subst hn
    rw [Sound] at hs
    rw [Defined] at hd
    obtain ⟨h1, h2⟩ := meaning_eval he f n' msg hs hn' hd (1 :: p)
    rw [eval, Holds, Meaning, h2]
    exact ⟨.bind h1 fun _ _ => .pure _, Iff.rfl⟩
  | .any q f, n, msg, hs, hn, hd, p => by
    rw [Statement.tree, Node.prepare, Go.bind_eq_ok] at hn
    obtain ⟨n', hn', hn⟩ := hn
    rw [Sound] at hs
    obtain ⟨a, ha, hap, haq, har, haa⟩ := parent_prepare hs.1
    rw [ha] at hn
    simp at hn; subst hn
    rw [Defined] at hd
    obtain ⟨l, hl, hdl⟩ := hd
    obtain ⟨hsafe, hsc⟩ := ranges_scopes he.order hs.1 hl hap haq haa
    obtain ⟨l', hl', hperm⟩ := hsc p
    have ih := fun m' (hx : m' ∈ l) => meaning_eval he f n' m' hs.2 hn' (hdl m' hx)
    constructor
    · rw [eval]
      refine returns_evalAny (fun i m o h => eval_msg env n' _ m o h) hsafe fun l2 h2 m' hm' => ?_
      rw [hl'] at h2
      simp at h2; subst h2
      exact ⟨fun i => (ih m' (hperm.subset hm') _).1, by rw [har]; simp⟩
    · rw [Holds, Meaning]
      have key := (getElem?_of_perm hperm (P := fun i m' => Holds env n' ((i + 1) :: p) m') (Q := fun m' => Meaning env t f m')
        (fun i m' hm' => (ih m' (hperm.subset (List.mem_of_getElem? hm')) _).2)).1
      rw [hl']
      simp only [Except.ok.injEq, Option.some.injEq, exists_eq_left']
      rw [key]
      constructor
      · rintro ⟨x, hx, hm⟩; exact ⟨l, hl, x, hx, hm⟩
      · rintro ⟨l2, hl2, x, hx, hm⟩
        exact ⟨x, (ranges_perm he.order hs.1 hl2 hl).subset hx, hm⟩
  | .all q f, n, msg, hs, hn, hd, p => by
    rw [Statement.tree, Node.prepare, Go.bind_eq_ok] at hn
    obtain ⟨n', hn', hn⟩ := hn
    rw [Sound] at hs
    obtain ⟨a, ha, hap, haq, har, haa⟩ := parent_prepare hs.1
    rw [ha] at hn
    simp at hn; subst hn
    rw [Defined] at hd
    obtain ⟨l, hl, hdl⟩ := hd
    obtain ⟨hsafe, hsc⟩ := ranges_scopes he.order hs.1 hl hap haq haa
    obtain ⟨l', hl', hperm⟩ := hsc p
    have ih := fun m' (hx : m' ∈ l) => meaning_eval he f n' m' hs.2 hn' (hdl m' hx)
    constructor
    · rw [eval]
      refine returns_evalAll (fun i m o h => eval_msg env n' _ m o h) hsafe fun l2 h2 m' hm' => ?_
      rw [hl'] at h2
      simp at h2; subst h2
      exact fun i => (ih m' (hperm.subset hm') _).1
    · rw [Holds, Meaning]
      have key := (getElem?_of_perm hperm (P := fun i m' => Holds env n' ((i + 1) :: p) m') (Q := fun m' => Meaning env t f m')
        (fun i m' hm' => (ih m' (hperm.subset (List.mem_of_getElem? hm')) _).2)).2
      rw [hl']
      simp only [Except.ok.injEq, Option.some.injEq, exists_eq_left']
      rw [key]
      constructor
      · intro h; exact ⟨l, hl, h⟩
      · rintro ⟨l2, hl2, h⟩ x hx
        exact h x ((ranges_perm he.order hs.1 hl hl2).subset hx)

theorem meaning_turn (he : Assumed env) : ∀ (fs : List Statement) (ns : List Node) (msg : Msg), SoundAll env t fs →
    prepareNodes env t (Statement.trees env fs) = .ok ns → DefinedInTurn env t fs msg → ∀ p,
      (∀ i acc, Returns (evalAnd env ns p i acc msg)) ∧ (∀ i, HoldsAll env ns p i msg ↔ MeaningAll env t fs msg)
  | [], ns, msg, _, hn, _, p => by
    rw [Statement.trees, prepareNodes] at hn
    simp at hn; subst hn
    refine ⟨fun _ _ => ?_, fun _ => ?_⟩
    · rw [evalAnd]; exact .ok _
    · rw [HoldsAll, MeaningAll]
  | f :: fs, ns, msg, hs, hn, hd, p => by
    rw [Statement.trees, prepareNodes, Go.bind_eq_ok] at hn
    obtain ⟨n, hn1, hn⟩ := hn
    rw [Go.bind_eq_ok] at hn
    obtain ⟨ns', hn2, hn⟩ := hn
    simp at hn; subst hn
    rw [SoundAll] at hs
    rw [DefinedInTurn] at hd
    have ih := meaning_eval he f n msg hs.1 hn1 hd.1
    have ih2 := fun hm => meaning_turn he fs ns' msg hs.2 hn2 (hd.2 hm) p
    refine ⟨fun i acc => ?_, fun i => ?_⟩
    · rw [evalAnd]
      refine .bind (ih _).1 fun o ho => .ite (fun _ => .pure _) fun hf => ?_
      have hm := (ih _).2.1 ((eval_holds env n _ _ _ ho).1 (by simpa using hf))
      rw [eval_msg env n _ _ _ ho]
      exact (ih2 hm).1 _ _
    · rw [HoldsAll, MeaningAll, (ih _).2]
      exact ⟨fun h => ⟨h.1, ((ih2 h.1).2 _).1 h.2⟩, fun h => ⟨h.1, ((ih2 h.1).2 _).2 h.2⟩⟩

theorem meaning_evals (he : Assumed env) : ∀ (fs : List Statement) (ns : List Node) (msg : Msg), SoundAll env t fs →
    prepareNodes env t (Statement.trees env fs) = .ok ns → DefinedAll env t fs msg → ∀ p,
      (∀ i b acc, Returns (evalOr env ns p i b acc msg)) ∧ (∀ i, HoldsSome env ns p i msg ↔ MeaningSome env t fs msg)
  | [], ns, msg, _, hn, _, p => by
    rw [Statement.trees, prepareNodes] at hn
    simp at hn; subst hn
    refine ⟨fun _ _ _ => ?_, fun _ => ?_⟩
    · rw [evalOr]; exact .ok _
    · rw [HoldsSome, MeaningSome]
  | f :: fs, ns, msg, hs, hn, hd, p => by
    rw [Statement.trees, prepareNodes, Go.bind_eq_ok] at hn
    obtain ⟨n, hn1, hn⟩ := hn
    rw [Go.bind_eq_ok] at hn
    obtain ⟨ns', hn2, hn⟩ := hn
    simp at hn; subst hn
    rw [SoundAll] at hs
    rw [DefinedAll] at hd
    have ih := meaning_eval he f n msg hs.1 hn1 hd.1
    obtain ⟨h2, h4⟩ := meaning_evals he fs ns' msg hs.2 hn2 hd.2 p
    refine ⟨fun i b acc => ?_, fun i => ?_⟩
    · rw [evalOr]
      refine .bind (ih _).1 fun o ho => ?_
      rw [eval_msg env n _ _ _ ho]
      exact h2 _ _ _
    · rw [HoldsSome, MeaningSome, (ih _).2, h4]
end

/-! ## Rules -/

theorem Returns.mapM {α β : Type} {f : α → Go β} : ∀ {l : List α}, (∀ x ∈ l, Returns (f x)) → Returns (l.mapM f)
  | [], _ => .ok _
  | x :: l, h => by
    rw [List.mapM_cons]
    exact .bind (h x (by simp)) fun _ _ => .bind (Returns.mapM fun y hy => h y (by simp [hy])) fun _ _ => .pure _

theorem decimal_digits (n : Nat) : ∀ c ∈ decimal n, c.isDigit = true := fun _ hc => Nat.isDigit_of_mem_toDigits (by decide) (by decide) hc

theorem entry_plain {s : Str} (h : SubnetEntry s) : PlainPattern s := by
  have sub : ∀ c ∈ addressChars, c ∉ ['+', '(', ')', '[', ']', '{', '}', '|', '\\'] := by decide
  have sub2 : ∀ c ∈ gs"0123456789", c ∉ ['+', '(', ')', '[', ']', '{', '}', '|', '\\'] := by decide
  have net : ∀ {a t : Str} {y n : Nat}, AddressText a y → WrittenIn 10 Digit10 t n → PlainPattern (a ++ gs"/" ++ t) := by
    intro a t y n ha ht c hc
    simp only [List.mem_append] at hc
    rcases hc with (hc | hc) | hc
    · exact sub c (address_chars ha c hc)
    · simp at hc; subst hc; decide
    · exact sub2 c (decimal_chars ht c hc)
  rcases h with ⟨x, n, h⟩ | ⟨y, h⟩
  · cases h with
    | v4 y h _ => exact net (.v4 y) h
    | v6 hs h _ => exact net (.v6 hs) h
    | all => unfold PlainPattern; decide
  · exact fun c hc => sub c (address_chars h c hc)

theorem name_compiles {env : Ext} (hok : RegexpOk env) {s : Str} (hp : PlainPattern s) :
    ∃ re, compile env (gs"^" ++ escapeWild (replaceAll s gs" " []) ++ gs"$") = some re := by
  obtain ⟨r, hr, -⟩ := readPattern_name (plain_mono hp (noBlanks_subset s))
  exact ⟨_, by rw [replaceAll_blanks, compile, if_pos (hok _ _ hr).1]⟩

theorem expandOne_subnet {env : Ext} (hok : RegexpOk env) {s : Str} (h : SubnetEntry s) : Returns (expandOne env gs"subnet" s) := by
  have hk := (entry_iff env).2 h
  have hp : PlainPattern (if s = gs"*" then gs"0.0.0.0/0" else s) := by
    split
    · unfold PlainPattern; decide
    · exact entry_plain h
  obtain ⟨re, hre⟩ := name_compiles hok hp
  unfold expandOne
  simp only [true_and, if_true, hre]
  rw [if_neg (by rcases hk with hk | hk <;> simp [hk])]
  exact .ok _

/-- Names of the alphabet, and subnets, can be compiled. -/
theorem expand_returns {env : Ext} (hok : RegexpOk env) {ty name : Str} (h : NameOk ty name) : Returns (convertStringToExpandedSenderReceiver env name ty) := by
  refine Returns.mapM fun s hs => ?_
  unfold NameOk at h
  by_cases hty : ty = gs"subnet"
  · subst hty
    rw [if_pos rfl] at h
    exact expandOne_subnet hok (h s (mem_split_iff.1 hs))
  · rw [if_neg hty] at h
    obtain ⟨re, hre⟩ := name_compiles hok (plain_mono h fun c hc => (mem_split hs c hc).1)
    unfold expandOne
    simp only [hty, false_and, if_false, hre]
    exact .ok _

theorem text_compiles {env : Ext} (hok : RegexpOk env) {s : Str} (h : PlainPattern s) : ∃ re, compile env (convertStringToRegex s gs"WithWildcards") = some re := by
  have hpat : convertStringToRegex s gs"WithWildcards" = gs"(" ++ wildAlternatives (split ',' s) ++ gs")" := by
    simp [convertStringToRegex]
  obtain ⟨r, hr, -⟩ := readPattern_alternatives (split_ne_nil (sep := ',') s)
    (fun p hp' => plain_mono h fun c hc => (mem_split hp' c (trimSpace_subset p c hc)).1)
  exact ⟨_, by rw [hpat, compile, if_pos (hok _ _ hr).1]⟩

theorem operation_compiles {env : Ext} (hok : RegexpOk env) {s : Str} (h : PlainPattern s) : ∃ re, compile env (convertOperationStringToRegex s) = some re := by
  have keys : ∀ l : List Str, l ≠ [] → (∀ w ∈ l, PlainPattern w) → ∃ re, compile env (gs"(" ++ wildAlternatives l ++ gs")") = some re := by
    intro l hl hw
    obtain ⟨r, hr, -⟩ := readPattern_alternatives hl fun p hp => plain_mono (hw p hp) (trimSpace_subset p)
    exact ⟨_, by rw [compile, if_pos (hok _ _ hr).1]⟩
  by_cases h1 : s = gs"*"
  · subst h1
    have hr : readPattern gs".*" = some (.seq .eps (.star .dot)) := by simp [readPattern, tokens, readToks, Reading.flush, Reading.close]
    exact ⟨_, by rw [show convertOperationStringToRegex gs"*" = gs".*" from rfl, compile, if_pos (hok _ _ hr).1]⟩
  by_cases h2 : s = gs"read" ∨ s = gs"READ"
  · rw [show convertOperationStringToRegex s = gs"(" ++ wildAlternatives
        [gs"GET", gs"HEAD", gs"OPTIONS", gs"TRACE", gs"read", gs"READ"] ++ gs")" by rcases h2 with rfl | rfl <;> decide]
    exact keys _ (by simp) (by decide)
  by_cases h3 : s = gs"write" ∨ s = gs"WRITE"
  · rw [show convertOperationStringToRegex s = gs"(" ++ wildAlternatives [gs"POST", gs"PUT", gs"DELETE"] ++ gs")" by
      rcases h3 with rfl | rfl <;> decide]
    exact keys _ (by simp) (by decide)
  · rw [convertOperationStringToRegex, if_neg h1, if_neg h3, if_neg h2]
    exact text_compiles hok h

/-- What was written and the tables used for it fit together, and the statement is defined on the message. -/
theorem written_prepares {body : Rule} {c : Option Statement} {s v : Str} (he : Assumed env) (hu : body.converted = false)
    (hc : body.conditions = c.map (Statement.tree env)) (hs : Resolves t body.senderName s) (hv : Resolves t body.receiverName v)
    (ht : TextsOk body s v) (hok : ∀ f ∈ c, Sound env t f) (p : List Nat) :
    ∃ copy rule, copyRule env p body = .ok copy ∧ prepareOneRule env t copy = .ok rule := by
  have hcopy : copyConditions env p body.conditions = .ok body.conditions := by
    rw [hc]
    cases c with
    | none => rfl
    | some f => exact copy_copyable he.order (sound_copyable f (hok f (by simp))) p
  obtain ⟨sl, hsl⟩ := expand_returns he.regexp ht.sender
  obtain ⟨rl, hrl⟩ := expand_returns he.regexp ht.receiver
  obtain ⟨op, hop⟩ := operation_compiles he.regexp ht.operation
  obtain ⟨re, hre⟩ := text_compiles he.regexp ht.resource
  obtain ⟨copy, hcp⟩ : Returns (copyRule env p body) := by
    simp only [copyRule, hcopy, Go.ok_bind]
    exact .pure _
  refine ⟨copy, ?_⟩
  simp only [exists_and_left]
  refine ⟨hcp, ?_⟩
  obtain ⟨ct, h1, rfl⟩ := copyRule_ok hcp
  rw [hcopy] at h1
  simp only [Except.ok.injEq] at h1
  subst h1
  cases c with
  | none =>
    simp only [Option.map_none] at hc
    simp only [prepareOneRule, prepareConditions, hc, Go.ok_bind, replaceStringsAndListsInOneRule, replaceName_iff.2 hs, replaceName_iff.2 hv, pure,
      Except.pure, convertFields, convertFieldsToRegex, hu, hsl, hrl, hop, hre, Bool.false_eq_true, if_false]
    exact ⟨_, rfl⟩
  | some f =>
    simp only [Option.map_some] at hc
    obtain ⟨n, hn⟩ := sound_prepare f (hok f (by simp))
    simp only [prepareOneRule, prepareConditions, hc, hn, Go.ok_bind, replaceStringsAndListsInOneRule, replaceName_iff.2 hs, replaceName_iff.2 hv, pure,
      Except.pure, convertFields, convertFieldsToRegex, hu, hsl, hrl, hop, hre, Bool.false_eq_true, if_false]
    exact ⟨_, rfl⟩

theorem written_sets {r : RuleObj} {c : Option Statement} {s v : Str} (he : Assumed env) (hf : Fresh r)
    (hc : r.body.conditions = c.map (Statement.tree env)) (hs : Resolves t r.body.senderName s) (hv : Resolves t r.body.receiverName v)
    (ht : TextsOk r.body s v) (hok : ∀ f ∈ c, Sound env t f) (p : List Nat) : ∃ r', r.setPredefined env p t = .ok (r', none) := by
  obtain ⟨copy, rule, h1, h2⟩ := written_prepares he hf.converted hc hs hv ht hok p
  simp only [RuleObj.setPredefined, h1, h2]
  exact ⟨_, rfl⟩

/-- A prepared rule gives its decision exactly if what was written holds. -/
theorem written_check {r r' : RuleObj} {c : Option Statement} {s v : Str} {g : Predef} {p0 : List Nat} (he : Assumed env) (hm : MsgOk env msg) (hf : Fresh r)
    (h0 : r.setPredefined env p0 t = .ok (r', none)) (hc : r.body.conditions = c.map (Statement.tree env)) (hs : Resolves t r.body.senderName s)
    (hv : Resolves t r.body.receiverName v) (ht : TextsOk r.body s v) (hok : ∀ f ∈ c, Sound env t f) (hd : ∀ f ∈ c, Defined env t f msg) (p : List Nat) :
    ∃ o, r'.check env g p msg = .ok o ∧
      (WrittenParts r.body s v msg ∧ (∀ f ∈ c, Meaning env t f msg) → o.result = (decisionOf r.body.decision).rank) ∧
      (¬ (WrittenParts r.body s v msg ∧ ∀ f ∈ c, Meaning env t f msg) → o.result = Decision.default.rank ∧ o.extra = []) := by
  obtain ⟨copy, rule, h1, h2, rfl⟩ := setPredefined_ok h0
  obtain ⟨k1, k2, k3, k4⟩ := parts_text he.regexp hm hf.converted h0 rfl hs hv ht
  have hx : Expanded rule := prepared_expanded hf.converted h0 rfl
  obtain ⟨ct, hct, rfl⟩ := copyRule_ok h1
  have hcopy : ct = c.map (Statement.tree env) := by
    rw [hc] at hct
    cases c with
    | none => simpa [copyConditions_none] using hct.symm
    | some f =>
      rw [Option.map_some, copy_copyable he.order (sound_copyable f (hok f (by simp)))] at hct
      simpa using hct.symm
  subst hcopy
  obtain ⟨s', v', sl, rl, op, re, _, _, h3, h4, _, _, h7, h8⟩ := prepareOneRule_ok (by simpa using hf.converted) h2
  have hcond : ∀ n, rule.conditions = some n → ∃ f, c = some f ∧ (f.tree env).prepare env t = .ok n := by
    intro n hn
    rcases h7 with ⟨_, h7⟩ | ⟨n0, n', h5, h6, h7⟩
    · rw [h7] at hn; simp at hn
    · rw [h7] at hn
      obtain rfl : n' = n := by simpa using hn
      cases c with
      | none => simp at h5
      | some f =>
        simp at h5; subst h5
        exact ⟨f, rfl, h6⟩
  have hnone : rule.conditions = none → c = none := by
    intro hn
    rcases h7 with ⟨h7, _⟩ | ⟨n0, n', h5, h6, h7⟩
    · simpa using h7
    · rw [h7] at hn; simp at hn
  have hret : Returns (RuleObj.check env g p { r with ready := true, predefined := t, prepared := some rule } msg) := by
    refine returns_prepared (rule := rule) rfl rfl ?_ ?_ ?_ ?_ ?_ fun n hn p => ?_
    · rw [h8]; exact expand_regexp h3
    · rw [h8]; exact expand_regexp h4
    · rw [h8]; rfl
    · rw [h8]; rfl
    · rw [h8]
    · obtain ⟨f, rfl, hp⟩ := hcond n hn
      exact (meaning_eval he f n msg (hok f (by simp)) hp (hd f (by simp)) p).1
  obtain ⟨o, ho⟩ := hret
  have hdec : rule.decision = r.body.decision := by rw [h8]
  obtain ⟨r1, r2, -⟩ := ruleCheck_prepared (r := { r with ready := true, predefined := t, prepared := some rule }) rfl rfl hx ho
  rw [hdec] at r1
  have key : (PartsMatch env rule msg ∧ (∀ n, rule.conditions = some n → Holds env n (1 :: 1 :: p) msg)) ↔
      (WrittenParts r.body s v msg ∧ ∀ f ∈ c, Meaning env t f msg) := by
    refine and_congr ?_ ?_
    · constructor
      · rintro ⟨a, b, c, d⟩; exact ⟨k1.1 a, k2.1 b, k3.1 c, k4.1 d⟩
      · rintro ⟨a, b, c, d⟩; exact ⟨k1.2 a, k2.2 b, k3.2 c, k4.2 d⟩
    · cases hn : rule.conditions with
      | none =>
        rw [hnone hn]; simp
      | some n =>
        obtain ⟨f, rfl, hp⟩ := hcond n hn
        have := (meaning_eval he f n msg (hok f (by simp)) hp (hd f (by simp)) (1 :: 1 :: p)).2
        simp [this]
  exact ⟨o, ho, fun h => r1 (key.2 h), fun h => r2 fun h' => h (key.1 h')⟩

theorem rule_says {g : Predef} {r : RuleObj} {A : Prop} {d : Decision} (he : Assumed env) (hm : MsgOk env msg) (h : RuleSays env g msg r A d) (p : List Nat) :
    ∃ o, r.check env g p msg = .ok o ∧ (A → o.result = d.rank) ∧ (¬ A → o.result = Decision.default.rank ∧ o.extra = []) := by
  obtain ⟨body, t, hl, h⟩ := h
  cases h with
  | mk hc hs hv ht hok hd =>
    cases hl with
    | parsed hf =>
      obtain ⟨r', h0⟩ := written_sets he hf hc hs hv ht hok (0 :: p)
      rw [check_unready hf.ready h0 (setPredefined_ready h0)]
      exact written_check he hm hf h0 hc hs hv ht hok hd p
    | prepared hf h0 => exact written_check he hm hf h0 hc hs hv ht hok hd p

end Mapl

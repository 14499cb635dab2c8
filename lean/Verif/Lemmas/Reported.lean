import Verif.Spec.Reported
import Verif.Lemmas.Place
import Verif.Props.Returns

/-! # Lemmas on what rules return -/

namespace Mapl

open Spec Props

variable {env : Env} {t : Predef} {base msg : Msg} {root : Json} {cur : Option Json}

/-! ## Elements in order -/

/-- What lists are selected as. -/
def ListLike (v : Json) : Prop := v = .null ∨ ∃ l, v = .arr l

theorem arrangeArray_list {p : List Nat} {v : Json} (h : ListLike v) : arrangeArray env p v = .ok (elementsOf v) := by
  rcases h with rfl | ⟨l, rfl⟩
  · rfl
  · simp only [arrangeArray, elementsOf, concatLists_eq]
    cases flattenArrays l <;> rfl

theorem queryElements_list {p : List Nat} {d : Json} : ∀ {qs : List JPath} {j : Nat}, (∀ q ∈ qs, ListLike (env.jpGet q.src d).1) →
    queryElements env p (some d) j qs = .ok (qs.flatMap fun q => elementsOf (env.jpGet q.src d).1)
  | [], _, _ => rfl
  | q :: qs, j, h => by
    simp only [queryElements, deref, Go.ok_bind, arrangeArray_list (h q (by simp)), queryElements_list (qs := qs) fun q hq => h q (by simp [hq]), List.flatMap_cons]
    rfl

theorem scopes_list {p : List Nat} {a : AnyAll} {d : Json} (hI : msg.rawI.isSome) (hq : a.queries ≠ []) (hs : a.parent ≠ gs"$RELATIVE*") (hd : parentDoc a msg = some d)
    (h : ∀ q ∈ a.queries, ListLike (env.jpGet q.src d).1) :
    scopes env p a msg = .ok (some ((a.queries.flatMap fun q => elementsOf (env.jpGet q.src d).1).map fun v => { msg with rawIRel := some v })) := by
  rw [scopes, if_pos ⟨hI, hq⟩]
  have : getArrayOfInterfaces env p a msg = .ok (a.queries.flatMap fun q => elementsOf (env.jpGet q.src d).1) := by
    unfold getArrayOfInterfaces
    unfold parentDoc at hd
    split
    · next hr =>
      rw [if_pos hr] at hd
      rw [hd, queryElements_list h]
    · next hr =>
      rw [if_neg hr] at hd
      rw [hd, queryElements_list h]
  rw [this]
  rfl

/-- The elements of lists are found in order. -/
theorem part_elements_list {data : Str} {l : List Str} (hd : 2 ≤ data.length) (h : PartElements env (env.ugly data) l) (hno : ∀ x, env.ugly data ≠ '{' :: x) :
    ∃ s, getArrayFromArrayOfArrays env data = .ok (some s) ∧ getArrayOfJsonsFromInterfaceArray s = some l := by
  generalize hu : env.ugly data = u at h hno
  cases h with
  | @lists ls hne h hl =>
    obtain ⟨l, ls, rfl⟩ := List.exists_cons_of_ne_nil hne
    obtain ⟨c', rest, hshape⟩ : ∃ c' rest, join gs"," ((l :: ls).map listText) = '[' :: c' :: rest := by
      have : ∃ r, join gs"," ((l :: ls).map listText) = listText l ++ r := join_cons_append _ _ _
      obtain ⟨r, hr⟩ := this
      rw [hr, listText]
      cases join gs"," (l.map fun i => i.before ++ (i.text ++ i.after)) with
      | nil => exact ⟨']', r, rfl⟩
      | cons c cs => exact ⟨c, cs ++ gs"]" ++ r, by simp⟩
    have hc : c' ≠ '[' := by
      rintro rfl
      exact hl rest hshape
    have hscan := scan_lists h
    rw [hshape] at hu hscan
    refine ⟨'[' :: c' :: rest, ?_, ?_⟩
    · unfold getArrayFromArrayOfArrays
      rw [if_neg (by omega), hu]
      simp [hc]
    · show some (scanObjects 0 none ('[' :: c' :: rest)) = _
      rw [hscan]
  | @nested ll hne h =>
    obtain ⟨s, h1, h2⟩ := flatten_objects hu hd hne h
    exact ⟨s, h1, h2⟩
  | @object s kvs h => exact absurd rfl (hno _)

theorem text_list {u : Str} {l : List Json} (h : Plainly env u (.arr l)) : ∃ r, u = '[' :: r := by
  generalize hj : Json.arr l = j at h
  cases h with
  | noElements => exact ⟨_, rfl⟩
  | arr => exact ⟨_, rfl⟩
  | _ => cases hj

theorem parts_head {us : List Str} {ls : List (List Json)} (hp : PathsOk env) (hne : us ≠ [])
    (h : List.Forall₂ (fun u l => Plainly env u (.arr l) ∧ ∀ e ∈ l, ∃ kvs, e = .obj kvs) us ls) : ∃ r, env.ugly (join gs"," us) = '[' :: r := by
  have hu : env.ugly (join gs"," us) = join gs"," (us.map env.ugly) := by
    refine hp.uglyParts us (ls.map .arr) ?_
    rw [List.forall₂_map_right_iff]
    exact h.imp fun _ _ h => h.1
  cases h with
  | nil => exact absurd rfl hne
  | @cons u l us ls h _ =>
    obtain ⟨r, hr⟩ := text_list (hp.ugly _ _ h.1)
    obtain ⟨r', hr'⟩ := join_cons_append gs"," (env.ugly u) (us.map env.ugly)
    rw [hu, List.map_cons, hr', hr]
    exact ⟨_, rfl⟩

theorem listed_like {p : ListPath} {d : Json} {l : List Json} (hp : PathsOk env) (hpl : PlainSteps p.steps) (hd : ∀ o, p.Leads root cur o → Leads d p.steps o)
    (hl : Gathers root cur p l) : ListLike (env.jpGet (gs"$." ++ (p.tail ++ p.mark.text)) d).1 := by
  rcases gathers_cases hl with ⟨h, hm⟩ | ⟨rfl, h⟩
  · rw [list_found hp hpl hm (hd _ h)]
    exact .inr ⟨_, rfl⟩
  · rw [marked_text]
    rcases hp.unlisted _ p.mark _ hpl (h hd) with ⟨e, he⟩ | ⟨e, he⟩
    · rw [he]
      exact .inl rfl
    · rw [he]
      exact .inr ⟨_, rfl⟩

/-- The elements that an ANY ranges over, in order. -/
theorem paths_scopes {ps : List ListPath} {st : Start} (hp : PathsOk env) (hpl : ∀ p ∈ ps, p.start = st ∧ PlainSteps p.steps) (hc : Carries env base root msg cur) {ls : List (List Json)}
    (hl : List.Forall₂ (fun p l => Gathers root cur p l ∧ ∀ e ∈ l, ∃ kvs, e = .obj kvs) ps ls) (hq : (parentOf ps).Ok env)
    (hlast : (∃ p ∈ ps.getLast?, ∃ l, p.Leads root cur (some (.arr l)) ∧ (p.mark ≠ .none → l ≠ [])) ∨ QuietAbsent env) {a : AnyAll} (hap : a.parent = (parentOf ps).text)
    (haq : a.queries = (parentOf ps).queries) (har : a.parentArr = (parentOf ps).paths) (p : List Nat) :
    ∃ ms, scopes env p a msg = .ok (some ms) ∧ List.Forall₂ (fun e m => Carries env base root m (some e) ∧ m.rawI = msg.rawI) ls.flatten ms := by
  have hne := parentOf_ne hq
  obtain ⟨p0, hp0⟩ := List.exists_mem_of_ne_nil ps hne
  have hcur : st = .element → cur.isSome := by
    obtain ⟨l0, -, h0, -⟩ := forall₂_mem hl hp0
    intro e
    cases h0 with
    | there h => exact leads_start h ((hpl p0 hp0).1.trans e)
    | missing h => exact leads_start h ((hpl p0 hp0).1.trans e)
  obtain ⟨d, hlead, h | ⟨s, hs, hI, h⟩⟩ := carries_start hc hcur
  · have hel : ∀ p ∈ ps, ListLike (env.jpGet (gs"$." ++ (p.tail ++ p.mark.text)) d).1 := fun p hpm => by
      obtain ⟨l, -, h1⟩ := forall₂_mem hl hpm
      exact listed_like hp (hpl _ hpm).2 (fun o => hlead _ o (hpl _ hpm).1) h1.1
    have hflat : ps.flatMap (fun p => elementsOf (env.jpGet (gs"$." ++ (p.tail ++ p.mark.text)) d).1) = ls.flatten :=
      flatten_flatMap (forall₂_imp_mem hl fun p hpm l h1 => (listed_found hp (hpl p hpm).2 (fun o => hlead _ o (hpl p hpm).1) h1.1 h1.2).2)
    refine ⟨ls.flatten.map fun x => { msg with rawIRel := some x }, ?_, ?_⟩
    · have hqs : ∃ f : ListPath → JPath, a.queries = ps.map f ∧ (∀ p, (f p).src = gs"$." ++ (p.tail ++ p.mark.text)) ∧ a.parent ≠ gs"$RELATIVE*" ∧ parentDoc a msg = some d := by
        cases st with
        | document =>
          have e := parentOf_document fun p hp => (hpl p hp).1
          obtain ⟨s1, s2⟩ := parent_start (e ▸ hq)
          rw [e] at hap haq
          refine ⟨_, by rw [haq, Parent.queries, List.map_map]; rfl, fun _ => rfl, by rw [hap, Ne, s2]; simp, by rw [parentDoc, hap, s1]; exact h.2⟩
        | element =>
          have e := parentOf_element hne fun p hp => (hpl p hp).1
          obtain ⟨s1, s2⟩ := parent_start (e ▸ hq)
          rw [e] at hap haq
          refine ⟨_, by rw [haq, Parent.queries, List.map_map]; rfl, fun _ => rfl, by rw [hap, Ne, s2]; simp, by rw [parentDoc, hap, s1]; exact h.2⟩
      obtain ⟨f, hf1, hf2, hf3, hf4⟩ := hqs
      rw [scopes_list h.1 (by rw [hf1]; simpa using hne) hf3 hf4 (by
        rw [hf1]
        intro q hq
        obtain ⟨p, hpm, rfl⟩ := List.mem_map.1 hq
        rw [hf2]
        exact hel p hpm), hf1, List.flatMap_map]
      simp only [hf2, hflat]
    · rw [List.forall₂_map_right_iff, List.forall₂_same]
      exact fun e _ => ⟨carries_parsed hc h.1 e, rfl⟩
  · obtain ⟨parts, ls', h1, h2, h3⟩ := listed_parts hp hs (fun p hpm => ⟨(hpl p hpm).2, fun o => hlead _ o (hpl p hpm).1⟩) hl
    have hquiet : ∀ r ∈ (ps.map fun p => p.tail ++ p.mark.text).getLast?, (env.jsGet s (gs"$." ++ r)).2 = false := by
      intro r hr
      rw [List.getLast?_map, Option.mem_map] at hr
      obtain ⟨p, hpm, rfl⟩ := hr
      have hmem := List.mem_of_getLast? hpm
      obtain ⟨lk, -, h8, -⟩ := forall₂_mem hl hmem
      rcases gathers_cases h8 with ⟨h, hm⟩ | ⟨rfl, h⟩
      · obtain ⟨u, hu, -⟩ := list_foundText hp (hpl p hmem).2 hm hs (hlead _ _ (hpl p hmem).1 h)
        rw [hu]
      · rcases hlast with ⟨p', hp', l, hl', hm⟩ | hq
        · rw [Option.mem_def] at hp' hpm
          rw [hp'] at hpm
          cases hpm
          obtain ⟨u, hu, -⟩ := list_foundText hp (hpl p hmem).2 hm hs (hlead _ _ (hpl p hmem).1 hl')
          rw [hu]
        · rw [marked_text]
          exact hq _ p.mark _ _ (hpl p hmem).2 hs (h fun o => hlead _ o (hpl p hmem).1)
    have hpart : SelectsPart env msg (parentOf ps) (join gs"," (parts.filter (· ≠ []))) := by
      cases st with
      | document =>
        rw [parentOf_document fun p hp => (hpl p hp).1]
        exact .document h h1 hquiet
      | element =>
        rw [parentOf_element hne fun p hp => (hpl p hp).1]
        exact .element h h1 hquiet
    obtain ⟨c1, c2⟩ := part_collect hq hpart
    have hu : ¬ (msg.rawI.isSome ∧ a.queries ≠ []) := fun h => by rw [hI] at h; exact absurd h.1 (by simp)
    by_cases h4 : parts.filter (· ≠ []) = []
    · rw [h4] at c2 h2
      cases h2
      rw [← h3]
      refine ⟨[], ?_, .nil⟩
      rw [scopes, if_neg hu, getArrayOfJsons, har, c2]
      rfl
    · obtain ⟨ts, h5, h6, h7⟩ := parts_elements hp h4 h2
      obtain ⟨r, hr⟩ := parts_head hp h4 h2
      obtain ⟨s', h8, h9⟩ := part_elements_list h5 h6 (by rw [hr]; simp)
      refine ⟨ts.map fun x => { msg with jsonRawRel := some x }, ?_, ?_⟩
      · rw [scopes, if_neg hu, getArrayOfJsons, har, c2]
        simp only [Go.ok_bind]
        rw [h8]
        simp only [Go.ok_bind, h9]
        rfl
      · rw [List.forall₂_map_right_iff, ← h3]
        exact h7.imp fun _ _ h => ⟨carries_text hc hI h, rfl⟩

/-! ## Preparation -/

theorem any_prepare {q : Parent} (h : q.Ok env) (ret : List (Str × Str)) : ∃ a, (anyFields env (gs"jsonpath:" ++ q.text) ret).prepare env = .ok a ∧ a.parent = q.text ∧
    a.queries = q.queries ∧ a.ret = ret.map (anyRetVal env) ∧ a.parentArr = q.paths := by
  obtain ⟨a, h1, h2, h3, -, h5⟩ := parent_prepare h
  simp only [AnyAll.prepare, anyFields, Go.bind_eq_ok] at h1 ⊢
  obtain ⟨qs, hqs, h1⟩ := h1
  simp only [Go.pure_eq, Except.ok.injEq] at h1
  subst h1
  exact ⟨_, ⟨qs, hqs, rfl⟩, h2, h3, rfl, h5⟩

theorem stepsText_plain {p : List Step} (h : PlainSteps p) (hne : p ≠ []) : PlainRest (stepsText p) ∧ stepsText p ≠ gs"*" := by
  have hch : ∀ c ∈ stepsText p, c ≠ '$' := by
    intro c hc
    obtain ⟨s, hs, hc⟩ := List.mem_flatMap.1 hc
    cases s with
    | field n =>
      rcases List.mem_cons.1 hc with rfl | hc
      · decide
      · rcases (h n hs).2.1 c hc with h' | rfl
        · rintro rfl
          exact absurd h' (by decide)
        · decide
    | item i =>
      simp only [Step.text, List.mem_cons, List.mem_append, List.not_mem_nil, or_false] at hc
      rcases hc with rfl | hc | rfl
      · decide
      · have := decimal_digits i c hc
        rintro rfl
        exact absurd this (by decide)
      · decide
  obtain ⟨s, ss, rfl⟩ := List.exists_cons_of_ne_nil hne
  have hfirst : ∃ c r, stepsText (s :: ss) = c :: r ∧ (c = '.' ∨ c = '[') := by
    cases s with
    | field n => exact ⟨'.', _, rfl, .inl rfl⟩
    | item i => exact ⟨'[', _, rfl, .inr rfl⟩
  obtain ⟨c, r, hr, hc⟩ := hfirst
  refine ⟨⟨fun hm => hch _ hm rfl, fun k hk x e => ?_⟩, fun e => ?_⟩
  · rw [hr] at e
    simp only [List.mem_cons, List.not_mem_nil, or_false] at hk
    rcases hk with rfl | rfl | rfl <;> simp at e <;> rcases hc with rfl | rfl <;> simp at e
  · rw [hr] at e
    simp at e
    rcases hc with rfl | rfl <;> simp at e

/-- The rest of the path of a value. -/
def restText : List Step → Str
  | [] => gs"*"
  | s :: ss => stepsText (s :: ss)

theorem wanted_text (w : Wanted) : w.text = gs"jsonpath:$RELATIVE" ++ restText w.steps := by
  unfold Wanted.text restText
  cases w.steps <;> rfl

theorem restText_plain {p : List Step} (h : PlainSteps p) : PlainRest (restText p) := by
  cases p with
  | nil => exact ⟨by simp [restText], by simp [restText]⟩
  | cons s ss => exact (stepsText_plain h (by simp)).1

mutual
theorem ask_prepare : ∀ (q : Ask), Sound env t q.bare.statement → ∃ n, (q.tree env).prepare env t = .ok n
  | .claim f, h => sound_prepare f.statement h
  | .any ps ws f, h => by
    rw [Ask.bare, Claim.statement, Sound] at h
    obtain ⟨n, hn⟩ := sound_prepare _ h.2
    obtain ⟨a, ha, -⟩ := any_prepare h.1 (ws.map fun w => (w.name, w.text))
    exact ⟨.any a n, by rw [Ask.tree, Node.prepare, hn, Go.ok_bind, ha]; rfl⟩
  | .and qs, h => by
    rw [Ask.bare, Claim.statement, Sound] at h
    obtain ⟨ns, hn⟩ := asks_prepare qs h.2
    exact ⟨.and ns, by rw [Ask.tree, Node.prepare, hn]; rfl⟩
  | .or qs, h => by
    rw [Ask.bare, Claim.statement, Sound] at h
    obtain ⟨ns, hn⟩ := asks_prepare qs h.2
    exact ⟨.or ns, by rw [Ask.tree, Node.prepare, hn]; rfl⟩

theorem asks_prepare : ∀ (qs : List Ask), SoundAll env t (Claim.statements (Ask.bares qs)) → ∃ ns, prepareNodes env t (Ask.trees env qs) = .ok ns
  | [], _ => ⟨[], rfl⟩
  | q :: qs, h => by
    rw [Ask.bares, Claim.statements, SoundAll] at h
    obtain ⟨n, hn⟩ := ask_prepare q h.1
    obtain ⟨ns, hns⟩ := asks_prepare qs h.2
    exact ⟨n :: ns, by rw [Ask.trees, prepareNodes, hn, Go.ok_bind, hns]; rfl⟩
end

mutual
theorem ask_copyable : ∀ (q : Ask), q.Plain env → Sound env t q.bare.statement → Copyable env (q.tree env)
  | .claim f, _, h => sound_copyable f.statement h
  | .any ps ws f, hp, h => by
    rw [Ask.bare, Claim.statement, Sound] at h
    rw [Ask.Plain] at hp
    rw [Ask.tree]
    refine .any (parent_ok h.1) (parent_verbatim h.1) (by rw [List.map_map]; exact hp.2.1) (fun x hx => ?_) (sound_copyable _ h.2)
    obtain ⟨w, -, rfl⟩ := List.mem_map.1 hx
    exact ⟨_, wanted_text w⟩
  | .and qs, hp, h => by
    rw [Ask.bare, Claim.statement, Sound] at h
    rw [Ask.Plain] at hp
    rw [Ask.tree]
    exact .and (by cases qs with | nil => exact absurd rfl h.1 | cons => simp [Ask.trees]) (asks_copyable qs hp h.2)
  | .or qs, hp, h => by
    rw [Ask.bare, Claim.statement, Sound] at h
    rw [Ask.Plain] at hp
    rw [Ask.tree]
    exact .or (by cases qs with | nil => exact absurd rfl h.1 | cons => simp [Ask.trees]) (asks_copyable qs hp h.2)

theorem asks_copyable : ∀ (qs : List Ask), Ask.AllPlain env qs → SoundAll env t (Claim.statements (Ask.bares qs)) → ∀ n ∈ Ask.trees env qs, Copyable env n
  | [], _, _, n, hn => by simp [Ask.trees] at hn
  | q :: qs, hp, h, n, hn => by
    rw [Ask.bares, Claim.statements, SoundAll] at h
    rw [Ask.AllPlain] at hp
    rw [Ask.trees, List.mem_cons] at hn
    rcases hn with rfl | hn
    · exact ask_copyable q hp.1 h.1
    · exact asks_copyable qs hp.2 h.2 n hn
end

/-! ## Claims return nothing -/

mutual
theorem statement_extra : ∀ (f : Statement) (n : Node) (p : List Nat) (msg : Msg) (o : EvalOut), (f.tree env).prepare env t = .ok n → eval env n p msg = .ok o → o.extra = []
  | .cond a m v, n, p, msg, o, hn, h => C70_nothing hn h (.inr (.inl rfl))
  | .and fs, n, p, msg, o, hn, h => by
    rw [Statement.tree, Node.prepare, Go.bind_eq_ok] at hn
    obtain ⟨ns, hns, hn⟩ := hn
    simp at hn; subst hn
    rw [eval] at h
    exact statements_and fs ns p 1 msg o hns h
  | .or fs, n, p, msg, o, hn, h => by
    rw [Statement.tree, Node.prepare, Go.bind_eq_ok] at hn
    obtain ⟨ns, hns, hn⟩ := hn
    simp at hn; subst hn
    rw [eval] at h
    exact statements_or fs ns p 1 false msg o hns h
  | .not f, n, p, msg, o, hn, h => by
    rw [Statement.tree, Node.prepare, Go.bind_eq_ok] at hn
    obtain ⟨n', -, hn⟩ := hn
    simp at hn; subst hn
    exact C70_violated_inner (a := {}) (.inr (.inr h))
  | .any q f, n, p, msg, o, hn, h => by
    rw [Statement.tree, Node.prepare, Go.bind_eq_ok] at hn
    obtain ⟨n', -, hn⟩ := hn
    simp only [AnyAll.prepare, Go.bind_eq_ok] at hn
    obtain ⟨a, ⟨qs, -, ha⟩, hn⟩ := hn
    simp at hn; subst hn
    refine C70_violated_inner (.inl ⟨?_, h⟩)
    simp at ha
    rw [← ha]
    rfl
  | .all q f, n, p, msg, o, hn, h => by
    rw [Statement.tree, Node.prepare, Go.bind_eq_ok] at hn
    obtain ⟨n', -, hn⟩ := hn
    rw [Go.bind_eq_ok] at hn
    obtain ⟨a, -, hn⟩ := hn
    simp at hn; subst hn
    exact C70_violated_inner (.inr (.inl h))

theorem statements_and : ∀ (fs : List Statement) (ns : List Node) (p : List Nat) (i : Nat) (msg : Msg) (o : EvalOut), prepareNodes env t (Statement.trees env fs) = .ok ns →
    evalAnd env ns p i [] msg = .ok o → o.extra = []
  | [], ns, p, i, msg, o, hn, h => by
    rw [Statement.trees, prepareNodes] at hn
    simp at hn; subst hn
    rw [evalAnd] at h
    simp at h; subst h
    rfl
  | f :: fs, ns, p, i, msg, o, hn, h => by
    rw [Statement.trees, prepareNodes, Go.bind_eq_ok] at hn
    obtain ⟨n, hn1, hn⟩ := hn
    rw [Go.bind_eq_ok] at hn
    obtain ⟨ns', hn2, hn⟩ := hn
    simp at hn; subst hn
    rw [evalAnd, Go.bind_eq_ok] at h
    obtain ⟨o1, h1, h⟩ := h
    have e := statement_extra f n _ _ _ hn1 h1
    simp only [e, List.length_nil, gt_iff_lt, Nat.lt_irrefl, if_false] at h
    split at h
    · simp at h; subst h; rfl
    · exact statements_and fs ns' p _ _ o hn2 h

theorem statements_or : ∀ (fs : List Statement) (ns : List Node) (p : List Nat) (i : Nat) (b : Bool) (msg : Msg) (o : EvalOut), prepareNodes env t (Statement.trees env fs) = .ok ns →
    evalOr env ns p i b [] msg = .ok o → o.extra = []
  | [], ns, p, i, b, msg, o, hn, h => by
    rw [Statement.trees, prepareNodes] at hn
    simp at hn; subst hn
    rw [evalOr] at h
    simp at h; subst h
    rfl
  | f :: fs, ns, p, i, b, msg, o, hn, h => by
    rw [Statement.trees, prepareNodes, Go.bind_eq_ok] at hn
    obtain ⟨n, hn1, hn⟩ := hn
    rw [Go.bind_eq_ok] at hn
    obtain ⟨ns', hn2, hn⟩ := hn
    simp at hn; subst hn
    rw [evalOr, Go.bind_eq_ok] at h
    obtain ⟨o1, h1, h⟩ := h
    have e := statement_extra f n _ _ _ hn1 h1
    simp only [e, List.append_nil, ite_self] at h
    exact statements_or fs ns' p _ _ _ o hn2 h
end

/-! ## Values -/

theorem returnPath_relative {path r : Str} {rel : Bool} {query : Str} (hp : path = gs"jsonpath:$RELATIVE" ++ r) (h : ReturnPath path rel query) : rel = true ∧ query = '$' :: r := by
  cases h with
  | @absolute r' h =>
    simp at hp
    exact absurd hp (h r)
  | relative r' =>
    simp at hp
    subst hp
    exact ⟨rfl, rfl⟩

/-- What is returned for one value. -/
theorem value_returned {w : Wanted} {e : Json} {o o' : Option Json} (hp : PathsOk env) (hc : Carries env base root msg (some e)) (hpl : PlainSteps w.steps)
    (hok : w.steps ≠ [] → env.jpOk ('$' :: stepsText w.steps) = true) (hl : Leads e w.steps o) (hcl : msg.rawI.isSome ∨ w.steps ≠ [] ∧ (o = none → MissingOk env))
    (h : ReturnedAt env msg true ('$' :: restText w.steps) o') : o' = o ∨ o = none ∧ o' = some .null := by
  cases h with
  | @parsed d _ hI hd h =>
    cases hc with
    | text => cases hI
    | parsed hr =>
      simp only [hr e rfl, if_true, Option.some.injEq] at hd
      subst hd
      cases hs : w.steps with
      | nil =>
        rw [hs] at h hl
        cases hl
        generalize hq : '$' :: restText [] = query at h
        cases h with
        | document => exact .inl rfl
        | unknown h1 => exact absurd hq.symm h1
        | selected h1 => exact absurd hq.symm h1
      | cons s ss =>
        have hne : w.steps ≠ [] := by rw [hs]; simp
        have hst : restText (s :: ss) = stepsText w.steps := by rw [hs]; rfl
        rw [hs, hst] at h
        have hstar := (stepsText_plain hpl hne).2
        have hgood := hok hne
        generalize hq : '$' :: stepsText w.steps = query at h
        cases h with
        | document =>
          simp at hq
          exact absurd hq hstar
        | unknown h1 h2 => rw [← hq, hgood] at h2; cases h2
        | selected h1 h2 h3 =>
          subst hq
          cases o with
          | some v =>
            have := hp.found _ _ _ hpl hl
            cases h3 with
            | found h => rw [this] at h; cases h; exact .inl rfl
            | notFound h => rw [this] at h; cases h
            | failed h => rw [this] at h; cases h
          | none =>
            obtain ⟨x, hx⟩ := hp.absent _ _ hpl hl
            cases h3 with
            | found h => rw [hx] at h; cases h
            | notFound h => rw [hx] at h; cases h; exact .inr ⟨rfl, rfl⟩
            | failed h => exact .inl rfl
  | @text d hI hd =>
    cases hc with
    | parsed => cases hI
    | text ht hr =>
      obtain ⟨u, rfl, hu⟩ := hr e rfl
      simp only [if_true, Option.some.injEq] at hd
      subst hd
      rcases hcl with hcl | ⟨hne, hcl⟩
      · cases hcl
      · have hst : restText w.steps = stepsText w.steps := by
          cases hs : w.steps with
          | nil => exact absurd hs hne
          | cons s ss => rfl
        rw [hst]
        cases o with
        | some v =>
          obtain ⟨x, hx, hv⟩ := hp.foundText _ _ _ _ hpl hu hl
          rw [hx]
          exact .inl (hp.read _ _ hv)
        | none => exact .inl (hcl rfl _ _ _ hpl hu hl)

theorem values_collected {e : Json} (hp : PathsOk env) (hc : Carries env base root msg (some e)) : ∀ {ws : List Wanted} {x : Extra},
    (∀ w ∈ ws, PlainSteps w.steps ∧ (w.steps ≠ [] → env.jpOk ('$' :: stepsText w.steps) = true)) → (∀ w ∈ ws, w.Clear env (msg.rawI.isSome) e) →
    Collected env msg (ws.map fun w => (w.name, w.text)) x → Values e ws x
  | [], x, _, _, h => by
    rw [List.map_nil] at h
    cases h
    exact .nil
  | w :: ws, x, hpl, hcl, h => by
    rw [List.map_cons] at h
    obtain ⟨o, hl, hcl1⟩ := hcl w (by simp)
    obtain ⟨hpl1, hok⟩ := hpl w (by simp)
    have ih := fun {x} => values_collected hp hc (ws := ws) (x := x) (fun w hw => hpl w (by simp [hw])) fun w hw => hcl w (by simp [hw])
    cases h with
    | value hpath hr hs =>
      obtain ⟨rfl, rfl⟩ := returnPath_relative (wanted_text w) hpath
      rcases value_returned hp hc hpl1 hok hl hcl1 hr with h | ⟨rfl, h⟩
      · subst h
        exact .found hl (ih hs)
      · cases h
        exact .null hl (ih hs)
    | none hpath hr hs =>
      obtain ⟨rfl, rfl⟩ := returnPath_relative (wanted_text w) hpath
      rcases value_returned hp hc hpl1 hok hl hcl1 hr with h | ⟨rfl, h⟩
      · subst h
        exact .missing hl (ih hs)
      · cases h

theorem valuesOf_reports {P : Json → Prop} {Q : Nat → Msg → Prop} {E : Msg → Extra → Prop} {ws : List Wanted} {R : Json → Msg → Prop} {l : List Json} {ms : List Msg} (h : List.Forall₂ R l ms)
    (hP : ∀ e ∈ l, ∀ m i, R e m → (Q i m ↔ P e)) (hE : ∀ e ∈ l, ∀ m x, R e m → P e → E m x → Values e ws x) : ∀ {i : Nat} {xs : List Extra}, Reports Q E i ms xs → ValuesOf P ws l xs := by
  induction h with
  | nil =>
    intro i xs h
    cases h
    exact .nil
  | @cons e m l ms h _ ih =>
    intro i xs hr
    have ih : ∀ {i : Nat} {xs : List Extra}, Reports Q E i ms xs → ValuesOf P ws l xs := fun h => ih (fun e he => hP e (by simp [he])) (fun e he => hE e (by simp [he])) h
    cases hr with
    | yes h1 h2 h3 =>
      have := (hP e (by simp) m i h).1 h1
      exact .yes this (hE e (by simp) m _ h this h2) (ih h3)
    | no h1 h3 => exact .no (fun h' => h1 ((hP e (by simp) m i h).2 h')) (ih h3)

/-! ## Evaluation -/

mutual
theorem ask_eval (he : Assumed env) (hp : PathsOk env) (hc : Carries env base root msg none) : ∀ (q : Ask) (n : Node), q.Plain env → q.bare.Plain → Sound env t q.bare.statement →
    (q.tree env).prepare env t = .ok n → q.bare.Clear env t base root none → q.Clear env t base root (msg.rawI.isSome) →
    ∀ p, ∃ o, eval env n p msg = .ok o ∧ (o.flag = true ↔ q.Holds env t base root) ∧ (q.Holds env t base root → q.Gives env t base root o.extra)
  | .claim f, n, _, hpl, hs, hn, hd, _, p => by
    obtain ⟨hdef, hmean⟩ := claim_meaning he hp f msg none hpl hs hc hd
    obtain ⟨⟨o, ho⟩, h2⟩ := meaning_eval he f.statement n msg hs hn hdef p
    refine ⟨o, ho, ?_, fun _ => ?_⟩
    · rw [eval_holds env n _ _ _ ho, h2, hmean]
      exact Iff.rfl
    · rw [Ask.Gives]
      exact statement_extra f.statement n p msg o hn ho
  | .any ps ws f, n, hpa, hpl, hs, hn, hd, hda, p => by
    rw [Ask.Plain] at hpa
    rw [Ask.bare] at hpl hs hd
    rw [Claim.Plain] at hpl
    rw [Claim.statement, Sound] at hs
    rw [Claim.Clear] at hd
    rw [Ask.Clear] at hda
    have hn0 := hn
    rw [Ask.tree] at hn0
    rw [Ask.tree, Node.prepare, Go.bind_eq_ok] at hn
    obtain ⟨n', hn', hn⟩ := hn
    obtain ⟨a, ha, hap, haq, har, haa⟩ := any_prepare hs.1 (ws.map fun w => (w.name, w.text))
    rw [ha] at hn
    simp at hn; subst hn
    obtain ⟨hd, hlast⟩ := hd
    obtain ⟨⟨st, hst⟩, hpf⟩ := hpl
    obtain ⟨ls, hls⟩ := forall₂_pick hd
    have hls' := hls.imp fun _ _ h => And.intro h.1 fun e he => (h.2 e he).1
    obtain ⟨ms0, hr0, -⟩ := paths_ranges hp hst hc hls' (parentOf_ne hs.1) hlast
    have hsafe := (ranges_scopes he.order hs.1 hr0 hap haq haa).1
    obtain ⟨ms, hms, hf⟩ := paths_scopes hp hst hc hls' hs.1 hlast hap haq haa p
    have hmem : ∀ e, e ∈ ls.flatten ↔ ∃ p ∈ ps, ∃ l, p.Leads root none (some (.arr l)) ∧ e ∈ l := listed_mem (hls.imp fun _ _ h => h.1)
    have clear : ∀ e ∈ ls.flatten, f.Clear env t base root (some e) := flatten_each hls fun _ _ h e he => (h.2 e he).2
    have each : ∀ e ∈ ls.flatten, ∀ m, Carries env base root m (some e) → ∀ i, Returns (eval env n' i m) ∧ (Holds env n' i m ↔ f.Holds env t base root (some e)) := by
      intro e he' m hm i
      obtain ⟨h1, h2⟩ := claim_meaning he hp f m (some e) hpf hs.2 hm (clear e he')
      obtain ⟨h3, h4⟩ := meaning_eval he f.statement n' m hs.2 hn' h1 i
      exact ⟨h3, h4.trans h2⟩
    have hget : ∀ m ∈ ms, ∃ e ∈ ls.flatten, Carries env base root m (some e) ∧ m.rawI = msg.rawI := by
      intro m hm
      obtain ⟨e, he', h⟩ := forall₂_mem hf.flip hm
      exact ⟨e, he', h⟩
    have hret : Returns (eval env (.any a n') p msg) := by
      rw [eval]
      refine returns_evalAny (fun i m o h => eval_msg env n' _ m o h) hsafe fun l2 h2 m' hm' => ?_
      rw [hms] at h2
      simp at h2; subst h2
      obtain ⟨e, he', hm1, hm2⟩ := hget m' hm'
      refine ⟨fun i => (each e he' m' hm1 _).1, fun r hr => ?_⟩
      rw [har] at hr
      obtain ⟨kv, hkv, rfl⟩ := List.mem_map.1 hr
      obtain ⟨w, hw, rfl⟩ := List.mem_map.1 hkv
      have hrel : (anyRetVal env (w.name, w.text)).rel = true := by
        rw [wanted_text]
        exact (anyRetVal_relative (restText_plain (hpa.2.2 w hw).1)).1
      unfold ReportSafe
      rw [hrel]
      cases hm1 with
      | parsed hr1 =>
        have : usesParsed a msg = true := by
          rw [usesParsed_iff]
          refine ⟨by rw [← hm2]; rfl, ?_⟩
          rw [haq]
          have := parentOf_ne hs.1
          cases st with
          | document => rw [parentOf_document fun p hp => (hst p hp).1]; simpa [Parent.queries] using this
          | element => rw [parentOf_element this fun p hp => (hst p hp).1]; simpa [Parent.queries] using this
        rw [this]
        simp [hr1 e rfl]
      | text _ hr1 =>
        have : usesParsed a msg = false := by
          rw [usesParsed, ← hm2]
          rfl
        rw [this]
        obtain ⟨u, rfl, -⟩ := hr1 e rfl
        simp
    obtain ⟨o, ho⟩ := hret
    refine ⟨o, ho, ?_, fun _ => ?_⟩
    · rw [eval_holds env _ _ _ _ ho, Holds, hms]
      simp only [Except.ok.injEq, Option.some.injEq, exists_eq_left']
      rw [Ask.Holds, Ask.bare, Claim.Holds]
      constructor
      · rintro ⟨i, m', hi, hm'⟩
        obtain ⟨hi', rfl⟩ := List.getElem?_eq_some_iff.1 hi
        have hi2 : i < ls.flatten.length := hf.length_eq ▸ hi'
        have hcar := (hf.get hi2 hi').1
        obtain ⟨p0, hp0, l, hl, hel⟩ := (hmem _).1 (List.getElem_mem hi2)
        exact ⟨p0, hp0, l, hl, _, hel, ((each _ (List.getElem_mem hi2) _ hcar _).2).1 hm'⟩
      · rintro ⟨p0, hp0, l, hl, e, hel, hh⟩
        have hm := (hmem e).2 ⟨p0, hp0, l, hl, hel⟩
        obtain ⟨i, hi2, rfl⟩ := List.getElem_of_mem hm
        have hi' : i < ms.length := hf.length_eq ▸ hi2
        have hcar := (hf.get hi2 hi').1
        exact ⟨i, ms[i], List.getElem?_eq_some_iff.2 ⟨hi', rfl⟩, ((each _ hm _ hcar _).2).2 hh⟩
    · rw [Ask.Gives]
      refine ⟨ls, hls.imp fun _ _ h => h.1, ?_⟩
      have hne : (ws.map fun w => (w.name, w.text)) ≠ [] := by simpa using hpa.1
      rcases C70_any hne hn0 (fun kv hkv => by
        obtain ⟨w, hw, rfl⟩ := List.mem_map.1 hkv
        exact ⟨_, wanted_text w, restText_plain (hpa.2.2 w hw).1⟩) ho with ⟨h, -⟩ | ⟨l, h1, h2⟩
      · rw [hms] at h
        cases h
      · rw [hms] at h1
        simp at h1; subst h1
        refine valuesOf_reports hf (fun e he' m i h => (each e he' m h.1 _).2) (fun e he' m x h hh hx => ?_) h2
        obtain ⟨p0, hp0, l, hl, hel⟩ := (hmem e).1 he'
        refine values_collected hp h.1 hpa.2.2 (fun w hw => ?_) hx
        rw [h.2]
        exact hda p0 hp0 l hl e hel hh w hw
  | .and qs, n, hpa, hpl, hs, hn, hd, hda, p => by
    rw [Ask.Plain] at hpa
    rw [Ask.bare] at hpl hs hd
    rw [Claim.Plain] at hpl
    rw [Claim.statement, Sound] at hs
    rw [Claim.Clear] at hd
    rw [Ask.Clear] at hda
    rw [Ask.tree, Node.prepare, Go.bind_eq_ok] at hn
    obtain ⟨ns, hns, hn⟩ := hn
    simp at hn; subst hn
    rw [eval, Ask.Holds, Ask.bare, Claim.Holds]
    simp only [Ask.Gives]
    exact asks_and he hp hc qs ns hpa hpl hs.2 hns hd hda p 1 []
  | .or qs, n, hpa, hpl, hs, hn, hd, hda, p => by
    rw [Ask.Plain] at hpa
    rw [Ask.bare] at hpl hs hd
    rw [Claim.Plain] at hpl
    rw [Claim.statement, Sound] at hs
    rw [Claim.Clear] at hd
    rw [Ask.Clear] at hda
    rw [Ask.tree, Node.prepare, Go.bind_eq_ok] at hn
    obtain ⟨ns, hns, hn⟩ := hn
    simp at hn; subst hn
    rw [eval, Ask.Holds, Ask.bare, Claim.Holds]
    simp only [Ask.Gives]
    obtain ⟨o, ho, h1, y, h2, h3⟩ := asks_or he hp hc qs ns hpa hpl hs.2 hns hd hda p 1 false []
    refine ⟨o, ho, by simpa using h1, fun _ => ?_⟩
    rw [h2]
    exact h3

theorem asks_and (he : Assumed env) (hp : PathsOk env) (hc : Carries env base root msg none) : ∀ (qs : List Ask) (ns : List Node), Ask.AllPlain env qs → Claim.AllPlain (Ask.bares qs) →
    SoundAll env t (Claim.statements (Ask.bares qs)) → prepareNodes env t (Ask.trees env qs) = .ok ns → Claim.ClearInTurn env t base root (Ask.bares qs) none →
    Ask.AllClear env t base root (msg.rawI.isSome) qs → ∀ p i acc, ∃ o, evalAnd env ns p i acc msg = .ok o ∧ (o.flag = true ↔ Claim.AllHold env t base root (Ask.bares qs) none) ∧
      (Claim.AllHold env t base root (Ask.bares qs) none → Ask.GivesLast env t base root qs acc o.extra)
  | [], ns, _, _, _, hn, _, _, p, i, acc => by
    rw [Ask.trees, prepareNodes] at hn
    simp at hn; subst hn
    exact ⟨⟨true, acc, msg⟩, by rw [evalAnd], by rw [Ask.bares, Claim.AllHold]; simp, fun _ => by rw [Ask.GivesLast]⟩
  | q :: qs, ns, hpa, hpl, hs, hn, hd, hda, p, i, acc => by
    rw [Ask.trees, prepareNodes, Go.bind_eq_ok] at hn
    obtain ⟨n, hn1, hn⟩ := hn
    rw [Go.bind_eq_ok] at hn
    obtain ⟨ns', hn2, hn⟩ := hn
    simp at hn; subst hn
    rw [Ask.AllPlain] at hpa
    rw [Ask.bares] at hpl hs hd ⊢
    rw [Claim.AllPlain] at hpl
    rw [Claim.statements, SoundAll] at hs
    rw [Claim.ClearInTurn] at hd
    rw [Ask.AllClear] at hda
    obtain ⟨o, ho, h1, h2⟩ := ask_eval he hp hc q n hpa.1 hpl.1 hs.1 hn1 hd.1 hda.1 (i :: p)
    rw [evalAnd, ho, Claim.AllHold]
    simp only [Go.ok_bind]
    cases hflag : o.flag with
    | false =>
      have hno : ¬ q.Holds env t base root := fun h => by
        rw [h1.2 h] at hflag
        cases hflag
      exact ⟨_, by rw [if_pos rfl]; rfl, ⟨fun h => (by cases h), fun h => absurd h.1 hno⟩, fun h => absurd h.1 hno⟩
    | true =>
      have hyes := h1.1 hflag
      rw [eval_msg env n _ _ _ ho, if_neg (by simp)]
      obtain ⟨o', ho', h3, h4⟩ := asks_and he hp hc qs ns' hpa.2 hpl.2 hs.2 hn2 (hd.2 hyes) hda.2 p (i + 1) (if o.extra.length > 0 then o.extra else acc)
      refine ⟨o', ho', h3.trans ⟨fun h => ⟨hyes, h⟩, fun h => h.2⟩, fun h => ?_⟩
      rw [Ask.GivesLast]
      refine ⟨o.extra, h2 hyes, fun hx => ?_, fun hx => ?_⟩
      · have := h4 h.2
        rw [hx] at this
        exact this
      · have := h4 h.2
        rw [if_pos (List.length_pos_iff.2 hx)] at this
        exact this

theorem asks_or (he : Assumed env) (hp : PathsOk env) (hc : Carries env base root msg none) : ∀ (qs : List Ask) (ns : List Node), Ask.AllPlain env qs → Claim.AllPlain (Ask.bares qs) →
    SoundAll env t (Claim.statements (Ask.bares qs)) → prepareNodes env t (Ask.trees env qs) = .ok ns → Claim.AllClear env t base root (Ask.bares qs) none →
    Ask.AllClear env t base root (msg.rawI.isSome) qs → ∀ p i b acc, ∃ o, evalOr env ns p i b acc msg = .ok o ∧
      (o.flag = true ↔ b = true ∨ Claim.SomeHolds env t base root (Ask.bares qs) none) ∧ ∃ y, o.extra = acc ++ y ∧ Ask.GivesAll env t base root qs y
  | [], ns, _, _, _, hn, _, _, p, i, b, acc => by
    rw [Ask.trees, prepareNodes] at hn
    simp at hn; subst hn
    exact ⟨⟨b, acc, msg⟩, by rw [evalOr], by rw [Ask.bares, Claim.SomeHolds]; simp, [], by simp, by rw [Ask.GivesAll]⟩
  | q :: qs, ns, hpa, hpl, hs, hn, hd, hda, p, i, b, acc => by
    rw [Ask.trees, prepareNodes, Go.bind_eq_ok] at hn
    obtain ⟨n, hn1, hn⟩ := hn
    rw [Go.bind_eq_ok] at hn
    obtain ⟨ns', hn2, hn⟩ := hn
    simp at hn; subst hn
    rw [Ask.AllPlain] at hpa
    rw [Ask.bares] at hpl hs hd ⊢
    rw [Claim.AllPlain] at hpl
    rw [Claim.statements, SoundAll] at hs
    rw [Claim.AllClear] at hd
    rw [Ask.AllClear] at hda
    obtain ⟨o, ho, h1, h2⟩ := ask_eval he hp hc q n hpa.1 hpl.1 hs.1 hn1 hd.1 hda.1 (i :: p)
    rw [evalOr, ho, Claim.SomeHolds]
    simp only [Go.ok_bind]
    rw [eval_msg env n _ _ _ ho]
    obtain ⟨o', ho', h3, y, h4, h5⟩ := asks_or he hp hc qs ns' hpa.2 hpl.2 hs.2 hn2 hd.2 hda.2 p (i + 1) (b || o.flag) (if o.flag = true then acc ++ o.extra else acc)
    refine ⟨o', ho', ?_, ?_⟩
    · rw [h3, Bool.or_eq_true, h1, or_assoc]
      exact Iff.rfl
    · simp only [Ask.GivesAll]
      by_cases hq : q.Holds env t base root
      · rw [if_pos (h1.2 hq)] at h4
        exact ⟨o.extra ++ y, by rw [h4, List.append_assoc], o.extra, y, rfl, h2, fun h => absurd hq h, h5⟩
      · rw [if_neg fun h => hq (h1.1 h)] at h4
        exact ⟨y, h4, [], y, rfl, fun h => absurd h hq, fun _ => rfl, h5⟩
end

end Mapl

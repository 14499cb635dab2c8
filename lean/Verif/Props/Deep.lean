import Verif.Lemmas.Deep
import Verif.Props.Reported
import Verif.Props.Lists

/-!
# Deep scan

C105. An ANY with a path like `$..spec.containers` holds exactly if a path that ends in `.spec.containers` leads to a list in the document one of whose elements meets the conditions, for
ALL every element of every such list has to. This needs that everything that the path finds is a list of objects, and, for texts, that these objects contain no lists of lists. Both conditions are
needed (`C105_violated_mixed`, `C105_violated_text`).
-/

namespace Mapl.Props

open Mapl.Spec

variable {env : Env} {g t : Predef} {base msg : Msg} {root : Json} {rs : List RuleObj}

/-- **C105**, conditions. -/
theorem C105_conditions_partial (he : Assumed env) (hp : PathsOk env) (hdp : DeepOk env) (q : DeepClaim) (hpl : q.Plain) (hs : Sound env t q.statement)
    (hd : q.Clear env t base root msg.rawI.isSome) (hc : Carries env base root msg none) :
    Defined env t q.statement msg ∧ (Meaning env t q.statement msg ↔ q.Holds env t base root) :=
  deep_meaning he hp hdp hc q hpl hs hd

/-- **C105.** A check decides by what is somewhere in the document. -/
theorem C105_policy_partial (he : Assumed env) (hp : PathsOk env) (hdp : DeepOk env) (hm : MsgOk env base) {xs : List (Prop × Decision)}
    (h : List.Forall₂ (fun r x => RuleDeep env g base root msg.rawI.isSome r x.1 x.2) rs xs) (hc : Carries env base root msg none) :
    ∃ out, check env g msg rs = .ok out ∧ Decides xs out :=
  C74_policy he (carries_msg hc hm) (h.imp fun _ _ ⟨body, t, h1, h2⟩ => ⟨body, t, h1, writtenDeep he hp hdp hc h2⟩)

/-- **C105**, with tables: loading such rules succeeds, and then any check decides by what is somewhere in the document. -/
theorem C105_loaded_partial (he : Assumed env) (hp : PathsOk env) (hdp : DeepOk env) (hm : MsgOk env base) {bodies : List Rule} {xs : List (Prop × Decision)}
    (hb : ∀ b ∈ bodies, b.converted = false) (h : List.Forall₂ (fun b x => WrittenDeep env t base root msg.rawI.isSome b x.1 x.2) bodies xs) (hc : Carries env base root msg none) :
    ∃ rs, loadWithTables env t bodies = .ok (rs, none) ∧ rs.map (·.body) = bodies ∧ ∀ g, ∃ out, check env g msg rs = .ok out ∧ Decides xs out := by
  obtain ⟨rs, h1, h2, h3⟩ := C74_loaded he hb (h.imp fun _ _ => writtenDeep he hp hdp hc)
  exact ⟨rs, h1, h2, h3 (carries_msg hc hm)⟩

/-- **C105**, the example of the manual: a deep scan covers every path that ends in its steps. An ANY over such a path implies the ANY with the deep scan, and the ALL with the deep scan implies
the ALL over such a path. -/
theorem C105_covers {p : DeepPath} {q : ListPath} {f : Claim} (hq : q.start = .document) (hs : p.steps <:+ q.steps) :
    ((Claim.any [q] f).Holds env t base root none → (DeepClaim.any p f).Holds env t base root) ∧
    ((DeepClaim.all p f).Holds env t base root → (Claim.all [q] f).Holds env t base root none) := by
  have there : ∀ l, q.Leads root none (some (.arr l)) → Somewhere root p.steps (.arr l) := by
    intro l h
    obtain ⟨pre, e⟩ := hs
    cases h with
    | document _ h => exact ⟨pre, by rw [e]; exact h⟩
    | element h => rw [hq] at h; cases h
  rw [Claim.Holds, DeepClaim.Holds, Claim.Holds, DeepClaim.Holds]
  constructor
  · rintro ⟨q', hm, l, hl, e, he, h⟩
    rw [List.mem_singleton.1 hm] at hl
    exact ⟨l, there l hl, e, he, h⟩
  · intro h q' hm l hl
    rw [List.mem_singleton.1 hm] at hl
    exact h l (there l hl)

/-- **C105**, conversely: if the lists of the document at the end of the steps are those of given paths, the deep scan is the ANY over these paths. -/
theorem C105_paths {p : DeepPath} {qs : List ListPath} {f : Claim}
    (h : ∀ l, Somewhere root p.steps (.arr l) ↔ ∃ q ∈ qs, q.Leads root none (some (.arr l))) :
    ((DeepClaim.any p f).Holds env t base root ↔ (Claim.any qs f).Holds env t base root none) ∧
    ((DeepClaim.all p f).Holds env t base root ↔ (Claim.all qs f).Holds env t base root none) := by
  rw [Claim.Holds, DeepClaim.Holds, Claim.Holds, DeepClaim.Holds]
  simp only [h]
  constructor
  · constructor
    · rintro ⟨l, ⟨q, hq, hl⟩, e⟩
      exact ⟨q, hq, l, hl, e⟩
    · rintro ⟨q, hq, l, hl, e⟩
      exact ⟨l, ⟨q, hq, hl⟩, e⟩
  · constructor
    · exact fun h q hq l hl => h l ⟨q, hq, hl⟩
    · rintro h l ⟨q, hq, hl⟩
      exact h q hq l hl

/-! ## A deep scan that finds what is there -/


/-- What a path leads to. -/
def walk : List Step → Json → Option Json
  | [], v => some v
  | .field n :: p, .obj kvs => match lookup n kvs with
    | some v => walk p v
    | none => none
  | .item i :: p, .arr l => match l[i]? with
    | some v => walk p v
    | none => none
  | _ :: _, _ => none

theorem walk_iff : ∀ {p : List Step} {d v : Json}, walk p d = some v ↔ Leads d p (some v)
  | [], d, v => by
    rw [walk]
    exact ⟨fun h => by cases h; exact .here _, fun h => by cases h; rfl⟩
  | .field n :: p, d, v => by
    cases d with
    | obj kvs =>
      rw [walk]
      cases h : lookup n kvs with
      | none => exact ⟨(by simp), fun h' => by cases h' with | field h1 _ => rw [h] at h1; cases h1⟩
      | some v' =>
        simp only
        rw [walk_iff]
        exact ⟨fun h' => .field h h', fun h' => by cases h' with | field h1 h2 => rw [h] at h1; cases h1; exact h2⟩
    | _ => exact ⟨fun h => by simp [walk] at h, fun h => by cases h⟩
  | .item i :: p, d, v => by
    cases d with
    | arr l =>
      rw [walk]
      cases h : l[i]? with
      | none => exact ⟨(by simp), fun h' => by cases h' with | item h1 _ => rw [h] at h1; cases h1⟩
      | some v' =>
        simp only
        rw [walk_iff]
        exact ⟨fun h' => .item h h', fun h' => by cases h' with | item h1 h2 => rw [h] at h1; cases h1; exact h2⟩
    | _ => exact ⟨fun h => by simp [walk] at h, fun h => by cases h⟩

mutual
/-- Everything at the end of the path, however deep. -/
def deepList (p : List Step) : Json → List Json
  | .obj kvs => (walk p (.obj kvs)).toList ++ deepMembers p [] kvs
  | .arr l => (walk p (.arr l)).toList ++ deepItems p l
  | d => (walk p d).toList

def deepMembers (p : List Step) (seen : List Str) : List (Str × Json) → List Json
  | [] => []
  | (k, d) :: kvs => if k ∈ seen then deepMembers p seen kvs else deepList p d ++ deepMembers p (k :: seen) kvs

def deepItems (p : List Step) : List Json → List Json
  | [] => []
  | d :: l => deepList p d ++ deepItems p l
end

theorem somewhere_iff {d v : Json} {p : List Step} : Somewhere d p v ↔ Leads d p (some v) ∨ (∃ kvs k d', d = .obj kvs ∧ lookup k kvs = some d' ∧ Somewhere d' p v) ∨
    ∃ (l : List Json) (i : Nat) (d' : Json), d = .arr l ∧ l[i]? = some d' ∧ Somewhere d' p v := by
  constructor
  · rintro ⟨q, h⟩
    match q, h with
    | [], h => exact .inl h
    | .field n :: q, h =>
      cases h with
      | field h1 h2 => exact .inr (.inl ⟨_, _, _, rfl, h1, q, h2⟩)
    | .item i :: q, h =>
      cases h with
      | item h1 h2 => exact .inr (.inr ⟨_, _, _, rfl, h1, q, h2⟩)
  · rintro (h | ⟨kvs, k, d', rfl, h1, q, h2⟩ | ⟨l, i, d', rfl, h1, q, h2⟩)
    · exact ⟨[], h⟩
    · exact ⟨.field k :: q, .field h1 h2⟩
    · exact ⟨.item i :: q, .item h1 h2⟩

mutual
theorem mem_deepList {p : List Step} {v : Json} : ∀ d : Json, v ∈ deepList p d ↔ Somewhere d p v
  | .obj kvs => by
    rw [deepList, List.mem_append, Option.mem_toList, walk_iff, mem_deepMembers kvs [], somewhere_iff]
    simp
  | .arr l => by
    rw [deepList, List.mem_append, Option.mem_toList, walk_iff, mem_deepItems l, somewhere_iff]
    simp
  | .null => by rw [deepList, Option.mem_toList, walk_iff, somewhere_iff]; all_goals simp
  | .bool _ => by rw [deepList, Option.mem_toList, walk_iff, somewhere_iff]; all_goals simp
  | .num _ => by rw [deepList, Option.mem_toList, walk_iff, somewhere_iff]; all_goals simp
  | .str _ => by rw [deepList, Option.mem_toList, walk_iff, somewhere_iff]; all_goals simp

theorem mem_deepMembers {p : List Step} {v : Json} : ∀ (kvs : List (Str × Json)) (seen : List Str),
    v ∈ deepMembers p seen kvs ↔ ∃ k d', k ∉ seen ∧ lookup k kvs = some d' ∧ Somewhere d' p v
  | [], seen => by simp [deepMembers, lookup]
  | (k, d) :: kvs, seen => by
    rw [deepMembers]
    split
    · next hk =>
      rw [mem_deepMembers kvs seen]
      refine exists_congr fun k' => exists_congr fun d' => and_congr_right fun hk' => ?_
      rw [lookup, if_neg (by rintro rfl; exact hk' hk)]
    · next hk =>
      rw [List.mem_append, mem_deepList d, mem_deepMembers kvs (k :: seen)]
      constructor
      · rintro (h | ⟨k', d', h1, h2, h3⟩)
        · exact ⟨k, d, hk, by rw [lookup, if_pos rfl], h⟩
        · rw [List.mem_cons, not_or] at h1
          exact ⟨k', d', h1.2, by rw [lookup, if_neg h1.1]; exact h2, h3⟩
      · rintro ⟨k', d', h1, h2, h3⟩
        rw [lookup] at h2
        by_cases e : k' = k
        · rw [if_pos e] at h2
          cases h2
          exact .inl h3
        · rw [if_neg e] at h2
          exact .inr ⟨k', d', by simp [e, h1], h2, h3⟩

theorem mem_deepItems {p : List Step} {v : Json} : ∀ (l : List Json), v ∈ deepItems p l ↔ ∃ (i : Nat) (d' : Json), l[i]? = some d' ∧ Somewhere d' p v
  | [] => by simp [deepItems]
  | d :: l => by
    rw [deepItems, List.mem_append, mem_deepList d, mem_deepItems l]
    constructor
    · rintro (h | ⟨i, d', h1, h2⟩)
      · exact ⟨0, d, rfl, h⟩
      · exact ⟨i + 1, d', h1, h2⟩
    · rintro ⟨i, d', h1, h2⟩
      cases i with
      | zero => cases h1; exact .inl h2
      | succ i => exact .inr ⟨i, d', h1, h2⟩
end

def containersPath : DeepPath := { steps := [.field gs"spec", .field gs"containers"] }

/-- The libraries of the demonstrations, with a deep scan. -/
def scanEnv : Env := { Demo.env with
  jpGet := fun q d => if q = containersPath.text then (.arr (deepList containersPath.steps d), none) else Demo.env.jpGet q d
  jsGet := fun s q => if q = containersPath.text then match Demo.env.jsonUnmarshal s with
      | some d => (Demo.env.jsonMarshal (.arr (deepList containersPath.steps d)), false)
      | none => ([], true)
    else Demo.env.jsGet s q }

def scanRule : RuleObj := Demo.rule gs"block" (some (Demo.anyOf gs"jsonpath:$..spec.containers" (Demo.cond gs"jsonpath:$RELATIVE.image" gs"EQ" gs"redis")))

def redis (more : List (Str × Json)) : Json := .obj ((gs"image", .str gs"redis") :: more)

set_option maxRecDepth 20000 in
/-- Violation of C105: a value under the path that is not a list, anywhere in the document, hides the elements of all lists. The library finds exactly what is there, and without that value
the document is blocked. -/
theorem C105_violated_mixed : ∃ doc doc' : Json, (∀ d v, v ∈ deepList containersPath.steps d ↔ Somewhere d containersPath.steps v) ∧
    (∀ d, scanEnv.jpGet gs"$..spec.containers" d = (.arr (deepList containersPath.steps d), none)) ∧
    doc = .obj [(gs"spec", .obj [(gs"containers", .arr [redis []])])] ∧
    doc' = .obj [(gs"spec", .obj [(gs"containers", .arr [redis []]), (gs"old", .obj [(gs"spec", .obj [(gs"containers", .str gs"none")])])])] ∧
    Somewhere doc containersPath.steps (.arr [redis []]) ∧ Somewhere doc' containersPath.steps (.arr [redis []]) ∧
    (∃ o, scanRule.check scanEnv {} [] { rawI := some doc } = .ok o ∧ o.result = 3) ∧ ∃ o, scanRule.check scanEnv {} [] { rawI := some doc' } = .ok o ∧ o.result = 0 :=
  ⟨_, _, fun d _ => mem_deepList d, fun _ => rfl, rfl, rfl, ⟨[], .field rfl (.field rfl (.here _))⟩, ⟨[], .field rfl (.field rfl (.here _))⟩, ⟨_, rfl, by decide +kernel⟩, ⟨_, rfl, by decide +kernel⟩⟩

set_option maxRecDepth 20000 in
/-- Violation of C105: for a text, a list of lists in a container makes the rule not apply; with the same document parsed it does. -/
theorem C105_violated_text : ∃ (text : Str) (doc : Json), text = gs"{\"spec\":{\"containers\":[{\"image\":\"redis\",\"ports\":[[1],[2]]}]}}" ∧ scanEnv.jsonUnmarshal text = some doc ∧
    scanEnv.jsGet text gs"$..spec.containers" = (scanEnv.jsonMarshal (.arr (deepList containersPath.steps doc)), false) ∧
    (∃ o, scanRule.check scanEnv {} [] { rawI := some doc } = .ok o ∧ o.result = 3) ∧ ∃ o, scanRule.check scanEnv {} [] { jsonRaw := some text } = .ok o ∧ o.result = 0 :=
  ⟨_, .obj [(gs"spec", .obj [(gs"containers", .arr [redis [(gs"ports", .arr [.arr [.num (.fin 1)], .arr [.num (.fin 2)]])]])])], rfl, by with_unfolding_all rfl, by with_unfolding_all rfl,
    ⟨_, rfl, by decide +kernel⟩, ⟨_, rfl, by decide +kernel⟩⟩

/-! ## Libraries as assumed -/

open Classical in
/-- The libraries of Props/Place, with a deep scan. -/
noncomputable def deepExt : Ext :=
  { placeExt with
    jpGet := fun q d => if h : ∃ p : DeepPath, p.Plain ∧ q = p.text then (.arr (deepList h.choose.steps d), none) else placeExt.jpGet q d
    jsGet := fun s q => if h : ∃ p : DeepPath, p.Plain ∧ q = p.text then
        (if h' : ∃ u d, Plainly placeNumbers s d ∧ h.choose.Lists d ∧ DeepText placeExt (fun l => Somewhere d h.choose.steps (.arr l)) u then h'.choose else [], false)
      else placeExt.jsGet s q }

noncomputable def deepEnv : Env := { deepExt with ord := fun _ l => l }

theorem deep_inj {p p' : DeepPath} (h : p.Plain) (h' : p'.Plain) (e : p.text = p'.text) : p.steps = p'.steps :=
  marked_inj h.2 h'.2 (List.append_cancel_left e)

theorem not_deep {p : List Step} {k : Mark} (hp : PlainSteps p) : ¬ ∃ p' : DeepPath, p'.Plain ∧ '$' :: (stepsText p ++ k.text) = p'.text := by
  rintro ⟨⟨ps, k'⟩, ⟨h1, h2⟩, h3⟩
  simp only [DeepPath.text, DeepPath.tail, List.cons_append, List.nil_append, List.cons.injEq, true_and] at h3
  have first : ∃ c r, (c = '.' ∨ c = '[') ∧ stepsText ps ++ k'.text = c :: r := by
    match ps, h1 with
    | .field n :: ps, _ => exact ⟨'.', _, .inl rfl, rfl⟩
    | .item i :: ps, _ => exact ⟨'[', _, .inr rfl, rfl⟩
  obtain ⟨c, r, hc, e⟩ := first
  rw [e] at h3
  match p, hp with
  | [], _ => cases k <;> simp [stepsText, Mark.text] at h3
  | .item i :: p, _ => simp [stepsText, Step.text] at h3
  | .field n :: p, hp =>
    obtain ⟨a1, a2, -⟩ := hp n (by simp)
    match n, a1, a2 with
    | x :: n, _, a2 =>
      have hx := a2 x (by simp)
      simp only [stepsText, List.flatMap_cons, Step.text, List.cons_append, List.cons.injEq, true_and] at h3
      rw [h3.1] at hx
      rcases hc with rfl | rfl <;> revert hx <;> decide

theorem deep_get {p : List Step} {k : Mark} (hp : PlainSteps p) (d : Json) : deepEnv.jpGet ('$' :: (stepsText p ++ k.text)) d = placeEnv.jpGet ('$' :: (stepsText p ++ k.text)) d :=
  dif_neg (not_deep hp)

theorem deep_getText {p : List Step} {k : Mark} (hp : PlainSteps p) (s : Str) : deepEnv.jsGet s ('$' :: (stepsText p ++ k.text)) = placeEnv.jsGet s ('$' :: (stepsText p ++ k.text)) :=
  dif_neg (not_deep hp)

theorem deep_get' {p : List Step} (hp : PlainSteps p) (d : Json) : deepEnv.jpGet ('$' :: stepsText p) d = placeEnv.jpGet ('$' :: stepsText p) d := by
  have := deep_get (k := .none) hp d
  rwa [Mark.text, List.append_nil] at this

theorem deep_getText' {p : List Step} (hp : PlainSteps p) (s : Str) : deepEnv.jsGet s ('$' :: stepsText p) = placeEnv.jsGet s ('$' :: stepsText p) := by
  have := deep_getText (k := .none) hp s
  rwa [Mark.text, List.append_nil] at this

theorem deep_to {s : Str} {d : Json} (h : Plainly deepEnv.toExt s d) : Plainly placeEnv.toExt s d := plainly_congr (e := deepEnv.toExt) (e' := placeEnv.toExt) rfl h

theorem deep_from {s : Str} {d : Json} (h : Plainly placeEnv.toExt s d) : Plainly deepEnv.toExt s d := plainly_congr (e := placeEnv.toExt) (e' := deepEnv.toExt) rfl h

theorem deepEnv_ok : PathsOk deepEnv.toExt where
  found p d v hp h := by rw [deep_get' hp]; exact place_ok.found p d v hp h
  absent p d hp h := by rw [deep_get' hp]; exact place_ok.absent p d hp h
  listed p k d l hp hl h := by rw [deep_get hp]; exact place_ok.listed p k d l hp hl h
  unlisted p k d hp h := by rw [deep_get hp]; exact place_ok.unlisted p k d hp h
  foundText p s d v hp hs h := by
    rw [deep_getText' hp]
    obtain ⟨u, h1, h2⟩ := place_ok.foundText p s d v hp (deep_to hs) h
    exact ⟨u, h1, deep_from h2⟩
  absentText p s d hp hs h := by rw [deep_getText' hp]; exact place_ok.absentText p s d hp (deep_to hs) h
  listedText p k s d l hp hl hs h := by
    rw [deep_getText hp]
    obtain ⟨u, h1, h2⟩ := place_ok.listedText p k s d l hp hl (deep_to hs) h
    exact ⟨u, h1, deep_from h2⟩
  unlistedText p k s d hp hs h := by rw [deep_getText hp]; exact place_ok.unlistedText p k s d hp (deep_to hs) h
  ugly s d h := h
  uglyParts ss ds h := place_ok.uglyParts ss ds (h.imp fun _ _ => deep_to)
  read s d h := place_ok.read s d (deep_to h)
  written s d h h' := deep_from (place_ok.written s d (deep_to h) h')
  writtenEntry s kv h h' := deep_from (place_ok.writtenEntry s kv (deep_to h) h')
  one := place_ok.one
  exact := place_ok.exact
  print := place_ok.print
  whole := place_ok.whole

theorem deepEnv_assumed : Assumed deepEnv where
  regexp := place_assumed.regexp
  order := place_assumed.order
  numbers := ⟨place_assumed.numbers.1, place_assumed.numbers.2⟩
  empty := place_assumed.empty

/-- What the scan finds, as lists. -/
theorem deep_lists {p : DeepPath} {d : Json} (h : p.Lists d) : ∃ ls : List (List Json), ls.map .arr = deepList p.steps d ∧ ∀ l, l ∈ ls ↔ Somewhere d p.steps (.arr l) := by
  have : ∀ vs : List Json, (∀ v ∈ vs, ∃ l, v = .arr l) → ∃ ls : List (List Json), ls.map .arr = vs := by
    intro vs
    induction vs with
    | nil => exact fun _ => ⟨[], rfl⟩
    | cons v vs ih =>
      intro h
      obtain ⟨l, rfl⟩ := h v (by simp)
      obtain ⟨ls, rfl⟩ := ih fun v hv => h v (by simp [hv])
      exact ⟨l :: ls, rfl⟩
  obtain ⟨ls, e⟩ := this (deepList p.steps d) fun v hv => by
    obtain ⟨l, e, -⟩ := h v ((mem_deepList d).1 hv)
    exact ⟨l, e⟩
  refine ⟨ls, e, fun l => ?_⟩
  rw [← mem_deepList d, ← e]
  simp

theorem plainly_each {e : Ext} {u : Str} {l : List Json} (h : Plainly e u (.arr l)) : ∀ v ∈ l, ∃ x, Plainly e x v := by
  generalize hj : Json.arr l = j at h
  cases h with
  | noElements => cases hj; simp
  | arr h => cases hj; exact plainElements_part h
  | _ => cases hj

theorem deepEnv_deep : DeepOk deepEnv.toExt where
  found p d hp hl := by
    have hex : ∃ p' : DeepPath, p'.Plain ∧ p.text = p'.text := ⟨p, hp, rfl⟩
    have e : deepEnv.jpGet p.text d = (.arr (deepList hex.choose.steps d), none) := dif_pos hex
    rw [e, ← deep_inj hp hex.choose_spec.1 hex.choose_spec.2]
    obtain ⟨ls, h1, h2⟩ := deep_lists hl
    rw [← h1]
    exact .nested h2
  text p s d hp hs hl := by
    have hs' : Plainly placeNumbers s d := plainly_congr (e := deepEnv.toExt) (e' := placeNumbers) rfl hs
    have hex : ∃ p' : DeepPath, p'.Plain ∧ p.text = p'.text := ⟨p, hp, rfl⟩
    have es := deep_inj hp hex.choose_spec.1 hex.choose_spec.2
    have hl' : hex.choose.Lists d := by unfold DeepPath.Lists; rw [← es]; exact hl
    obtain ⟨ls, h1, h2⟩ := deep_lists hl
    have some_text : ∃ u, DeepText placeExt (fun l => Somewhere d p.steps (.arr l)) u := by
      by_cases hne : ls = []
      · subst hne
        exact ⟨[], .nothing fun l h => by have := (h2 l).2 h; simp at this⟩
      · obtain ⟨ll, hll⟩ := forall₂_pick (l := ls) (R := fun l xs => List.Forall₂ (fun x e => Plainly placeExt x e) xs l) fun l hm => by
          obtain ⟨q, hq⟩ := (h2 l).1 hm
          obtain ⟨u, hu⟩ := plainly_part hq rfl (plainly_congr (e := placeNumbers) (e' := placeExt) rfl hs')
          obtain ⟨xs, hxs⟩ := forall₂_pick (l := l) (R := fun e x => Plainly placeExt x e) (plainly_each hu)
          exact ⟨xs, hxs.flip⟩
        exact ⟨listsText ll, .nested hne h2 (by simp [listsText]) rfl hll.flip⟩
    have hex' : ∃ u d, Plainly placeNumbers s d ∧ hex.choose.Lists d ∧ DeepText placeExt (fun l => Somewhere d hex.choose.steps (.arr l)) u := by
      obtain ⟨u, hu⟩ := some_text
      exact ⟨u, d, hs', hl', by rw [← es]; exact hu⟩
    refine ⟨hex'.choose, ?_, ?_⟩
    · have e1 : deepEnv.jsGet s p.text = (_, false) := dif_pos hex
      rw [e1, dif_pos hex']
    · obtain ⟨d', k1, -, k2⟩ := hex'.choose_spec
      have hd : d' = d := by
        have e1 := jsonScan_iff.2 (plainly_doc place_whole k1)
        rw [jsonScan_iff.2 (plainly_doc place_whole hs')] at e1
        exact (Option.some.inj e1).symm
      rw [hd] at k2
      generalize hex'.choose = u at k2
      rw [← es] at k2
      cases k2 with
      | nothing h => exact .nothing h
      | nested a b c d e => exact .nested a b c d (e.imp fun _ _ h => h.imp fun _ _ h => plainly_congr (e := placeExt) (e' := deepEnv.toExt) rfl h)
      | flat a b => exact .flat a (plainly_congr (e := placeExt) (e' := deepEnv.toExt) rfl b)

/-! ## Example -/

/-- The container has the image `redis`. -/
def redisClaim : Claim := .test { start := .element, name := gs"image" } gs"EQ" gs"redis"

/-- Some container has, wherever it is in the document. -/
def scanClaim : DeepClaim := .any containersPath redisClaim

/-- A deployment: the containers are in a template. -/
def scanDoc : Json := .obj [(gs"spec", .obj [(gs"template", .obj [(gs"spec", .obj [(gs"containers", .arr [redis []])])])])]

def scanText : Str := gs"{\"spec\": {\"template\": {\"spec\": {\"containers\": [{\"image\": \"redis\"}]}}}}"

theorem scan_text : Plainly deepEnv.toExt scanText scanDoc := by
  have blank : Blank [] := blank_nil
  have space : Blank gs" " := by simp [Blank]
  have c := Plainly.obj (.oneMember (env := deepEnv.toExt) (w0 := []) (w1 := []) (w3 := []) (k := gs"image") blank (by unfold PlainString; decide) blank space
    (.str (s := gs"redis") (by unfold PlainString; decide)) blank) (by decide)
  have l := Plainly.arr (.one (w := []) (w' := []) blank c blank)
  have h1 := Plainly.obj (.oneMember (w0 := []) (w1 := []) (w3 := []) (k := gs"containers") blank (by unfold PlainString; decide) blank space l blank) (by decide)
  have h2 := Plainly.obj (.oneMember (w0 := []) (w1 := []) (w3 := []) (k := gs"spec") blank (by unfold PlainString; decide) blank space h1 blank) (by decide)
  have h3 := Plainly.obj (.oneMember (w0 := []) (w1 := []) (w3 := []) (k := gs"template") blank (by unfold PlainString; decide) blank space h2 blank) (by decide)
  exact Plainly.obj (.oneMember (w0 := []) (w1 := []) (w3 := []) (k := gs"spec") blank (by unfold PlainString; decide) blank space h3 blank) (by decide)

theorem scan_found {v : Json} : Somewhere scanDoc containersPath.steps v ↔ v = .arr [redis []] := by
  rw [← mem_deepList scanDoc]
  have : deepList containersPath.steps scanDoc = [.arr [redis []]] := by with_unfolding_all rfl
  rw [this, List.mem_singleton]

theorem redis_test : Path.Leads scanDoc (some (redis [])) { start := .element, name := gs"image" } (some (.str gs"redis")) ∧ ValueResolves deepEnv policyTables gs"EQ" gs"redis" gs"redis" ∧
    TestSays deepEnv (some (.str gs"redis")) gs"EQ" gs"redis" (gs"redis" = gs"redis") :=
  ⟨.element rfl rfl (.field rfl (.here _)), .plain (by simp),
   .text (P := (· = gs"redis")) (.eq (by decide) ⟨by rintro ⟨y, h⟩; simp at h, by rintro ⟨y, h⟩; simp at h⟩) (.str ⟨by simp, by decide, by decide, by decide⟩ (by simp)) fun _ => rfl⟩

theorem redis_noLists (x : Str) (h : Plainly deepEnv.toExt x (redis [])) : NoListOfLists x := by
  have key : '[' ∉ x ∧ ']' ∉ x := by
    have nb : ∀ {w : Str}, Blank w → '[' ∉ w ∧ ']' ∉ w := fun h =>
      ⟨fun hm => by have := h _ hm; revert this; decide, fun hm => by have := h _ hm; revert this; decide⟩
    generalize hj : redis [] = j at h
    cases h with
    | obj h _ =>
      cases hj
      cases h with
      | oneMember h0 hk h1 h2 hv h3 =>
        cases hv with
        | str => simp [(nb h0).1, (nb h0).2, (nb h1).1, (nb h1).2, (nb h2).1, (nb h2).2, (nb h3).1, (nb h3).2]
      | moreMembers _ _ _ _ _ _ h => cases h
    | _ => cases hj
  intro a b
  refine ⟨?_, ?_, ?_⟩ <;> rintro rfl
  · exact key.1 (by simp)
  · exact key.2 (by simp)
  · exact key.1 (by simp)

theorem scan_ok : Sound deepEnv policyTables scanClaim.statement ∧ scanClaim.Plain ∧ scanClaim.Clear deepEnv policyTables placeMsg scanDoc False ∧
    scanClaim.Holds deepEnv policyTables placeMsg scanDoc := by
  have elements : ∀ l, Somewhere scanDoc containersPath.steps (.arr l) → l = [redis []] := fun l h => by have := scan_found.1 h; simpa using this
  refine ⟨?_, ?_, ?_, ?_⟩
  · simp only [scanClaim, DeepClaim.statement, redisClaim, Claim.statement, Sound]
    refine ⟨⟨by simp, fun r hr => ?_⟩, ?_, by unfold NoControl; decide, by unfold NoControl; decide, ?_⟩
    · rw [List.mem_singleton.1 hr]
      exact ⟨⟨by unfold Verbatim; decide, by decide, by decide, by decide⟩, rfl⟩
    · exact (C42_accepted_iff { attr := _, method := _, value := _ }).1 ⟨_, rfl⟩
    · exact C42_prepared_iff (r := none) |>.1 ⟨_, rfl⟩
  · simp only [scanClaim, DeepClaim.Plain, redisClaim, Claim.Plain]
    exact ⟨⟨by simp [containersPath], plainSteps_cons.2 ⟨fun n e => by cases e; exact field_plain (by decide), one_plain (field_plain (by decide))⟩⟩, one_plain (field_plain (by decide))⟩
  · simp only [scanClaim, DeepClaim.Clear, DeepPath.Clear]
    refine ⟨fun v h => ⟨_, scan_found.1 h, by simp [redis]⟩, fun l h e he => ?_⟩
    rw [elements l h, List.mem_singleton] at he
    subst he
    refine ⟨?_, .inr redis_noLists⟩
    rw [redisClaim, Claim.Clear]
    exact ⟨_, _, _, redis_test⟩
  · simp only [scanClaim, DeepClaim.Holds, redisClaim, Claim.Holds]
    exact ⟨_, scan_found.2 rfl, _, .head _, _, _, _, redis_test.1, redis_test.2.1, redis_test.2.2, rfl⟩

/-- A rule that blocks such requests. -/
noncomputable def deepRule : Rule := { (Demo.rule gs"block").body with conditions := some (scanClaim.statement.tree deepEnv) }

theorem scanClear_mono {parsed : Prop} (h : scanClaim.Clear deepEnv policyTables placeMsg scanDoc False) : scanClaim.Clear deepEnv policyTables placeMsg scanDoc parsed := by
  simp only [scanClaim, DeepClaim.Clear, DeepPath.Clear] at h ⊢
  exact ⟨h.1, fun l hl e he => ⟨(h.2 l hl e he).1, .inr ((h.2 l hl e he).2.resolve_left id)⟩⟩

theorem deep_rule (parsed : Prop) : WrittenDeep deepEnv policyTables placeMsg scanDoc parsed deepRule
    (WrittenParts deepRule gs"*" gs"*" placeMsg ∧ ∀ q ∈ some scanClaim, q.Holds deepEnv policyTables placeMsg scanDoc) .block := by
  refine WrittenDeep.mk (body := deepRule) (c := some scanClaim) rfl (.plain (by simp [deepRule, Demo.rule])) (.plain (by simp [deepRule, Demo.rule])) ⟨?_, ?_, ?_, ?_⟩ ?_ ?_ ?_
  · show PlainPattern _; decide
  · show PlainPattern _; decide
  · show PlainPattern gs"*"; decide
  · show PlainPattern gs"*"; decide
  · simp [scan_ok.1]
  · simp [scan_ok.2.1]
  · simp [scanClear_mono scan_ok.2.2.1]

/-- The deployment is blocked, with the document parsed and with the document as a text. -/
example : ∀ msg ∈ [{ placeMsg with rawI := some scanDoc }, { placeMsg with jsonRaw := some scanText }],
    ∃ rs, loadWithTables deepEnv policyTables [deepRule] = .ok (rs, none) ∧ ∀ g, ∃ out, check deepEnv g msg rs = .ok out ∧ out.results[0]? = some 3 := by
  intro msg hmsg
  have car : Carries deepEnv.toExt placeMsg scanDoc msg none := by
    simp only [List.mem_cons, List.not_mem_nil, or_false] at hmsg
    rcases hmsg with rfl | rfl
    · exact .parsed (r := none) (by simp)
    · exact .text (r := none) scan_text (by simp)
  have applies : WrittenParts deepRule gs"*" gs"*" placeMsg ∧ ∀ q ∈ some scanClaim, q.Holds deepEnv policyTables placeMsg scanDoc := by
    refine ⟨⟨?_, ?_, ?_, ?_⟩, by simp [scan_ok.2.2.2]⟩
    · exact ⟨.inl rfl, gs"*", mem_split_iff.1 (by decide), by show Glob gs"*" gs"a"; simp [Glob]⟩
    · exact ⟨.inl rfl, gs"*", mem_split_iff.1 (by decide), by show Glob gs"*" gs"b"; simp [Glob]⟩
    · trivial
    · trivial
  have hm : MsgOk deepEnv placeMsg := by refine ⟨rfl, rfl, ?_, ?_, ?_, ?_, ?_, ?_⟩ <;> (show '\n' ∉ _; decide)
  obtain ⟨rs, h1, -, h2⟩ := C105_loaded_partial (bodies := [deepRule]) (xs := [(_, .block)]) deepEnv_assumed deepEnv_ok deepEnv_deep hm (by simp [deepRule, Demo.rule]) (.cons (deep_rule _) .nil) car
  refine ⟨rs, h1, fun g => ?_⟩
  obtain ⟨out, h3, d, e1, e2, e3, e4, e5, e6⟩ := h2 g
  exact ⟨out, h3, (e6 0 _ rfl).1 applies⟩

/-- The two paths of the manual. -/
example (f : Claim) (q : ListPath) (hq : q.start = .document) (h : q.steps = [.field gs"spec", .field gs"containers"] ∨ q.steps = [.field gs"spec", .field gs"template", .field gs"spec", .field gs"containers"]) :
    (Claim.any [q] f).Holds env t base root none → (DeepClaim.any containersPath f).Holds env t base root :=
  (C105_covers hq (by rcases h with h | h <;> rw [h] <;> [exact ⟨[], rfl⟩; exact ⟨[.field gs"spec", .field gs"template"], rfl⟩])).1

end Mapl.Props

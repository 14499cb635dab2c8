import Verif.Spec.Deep
import Verif.Lemmas.Place

/-!
# Deep scan: lemmas
-/

namespace Mapl.Props

open Mapl.Spec

variable {env : Env} {t : Predef} {base msg : Msg} {root : Json}

theorem concat_lists : ∀ ls : List (List Json), concatLists (ls.map .arr) = some ls.flatten
  | [] => rfl
  | l :: ls => by simp [concatLists, concat_lists ls]

theorem elements_nested (ls : List (List Json)) : elementsOf (.arr (ls.map .arr)) = ls.flatten := by
  simp only [elementsOf, concat_lists]

theorem elements_flat {es : List Json} (h : ∀ e ∈ es, ∃ kvs, e = .obj kvs) : elementsOf (.arr es) = es := by
  cases es with
  | nil => rfl
  | cons e es =>
    obtain ⟨kvs, rfl⟩ := h e (by simp)
    rfl

theorem forall₂_flatten {α β : Type} {R : α → β → Prop} {ll : List (List α)} {ls : List (List β)} (h : List.Forall₂ (List.Forall₂ R) ll ls) : List.Forall₂ R ll.flatten ls.flatten := by
  induction h with
  | nil => exact .nil
  | cons h _ ih => exact List.rel_append h ih

/-- What an ANY or ALL with a deep scan ranges over. -/
theorem deep_ranges {p : DeepPath} (hp : PathsOk env) (hdp : DeepOk env) (hpl : p.Plain) (hc : Carries env base root msg none) (hl : p.Lists root)
    (hn : msg.rawI.isSome ∨ ∀ l, Somewhere root p.steps (.arr l) → ∀ e ∈ l, ∀ x, Plainly env x e → NoListOfLists x) :
    ∃ es ms, Ranges env msg (.document [p.tail]) ms ∧ List.Forall₂ (fun e m => Carries env base root m (some e)) es ms ∧
      ∀ e, e ∈ es ↔ ∃ l, Somewhere root p.steps (.arr l) ∧ e ∈ l := by
  have objects : ∀ e, (∃ l, Somewhere root p.steps (.arr l) ∧ e ∈ l) → ∃ kvs, e = .obj kvs := by
    rintro e ⟨l, h1, h2⟩
    obtain ⟨l', h3, h4⟩ := hl _ h1
    cases h3
    exact h4 e h2
  cases hc with
  | parsed hr =>
    have hv := hdp.found p root hpl hl
    have key : ∃ es, Ranged (env.jpGet (gs"$." ++ p.tail) root).1 ∧ elementsOf (env.jpGet (gs"$." ++ p.tail) root).1 = es ∧
        ∀ e, e ∈ es ↔ ∃ l, Somewhere root p.steps (.arr l) ∧ e ∈ l := by
      change DeepValue _ (env.jpGet (gs"$." ++ p.tail) root).1 at hv
      generalize (env.jpGet (gs"$." ++ p.tail) root).1 = v at hv
      cases hv with
      | @nested ls h => exact ⟨ls.flatten, .array _, elements_nested ls, fun e => by simp [h]⟩
      | @flat es h => exact ⟨es, .array _, elements_flat fun e he => objects e ((h e).1 he), h⟩
    obtain ⟨es, k1, k2, k3⟩ := key
    refine ⟨es, _, .document (rs := [p.tail]) rfl (by simpa using k1), ?_, k3⟩
    rw [List.flatMap_singleton, k2, List.forall₂_map_right_iff, List.forall₂_same]
    exact fun e _ => .parsed (base := base) fun e' h => by cases h; rfl
  | @text _ s r hs hr =>
    have hn' := hn.resolve_left (by simp)
    obtain ⟨u, hu, ht⟩ := hdp.text p s root hpl hs hl
    have hsel : SelectsPart env { base with rawI := none, jsonRaw := some s, jsonRawRel := r } (.document [p.tail]) u := by
      have := SelectsPart.document (env := env) (msg := { base with rawI := none, jsonRaw := some s, jsonRawRel := r }) (rs := [p.tail]) (parts := [u]) rfl
        (.cons (.part hu) .nil) (by simp only [List.getLast?_singleton, Option.mem_some_iff]; rintro _ rfl; exact congrArg Prod.snd hu)
      have e : join gs"," ([u].filter (· ≠ [])) = u := by
        by_cases e : u = []
        · subst e; rfl
        · rw [List.filter_cons_of_pos (by simpa using e)]; rfl
      rwa [e] at this
    have carry : ∀ {es : List Json} {ts : List Str}, List.Forall₂ (fun x e => Plainly env x e) ts es →
        List.Forall₂ (fun e m => Carries env base root m (some e)) es (ts.map fun x => { base with rawI := none, jsonRaw := some s, jsonRawRel := some x }) := by
      intro es ts h
      rw [List.forall₂_map_right_iff]
      exact h.flip.imp fun e x h => .text hs fun e' he => by cases he; exact ⟨x, rfl, h⟩
    cases ht with
    | nothing h => exact ⟨[], [], .nothing rfl hsel, .nil, fun e => by simp [h]⟩
    | @nested ls ll _ hne h h2 ht hll =>
      have hmem : ∀ e, e ∈ ls.flatten ↔ ∃ l, Somewhere root p.steps (.arr l) ∧ e ∈ l := fun e => by simp [h]
      have hel : ∀ l ∈ ll, ∀ x ∈ l, ObjectText Nested x ∧ NoListOfLists x := by
        intro l hlm x hx
        have hx' : x ∈ ll.flatten := List.mem_flatten.2 ⟨l, hlm, hx⟩
        obtain ⟨e, h4, h5⟩ := forall₂_mem (forall₂_flatten hll) hx'
        obtain ⟨l', h6, h7⟩ := (hmem e).1 h4
        exact ⟨(plainly_text h5).2 (objects e ⟨l', h6, h7⟩), hn' l' h6 e h7 x h5⟩
      have hne' : ll ≠ [] := fun e => by
        rw [e] at hll
        cases hll
        exact hne rfl
      exact ⟨ls.flatten, _, .text rfl hsel h2 (by rw [ht]; exact .nested hne' hel), carry (forall₂_flatten hll), hmem⟩
    | @flat es _ h hu' =>
      obtain ⟨ts, h1, h2, h3⟩ := parts_elements (us := [u]) (ls := [es]) hp (by simp) (.cons ⟨hu', fun e he => objects e ((h e).1 he)⟩ .nil)
      simp only [join, List.flatten_cons, List.flatten_nil, List.append_nil] at h1 h2 h3
      exact ⟨es, _, .text rfl hsel h1 h2, carry h3.flip, h⟩

/-- ANY and ALL with a deep scan. -/
theorem deep_elements {p : DeepPath} {f : Claim} (he : Assumed env) (hp : PathsOk env) (hdp : DeepOk env) (hpl : p.Plain) (hpf : f.Plain)
    (hs : Parent.Ok env (.document [p.tail]) ∧ Sound env t f.statement) (hc : Carries env base root msg none) (hd : p.Clear env t base root msg.rawI.isSome f) :
    (∃ l, Ranges env msg (.document [p.tail]) l ∧ ∀ m ∈ l, Defined env t f.statement m) ∧
    ((∃ l, Ranges env msg (.document [p.tail]) l ∧ ∃ m ∈ l, Meaning env t f.statement m) ↔ ∃ l, Somewhere root p.steps (.arr l) ∧ ∃ e ∈ l, f.Holds env t base root (some e)) ∧
    ((∃ l, Ranges env msg (.document [p.tail]) l ∧ ∀ m ∈ l, Meaning env t f.statement m) ↔ ∀ l, Somewhere root p.steps (.arr l) → ∀ e ∈ l, f.Holds env t base root (some e)) := by
  obtain ⟨es, ms, hr, hf, hmem⟩ := deep_ranges hp hdp hpl hc hd.1 (by
    by_cases h : msg.rawI.isSome
    · exact .inl h
    · exact .inr fun l hl e hel => ((hd.2 l hl e hel).2).resolve_left h)
  have each : ∀ e ∈ es, ∀ m, Carries env base root m (some e) → Defined env t f.statement m ∧ (Meaning env t f.statement m ↔ f.Holds env t base root (some e)) := by
    intro e he' m hm
    obtain ⟨l, h1, h2⟩ := (hmem e).1 he'
    exact claim_meaning he hp f m (some e) hpf hs.2 hm (hd.2 l h1 e h2).1
  refine ⟨⟨ms, hr, fun m hm => ?_⟩, ?_, ?_⟩
  · obtain ⟨k, hk, rfl⟩ := List.getElem_of_mem hm
    have hk' : k < es.length := hf.length_eq ▸ hk
    exact (each _ (List.getElem_mem hk') _ (hf.get hk' hk)).1
  · have h1 := forall₂_exists (P := fun e => f.Holds env t base root (some e)) (Q := fun m => Meaning env t f.statement m) hf fun e he' m hm => (each e he' m hm).2.symm
    constructor
    · rintro ⟨ms', hr', h⟩
      obtain ⟨e, h2, h3⟩ := h1.2 ((parent_unique he.order hs.1 hr' hr _).1.1 h)
      obtain ⟨l, h4, h5⟩ := (hmem e).1 h2
      exact ⟨l, h4, e, h5, h3⟩
    · rintro ⟨l, h4, e, h5, h3⟩
      exact ⟨ms, hr, h1.1 ⟨e, (hmem e).2 ⟨l, h4, h5⟩, h3⟩⟩
  · have h1 := forall₂_exists (P := fun e => ¬ f.Holds env t base root (some e)) (Q := fun m => ¬ Meaning env t f.statement m) hf
      fun e he' m hm => not_congr (each e he' m hm).2.symm
    have h2 : (∀ e ∈ es, f.Holds env t base root (some e)) ↔ ∀ m ∈ ms, Meaning env t f.statement m := by
      have := not_congr h1
      push Not at this
      exact this
    constructor
    · rintro ⟨ms', hr', h⟩ l h4 e h5
      exact h2.2 ((parent_unique he.order hs.1 hr' hr _).2.1 h) e ((hmem e).2 ⟨l, h4, h5⟩)
    · intro h
      refine ⟨ms, hr, h2.1 fun e he' => ?_⟩
      obtain ⟨l, h4, h5⟩ := (hmem e).1 he'
      exact h l h4 e h5

mutual
theorem deep_meaning (he : Assumed env) (hp : PathsOk env) (hdp : DeepOk env) (hc : Carries env base root msg none) : ∀ q : DeepClaim, q.Plain → Sound env t q.statement →
    q.Clear env t base root msg.rawI.isSome → Defined env t q.statement msg ∧ (Meaning env t q.statement msg ↔ q.Holds env t base root)
  | .claim f, hpl, hs, hd => by
    rw [DeepClaim.Plain] at hpl
    rw [DeepClaim.statement] at hs ⊢
    rw [DeepClaim.Clear] at hd
    rw [DeepClaim.Holds]
    exact claim_meaning he hp f msg none hpl hs hc hd
  | .any p f, hpl, hs, hd => by
    rw [DeepClaim.Plain] at hpl
    rw [DeepClaim.statement, Sound] at hs
    rw [DeepClaim.Clear] at hd
    rw [DeepClaim.statement, Defined, Meaning, DeepClaim.Holds]
    obtain ⟨h1, h2, -⟩ := deep_elements he hp hdp hpl.1 hpl.2 hs hc hd
    exact ⟨h1, h2⟩
  | .all p f, hpl, hs, hd => by
    rw [DeepClaim.Plain] at hpl
    rw [DeepClaim.statement, Sound] at hs
    rw [DeepClaim.Clear] at hd
    rw [DeepClaim.statement, Defined, Meaning, DeepClaim.Holds]
    obtain ⟨h1, -, h2⟩ := deep_elements he hp hdp hpl.1 hpl.2 hs hc hd
    exact ⟨h1, h2⟩
  | .and qs, hpl, hs, hd => by
    rw [DeepClaim.Plain] at hpl
    rw [DeepClaim.statement, Sound] at hs
    rw [DeepClaim.Clear] at hd
    rw [DeepClaim.statement, Defined, Meaning, DeepClaim.Holds]
    obtain ⟨h1, -, h2, -⟩ := deep_meanings he hp hdp hc qs hpl hs.2 hd
    exact ⟨h1, h2⟩
  | .or qs, hpl, hs, hd => by
    rw [DeepClaim.Plain] at hpl
    rw [DeepClaim.statement, Sound] at hs
    rw [DeepClaim.Clear] at hd
    rw [DeepClaim.statement, Defined, Meaning, DeepClaim.Holds]
    obtain ⟨-, h1, -, h2⟩ := deep_meanings he hp hdp hc qs hpl hs.2 hd
    exact ⟨h1, h2⟩
  | .not q, hpl, hs, hd => by
    rw [DeepClaim.Plain] at hpl
    rw [DeepClaim.statement, Sound] at hs
    rw [DeepClaim.Clear] at hd
    rw [DeepClaim.statement, Defined, Meaning, DeepClaim.Holds]
    obtain ⟨h1, h2⟩ := deep_meaning he hp hdp hc q hpl hs hd
    exact ⟨h1, not_congr h2⟩

theorem deep_meanings (he : Assumed env) (hp : PathsOk env) (hdp : DeepOk env) (hc : Carries env base root msg none) : ∀ qs : List DeepClaim, DeepClaim.AllPlain qs →
    SoundAll env t (DeepClaim.statements qs) → DeepClaim.AllClear env t base root msg.rawI.isSome qs →
    DefinedInTurn env t (DeepClaim.statements qs) msg ∧ DefinedAll env t (DeepClaim.statements qs) msg ∧
    (MeaningAll env t (DeepClaim.statements qs) msg ↔ DeepClaim.AllHold env t base root qs) ∧
    (MeaningSome env t (DeepClaim.statements qs) msg ↔ DeepClaim.SomeHolds env t base root qs)
  | [], _, _, _ => by simp [DeepClaim.statements, DefinedInTurn, DefinedAll, MeaningAll, MeaningSome, DeepClaim.AllHold, DeepClaim.SomeHolds]
  | q :: qs, hpl, hs, hd => by
    rw [DeepClaim.AllPlain] at hpl
    rw [DeepClaim.statements, SoundAll] at hs
    rw [DeepClaim.AllClear] at hd
    obtain ⟨h1, h2⟩ := deep_meaning he hp hdp hc q hpl.1 hs.1 hd.1
    obtain ⟨h3, h4, h5, h6⟩ := deep_meanings he hp hdp hc qs hpl.2 hs.2 hd.2
    rw [DeepClaim.statements, DefinedInTurn, DefinedAll, MeaningAll, MeaningSome, DeepClaim.AllHold, DeepClaim.SomeHolds]
    exact ⟨⟨h1, fun _ => h3⟩, ⟨h1, h4⟩, and_congr h2 h5, or_congr h2 h6⟩
end

theorem writtenDeep (he : Assumed env) (hp : PathsOk env) (hdp : DeepOk env) (hc : Carries env base root msg none) {body : Rule} {A : Prop} {d : Decision}
    (h : WrittenDeep env t base root msg.rawI.isSome body A d) : WrittenSays env t msg body A d := by
  cases h with
  | @mk c s v hcd hs hv ht hok hpl hd =>
    have key : ∀ q ∈ c, Defined env t q.statement msg ∧ (Meaning env t q.statement msg ↔ q.Holds env t base root) := fun q hq =>
      deep_meaning he hp hdp hc q (hpl q hq) (hok q hq) (hd q hq)
    have hA : (WrittenParts body s v base ∧ ∀ q ∈ c, q.Holds env t base root) =
        (WrittenParts body s v msg ∧ ∀ f ∈ c.map DeepClaim.statement, Meaning env t f msg) := by
      rw [carries_parts hc]
      refine propext (and_congr_right fun _ => ?_)
      constructor
      · intro h f hf
        obtain ⟨f', hf', rfl⟩ := Option.mem_map.1 hf
        exact (key f' hf').2.2 (h f' hf')
      · exact fun h f hf => (key f hf).2.1 (h _ (Option.mem_map_of_mem _ hf))
    rw [hA]
    refine .mk (c := c.map DeepClaim.statement) ?_ hs hv ht ?_ ?_
    · rw [hcd]; cases c <;> rfl
    · intro f hf
      obtain ⟨f', hf', rfl⟩ := Option.mem_map.1 hf
      exact hok f' hf'
    · intro f hf
      obtain ⟨f', hf', rfl⟩ := Option.mem_map.1 hf
      exact (key f' hf').1

end Mapl.Props

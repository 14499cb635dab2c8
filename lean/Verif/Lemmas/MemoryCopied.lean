import Verif.Lemmas.MemoryRules
import Verif.Lemmas.Names

/-! # Several parent paths, all but the last copied by the library -/

namespace Mapl

open Mapl.Spec

theorem askM_copied {env : MemEnv} {mm : MMsg} {mem : Mem} {q : Str} (hq : Copied env q) {r : (Slice × Bool) × Mem} (h : askM env mm mem q = .ok r) :
    Full r.2 r.1.1 := by
  obtain ⟨⟨x, rfl⟩, hn⟩ := hq
  have hr : isRelativeParent (gs"$." ++ x) = false := by simp [isRelativeParent, hasPrefix, List.isPrefixOf]
  unfold askM at h
  rw [if_neg (by rw [hr]; simp), Go.bind_eq_ok] at h
  obtain ⟨s, -, h⟩ := h
  simp only [Go.pure_eq, Except.ok.injEq] at h
  subst h
  rw [getM_none (hn _)]
  exact alloc_full _ _

theorem collect_copied {env : MemEnv} (hp : PlaceOk env) {mm : MMsg} {mem0 : Mem} (hm : InMemory mem0 mm) : ∀ (qs : List Str) (_ : ∀ q ∈ qs.dropLast, Copied env q) (data : Slice) (err : Bool) (mem : Mem),
    Untouched mem0 mem → (err = true ∧ data.len = 0 ∨ Inside mem data ∧ (qs ≠ [] → Full mem data)) →
    SameSlice mem0 (collectJsons env.toExt (mm.view mem0) (mem.read data) err qs) (collectM env mm data err mem qs)
  | [], _, data, err, mem, hu, hd => by
    cases err with
    | true => exact ⟨_, rfl, hu⟩
    | false =>
      have hd : Inside mem data := by rcases hd with h | h; exacts [absurd h.1 (by simp), h.1]
      exact ⟨_, _, rfl, hu, hd, rfl⟩
  | q :: qs, hq, data, err, mem, hu, hd => by
    have hq' : ∀ q ∈ qs.dropLast, Copied env q := by
      intro x hx
      cases qs with
      | nil => simp at hx
      | cons y ys => exact hq x (by simp [List.dropLast, hx])
    have hd : err = true ∧ data.len = 0 ∨ Full mem data := hd.imp id fun h => h.2 (by simp)
    have := ask_spec hp (hm.mono hu) q
    rw [hm.view hu] at this
    rw [collectM_cons, collectJsons_cons]
    cases hv : askV env.toExt (mm.view mem0) q with
    | error e => rw [hv] at this; rw [show askM env mm mem q = .error e from this]; rfl
    | ok v =>
      rw [hv] at this
      obtain ⟨s, mem', h1, h2, h3, h4⟩ := this
      have hf : qs ≠ [] → Full mem' s := fun hne => by
        cases qs with
        | nil => exact absurd rfl hne
        | cons y ys => exact askM_copied (hq q (by simp [List.dropLast])) h1
      obtain ⟨t, b⟩ := v
      simp only at h1 h4 hf
      rw [h1, Go.ok_bind, Go.ok_bind]
      cases b with
      | true =>
        have hr : mem'.read data = mem.read data := by
          rcases hd with ⟨-, h⟩ | h
          · simp [Mem.read, h]
          · exact h.inside.read h2
        rw [if_pos rfl, ← hr]
        exact collect_copied hp hm qs hq' data true mem' (hu.trans h2) (hd.imp (fun h => ⟨rfl, h.2⟩) fun h => ⟨(h.mono h2).inside, fun _ => h.mono h2⟩)
      | false =>
        rw [if_neg (by simp)]
        by_cases hl : data.len = 0
        · have e1 : joinM data ((s, false), mem') = (s, mem') := by simp [joinM, hl]
          have e2 : (mem.read data).length = 0 := by simp [Mem.read, hl]
          rw [if_pos e2, e1, ← h4]
          exact collect_copied hp hm qs hq' s false mem' (hu.trans h2) (.inr ⟨h3, hf⟩)
        · have hd : Full mem data := by rcases hd with h | h; exacts [absurd h.2 hl, h]
          have e2 : (mem.read data).length ≠ 0 := by rw [hd.inside.length]; exact hl
          rw [if_neg e2]
          by_cases ht : s.len = 0
          · have e1 : joinM data ((s, false), mem') = (data, mem') := by simp [joinM, hl, ht]
            have e3 : ¬ t.length ≠ 0 := by rw [← h4, h3.length]; simpa using ht
            rw [if_neg e3, e1, ← hd.inside.read h2]
            exact collect_copied hp hm qs hq' data false mem' (hu.trans h2) (.inr ⟨(hd.mono h2).inside, fun _ => hd.mono h2⟩)
          · have e3 : t.length ≠ 0 := by rw [← h4, h3.length]; exact ht
            have hd' := hd.mono h2
            have a1 := append_full hd' (xs := gs",") (by simp)
            obtain ⟨d1, m1, ha1⟩ : ∃ d1 m1, mem'.alloc (mem'.read data ++ gs",") = (d1, m1) := ⟨_, _, rfl⟩
            have u1 : Untouched mem' m1 := by have := untouched_alloc mem' (mem'.read data ++ gs","); rwa [ha1] at this
            have f1 : Full m1 d1 := by have := alloc_full mem' (mem'.read data ++ gs","); rwa [ha1] at this
            have r1 : m1.read d1 = mem'.read data ++ gs"," := by have := alloc_read mem' (mem'.read data ++ gs","); rwa [ha1] at this
            have hs1 : m1.read s = t := by rw [h3.read u1, h4]
            have a2 := append_full f1 (xs := t) (by rintro rfl; simp at e3)
            obtain ⟨d2, m2, ha2⟩ : ∃ d2 m2, m1.alloc (m1.read d1 ++ t) = (d2, m2) := ⟨_, _, rfl⟩
            have u2 : Untouched m1 m2 := by have := untouched_alloc m1 (m1.read d1 ++ t); rwa [ha2] at this
            have f2 : Full m2 d2 := by have := alloc_full m1 (m1.read d1 ++ t); rwa [ha2] at this
            have r2 : m2.read d2 = m1.read d1 ++ t := by have := alloc_read m1 (m1.read d1 ++ t); rwa [ha2] at this
            have e1 : joinM data ((s, false), mem') = (d2, m2) := by
              simp only [joinM, hl, ht, ne_eq, not_false_eq_true, if_true, if_false, Bool.false_eq_true]
              rw [a1, ha1]
              simp only
              rw [hs1, a2, ha2]
            rw [if_pos e3, e1, show mem.read data ++ gs"," ++ t = m2.read d2 from by rw [r2, r1, hd.inside.read h2]]
            exact collect_copied hp hm qs hq' d2 false m2 (((hu.trans h2).trans u1).trans u2) (.inr ⟨f2.inside, fun _ => f2⟩)

theorem collects_copied {env : MemEnv} (hp : PlaceOk env) {qs : List Str} (hq : ∀ q ∈ qs.dropLast, Copied env q) : Collects env qs := fun mm mem hm =>
  collect_copied hp hm qs hq ⟨0, 0, 0⟩ true mem (untouched_refl _) (.inl ⟨rfl, rfl⟩)

theorem split_earlier {s q : Str} (h : q ∈ (split ',' s).dropLast) : EarlierPart s q := by
  by_cases hc : ',' ∈ s
  · obtain ⟨x, rest, hs, hx⟩ := List.eq_append_cons_of_mem hc
    rw [hs, split_part _ hx, List.dropLast_cons_of_ne_nil (split_ne_nil _), List.mem_cons] at h
    rcases h with rfl | h
    · exact ⟨hx, [], rest, by simp [hs], .inl rfl⟩
    · obtain ⟨h1, b, a, h2, h3⟩ := split_earlier h
      refine ⟨h1, x ++ ',' :: b, a, by rw [hs, h2]; simp, .inr ?_⟩
      rcases h3 with rfl | ⟨b', rfl⟩
      · exact ⟨x, by simp⟩
      · exact ⟨x ++ ',' :: b', by simp⟩
  · rw [split_last hc] at h
    simp at h
termination_by s.length
decreasing_by rw [hs, List.length_append, List.length_cons]; omega

theorem split_comma (b r : Str) : split ',' (b ++ ',' :: r) = split ',' b ++ split ',' r := by
  by_cases hc : ',' ∈ b
  · obtain ⟨x, rest, hs, hx⟩ := List.eq_append_cons_of_mem hc
    rw [hs, split_part _ hx, List.append_assoc, List.cons_append, split_part _ hx, split_comma rest r, List.cons_append]
  · rw [split_part _ hc, split_last hc]; rfl
termination_by b.length
decreasing_by rw [hs, List.length_append, List.length_cons]; omega

theorem split_earlier_iff {s q : Str} : q ∈ (split ',' s).dropLast ↔ EarlierPart s q := by
  refine ⟨split_earlier, ?_⟩
  rintro ⟨h1, b, a, rfl, rfl | ⟨b', rfl⟩⟩
  · rw [List.nil_append, split_part _ h1, List.dropLast_cons_of_ne_nil (split_ne_nil _)]; simp
  · rw [show b' ++ [','] ++ q ++ ',' :: a = b' ++ ',' :: (q ++ ',' :: a) by simp, split_comma, split_part _ h1,
      List.dropLast_append_of_ne_nil (by simp), List.dropLast_cons_of_ne_nil (split_ne_nil _)]
    simp

theorem copiedParents_prepare {env : MemEnv} {t : Predef} {n n' : Node} (h : CopiedParents env n) (hn : n.prepare env.toExt t = .ok n') :
    Parents (fun a => ∀ q ∈ a.parentArr.dropLast, Copied env q) n' := by
  refine prepare_parents (fun a a' ha h => ?_) n n' h hn
  rw [AnyAll.prepare, Go.bind_eq_ok] at h
  obtain ⟨qs, -, h⟩ := h
  cases h
  exact fun q hq => ha q (split_earlier hq)

end Mapl

import Verif.Spec.Memory
import Verif.Lemmas.Tree
import Verif.Lemmas.EvalMsg

/-! # Evaluation with arrays -/

namespace Mapl

open Mapl.Spec

/-! ## Reading -/

theorem untouched_refl (mem : Mem) : Untouched mem mem := fun _ _ h => h

theorem Spec.Untouched.trans {a b c : Mem} (h : Untouched a b) (h' : Untouched b c) : Untouched a c := fun i t ht => h' i t (h i t ht)

theorem untouched_alloc (mem : Mem) (t : Str) : Untouched mem (mem.alloc t).2 := by
  intro i u h
  obtain ⟨hi, he⟩ := List.getElem?_eq_some_iff.1 h
  simp only [Mem.alloc]
  rw [List.getElem?_append_left hi, h]

theorem Spec.Inside.mono {mem mem' : Mem} {s : Slice} (h : Inside mem s) (hu : Untouched mem mem') : Inside mem' s := by
  obtain ⟨t, ht, hl⟩ := h
  exact ⟨t, hu _ _ ht, hl⟩

theorem Spec.Inside.read {mem mem' : Mem} {s : Slice} (h : Inside mem s) (hu : Untouched mem mem') : mem'.read s = mem.read s := by
  obtain ⟨t, ht, -⟩ := h
  simp [Mem.read, Mem.array, ht, hu _ _ ht]

theorem Spec.Inside.length {mem : Mem} {s : Slice} (h : Inside mem s) : (mem.read s).length = s.len := by
  obtain ⟨t, ht, hl⟩ := h
  simp [Mem.read, Mem.array, ht]
  omega

theorem Spec.InMemory.mono {mem mem' : Mem} {mm : MMsg} (h : InMemory mem mm) (hu : Untouched mem mem') : InMemory mem' mm :=
  ⟨fun s hs => (h.1 s hs).mono hu, fun s hs => (h.2 s hs).mono hu⟩

theorem map_read {o : Option Slice} {mem mem' : Mem} (h : ∀ s, o = some s → Inside mem s) (hu : Untouched mem mem') : o.map mem'.read = o.map mem.read := by
  cases o with
  | none => rfl
  | some s => simp [(h s rfl).read hu]

theorem Spec.InMemory.view {mem mem' : Mem} {mm : MMsg} (h : InMemory mem mm) (hu : Untouched mem mem') : mm.view mem' = mm.view mem := by
  simp [MMsg.view, map_read h.1 hu, map_read h.2 hu]

theorem alloc_inside (mem : Mem) (t : Str) : Inside (mem.alloc t).2 (mem.alloc t).1 := by
  refine ⟨t, ?_, ?_⟩ <;> simp [Mem.alloc]

theorem alloc_read (mem : Mem) (t : Str) : (mem.alloc t).2.read (mem.alloc t).1 = t := by
  simp [Mem.alloc, Mem.read, Mem.array]

theorem allocAll_spec (ts : List Str) : ∀ mem : Mem, Untouched mem (mem.allocAll ts).2 ∧ (mem.allocAll ts).1.map (mem.allocAll ts).2.read = ts ∧
    ∀ s ∈ (mem.allocAll ts).1, Inside (mem.allocAll ts).2 s := by
  induction ts with
  | nil => intro mem; exact ⟨untouched_refl _, rfl, by simp [Mem.allocAll]⟩
  | cons t ts ih =>
    intro mem
    obtain ⟨h1, h2, h3⟩ := ih (mem.alloc t).2
    refine ⟨(untouched_alloc mem t).trans h1, ?_, ?_⟩
    · simp only [Mem.allocAll, List.map_cons]
      rw [(alloc_inside mem t).read h1, alloc_read, h2]
    · intro s hs
      simp only [Mem.allocAll, List.mem_cons] at hs
      rcases hs with rfl | hs
      · exact (alloc_inside mem t).mono h1
      · exact h3 s hs

/-- A part of a slice. -/
theorem read_part {mem : Mem} {s : Slice} {i n : Nat} (h : i + n ≤ s.len) :
    mem.read ⟨s.arr, s.off + i, n⟩ = ((mem.read s).drop i).take n := by
  simp only [Mem.read]
  rw [List.drop_take, List.drop_drop, List.take_take, Nat.min_eq_left (by omega)]

theorem inside_part {mem : Mem} {s : Slice} {i n : Nat} (hs : Inside mem s) (h : i + n ≤ s.len) : Inside mem ⟨s.arr, s.off + i, n⟩ := by
  obtain ⟨t, ht, hl⟩ := hs
  exact ⟨t, ht, by simp only; omega⟩

theorem getM_none {env : MemEnv} {mem : Mem} {s : Slice} {q : Str} (h : env.place (mem.read s) q = none) :
    getM env mem s q = (((mem.alloc (env.jsGet (mem.read s) q).1).1, (env.jsGet (mem.read s) q).2), (mem.alloc (env.jsGet (mem.read s) q).1).2) := by
  unfold getM; simp only [h]

theorem getM_some {env : MemEnv} {mem : Mem} {s : Slice} {q : Str} {i : Nat} (h : env.place (mem.read s) q = some i) :
    getM env mem s q = ((⟨s.arr, s.off + i, (env.jsGet (mem.read s) q).1.length⟩, (env.jsGet (mem.read s) q).2), mem) := by
  unfold getM; simp only [h]

theorem getM_spec {env : MemEnv} (hp : PlaceOk env) {mem : Mem} {s : Slice} (hs : Inside mem s) (q : Str) :
    Untouched mem (getM env mem s q).2 ∧ Inside (getM env mem s q).2 (getM env mem s q).1.1 ∧
    (getM env mem s q).2.read (getM env mem s q).1.1 = (env.jsGet (mem.read s) q).1 ∧ (getM env mem s q).1.2 = (env.jsGet (mem.read s) q).2 := by
  cases h : env.place (mem.read s) q with
  | none => rw [getM_none h]; exact ⟨untouched_alloc _ _, alloc_inside _ _, alloc_read _ _, rfl⟩
  | some i =>
    obtain ⟨b, a, he, hb⟩ := hp _ _ _ h
    have hl := congrArg List.length he
    rw [hs.length] at hl
    simp at hl
    rw [getM_some h]
    refine ⟨untouched_refl _, inside_part hs (by omega), ?_, rfl⟩
    simp only
    rw [read_part (by omega)]
    generalize (env.jsGet (mem.read s) q).1 = v at *
    rw [he, List.append_assoc, ← hb, List.drop_left, List.take_left]

/-! ## The elements -/

/-- A slice that was computed, or an error, as with values. -/
def SameSlice (mem : Mem) : Go (Option Str) → Go (Option Slice × Mem) → Prop
  | .ok (some t), r => ∃ s mem', r = .ok (some s, mem') ∧ Untouched mem mem' ∧ Inside mem' s ∧ mem'.read s = t
  | .ok none, r => ∃ mem', r = .ok (none, mem') ∧ Untouched mem mem'
  | .error e, r => r = .error e

/-- What is needed of the parent paths. -/
def Collects (env : MemEnv) (qs : List Str) : Prop :=
  ∀ (mm : MMsg) (mem : Mem), InMemory mem mm → SameSlice mem (collectJsons env.toExt (mm.view mem) [] true qs) (collectM env mm ⟨0, 0, 0⟩ true mem qs)

/-- One query. -/
def askM (env : MemEnv) (mm : MMsg) (mem : Mem) (q : Str) : Go ((Slice × Bool) × Mem) :=
  if isRelativeParent q then do let s ← deref mm.rel; pure (getM env mem s (bytesParentQuery q))
  else do let s ← deref mm.raw; pure (getM env mem s q)

def askV (env : Ext) (m : Msg) (q : Str) : Go (Str × Bool) :=
  if isRelativeParent q then do let raw ← deref m.jsonRawRel; pure (env.jsGet raw (bytesParentQuery q))
  else do let raw ← deref m.jsonRaw; pure (env.jsGet raw q)

theorem ask_spec {env : MemEnv} (hp : PlaceOk env) {mm : MMsg} {mem : Mem} (hm : InMemory mem mm) (q : Str) :
    match askV env.toExt (mm.view mem) q with
    | .error e => askM env mm mem q = .error e
    | .ok v => ∃ s mem', askM env mm mem q = .ok ((s, v.2), mem') ∧ Untouched mem mem' ∧ Inside mem' s ∧ mem'.read s = v.1 := by
  have key : ∀ (o : Option Slice) (q' : Str), (∀ s, o = some s → Inside mem s) →
      match (deref (o.map mem.read) >>= fun raw => pure (env.jsGet raw q') : Go (Str × Bool)) with
      | .error e => (deref o >>= fun s => pure (getM env mem s q') : Go ((Slice × Bool) × Mem)) = .error e
      | .ok v => ∃ s mem', (deref o >>= fun s => pure (getM env mem s q') : Go ((Slice × Bool) × Mem)) = .ok ((s, v.2), mem') ∧ Untouched mem mem' ∧ Inside mem' s ∧ mem'.read s = v.1 := by
    intro o q' ho
    cases o with
    | none => rfl
    | some s =>
      obtain ⟨h1, h2, h3, h4⟩ := getM_spec hp (ho s rfl) q'
      refine ⟨_, _, ?_, h1, h2, h3⟩
      show Except.ok _ = _
      rw [← h4]
  unfold askV askM
  by_cases hr : isRelativeParent q = true
  · rw [if_pos hr, if_pos hr]; exact key mm.rel _ hm.2
  · rw [if_neg hr, if_neg hr]; exact key mm.raw _ hm.1

theorem collectM_cons {env : MemEnv} {mm : MMsg} {data : Slice} {err : Bool} {mem : Mem} {q : Str} {qs : List Str} :
    collectM env mm data err mem (q :: qs) = askM env mm mem q >>= fun r => collectM env mm (joinM data r).1 r.1.2 (joinM data r).2 qs := by
  rw [collectM]
  unfold askM
  by_cases h : isRelativeParent q = true
  · rw [if_pos h, if_pos h]; cases mm.rel <;> rfl
  · rw [if_neg h, if_neg h]; cases mm.raw <;> rfl

theorem collectJsons_cons {env : Ext} {m : Msg} {data : Str} {err : Bool} {q : Str} {qs : List Str} :
    collectJsons env m data err (q :: qs) = askV env m q >>= fun r => collectJsons env m
      (if r.2 then data else if data.length = 0 then r.1 else if r.1.length ≠ 0 then data ++ gs"," ++ r.1 else data) r.2 qs := by
  rw [collectJsons]
  unfold askV
  by_cases h : isRelativeParent q = true
  · rw [if_pos h, if_pos h]; cases m.jsonRawRel <;> rfl
  · rw [if_neg h, if_neg h]; cases m.jsonRaw <;> rfl

theorem collects_one {env : MemEnv} (hp : PlaceOk env) {qs : List Str} (hq : qs.length ≤ 1) : Collects env qs := by
  intro mm mem hm
  match qs, hq with
  | [], _ => exact ⟨_, rfl, untouched_refl _⟩
  | [q], _ =>
    have := ask_spec hp hm q
    rw [collectM_cons, collectJsons_cons]
    cases hv : askV env.toExt (mm.view mem) q with
    | error e => rw [hv] at this; rw [show askM env mm mem q = .error e from this]; rfl
    | ok v =>
      rw [hv] at this
      obtain ⟨s, mem', h1, h2, h3, h4⟩ := this
      rw [h1]
      obtain ⟨t, b⟩ := v
      cases b with
      | true => exact ⟨_, rfl, h2⟩
      | false => exact ⟨_, _, rfl, h2, h3, h4⟩

/-- The slice reaches to the end of its array. -/
def Full (mem : Mem) (s : Slice) : Prop := ∃ t : Str, mem[s.arr]? = some t ∧ s.off + s.len = t.length

theorem Full.inside {mem : Mem} {s : Slice} (h : Full mem s) : Inside mem s := by
  obtain ⟨t, h1, h2⟩ := h
  exact ⟨t, h1, by omega⟩

theorem Full.mono {mem mem' : Mem} {s : Slice} (h : Full mem s) (hu : Untouched mem mem') : Full mem' s := by
  obtain ⟨t, h1, h2⟩ := h
  exact ⟨t, hu _ _ h1, h2⟩

theorem alloc_full (mem : Mem) (t : Str) : Full (mem.alloc t).2 (mem.alloc t).1 := ⟨t, by simp [Mem.alloc], by simp [Mem.alloc]⟩

theorem append_full {mem : Mem} {s : Slice} (h : Full mem s) {xs : Str} (hx : xs ≠ []) : mem.append s xs = mem.alloc (mem.read s ++ xs) := by
  obtain ⟨t, h1, h2⟩ := h
  unfold Mem.append
  rw [if_neg]
  have : 0 < xs.length := List.length_pos_iff.2 hx
  simp only [Mem.cap, Mem.array, h1, Option.getD_some]
  omega

theorem getM_full {env : MemEnv} (hn : ∀ t q, env.place t q = none) {mem : Mem} {s : Slice} {q : Str} : Full (getM env mem s q).2 (getM env mem s q).1.1 := by
  rw [getM_none (hn _ _)]
  exact alloc_full _ _

theorem askM_full {env : MemEnv} (hn : ∀ t q, env.place t q = none) {mm : MMsg} {mem : Mem} {q : Str} {r : (Slice × Bool) × Mem} (h : askM env mm mem q = .ok r) :
    Full r.2 r.1.1 := by
  unfold askM at h
  split at h
  all_goals
    rw [Go.bind_eq_ok] at h
    obtain ⟨s, -, h⟩ := h
    simp only [Go.pure_eq, Except.ok.injEq] at h
    subst h
    exact getM_full hn

theorem collect_copies {env : MemEnv} (hn : ∀ t q, env.place t q = none) {mm : MMsg} {mem0 : Mem} (hm : InMemory mem0 mm) : ∀ (qs : List Str) (data : Slice) (err : Bool) (mem : Mem),
    Untouched mem0 mem → (err = true ∧ data.len = 0 ∨ Full mem data) →
    SameSlice mem0 (collectJsons env.toExt (mm.view mem0) (mem.read data) err qs) (collectM env mm data err mem qs)
  | [], data, err, mem, hu, hd => by
    cases err with
    | true => exact ⟨_, rfl, hu⟩
    | false =>
      have hd : Full mem data := by simpa using hd
      exact ⟨_, _, rfl, hu, hd.inside, rfl⟩
  | q :: qs, data, err, mem, hu, hd => by
    have hp : PlaceOk env := fun t q i h => by rw [hn] at h; simp at h
    have := ask_spec hp (hm.mono hu) q
    rw [hm.view hu] at this
    rw [collectM_cons, collectJsons_cons]
    cases hv : askV env.toExt (mm.view mem0) q with
    | error e => rw [hv] at this; rw [show askM env mm mem q = .error e from this]; rfl
    | ok v =>
      rw [hv] at this
      obtain ⟨s, mem', h1, h2, h3, h4⟩ := this
      have hf := askM_full hn h1
      obtain ⟨t, b⟩ := v
      simp only at h1 h4 hf
      rw [h1, Go.ok_bind, Go.ok_bind]
      cases b with
      | true =>
        have hr : mem'.read data = mem.read data := by
          rcases hd with ⟨-, h⟩ | h
          · simp [Mem.read, h]
          · exact h.inside.read h2
        rw [if_pos rfl, ← hr]
        exact collect_copies hn hm qs data true mem' (hu.trans h2) (hd.imp (fun h => ⟨rfl, h.2⟩) fun h => h.mono h2)
      | false =>
        rw [if_neg (by simp)]
        by_cases hl : data.len = 0
        · have e1 : joinM data ((s, false), mem') = (s, mem') := by simp [joinM, hl]
          have e2 : (mem.read data).length = 0 := by simp [Mem.read, hl]
          rw [if_pos e2, e1, ← h4]
          exact collect_copies hn hm qs s false mem' (hu.trans h2) (.inr hf)
        · have hd : Full mem data := by rcases hd with h | h; exacts [absurd h.2 hl, h]
          have e2 : (mem.read data).length ≠ 0 := by rw [hd.inside.length]; exact hl
          rw [if_neg e2]
          by_cases ht : s.len = 0
          · have e1 : joinM data ((s, false), mem') = (data, mem') := by simp [joinM, hl, ht]
            have e3 : ¬ t.length ≠ 0 := by rw [← h4, h3.length]; simpa using ht
            rw [if_neg e3, e1, ← hd.inside.read h2]
            exact collect_copies hn hm qs data false mem' (hu.trans h2) (.inr (hd.mono h2))
          · have e3 : t.length ≠ 0 := by rw [← h4, h3.length]; exact ht
            have hd' := hd.mono h2
            have a1 := append_full hd' (xs := gs",") (by simp)
            obtain ⟨d1, m1, ha1⟩ : ∃ d1 m1, mem'.alloc (mem'.read data ++ gs",") = (d1, m1) := ⟨_, _, rfl⟩
            have u1 : Untouched mem' m1 := by have := untouched_alloc mem' (mem'.read data ++ gs","); rwa [ha1] at this
            have f1 : Full m1 d1 := by have := alloc_full mem' (mem'.read data ++ gs","); rwa [ha1] at this
            have r1 : m1.read d1 = mem'.read data ++ gs"," := by have := alloc_read mem' (mem'.read data ++ gs","); rwa [ha1] at this
            have hs1 : m1.read s = t := by rw [h3.read u1, h4]
            have a2 := append_full f1 (xs := t) (by rintro rfl; simp at e3)
            obtain ⟨d2, m2, ha2⟩ : ∃ d2 m2, m1.alloc (m1.read d1 ++ t) = (d2, m2) := ⟨_, _, rfl⟩
            have u2 : Untouched m1 m2 := by have := untouched_alloc m1 (m1.read d1 ++ t); rwa [ha2] at this
            have f2 : Full m2 d2 := by have := alloc_full m1 (m1.read d1 ++ t); rwa [ha2] at this
            have r2 : m2.read d2 = m1.read d1 ++ t := by have := alloc_read m1 (m1.read d1 ++ t); rwa [ha2] at this
            have e1 : joinM data ((s, false), mem') = (d2, m2) := by
              simp only [joinM, hl, ht, ne_eq, not_false_eq_true, if_true, if_false, Bool.false_eq_true]
              rw [a1, ha1]
              simp only
              rw [hs1, a2, ha2]
            rw [if_pos e3, e1, show mem.read data ++ gs"," ++ t = m2.read d2 from by rw [r2, r1, hd.inside.read h2]]
            exact collect_copies hn hm qs d2 false m2 (((hu.trans h2).trans u1).trans u2) (.inr f2)

theorem collects_copies {env : MemEnv} (hn : ∀ t q, env.place t q = none) (qs : List Str) : Collects env qs := fun mm mem hm =>
  collect_copies hn hm qs ⟨0, 0, 0⟩ true mem (untouched_refl _) (.inl ⟨rfl, rfl⟩)

/-! ## Flattening and splitting -/

theorem flatten_spec {env : MemEnv} {mem : Mem} {data : Slice} (hd : Inside mem data) :
    SameSlice mem (getArrayFromArrayOfArrays env.toExt (mem.read data)) (flattenM env mem data) := by
  unfold flattenM
  have hl := hd.length
  by_cases h : data.len < 2
  · rw [if_pos h, getArrayFromArrayOfArrays, if_pos (by omega)]
    exact ⟨_, _, rfl, untouched_refl _, hd, rfl⟩
  · rw [if_neg h]
    cases hv : getArrayFromArrayOfArrays env.toExt (mem.read data) with
    | error e => rfl
    | ok o =>
      cases o with
      | none => exact ⟨_, rfl, untouched_refl _⟩
      | some t => exact ⟨_, _, rfl, untouched_alloc _ _, alloc_inside _ _, alloc_read _ _⟩

theorem scan_spec {mem : Mem} {s : Slice} {t : Str} (hs : Inside mem s) (ht : mem.read s = t) : ∀ (cs pre : Str) (c : Int) (cur : Option Str) (start : Option Nat),
    t = pre ++ cs → (∀ k, start = some k → k ≤ pre.length) → cur = start.map (fun k => (pre.drop k).reverse) →
    (scanAt s.arr s.off pre.length c start cs).map mem.read = scanObjects c cur cs ∧ ∀ x ∈ scanAt s.arr s.off pre.length c start cs, Inside mem x
  | [], pre, c, cur, start, h, hk, hc => ⟨rfl, by simp [scanAt]⟩
  | ch :: cs, pre, c, cur, start, h, hk, hc => by
    have hlen : s.len = pre.length + (cs.length + 1) := by rw [← hs.length, ht, h]; simp
    unfold scanAt scanObjects
    simp only
    generalize hc1 : (if ch = '}' then (if ch = '{' then c + 1 else c) - 1 else if ch = '{' then c + 1 else c) = c1
    generalize hst : (if ch = '{' ∧ c = 0 then some pre.length else start) = st
    have hk' : ∀ k, st = some k → k ≤ pre.length := by
      intro k hk2
      subst hst
      split at hk2
      · simp at hk2; omega
      · exact hk k hk2
    have hcur : (if ch = '{' ∧ c = 0 then some [] else cur) = st.map (fun k => (pre.drop k).reverse) := by
      subst hst hc
      split <;> simp
    have hcur' : (if ch = '{' ∧ c = 0 then some [] else cur).map (ch :: ·) = st.map (fun k => ((pre ++ [ch]).drop k).reverse) := by
      rw [hcur]
      cases st with
      | none => rfl
      | some k =>
        have := hk' k rfl
        simp [List.drop_append_of_le_length this]
    rw [hcur']
    have e : t = (pre ++ [ch]) ++ cs := by rw [h]; simp
    have el : (pre ++ [ch]).length = pre.length + 1 := by simp
    by_cases hz : c1 = 0
    · rw [if_pos hz, if_pos hz]
      have ih := scan_spec hs ht cs (pre ++ [ch]) c1 none none e (by simp) rfl
      rw [el] at ih
      cases st with
      | none => exact ih
      | some k =>
        have hkl := hk' k rfl
        simp only [Option.map_some, List.map_cons, List.reverse_reverse, List.mem_cons]
        refine ⟨?_, ?_⟩
        · rw [ih.1, read_part (by omega), ht, e, List.append_assoc, List.drop_append_of_le_length (by omega)]
          rw [List.drop_append_of_le_length hkl, ← List.append_assoc, List.take_left' (by simp; omega)]
        · rintro x (rfl | hx)
          · exact inside_part hs (by omega)
          · exact ih.2 x hx
    · rw [if_neg hz, if_neg hz]
      have ih := scan_spec hs ht cs (pre ++ [ch]) c1 _ st e (fun k hk2 => by have := hk' k hk2; simp; omega) rfl
      rwa [el] at ih

/-- The elements of an ANY or ALL. -/
def SameSlices (mem : Mem) : Go (Option (List Str)) → Go (Option (List Slice) × Mem) → Prop
  | .ok (some ts), r => ∃ l mem', r = .ok (some l, mem') ∧ Untouched mem mem' ∧ (∀ s ∈ l, Inside mem' s) ∧ l.map mem'.read = ts
  | .ok none, r => ∃ mem', r = .ok (none, mem') ∧ Untouched mem mem'
  | .error e, r => r = .error e

theorem objects_spec {mem : Mem} {s : Slice} (hs : Inside mem s) : match getArrayOfJsonsFromInterfaceArray (mem.read s) with
    | none => objectsM mem s = none
    | some ts => ∃ l, objectsM mem s = some l ∧ (∀ x ∈ l, Inside mem x) ∧ l.map mem.read = ts := by
  cases hr : mem.read s with
  | nil => exact ⟨[], by unfold objectsM; rw [hr], by simp, rfl⟩
  | cons ch cs =>
    by_cases hc : ch = '{'
    · subst hc; show objectsM mem s = none; unfold objectsM; rw [hr]; rfl
    · have h := scan_spec hs hr (ch :: cs) [] 0 none none rfl (by simp) rfl
      have e1 : objectsM mem s = some (scanAt s.arr s.off 0 0 none (ch :: cs)) := by
        unfold objectsM
        rw [hr]
        split
        · next h => simp at h
        · next h => simp at h; exact absurd h.1 hc
        · rfl
      have e2 : getArrayOfJsonsFromInterfaceArray (ch :: cs) = some (scanObjects 0 none (ch :: cs)) := by
        unfold getArrayOfJsonsFromInterfaceArray
        split
        · next h => simp at h
        · next h => simp at h; exact absurd h.1 hc
        · rfl
      rw [e2]
      exact ⟨_, e1, h.2, h.1⟩

theorem elements_spec {env : MemEnv} {p : List Nat} {a : AnyAll} (hc : Collects env a.parentArr) {mm : MMsg} {mem : Mem} (hm : InMemory mem mm) :
    SameSlices mem (getArrayOfJsons env.toEnv p a (mm.view mem)) (elementsM env p a mm mem) := by
  have h1 := hc mm mem hm
  unfold getArrayOfJsons elementsM
  cases hv : collectJsons env.toExt (mm.view mem) [] true a.parentArr with
  | error e => rw [hv] at h1; rw [show collectM env mm ⟨0, 0, 0⟩ true mem a.parentArr = .error e from h1]; rfl
  | ok o =>
    rw [hv] at h1
    cases o with
    | none => obtain ⟨mem', h, hu⟩ := h1; rw [h]; exact ⟨_, rfl, hu⟩
    | some t =>
      obtain ⟨s, mem1, h, hu, hs, rfl⟩ := h1
      rw [h, Go.ok_bind, Go.ok_bind]
      have h2 := flatten_spec (env := env) hs
      cases hv2 : getArrayFromArrayOfArrays env.toExt (mem1.read s) with
      | error e => rw [hv2] at h2; simp only; rw [hv2, show flattenM env mem1 s = .error e from h2]; rfl
      | ok o =>
        rw [hv2] at h2
        cases o with
        | none => obtain ⟨mem', h, hu'⟩ := h2; simp only; rw [hv2, h]; exact ⟨_, rfl, hu.trans hu'⟩
        | some t =>
          obtain ⟨s2, mem2, h, hu2, hs2, rfl⟩ := h2
          simp only
          rw [hv2, h, Go.ok_bind, Go.ok_bind]
          have h3 := objects_spec hs2
          cases hv3 : getArrayOfJsonsFromInterfaceArray (mem2.read s2) with
          | some ts =>
            rw [hv3] at h3
            obtain ⟨l, e1, e2, e3⟩ := h3
            simp only [e1, hv3]
            exact ⟨_, _, rfl, hu.trans hu2, e2, e3⟩
          | none =>
            rw [hv3] at h3
            simp only [hv3, show objectsM mem2 s2 = none from h3]
            cases getArrayOfJsonsFromMap env.toEnv (0 :: 0 :: p) (mem2.read s2) with
            | none => exact ⟨_, rfl, hu.trans hu2⟩
            | some ts =>
              obtain ⟨q1, q2, q3⟩ := allocAll_spec ts mem2
              exact ⟨_, _, rfl, (hu.trans hu2).trans q1, q3, q2⟩

/-! ## The loops -/

section loops

variable {α β : Type} {child : Nat → Msg → Go EvalOut} {childM : Nat → MMsg → Mem → Go EvalOutM} {set : β → Msg → Msg} {setM : α → MMsg → MMsg}
  {reset : Msg → Msg} {resetM : MMsg → MMsg} {ret : Msg → Go (List Extra)} {val : Mem → α → β} {okA : Mem → α → Prop} {checkAll : Bool}

/-- What the loops need. -/
structure LoopOk (child : Nat → Msg → Go EvalOut) (childM : Nat → MMsg → Mem → Go EvalOutM) (set : β → Msg → Msg) (setM : α → MMsg → MMsg)
    (reset : Msg → Msg) (resetM : MMsg → MMsg) (val : Mem → α → β) (okA : Mem → α → Prop) : Prop where
  same : ∀ i mm mem, InMemory mem mm → SameAsValues mm mem (child i (mm.view mem)) (childM i mm mem)
  msg : ∀ i m o, child i m = .ok o → o.msg = m
  view : ∀ v mm mem, (setM v mm).view mem = set (val mem v) (mm.view mem)
  inside : ∀ v mm mem, okA mem v → InMemory mem mm → InMemory mem (setM v mm)
  mono : ∀ v mem mem', okA mem v → Untouched mem mem' → okA mem' v ∧ val mem' v = val mem v
  resets : ∀ v mm, resetM (setM v mm) = resetM mm

theorem anyLoop_spec (H : LoopOk child childM set setM reset resetM val okA) : ∀ (l : List α) (i : Nat) (result : Bool) (acc : List Extra) (mm : MMsg) (mem : Mem),
    InMemory mem mm → (∀ v ∈ l, okA mem v) →
    SameAsValues (resetM mm) mem (anyLoop child set reset ret checkAll i result acc (mm.view mem) (l.map (val mem))) (anyLoopM childM setM resetM ret checkAll i result acc mm mem l)
  | [], i, result, acc, mm, mem, hm, hl => ⟨_, rfl, untouched_refl _⟩
  | v :: vs, i, result, acc, mm, mem, hm, hl => by
    have hv := hl v (by simp)
    have hm1 := H.inside v mm mem hv hm
    have hs := H.same i (setM v mm) mem hm1
    rw [H.view] at hs
    simp only [List.map_cons, anyLoop, anyLoopM]
    cases hc : child i (set (val mem v) (mm.view mem)) with
    | error e => rw [hc] at hs; rw [show childM i (setM v mm) mem = .error e from hs]; rfl
    | ok o =>
      rw [hc] at hs
      obtain ⟨mem', h1, hu⟩ := hs
      have ho := H.msg _ _ _ hc
      have hview : (setM v mm).view mem' = o.msg := by rw [hm1.view hu, H.view, ho]
      have hvs : vs.map (val mem) = vs.map (val mem') := List.map_congr_left fun x hx => ((H.mono x mem mem' (hl x (by simp [hx])) hu).2).symm
      have hl' : ∀ x ∈ vs, okA mem' x := fun x hx => (H.mono x mem mem' (hl x (by simp [hx])) hu).1
      have go : ∀ i r a, SameAsValues (resetM mm) mem (anyLoop child set reset ret checkAll i r a o.msg (vs.map (val mem)))
          (anyLoopM childM setM resetM ret checkAll i r a (setM v mm) mem' vs) := by
        intro i r a
        have := anyLoop_spec H vs i r a (setM v mm) mem' (hm1.mono hu) hl'
        rw [hview, ← hvs, H.resets] at this
        cases hx : anyLoop child set reset ret checkAll i r a o.msg (vs.map (val mem)) with
        | error e => rw [hx] at this; exact this
        | ok x => rw [hx] at this; obtain ⟨m2, h2, hu2⟩ := this; exact ⟨m2, h2, hu.trans hu2⟩
      rw [h1, Go.ok_bind, Go.ok_bind]
      by_cases hf : o.flag = true
      · rw [if_pos hf]
        simp only [hf, if_true]
        rw [hview]
        cases hr : ret o.msg with
        | error e => rfl
        | ok e =>
          rw [Go.ok_bind, Go.ok_bind]
          cases hca : checkAll with
          | true => rw [hca] at go; exact go _ _ _
          | false => exact ⟨mem', by rw [H.resets]; rfl, hu⟩
      · rw [if_neg hf]
        simp only [hf, if_false, Bool.false_eq_true]
        exact go _ _ _

theorem allLoop_spec (H : LoopOk child childM set setM reset resetM val okA) : ∀ (l : List α) (i : Nat) (mm : MMsg) (mem : Mem),
    InMemory mem mm → (∀ v ∈ l, okA mem v) →
    SameAsValues (resetM mm) mem (allLoop child set reset i (mm.view mem) (l.map (val mem))) (allLoopM childM setM resetM i mm mem l)
  | [], i, mm, mem, hm, hl => ⟨_, rfl, untouched_refl _⟩
  | v :: vs, i, mm, mem, hm, hl => by
    have hv := hl v (by simp)
    have hm1 := H.inside v mm mem hv hm
    have hs := H.same i (setM v mm) mem hm1
    rw [H.view] at hs
    simp only [List.map_cons, allLoop, allLoopM]
    cases hc : child i (set (val mem v) (mm.view mem)) with
    | error e => rw [hc] at hs; rw [show childM i (setM v mm) mem = .error e from hs]; rfl
    | ok o =>
      rw [hc] at hs
      obtain ⟨mem', h1, hu⟩ := hs
      have ho := H.msg _ _ _ hc
      have hview : (setM v mm).view mem' = o.msg := by rw [hm1.view hu, H.view, ho]
      have hvs : vs.map (val mem) = vs.map (val mem') := List.map_congr_left fun x hx => ((H.mono x mem mem' (hl x (by simp [hx])) hu).2).symm
      have hl' : ∀ x ∈ vs, okA mem' x := fun x hx => (H.mono x mem mem' (hl x (by simp [hx])) hu).1
      rw [h1, Go.ok_bind, Go.ok_bind]
      by_cases hf : o.flag = true
      · rw [if_pos hf]
        simp only [hf, if_true]
        have := allLoop_spec H vs (i + 1) (setM v mm) mem' (hm1.mono hu) hl'
        rw [hview, ← hvs, H.resets] at this
        cases hx : allLoop child set reset (i + 1) o.msg (vs.map (val mem)) with
        | error e => rw [hx] at this; exact this
        | ok x => rw [hx] at this; obtain ⟨m2, h2, hu2⟩ := this; exact ⟨m2, h2, hu.trans hu2⟩
      · rw [if_neg hf]
        simp only [hf, if_false, Bool.false_eq_true]
        exact ⟨mem', by rw [H.resets]; rfl, hu⟩

end loops

/-! ## Trees -/

theorem same_error {mm : MMsg} {mem : Mem} {e : Fail} {r : Go EvalOutM} (h : SameAsValues mm mem (.error e) r) : r = .error e := h

theorem Spec.SameAsValues.mono {mm : MMsg} {mem mem1 : Mem} {g : Go EvalOut} {r : Go EvalOutM} (h : SameAsValues mm mem1 g r) (hu : Untouched mem mem1) :
    SameAsValues mm mem g r := by
  cases g with
  | error e => exact h
  | ok o => obtain ⟨m, h1, h2⟩ := h; exact ⟨m, h1, hu.trans h2⟩

section evaluation

variable {env : MemEnv} {P : AnyAll → Prop}

theorem loop_values {n : Node} {p : List Nat} {mm : MMsg} (hn : ∀ p mm mem, InMemory mem mm → SameAsValues mm mem (eval env.toEnv n p (mm.view mem)) (evalM env n p mm mem)) (m : Msg) :
    LoopOk (fun i m' => eval env.toEnv n (i :: p) m') (fun i mm' mem' => evalM env n (i :: p) mm' mem') setRawIRel setValueM
      (fun m' => { m' with rawIRel := m.rawIRel }) (fun mm' => { mm' with msg := { mm'.msg with rawIRel := mm.msg.rawIRel } }) (fun _ v => v) (fun _ _ => True) where
  same := fun i mm mem hm => hn _ _ _ hm
  msg := fun i m o h => eval_msg env.toEnv n _ m o h
  view := fun _ _ _ => rfl
  inside := fun _ _ _ _ h => h
  mono := fun _ _ _ _ _ => ⟨trivial, rfl⟩
  resets := fun _ _ => rfl

theorem loop_slices {n : Node} {p : List Nat} {mm : MMsg} (hn : ∀ p mm mem, InMemory mem mm → SameAsValues mm mem (eval env.toEnv n p (mm.view mem)) (evalM env n p mm mem)) (m : Msg) :
    LoopOk (fun i m' => eval env.toEnv n (i :: p) m') (fun i mm' mem' => evalM env n (i :: p) mm' mem') setJsonRawRel setSliceM
      (fun m' => { m' with jsonRawRel := m.jsonRawRel }) (fun mm' => { mm' with rel := mm.rel }) (fun mem s => mem.read s) Inside where
  same := fun i mm mem hm => hn _ _ _ hm
  msg := fun i m o h => eval_msg env.toEnv n _ m o h
  view := fun _ _ _ => rfl
  inside := fun v mm mem hv h => ⟨h.1, fun s hs => by cases hs; exact hv⟩
  mono := fun _ _ _ h hu => ⟨h.mono hu, h.read hu⟩
  resets := fun _ _ => rfl

theorem evalAnyM_spec {a : AnyAll} {n : Node} (hc : Collects env a.parentArr)
    (hn : ∀ p mm mem, InMemory mem mm → SameAsValues mm mem (eval env.toEnv n p (mm.view mem)) (evalM env n p mm mem)) {p : List Nat} {mm : MMsg} {mem : Mem} (hm : InMemory mem mm) :
    SameAsValues mm mem (evalAny env.toEnv p a (fun i m' => eval env.toEnv n (i :: p) m') (mm.view mem)) (evalAnyM env p a (fun i mm' mem' => evalM env n (i :: p) mm' mem') mm mem) := by
  unfold evalAny evalAnyM
  by_cases h : mm.msg.rawI.isSome ∧ a.queries ≠ []
  · rw [if_pos h, if_pos (show (mm.view mem).rawI.isSome ∧ _ from h)]
    cases getArrayOfInterfaces env.toEnv p a (mm.view mem) with
    | error e => rfl
    | ok l =>
      have := anyLoop_spec (ret := fun m' => if a.ret = [] then pure [] else do let e ← extraFromInterface env.toExt m' a.ret; pure [e]) (checkAll := decide (a.ret ≠ []))
        (loop_values (p := p) (mm := mm) hn (mm.view mem)) l 1 false [] mm mem hm (by simp)
      rw [List.map_id'] at this
      exact this
  · rw [if_neg h, if_neg (show ¬ ((mm.view mem).rawI.isSome ∧ _) from h)]
    have hs := elements_spec (p := p) hc hm
    cases hv : getArrayOfJsons env.toEnv p a (mm.view mem) with
    | error e => rw [hv] at hs; rw [show elementsM env p a mm mem = .error e from hs]; rfl
    | ok o =>
      rw [hv] at hs
      cases o with
      | none => obtain ⟨mem', h1, hu⟩ := hs; rw [h1]; exact ⟨_, rfl, hu⟩
      | some ts =>
        obtain ⟨l, mem', h1, hu, hl, rfl⟩ := hs
        rw [h1]
        have := anyLoop_spec (ret := fun m' => if a.ret = [] then pure [] else do let e ← extraFromBytes env.toExt m' a.ret; pure [e]) (checkAll := decide (a.ret ≠ []))
          (loop_slices (p := p) (mm := mm) hn (mm.view mem)) l 1 false [] mm mem' (hm.mono hu) hl
        rw [hm.view hu] at this
        exact this.mono hu

theorem evalAllM_spec {a : AnyAll} {n : Node} (hc : Collects env a.parentArr)
    (hn : ∀ p mm mem, InMemory mem mm → SameAsValues mm mem (eval env.toEnv n p (mm.view mem)) (evalM env n p mm mem)) {p : List Nat} {mm : MMsg} {mem : Mem} (hm : InMemory mem mm) :
    SameAsValues mm mem (evalAll env.toEnv p a (fun i m' => eval env.toEnv n (i :: p) m') (mm.view mem)) (evalAllM env p a (fun i mm' mem' => evalM env n (i :: p) mm' mem') mm mem) := by
  unfold evalAll evalAllM
  by_cases h : mm.msg.rawI.isSome ∧ a.queries ≠ []
  · rw [if_pos h, if_pos (show (mm.view mem).rawI.isSome ∧ _ from h)]
    cases getArrayOfInterfaces env.toEnv p a (mm.view mem) with
    | error e => rfl
    | ok l =>
      have := allLoop_spec (loop_values (p := p) (mm := mm) hn (mm.view mem)) l 1 mm mem hm (by simp)
      rw [List.map_id'] at this
      exact this
  · rw [if_neg h, if_neg (show ¬ ((mm.view mem).rawI.isSome ∧ _) from h)]
    have hs := elements_spec (p := p) hc hm
    cases hv : getArrayOfJsons env.toEnv p a (mm.view mem) with
    | error e => rw [hv] at hs; rw [show elementsM env p a mm mem = .error e from hs]; rfl
    | ok o =>
      rw [hv] at hs
      cases o with
      | none => obtain ⟨mem', h1, hu⟩ := hs; rw [h1]; exact ⟨_, rfl, hu⟩
      | some ts =>
        obtain ⟨l, mem', h1, hu, hl, rfl⟩ := hs
        rw [h1]
        have := allLoop_spec (loop_slices (p := p) (mm := mm) hn (mm.view mem)) l 1 mm mem' (hm.mono hu) hl
        rw [hm.view hu] at this
        exact this.mono hu

mutual
theorem evalM_spec (hP : ∀ a, P a → Collects env a.parentArr) : ∀ (n : Node), Parents P n → ∀ (p : List Nat) (mm : MMsg) (mem : Mem), InMemory mem mm →
    SameAsValues mm mem (eval env.toEnv n p (mm.view mem)) (evalM env n p mm mem)
  | .nil, _, p, mm, mem, hm => by rw [eval, evalM]; rfl
  | .and ns, h, p, mm, mem, hm => by rw [Parents] at h; rw [eval, evalM]; exact evalAndM_spec hP ns h p 1 [] mm mem hm
  | .or ns, h, p, mm, mem, hm => by rw [Parents] at h; rw [eval, evalM]; exact evalOrM_spec hP ns h p 1 false [] mm mem hm
  | .not n, h, p, mm, mem, hm => by
    rw [Parents] at h
    have := evalM_spec hP n h (1 :: p) mm mem hm
    rw [eval, evalM]
    cases hv : eval env.toEnv n (1 :: p) (mm.view mem) with
    | error e => rw [hv] at this; rw [same_error this]; rfl
    | ok o => rw [hv] at this; obtain ⟨mem', h1, hu⟩ := this; rw [h1]; exact ⟨_, rfl, hu⟩
  | .any a n, h, p, mm, mem, hm => by
    rw [Parents] at h
    rw [eval, evalM]
    exact evalAnyM_spec (hP _ h.1) (fun p mm mem hm => evalM_spec hP n h.2 p mm mem hm) hm
  | .all a n, h, p, mm, mem, hm => by
    rw [Parents] at h
    rw [eval, evalM]
    exact evalAllM_spec (hP _ h.1) (fun p mm mem hm => evalM_spec hP n h.2 p mm mem hm) hm
  | .tt, _, p, mm, mem, hm => by rw [eval, evalM]; exact ⟨_, rfl, untouched_refl _⟩
  | .ff, _, p, mm, mem, hm => by rw [eval, evalM]; exact ⟨_, rfl, untouched_refl _⟩
  | .cond c, _, p, mm, mem, hm => by
    rw [eval, evalM]
    cases testOneCondition env.toEnv (0 :: 0 :: p) c (mm.view mem) with
    | error e => rfl
    | ok r => exact ⟨_, rfl, untouched_refl _⟩

theorem evalAndM_spec (hP : ∀ a, P a → Collects env a.parentArr) : ∀ (ns : List Node), ParentsAll P ns → ∀ (p : List Nat) (i : Nat) (acc : List Extra) (mm : MMsg) (mem : Mem), InMemory mem mm →
    SameAsValues mm mem (evalAnd env.toEnv ns p i acc (mm.view mem)) (evalAndM env ns p i acc mm mem)
  | [], _, p, i, acc, mm, mem, hm => by rw [evalAnd, evalAndM]; exact ⟨_, rfl, untouched_refl _⟩
  | n :: ns, h, p, i, acc, mm, mem, hm => by
    rw [ParentsAll] at h
    have := evalM_spec hP n h.1 (i :: p) mm mem hm
    rw [evalAnd, evalAndM]
    cases hv : eval env.toEnv n (i :: p) (mm.view mem) with
    | error e => rw [hv] at this; rw [same_error this]; rfl
    | ok o =>
      rw [hv] at this
      obtain ⟨mem', h1, hu⟩ := this
      rw [h1, Go.ok_bind, Go.ok_bind]
      simp only
      by_cases hf : o.flag = false
      · rw [if_pos hf, if_pos hf]; exact ⟨_, rfl, hu⟩
      · rw [if_neg hf, if_neg hf, eval_msg _ _ _ _ _ hv, ← hm.view hu]
        exact (evalAndM_spec hP ns h.2 p (i + 1) _ mm mem' (hm.mono hu)).mono hu

theorem evalOrM_spec (hP : ∀ a, P a → Collects env a.parentArr) : ∀ (ns : List Node), ParentsAll P ns → ∀ (p : List Nat) (i : Nat) (flag : Bool) (acc : List Extra) (mm : MMsg) (mem : Mem), InMemory mem mm →
    SameAsValues mm mem (evalOr env.toEnv ns p i flag acc (mm.view mem)) (evalOrM env ns p i flag acc mm mem)
  | [], _, p, i, flag, acc, mm, mem, hm => by rw [evalOr, evalOrM]; exact ⟨_, rfl, untouched_refl _⟩
  | n :: ns, h, p, i, flag, acc, mm, mem, hm => by
    rw [ParentsAll] at h
    have := evalM_spec hP n h.1 (i :: p) mm mem hm
    rw [evalOr, evalOrM]
    cases hv : eval env.toEnv n (i :: p) (mm.view mem) with
    | error e => rw [hv] at this; rw [same_error this]; rfl
    | ok o =>
      rw [hv] at this
      obtain ⟨mem', h1, hu⟩ := this
      rw [h1, Go.ok_bind, Go.ok_bind]
      rw [eval_msg _ _ _ _ _ hv, ← hm.view hu]
      exact (evalOrM_spec hP ns h.2 p (i + 1) _ _ mm mem' (hm.mono hu)).mono hu
end

end evaluation

end Mapl

import Verif.Spec.Parse
import Verif.Lemmas.Validate
import Verif.Lemmas.Crash
import Mathlib.Data.List.Nodup
import Mathlib.Data.List.Perm.Subperm

/-!
# Parsing reads what the grammar says
-/

namespace Mapl
open Spec

variable {env : Env} {lossy amb : Prop}

/-! ## Entries of maps -/

theorem lookup_some {α : Type} {k : Str} {v : α} : ∀ {l : List (Str × α)}, lookup k l = some v → (k, v) ∈ l
  | [], h => by simp [lookup] at h
  | (k', v') :: l, h => by
    simp only [lookup] at h
    split at h
    · rename_i e; simp at h; subst h; subst e; simp
    · simp [lookup_some h]

theorem lookup_none {α : Type} {k : Str} : ∀ {l : List (Str × α)}, lookup k l = none ↔ k ∉ l.map (·.1)
  | [] => by simp [lookup]
  | (k', v') :: l => by
    simp only [lookup, List.map_cons, List.mem_cons, not_or]
    split
    · rename_i e; simp [e]
    · rename_i e; simp only [e, not_false_eq_true, true_and]; exact lookup_none

theorem mem_unique {α : Type} {l : List (Str × α)} (hd : (l.map (·.1)).Nodup) {k : Str} {v v' : α} (h : (k, v) ∈ l) (h' : (k, v') ∈ l) : v = v' := by
  have := List.inj_on_of_nodup_map hd h h' rfl
  simpa using this

theorem field2_some {kvs : List (Str × Json)} {a b : Str} {x : Json} (h : field2 kvs a b = some x) : ∃ k ∈ [a, b], (k, x) ∈ kvs := by
  unfold field2 at h
  split at h
  · rename_i v e; simp at h; subst h; exact ⟨a, by simp, lookup_some e⟩
  · exact ⟨b, by simp, lookup_some h⟩

theorem field2_none {kvs : List (Str × Json)} {a b : Str} (h : field2 kvs a b = none) : ∀ k ∈ [a, b], k ∉ kvs.map (·.1) := by
  unfold field2 at h
  split at h
  · simp at h
  · rename_i e
    simp only [List.mem_cons, List.not_mem_nil, or_false]
    rintro k (rfl | rfl)
    · exact lookup_none.1 e
    · exact lookup_none.1 h

theorem stringEntries_iff : ∀ {kvs : List (Str × Json)} {l : List (Str × Str)}, stringEntries kvs = .ok l ↔ (.obj kvs : Json) = textMap l
  | [], l => by
    cases l <;> simp [stringEntries, textMap]
  | (k, v) :: kvs, l => by
    cases l with
    | nil =>
      simp only [stringEntries, Go.bind_eq_ok, textMap, List.map_nil, Json.obj.injEq, reduceCtorEq, iff_false, not_exists, not_and]
      intro s _ r _ h
      simp at h
    | cons x l =>
      have ih := stringEntries_iff (kvs := kvs) (l := l)
      simp only [textMap, Json.obj.injEq] at ih
      simp only [stringEntries, Go.bind_eq_ok, textMap, List.map_cons, Json.obj.injEq, List.cons.injEq, Prod.mk.injEq]
      constructor
      · rintro ⟨s, hs, r, hr, h⟩
        simp at h
        obtain ⟨rfl, rfl⟩ := h
        cases v <;> simp [asString] at hs
        subst hs
        exact ⟨⟨rfl, rfl⟩, ih.1 hr⟩
      · rintro ⟨⟨rfl, rfl⟩, h⟩
        exact ⟨x.2, by simp [asString], l, ih.2 h, rfl⟩

/-! ## Condition maps -/

/-- `isConditionNode` looks at the keys only. -/
def condKeysB (keys : List Str) : Bool :=
  let att := keys.contains gs"Attribute" || keys.contains gs"attribute"
  let met := keys.contains gs"Method" || keys.contains gs"method"
  let val := keys.contains gs"Value" || keys.contains gs"value"
  let val2 := keys.contains gs"ValueInt" || keys.contains gs"valueInt"
  let val3 := keys.contains gs"ValueFloat" || keys.contains gs"valueFloat"
  let extra := if keys.contains gs"ReturnValueJsonpath" || keys.contains gs"returnValueJsonpath" then 1 else 0
  let n := keys.length
  (n == 2 + extra && att && met) || (n == 3 + extra && att && met && val)
    || (n == 4 + extra && att && met && val && val2) || (n == 4 + extra && att && met && val && val3)
    || (n == 5 + extra && att && met && val && val2 && val3)

theorem isConditionNode_keys (kvs : List (Str × Json)) : isConditionNode kvs = condKeysB (kvs.map (·.1)) := rfl

theorem condKeysB_perm {l l' : List Str} (h : l.Perm l') : condKeysB l = condKeysB l' := by
  have hc : ∀ x, l.contains x = l'.contains x := fun x => h.contains_eq
  simp only [condKeysB, hc, h.length_eq]

theorem condKeysB_of {ks : List Str} (h : CondKeys lossy ks) : condKeysB ks = true := by
  cases h with
  | short ha hm hr =>
    simp only [attrKeys, methodKeys, returnKeys, List.mem_cons, List.not_mem_nil, or_false] at ha hm hr
    rcases ha with rfl | rfl <;> rcases hm with rfl | rfl <;> rcases hr with rfl | ⟨_, rfl | rfl, rfl⟩ <;> rfl
  | valued ha hm hv hr =>
    simp only [attrKeys, methodKeys, valueKeys, returnKeys, List.mem_cons, List.not_mem_nil, or_false] at ha hm hv hr
    rcases ha with rfl | rfl <;> rcases hm with rfl | rfl <;> rcases hv with rfl | rfl <;> rcases hr with rfl | ⟨_, rfl | rfl, rfl⟩ <;> rfl
  | numbers _ ha hm hv hx hr =>
    simp only [attrKeys, methodKeys, valueKeys, returnKeys, intKeys, floatKeys, List.mem_cons, List.not_mem_nil, or_false] at ha hm hv hx hr
    rcases ha with rfl | rfl <;> rcases hm with rfl | rfl <;> rcases hv with rfl | rfl <;> rcases hr with rfl | ⟨_, rfl | rfl, rfl⟩ <;>
      rcases hx with ⟨_, rfl | rfl, rfl⟩ | ⟨_, rfl | rfl, rfl⟩ | ⟨_, rfl | rfl, _, rfl | rfl, rfl⟩ <;> rfl

theorem perm_of_keys {ks keys : List Str} (hn : ks.Nodup) (hs : ∀ k ∈ ks, k ∈ keys) (hl : keys.length ≤ ks.length) : keys.Perm ks :=
  ((List.subperm_of_subset hn hs).perm_of_length_le hl).symm

theorem condKeys_nodup {ks : List Str} (h : CondKeys lossy ks) : ks.Nodup := by
  cases h with
  | short ha hm hr =>
    simp only [attrKeys, methodKeys, returnKeys, List.mem_cons, List.not_mem_nil, or_false] at ha hm hr
    rcases ha with rfl | rfl <;> rcases hm with rfl | rfl <;> rcases hr with rfl | ⟨_, rfl | rfl, rfl⟩ <;> simp
  | valued ha hm hv hr =>
    simp only [attrKeys, methodKeys, valueKeys, returnKeys, List.mem_cons, List.not_mem_nil, or_false] at ha hm hv hr
    rcases ha with rfl | rfl <;> rcases hm with rfl | rfl <;> rcases hv with rfl | rfl <;> rcases hr with rfl | ⟨_, rfl | rfl, rfl⟩ <;> simp
  | numbers _ ha hm hv hx hr =>
    simp only [attrKeys, methodKeys, valueKeys, returnKeys, intKeys, floatKeys, List.mem_cons, List.not_mem_nil, or_false] at ha hm hv hx hr
    rcases ha with rfl | rfl <;> rcases hm with rfl | rfl <;> rcases hv with rfl | rfl <;> rcases hr with rfl | ⟨_, rfl | rfl, rfl⟩ <;>
      rcases hx with ⟨_, rfl | rfl, rfl⟩ | ⟨_, rfl | rfl, rfl⟩ | ⟨_, rfl | rfl, _, rfl | rfl, rfl⟩ <;> simp

theorem condKeys_of_B {keys : List Str} (h : condKeysB keys = true) : ∃ ks, CondKeys True ks ∧ keys.Perm ks := by
  have key : ∀ a b : Str, (keys.contains a || keys.contains b) = true → ∃ k ∈ [b, a], k ∈ keys := by
    intro a b h
    simp only [Bool.or_eq_true, List.contains_iff_mem] at h
    rcases h with h | h
    · exact ⟨a, by simp, h⟩
    · exact ⟨b, by simp, h⟩
  have go : ∀ {ks : List Str}, CondKeys True ks → (∀ k ∈ ks, k ∈ keys) → keys.length ≤ ks.length → ∃ ks, CondKeys True ks ∧ keys.Perm ks :=
    fun hk hs hl => ⟨_, hk, perm_of_keys (condKeys_nodup hk) hs hl⟩
  simp only [condKeysB] at h
  obtain ⟨kr, hr, hrk, hrl⟩ : ∃ kr, (kr = [] ∨ ∃ k ∈ returnKeys, kr = [k]) ∧ (∀ k ∈ kr, k ∈ keys) ∧
      kr.length = if (keys.contains gs"ReturnValueJsonpath" || keys.contains gs"returnValueJsonpath") = true then 1 else 0 := by
    split
    · rename_i e
      obtain ⟨k, hk, hm⟩ := key _ _ e
      exact ⟨[k], .inr ⟨k, hk, rfl⟩, by simpa using hm, rfl⟩
    · exact ⟨[], .inl rfl, by simp, rfl⟩
  rw [← hrl] at h
  simp only [Bool.or_eq_true (_ || _), Bool.or_eq_true (_ && _), Bool.and_eq_true, beq_iff_eq] at h
  rcases h with (((⟨⟨h, ha⟩, hm⟩ | ⟨⟨⟨h, ha⟩, hm⟩, hv⟩) | ⟨⟨⟨⟨h, ha⟩, hm⟩, hv⟩, hx⟩) | ⟨⟨⟨⟨h, ha⟩, hm⟩, hv⟩, hx⟩) | ⟨⟨⟨⟨⟨h, ha⟩, hm⟩, hv⟩, hx⟩, hy⟩
  · obtain ⟨ka, ha, ha'⟩ := key _ _ ha
    obtain ⟨km, hm, hm'⟩ := key _ _ hm
    exact go (.short ha hm hr) (by simp [ha', hm']; exact hrk) (by simp; omega)
  · obtain ⟨ka, ha, ha'⟩ := key _ _ ha
    obtain ⟨km, hm, hm'⟩ := key _ _ hm
    obtain ⟨kv, hv, hv'⟩ := key _ _ hv
    exact go (.valued ha hm hv hr) (by simp [ha', hm', hv']; exact hrk) (by simp; omega)
  · obtain ⟨ka, ha, ha'⟩ := key _ _ ha
    obtain ⟨km, hm, hm'⟩ := key _ _ hm
    obtain ⟨kv, hv, hv'⟩ := key _ _ hv
    obtain ⟨kx, hx, hx'⟩ := key _ _ hx
    exact go (.numbers trivial ha hm hv (.inl ⟨kx, hx, rfl⟩) hr) (by simp [ha', hm', hv', hx']; exact hrk) (by simp; omega)
  · obtain ⟨ka, ha, ha'⟩ := key _ _ ha
    obtain ⟨km, hm, hm'⟩ := key _ _ hm
    obtain ⟨kv, hv, hv'⟩ := key _ _ hv
    obtain ⟨kx, hx, hx'⟩ := key _ _ hx
    exact go (.numbers trivial ha hm hv (.inr (.inl ⟨kx, hx, rfl⟩)) hr) (by simp [ha', hm', hv', hx']; exact hrk) (by simp; omega)
  · obtain ⟨ka, ha, ha'⟩ := key _ _ ha
    obtain ⟨km, hm, hm'⟩ := key _ _ hm
    obtain ⟨kv, hv, hv'⟩ := key _ _ hv
    obtain ⟨kx, hx, hx'⟩ := key _ _ hx
    obtain ⟨ky, hy, hy'⟩ := key _ _ hy
    exact go (.numbers trivial ha hm hv (.inr (.inr ⟨kx, hx, ky, hy, rfl⟩)) hr) (by simp [ha', hm', hv', hx', hy']; exact hrk) (by simp; omega)

/-- Which kind of key it is. -/
def kindOf (k : Str) : Nat :=
  if k ∈ attrKeys then 1 else if k ∈ methodKeys then 2 else if k ∈ valueKeys then 3 else if k ∈ returnKeys then 4
  else if k ∈ intKeys then 5 else if k ∈ floatKeys then 6 else 0

theorem condKeys_kinds {ks : List Str} (h : CondKeys lossy ks) : (ks.map kindOf).Nodup ∧ 1 ∈ ks.map kindOf ∧ 2 ∈ ks.map kindOf ∧ 0 ∉ ks.map kindOf := by
  cases h with
  | short ha hm hr =>
    simp only [attrKeys, methodKeys, returnKeys, List.mem_cons, List.not_mem_nil, or_false] at ha hm hr
    rcases ha with rfl | rfl <;> rcases hm with rfl | rfl <;> rcases hr with rfl | ⟨_, rfl | rfl, rfl⟩ <;> decide
  | valued ha hm hv hr =>
    simp only [attrKeys, methodKeys, valueKeys, returnKeys, List.mem_cons, List.not_mem_nil, or_false] at ha hm hv hr
    rcases ha with rfl | rfl <;> rcases hm with rfl | rfl <;> rcases hv with rfl | rfl <;> rcases hr with rfl | ⟨_, rfl | rfl, rfl⟩ <;> decide
  | numbers _ ha hm hv hx hr =>
    simp only [attrKeys, methodKeys, valueKeys, returnKeys, intKeys, floatKeys, List.mem_cons, List.not_mem_nil, or_false] at ha hm hv hx hr
    rcases ha with rfl | rfl <;> rcases hm with rfl | rfl <;> rcases hv with rfl | rfl <;> rcases hr with rfl | ⟨_, rfl | rfl, rfl⟩ <;>
      rcases hx with ⟨_, rfl | rfl, rfl⟩ | ⟨_, rfl | rfl, rfl⟩ | ⟨_, rfl | rfl, _, rfl | rfl, rfl⟩ <;> decide


theorem condMap_node {kvs : List (Str × Json)} {a m v : Str} {r : Option (List (Str × Str))} {e : Ext} (h : CondMap e lossy kvs a m v r) :
    isConditionNode kvs = true := by
  obtain ⟨ks, hk, hp⟩ := h.keys
  rw [isConditionNode_keys, condKeysB_perm hp]
  exact condKeysB_of hk

theorem kind_mem {kvs : List (Str × Json)} {ks : List Str} (hp : (kvs.map (·.1)).Perm ks) {n : Nat} (h : n ∈ ks.map kindOf) :
    ∃ x ∈ kvs, kindOf x.1 = n := by
  obtain ⟨k, hk, e⟩ := List.mem_map.1 h
  obtain ⟨x, hx, rfl⟩ := List.mem_map.1 (hp.mem_iff.2 hk)
  exact ⟨x, hx, e⟩

theorem kind_unique {kvs : List (Str × Json)} {ks : List Str} (hk : CondKeys lossy ks) (hp : (kvs.map (·.1)).Perm ks) {x y : Str × Json}
    (hx : x ∈ kvs) (hy : y ∈ kvs) (h : kindOf x.1 = kindOf y.1) : x = y := by
  have hn : (kvs.map fun x => kindOf x.1).Nodup := by
    have := (hp.map kindOf).nodup_iff.2 (condKeys_kinds hk).1
    simpa [List.map_map, Function.comp_def] using this
  exact List.inj_on_of_nodup_map hn hx hy h

theorem kind_attr {k : Str} : k ∈ attrKeys ↔ kindOf k = 1 := by
  unfold kindOf; constructor
  · intro h; simp [h]
  · intro h; by_contra hc; rw [if_neg hc] at h; split_ifs at h <;> exact absurd h (by decide)

theorem kind_method {k : Str} : k ∈ methodKeys ↔ kindOf k = 2 := by
  constructor
  · intro h
    simp only [methodKeys, List.mem_cons, List.not_mem_nil, or_false] at h
    rcases h with rfl | rfl <;> rfl
  · unfold kindOf; intro h; split_ifs at h <;> first | assumption | exact absurd h (by decide)

theorem kind_value {k : Str} : k ∈ valueKeys ↔ kindOf k = 3 := by
  constructor
  · intro h
    simp only [valueKeys, List.mem_cons, List.not_mem_nil, or_false] at h
    rcases h with rfl | rfl <;> rfl
  · unfold kindOf; intro h; split_ifs at h <;> first | assumption | exact absurd h (by decide)

theorem kind_return {k : Str} : k ∈ returnKeys ↔ kindOf k = 4 := by
  constructor
  · intro h
    simp only [returnKeys, List.mem_cons, List.not_mem_nil, or_false] at h
    rcases h with rfl | rfl <;> rfl
  · unfold kindOf; intro h; split_ifs at h <;> first | assumption | exact absurd h (by decide)

/-- What `readCondition` does with the return values. -/
def readReturn : Option Json → Go (Option (List (Str × Str)))
  | some (.obj m) => do let l ← stringEntries m; pure (some l)
  | some _ => pure (some [])
  | none => pure none

def readText : Option Json → Go Str
  | some v => asString v
  | none => pure []

theorem valueWritten_iff {e : Ext} {x : Json} {v : Str} : ValueWritten e x v ↔ v = fmtV e x := by
  constructor
  · rintro (⟨_ | _ | _ | _⟩ | _ | _ | _) <;> rfl
  · rintro rfl
    cases x with
    | null => exact .null
    | bool b => cases b; exacts [.scalar .false, .scalar .true]
    | num x => exact .scalar .number
    | str s => exact .scalar .string
    | arr l => exact .list
    | obj kvs => exact .map

theorem readCondition_eq (e : Ext) (kvs : List (Str × Json)) : readCondition e kvs = (do
    let attr ← readText (field2 kvs gs"attribute" gs"Attribute")
    let method ← readText (field2 kvs gs"method" gs"Method")
    let ret ← readReturn (field2 kvs gs"returnValueJsonpath" gs"ReturnValueJsonpath")
    pure { attr := attr, method := method, value := match field2 kvs gs"value" gs"Value" with | some v => fmtV e v | none => [], ret := ret }) := by
  unfold readCondition
  cases field2 kvs gs"attribute" gs"Attribute" <;> cases field2 kvs gs"method" gs"Method" <;>
    rcases field2 kvs gs"returnValueJsonpath" gs"ReturnValueJsonpath" with _ | (_ | _ | _ | _ | _ | _) <;>
    first | rfl | (simp only [readText, readReturn, bind_assoc, pure_bind]; rfl)

theorem readText_some {kvs : List (Str × Json)} {a b s : Str} (h1 : ∃ k ∈ [a, b], ∃ x, (k, x) ∈ kvs) (h2 : ∀ k ∈ [a, b], ∀ x, (k, x) ∈ kvs → x = .str s) :
    readText (field2 kvs a b) = .ok s := by
  cases h : field2 kvs a b with
  | none =>
    obtain ⟨k, hk, x, hx⟩ := h1
    exact absurd (List.mem_map_of_mem (f := (·.1)) hx) (field2_none h k hk)
  | some v =>
    obtain ⟨k, hk, hx⟩ := field2_some h
    rw [h2 k hk v hx]; rfl

theorem readCondition_of {e : Ext} {kvs : List (Str × Json)} {a m v : Str} {r : Option (List (Str × Str))} (h : CondMap e lossy kvs a m v r) :
    readCondition e kvs = .ok { attr := a, method := m, value := v, ret := r } := by
  obtain ⟨ks, hk, hp⟩ := h.keys
  obtain ⟨-, h1, h2, -⟩ := condKeys_kinds hk
  have ha : readText (field2 kvs gs"attribute" gs"Attribute") = .ok a := by
    obtain ⟨x, hx, e⟩ := kind_mem hp h1
    exact readText_some ⟨x.1, kind_attr.2 e, x.2, hx⟩ h.attr
  have hm : readText (field2 kvs gs"method" gs"Method") = .ok m := by
    obtain ⟨x, hx, e⟩ := kind_mem hp h2
    exact readText_some ⟨x.1, kind_method.2 e, x.2, hx⟩ h.method
  have hr : readReturn (field2 kvs gs"returnValueJsonpath" gs"ReturnValueJsonpath") = .ok r := by
    cases hf : field2 kvs gs"returnValueJsonpath" gs"ReturnValueJsonpath" with
    | none => rw [h.noRet (field2_none hf)]; rfl
    | some x =>
      obtain ⟨k, hk, hx⟩ := field2_some hf
      rcases h.ret k hk x hx with ⟨l, rfl, rfl⟩ | ⟨_, hno, rfl⟩
      · simp only [textMap, readReturn]
        rw [(stringEntries_iff (l := l)).2 rfl]; rfl
      · cases x with
        | obj m => exact absurd rfl (hno m)
        | _ => rfl
  have hv : (match field2 kvs gs"value" gs"Value" with | some v => fmtV e v | none => []) = v := by
    cases hf : field2 kvs gs"value" gs"Value" with
    | none => exact (h.noValue (field2_none hf)).symm
    | some x =>
      obtain ⟨k, hk, hx⟩ := field2_some hf
      exact (valueWritten_iff.1 (h.value k hk x hx)).symm
  rw [readCondition_eq, ha, hm, hr, hv]; rfl

theorem readText_inv {kvs : List (Str × Json)} {ks : List Str} {a b s : Str} {n : Nat} (hk : CondKeys lossy ks) (hp : (kvs.map (·.1)).Perm ks)
    (hn : ∀ k, k ∈ [a, b] ↔ kindOf k = n) (h : readText (field2 kvs a b) = .ok s) : ∀ k ∈ [a, b], ∀ x, (k, x) ∈ kvs → x = .str s := by
  intro k hkm x hx
  cases hf : field2 kvs a b with
  | none => exact absurd (List.mem_map_of_mem (f := (·.1)) hx) (field2_none hf k hkm)
  | some y =>
    obtain ⟨k', hk', hy⟩ := field2_some hf
    have e := kind_unique hk hp hx hy (by rw [(hn k).1 hkm, (hn k').1 hk'])
    simp at e
    obtain ⟨rfl, rfl⟩ := e
    rw [hf] at h
    cases x <;> simp [readText, asString] at h
    rw [h]

theorem readCondition_inv {e : Ext} {kvs : List (Str × Json)} {c : ConditionNode} (hd : (kvs.map (·.1)).Nodup) (hc : isConditionNode kvs = true)
    (h : readCondition e kvs = .ok c) : CondMap e True kvs c.attr c.method c.value c.ret := by
  rw [isConditionNode_keys] at hc
  obtain ⟨ks, hk, hp⟩ := condKeys_of_B hc
  rw [readCondition_eq] at h
  simp only [Go.bind_eq_ok] at h
  obtain ⟨a, ha, m, hm, r, hr, h⟩ := h
  simp at h; subst h
  refine ⟨hd, ⟨ks, hk, hp⟩, readText_inv hk hp (fun _ => kind_attr) ha, readText_inv hk hp (fun _ => kind_method) hm, ?_, ?_, ?_, ?_⟩
  · intro k hkm x hx
    cases hf : field2 kvs gs"value" gs"Value" with
    | none => exact absurd (List.mem_map_of_mem (f := (·.1)) hx) (field2_none hf k hkm)
    | some y =>
      obtain ⟨k', hk', hy⟩ := field2_some hf
      have e := kind_unique hk hp hx hy (by rw [kind_value.1 hkm, kind_value.1 hk'])
      simp at e
      simp [e.2, valueWritten_iff]
  · intro hno
    cases hf : field2 kvs gs"value" gs"Value" with
    | none => rfl
    | some y =>
      obtain ⟨k', hk', hy⟩ := field2_some hf
      exact absurd (List.mem_map_of_mem (f := (·.1)) hy) (hno k' hk')
  · intro k hkm x hx
    cases hf : field2 kvs gs"returnValueJsonpath" gs"ReturnValueJsonpath" with
    | none => exact absurd (List.mem_map_of_mem (f := (·.1)) hx) (field2_none hf k hkm)
    | some y =>
      obtain ⟨k', hk', hy⟩ := field2_some hf
      have e := kind_unique hk hp hx hy (by rw [kind_return.1 hkm, kind_return.1 hk'])
      simp at e
      rw [hf, ← e.2] at hr
      cases x with
      | obj l =>
        simp only [readReturn, Go.bind_eq_ok] at hr
        obtain ⟨l', hl, hr⟩ := hr
        simp at hr
        exact .inl ⟨l', stringEntries_iff.1 hl, hr.symm⟩
      | _ => simp [readReturn] at hr; exact .inr ⟨trivial, by simp, hr.symm⟩
  · intro hno
    cases hf : field2 kvs gs"returnValueJsonpath" gs"ReturnValueJsonpath" with
    | none => rw [hf] at hr; simp [readReturn] at hr; exact hr.symm
    | some y =>
      obtain ⟨k', hk', hy⟩ := field2_some hf
      exact absurd (List.mem_map_of_mem (f := (·.1)) hy) (hno k' hk')

theorem prepareOneConditionNode_iff {e : Ext} {c : ConditionNode} {n : Node} :
    prepareOneConditionNode e c = .ok n ↔ Acceptable e c.attr c.method c.value ∧ n = condNode e c.attr c.method c.value c.ret := by
  simp only [prepareOneConditionNode, Go.bind_eq_ok, validateOneCondition_iff, conditionFromNode]
  constructor
  · rintro ⟨c', ⟨h, rfl⟩, hn⟩
    simp at hn; subst hn
    exact ⟨h, rfl⟩
  · rintro ⟨h, rfl⟩
    exact ⟨_, ⟨h, rfl⟩, rfl⟩

/-- A condition below a keyword. -/
theorem getNodeCondition_of {e : Ext} {kvs : List (Str × Json)} {a m v kw : Str} {r : Option (List (Str × Str))} (h : CondMap e lossy kvs a m v r)
    (ok : Acceptable e a m v) : getNodeCondition e kvs kw =
      if kw ≠ [] ∧ kw ≠ gs"condition" ∧ kw ≠ gs"conditionsTree" then connective kw [condNode e a m v r] else .ok (condNode e a m v r) := by
  rw [getNodeCondition, readCondition_of h, Go.ok_bind, prepareOneConditionNode_iff.2 ⟨ok, rfl⟩, Go.ok_bind]
  rfl

theorem getNodeCondition_inv {e : Ext} {kvs : List (Str × Json)} {kw : Str} {n : Node} (hd : (kvs.map (·.1)).Nodup) (hc : isConditionNode kvs = true)
    (h : getNodeCondition e kvs kw = .ok n) : Reads e True amb kw (.obj kvs) n := by
  simp only [getNodeCondition, Go.bind_eq_ok] at h
  obtain ⟨cn, h1, k, h2, h⟩ := h
  have hm := readCondition_inv hd hc h1
  obtain ⟨ok, rfl⟩ := prepareOneConditionNode_iff.1 h2
  refine ite_elim h (fun _ h => ?_) fun hk h => ?_
  · unfold connective at h
    refine ite_elim h (fun e h => ?_) fun _ h => ite_elim h (fun e h => ?_) fun _ h => ite_elim h (fun e h => ?_) fun _ h => ?_
    · simp at h; subst h; subst e; exact .andCond hm ok
    · simp at h; subst h; subst e; exact .orCond hm ok
    · simp at h; subst h; subst e; exact .notCond hm ok
    · simp at h
  · simp at h; subst h
    refine .cond ?_ hm ok
    simp only [List.mem_cons, List.not_mem_nil, or_false]
    by_contra hno
    simp only [not_or] at hno
    exact hk hno

/-! ## The children of maps and lists -/

theorem kids_mem : ∀ {kvs : List (Str × Json)} {p : List Nat} {i : Nat} {x : Str × Json × Go Node}, x ∈ interpretKids env kvs p i →
    (x.1, x.2.1) ∈ kvs ∧ ∃ i', x.2.2 = interpret env x.2.1 x.1 (i' :: p)
  | [], _, _, _, h => by simp [interpretKids] at h
  | (k, v) :: kvs, p, i, x, h => by
    simp only [interpretKids, List.mem_cons] at h
    rcases h with rfl | h
    · exact ⟨by simp, i, rfl⟩
    · obtain ⟨h1, h2⟩ := kids_mem h
      exact ⟨by simp [h1], h2⟩

theorem mem_kids : ∀ {kvs : List (Str × Json)} {p : List Nat} {i : Nat} {k : Str} {v : Json}, (k, v) ∈ kvs →
    ∃ i', (k, v, interpret env v k (i' :: p)) ∈ interpretKids env kvs p i
  | (k', v') :: kvs, p, i, k, v, h => by
    simp only [interpretKids, List.mem_cons] at h ⊢
    rcases h with h | h
    · simp at h; obtain ⟨rfl, rfl⟩ := h; exact ⟨i, .inl rfl⟩
    · obtain ⟨i', h⟩ := mem_kids (p := p) (i := i + 1) h
      exact ⟨i', .inr h⟩

theorem kids_keys : ∀ (kvs : List (Str × Json)) (p : List Nat) (i : Nat), (interpretKids env kvs p i).map (·.1) = kvs.map (·.1)
  | [], _, _ => rfl
  | (k, v) :: kvs, p, i => by simp [interpretKids, kids_keys kvs p (i + 1)]

theorem singleKid_iff {kvs : List (Str × Json)} {p : List Nat} {i : Nat} {n : Node} :
    singleKid (interpretKids env kvs p i) = .ok n ↔ ∃ k v, kvs = [(k, v)] ∧ interpret env v k (i :: p) = .ok n := by
  match kvs with
  | [] => simp [interpretKids, singleKid]
  | [(k, v)] =>
    simp only [interpretKids, singleKid, List.cons.injEq, and_true]
    constructor
    · intro h; exact ⟨k, v, rfl, h⟩
    · rintro ⟨_, _, e, h⟩; simp at e; obtain ⟨rfl, rfl⟩ := e; exact h
  | (k, v) :: (k', v') :: rest => simp [interpretKids, singleKid]

/-! ## The loop over the entries of ANY and ALL -/

/-- What the loop does with one entry. -/
def EntryOk (env : Env) (p : List Nat) (x : Str × Json × Go Node) : Prop :=
  if x.1 = parentKey then ∃ s, x.2.1 = .str s ∧ isValidParent s = true
  else if x.1 = returnKey then ∃ r, readReturnMap env (1 :: p) x.2.1 = .ok r
  else ∃ n, x.2.2 = .ok n

theorem anyAllLoop_cons (p : List Nat) (a : AnyAll) (n : Node) (k : Str) (v : Json) (sub : Go Node) (l : List (Str × Json × Go Node)) :
    anyAllLoop env p a n ((k, v, sub) :: l) =
      if k = parentKey then (do
        let s ← asString v
        if isValidParent s then anyAllLoop env p (a.setParent s) n l else throw (.err .badNode))
      else if k = returnKey then (do
        let r ← readReturnMap env (1 :: p) v
        anyAllLoop env p { a with ret := r } n l)
      else (do
        let m ← sub
        anyAllLoop env p a m l) := rfl

theorem anyAllLoop_ok : ∀ {l : List (Str × Json × Go Node)} {p : List Nat} {a : AnyAll} {n : Node},
    (∃ r, anyAllLoop env p a n l = .ok r) ↔ ∀ x ∈ l, EntryOk env p x
  | [], p, a, n => by simp [anyAllLoop]
  | (k, v, sub) :: l, p, a, n => by
    simp only [List.mem_cons, forall_eq_or_imp]
    rw [anyAllLoop_cons]
    conv => rhs; lhs; unfold EntryOk
    dsimp only
    by_cases h1 : k = parentKey
    · rw [if_pos h1, if_pos h1]
      cases v with
      | str s =>
        by_cases hs : isValidParent s = true
        · simp only [asString, Go.ok_bind, hs, if_true, anyAllLoop_ok (l := l), Json.str.injEq, exists_eq_left', true_and]
        · simp [asString, hs, throw, throwThe, MonadExceptOf.throw]
      | _ => simp [asString]
    · rw [if_neg h1, if_neg h1]
      by_cases h2 : k = returnKey
      · rw [if_pos h2, if_pos h2]
        cases readReturnMap env (1 :: p) v with
        | error e => simp
        | ok r => simp only [Go.ok_bind, anyAllLoop_ok (l := l), Except.ok.injEq, exists_eq', true_and]
      · rw [if_neg h2, if_neg h2]
        cases sub with
        | error e => simp
        | ok r => simp only [Go.ok_bind, anyAllLoop_ok (l := l), Except.ok.injEq, exists_eq', true_and]

theorem anyAllLoop_fields {parent : Str} {R : List RetVal} : ∀ {l : List (Str × Json × Go Node)} {p : List Nat} {a : AnyAll} {n : Node} {r : AnyAll × Node},
    anyAllLoop env p a n l = .ok r → (∀ x ∈ l, x.1 = parentKey → x.2.1 = .str parent) →
    (∀ x ∈ l, x.1 = returnKey → readReturnMap env (1 :: p) x.2.1 = .ok R) →
    r.1 = { a with
      parentOrig := if parentKey ∈ l.map (·.1) then parent else a.parentOrig
      parent := if parentKey ∈ l.map (·.1) then replaceAll parent gs"jsonpath:" [] else a.parent
      ret := if returnKey ∈ l.map (·.1) then R else a.ret }
  | [], p, a, n, r, h, _, _ => by simp [anyAllLoop] at h; subst h; simp
  | (k, v, sub) :: l, p, a, n, r, h, hp, hr => by
    have hp' : ∀ x ∈ l, x.1 = parentKey → x.2.1 = .str parent := fun x hx => hp x (by simp [hx])
    have hr' : ∀ x ∈ l, x.1 = returnKey → readReturnMap env (1 :: p) x.2.1 = .ok R := fun x hx => hr x (by simp [hx])
    rw [anyAllLoop_cons] at h
    refine ite_elim h (fun e h => ?_) fun e1 h => ite_elim h (fun e h => ?_) fun e2 h => ?_
    · have hv : v = .str parent := hp (k, v, sub) (by simp) e
      subst hv
      simp only [asString, Go.ok_bind] at h
      refine ite_elim h (fun _ h => ?_) fun _ h => ?_
      · rw [anyAllLoop_fields h hp' hr']
        have hk : k = parentKey := e
        subst hk
        have hne : returnKey ≠ parentKey := by decide
        have m1 : (returnKey ∈ ((parentKey, Json.str parent, sub) :: l).map (·.1)) ↔ (returnKey ∈ l.map (·.1)) := by simp [hne]
        have m2 : parentKey ∈ ((parentKey, Json.str parent, sub) :: l).map (·.1) := by simp
        rw [if_congr m1 rfl rfl, if_pos m2, if_pos m2]
        simp [AnyAll.setParent]
      · simp [throw, throwThe, MonadExceptOf.throw] at h
    · have hv := hr (k, v, sub) (by simp) e
      dsimp only at hv
      rw [hv, Go.ok_bind] at h
      rw [anyAllLoop_fields h hp' hr']
      have hk : k = returnKey := e
      subst hk
      have hne : parentKey ≠ returnKey := by decide
      have m1 : (parentKey ∈ ((returnKey, v, sub) :: l).map (·.1)) ↔ (parentKey ∈ l.map (·.1)) := by simp [hne]
      have m2 : returnKey ∈ ((returnKey, v, sub) :: l).map (·.1) := by simp
      rw [if_congr m1 rfl rfl, if_congr m1 rfl rfl, if_pos m2]
      simp
    · simp only [Go.bind_eq_ok] at h
      obtain ⟨m, -, h⟩ := h
      rw [anyAllLoop_fields h hp' hr']
      have h1 : parentKey ≠ k := fun h => e1 h.symm
      have h2 : returnKey ≠ k := fun h => e2 h.symm
      have m1 : (parentKey ∈ ((k, v, sub) :: l).map (·.1)) ↔ (parentKey ∈ l.map (·.1)) := by simp [h1]
      have m2 : (returnKey ∈ ((k, v, sub) :: l).map (·.1)) ↔ (returnKey ∈ l.map (·.1)) := by simp [h2]
      rw [if_congr m1 rfl rfl, if_congr m1 rfl rfl, if_congr m2 rfl rfl]

theorem anyAllLoop_last : ∀ {l : List (Str × Json × Go Node)} {p : List Nat} {a : AnyAll} {n : Node} {r : AnyAll × Node},
    anyAllLoop env p a n l = .ok r →
    (∃ x ∈ l, x.1 ≠ parentKey ∧ x.1 ≠ returnKey ∧ x.2.2 = .ok r.2) ∨ (∀ x ∈ l, ¬ (x.1 ≠ parentKey ∧ x.1 ≠ returnKey)) ∧ r.2 = n
  | [], p, a, n, r, h => by simp [anyAllLoop] at h; subst h; simp
  | (k, v, sub) :: l, p, a, n, r, h => by
    rw [anyAllLoop_cons] at h
    refine ite_elim h (fun e h => ?_) fun e1 h => ite_elim h (fun e h => ?_) fun e2 h => ?_
    · simp only [Go.bind_eq_ok] at h
      obtain ⟨s, _, h⟩ := h
      refine ite_elim h (fun _ h => ?_) fun _ h => ?_
      · rcases anyAllLoop_last h with ⟨x, hx, h⟩ | ⟨h1, h2⟩
        · exact .inl ⟨x, by simp [hx], h⟩
        · refine .inr ⟨?_, h2⟩
          simp only [List.mem_cons, forall_eq_or_imp]
          exact ⟨fun h => h.1 e, h1⟩
      · simp [throw, throwThe, MonadExceptOf.throw] at h
    · simp only [Go.bind_eq_ok] at h
      obtain ⟨s, _, h⟩ := h
      rcases anyAllLoop_last h with ⟨x, hx, h⟩ | ⟨h1, h2⟩
      · exact .inl ⟨x, by simp [hx], h⟩
      · refine .inr ⟨?_, h2⟩
        simp only [List.mem_cons, forall_eq_or_imp]
        exact ⟨fun h => h.2 e, h1⟩
    · simp only [Go.bind_eq_ok] at h
      obtain ⟨s, hs, h⟩ := h
      rcases anyAllLoop_last h with ⟨x, hx, h⟩ | ⟨h1, h2⟩
      · exact .inl ⟨x, by simp [hx], h⟩
      · exact .inl ⟨(k, v, sub), by simp, e1, e2, by rw [h2]; exact hs⟩


/-! ## ANY and ALL -/

theorem checkReturnEntries_iff : ∀ {l : List (Str × Json)}, checkReturnEntries l = .ok () ↔
    ∀ x ∈ l, ∃ q, x.2 = .str (gs"jsonpath:$RELATIVE" ++ q)
  | [] => by simp [checkReturnEntries]
  | (k, v) :: l => by
    simp only [List.mem_cons, forall_eq_or_imp]
    unfold checkReturnEntries
    cases v with
    | str s =>
      simp only [asString, Go.ok_bind, Json.str.injEq]
      by_cases hs : hasPrefix s gs"jsonpath:$RELATIVE" = true
      · rw [if_pos hs, checkReturnEntries_iff]
        rw [hasPrefix_iff] at hs
        exact ⟨fun h => ⟨hs, h⟩, fun h => h.2⟩
      · rw [if_neg hs]
        rw [hasPrefix_iff] at hs
        simp only [throw, throwThe, MonadExceptOf.throw, reduceCtorEq, false_iff, not_and]
        exact fun h => absurd h hs
    | _ => simp [asString]

theorem readReturnMap_iff (ho : env.OrdOk) {p : List Nat} {x : Json} {R : List RetVal} : readReturnMap env p x = .ok R ↔
    ∃ l, x = textMap l ∧ (∀ y ∈ l, ∃ q, y.2 = gs"jsonpath:$RELATIVE" ++ q) ∧ R = l.map (anyRetVal env) := by
  cases x with
  | obj kvs =>
    simp only [readReturnMap, Go.bind_eq_ok]
    constructor
    · rintro ⟨_, h1, l, h2, h⟩
      simp at h; subst h
      rw [stringEntries_iff] at h2
      refine ⟨l, h2, ?_, rfl⟩
      simp only [textMap, Json.obj.injEq] at h2
      rw [checkReturnEntries_iff] at h1
      intro y hy
      obtain ⟨q, hq⟩ := h1 (y.1, .str y.2) ((ho _ _).mem_iff.2 (by rw [h2]; exact List.mem_map.2 ⟨y, hy, rfl⟩))
      exact ⟨q, by simpa using hq⟩
    · rintro ⟨l, h1, h2, rfl⟩
      refine ⟨(), ?_, l, stringEntries_iff.2 h1, rfl⟩
      simp only [textMap, Json.obj.injEq] at h1
      rw [checkReturnEntries_iff]
      intro y hy
      rw [(ho _ _).mem_iff, h1] at hy
      obtain ⟨z, hz, rfl⟩ := List.mem_map.1 hy
      obtain ⟨q, hq⟩ := h2 z hz
      exact ⟨q, by simp [hq]⟩
  | _ => simp [readReturnMap, textMap]

theorem parentOk_iff {s : Str} : isValidParent s = true ↔ ParentOk s := by
  simp only [isValidParent, Bool.or_eq_true, hasPrefix_iff, ParentOk, or_assoc]

theorem parent_ne {s : Str} (h : ParentOk s) : replaceAll s gs"jsonpath:" [] ≠ [] := by
  rcases h with ⟨r, rfl⟩ | ⟨r, rfl⟩ | ⟨r, rfl⟩ <;> simp [replaceAll, replaceAux, List.isPrefixOf]

theorem textMap_inj {l l' : List (Str × Str)} (h : textMap l = textMap l') : l = l' := by
  simp only [textMap, Json.obj.injEq] at h
  refine List.map_injective_iff.2 ?_ h
  intro x y e
  simp at e
  exact Prod.ext e.1 e.2

theorem anyMap_unique {kvs : List (Str × Json)} {parent parent' : Str} {ret ret' : List (Str × Str)} (h : AnyMap kvs parent ret)
    (h' : AnyMap kvs parent' ret') : parent = parent' ∧ ret = ret' := by
  constructor
  · have := mem_unique h.distinct h.hasParent h'.hasParent
    simpa using this
  · by_cases hr : returnKey ∈ kvs.map (·.1)
    · obtain ⟨x, hx, e⟩ := List.mem_map.1 hr
      have hx' : (returnKey, x.2) ∈ kvs := by rw [← e]; exact hx
      exact textMap_inj ((h.hasRet _ hx').symm.trans (h'.hasRet _ hx'))
    · rw [h.noRet hr, h'.noRet hr]

theorem anyMap_not_condition {kvs : List (Str × Json)} (hp : parentKey ∈ kvs.map (·.1)) : isConditionNode kvs = false := by
  by_contra hc
  rw [Bool.not_eq_false, isConditionNode_keys] at hc
  obtain ⟨ks, hk, hperm⟩ := condKeys_of_B hc
  have h0 := (condKeys_kinds hk).2.2.2
  exact h0 (List.mem_map.2 ⟨parentKey, hperm.mem_iff.1 hp, by decide⟩)

theorem oneKey_not_condition (k : Str) (v : Json) : isConditionNode [(k, v)] = false := by
  by_contra hc
  rw [Bool.not_eq_false, isConditionNode_keys] at hc
  obtain ⟨ks, hk, hperm⟩ := condKeys_of_B hc
  have := hperm.length_eq
  cases hk <;> simp at this

theorem getAnyAll_inv (ho : env.OrdOk) {kvs : List (Str × Json)} {p : List Nat} {kw : Str} {n : Node} (hd : (kvs.map (·.1)).Nodup)
    (h : getAnyAllNode env p kw (interpretKids env kvs p 2) = .ok n) :
    ∃ parent ret c, AnyMap kvs parent ret ∧ n = quantifier kw (anyFields env parent ret) c ∧
      (∀ x, Child kvs x → ∃ i m, interpret env x.2 x.1 (i :: p) = .ok m) ∧
      ((∃ x i, Child kvs x ∧ interpret env x.2 x.1 (i :: p) = .ok c) ∨ (∀ x, ¬ Child kvs x) ∧ c = .nil) := by
  unfold getAnyAllNode at h
  refine ite_elim h (fun hv h => ?_) fun _ h => by simp at h
  simp only [Go.bind_eq_ok] at h
  obtain ⟨r, hr, h⟩ := h
  rw [kids_keys] at hv
  simp only [isValidAnyAllNode, Bool.and_eq_true, Bool.or_eq_true, beq_iff_eq, List.length_map, List.contains_iff_mem] at hv
  obtain ⟨hsize, hpk⟩ := hv
  have hpk : parentKey ∈ kvs.map (·.1) := hpk
  have hall : ∀ x ∈ interpretKids env kvs p 2, EntryOk env p x := fun x hx => anyAllLoop_ok.1 ⟨r, hr⟩ x ((ho _ _).mem_iff.2 hx)
  -- the parent path
  obtain ⟨⟨k0, v0⟩, hx0, e0⟩ := List.mem_map.1 hpk
  have e0 : k0 = parentKey := e0
  subst e0
  obtain ⟨i0, hk0⟩ := mem_kids (env := env) (p := p) (i := 2) hx0
  have hE := hall _ hk0
  simp only [EntryOk, if_true] at hE
  obtain ⟨parent, rfl, hpo⟩ := hE
  have hne : returnKey ≠ parentKey := by decide
  -- the return values
  obtain ⟨ret, hret, hnoret, hretok⟩ : ∃ ret : List (Str × Str), (∀ x, (returnKey, x) ∈ kvs → x = textMap ret) ∧ (returnKey ∉ kvs.map (·.1) → ret = []) ∧
      ∀ x ∈ ret, ∃ q, x.2 = gs"jsonpath:$RELATIVE" ++ q := by
    by_cases hrk : returnKey ∈ kvs.map (·.1)
    · obtain ⟨⟨k1, v1⟩, hx1, e1⟩ := List.mem_map.1 hrk
      have e1 : k1 = returnKey := e1
      subst e1
      obtain ⟨i1, hk1⟩ := mem_kids (env := env) (p := p) (i := 2) hx1
      have hE := hall _ hk1
      simp only [EntryOk, if_neg hne, if_true, readReturnMap_iff ho] at hE
      obtain ⟨R, l, rfl, hl, -⟩ := hE
      exact ⟨l, fun x hx => mem_unique hd hx hx1, fun h => absurd hrk h, hl⟩
    · exact ⟨[], fun x hx => absurd (List.mem_map_of_mem (f := (·.1)) hx) hrk, fun _ => rfl, by simp⟩
  have hmap : AnyMap kvs parent ret := ⟨hd, hsize, hx0, parentOk_iff.1 hpo, hret, hnoret, hretok⟩
  have hfields : r.1 = anyFields env parent ret := by
    rw [anyAllLoop_fields (parent := parent) (R := ret.map (anyRetVal env)) hr]
    · have hperm : ∀ k, k ∈ (env.ord (0 :: p) (interpretKids env kvs p 2)).map (·.1) ↔ k ∈ kvs.map (·.1) := by
        intro k
        rw [((ho _ _).map _).mem_iff, kids_keys]
      rw [if_pos ((hperm _).2 hpk), if_pos ((hperm _).2 hpk), if_congr (hperm _) rfl rfl]
      by_cases hrk : returnKey ∈ kvs.map (·.1)
      · rw [if_pos hrk]; rfl
      · rw [if_neg hrk, hnoret hrk]; rfl
    · intro x hx e
      have := (kids_mem ((ho _ _).mem_iff.1 hx)).1
      rw [e] at this
      exact mem_unique hd this hx0
    · intro x hx e
      have := (kids_mem ((ho _ _).mem_iff.1 hx)).1
      rw [e] at this
      rw [readReturnMap_iff ho]
      exact ⟨ret, hret _ this, hretok, rfl⟩
  have hn : n = quantifier kw (anyFields env parent ret) r.2 := by
    rw [hfields] at h
    rw [if_neg (show ¬ (anyFields env parent ret).parent = [] from parent_ne (parentOk_iff.1 hpo))] at h
    unfold quantifier
    split at h
    · rename_i e; simp at h; rw [if_pos e]; exact h.symm
    · rename_i e; simp at h; rw [if_neg e]; exact h.symm
  refine ⟨parent, ret, r.2, hmap, hn, ?_, ?_⟩
  · rintro ⟨k, v⟩ ⟨hx, h1, h2⟩
    obtain ⟨i, hk⟩ := mem_kids (env := env) (p := p) (i := 2) hx
    have hE := hall _ hk
    simp only [EntryOk, if_neg h1, if_neg h2] at hE
    exact ⟨i, hE⟩
  · rcases anyAllLoop_last hr with ⟨x, hx, h1, h2, h3⟩ | ⟨h1, h2⟩
    · obtain ⟨hk, i, hi⟩ := kids_mem ((ho _ _).mem_iff.1 hx)
      exact .inl ⟨(x.1, x.2.1), i, ⟨hk, h1, h2⟩, by rw [← hi]; exact h3⟩
    · refine .inr ⟨?_, h2⟩
      rintro ⟨k, v⟩ ⟨hx, hc⟩
      obtain ⟨i, hk⟩ := mem_kids (env := env) (p := p) (i := 2) hx
      exact h1 _ ((ho _ _).mem_iff.2 hk) hc

theorem getAnyAll_ok (ho : env.OrdOk) {kvs : List (Str × Json)} {p : List Nat} {kw parent : Str} {ret : List (Str × Str)}
    (h : AnyMap kvs parent ret) (hc : ∀ x, Child kvs x → ∀ i, ∃ m, interpret env x.2 x.1 (i :: p) = .ok m) :
    ∃ n, getAnyAllNode env p kw (interpretKids env kvs p 2) = .ok n := by
  have hpk : parentKey ∈ kvs.map (·.1) := List.mem_map_of_mem (f := (·.1)) h.hasParent
  have hv : isValidAnyAllNode ((interpretKids env kvs p 2).map (·.1)) = true := by
    rw [kids_keys]
    simp only [isValidAnyAllNode, Bool.and_eq_true, Bool.or_eq_true, beq_iff_eq, List.length_map, List.contains_iff_mem]
    exact ⟨h.size, hpk⟩
  have hE : ∀ x ∈ env.ord (0 :: p) (interpretKids env kvs p 2), EntryOk env p x := by
    intro x hx
    obtain ⟨hk, i, hi⟩ := kids_mem ((ho _ _).mem_iff.1 hx)
    unfold EntryOk
    split
    · rename_i e
      rw [e] at hk
      exact ⟨parent, mem_unique h.distinct hk h.hasParent, parentOk_iff.2 h.parentOk⟩
    · split
      · rename_i e
        rw [e] at hk
        exact ⟨_, (readReturnMap_iff ho).2 ⟨ret, h.hasRet _ hk, h.retOk, rfl⟩⟩
      · rename_i e1 e2
        obtain ⟨m, hm⟩ := hc (x.1, x.2.1) ⟨hk, e1, e2⟩ i
        exact ⟨m, by rw [hi]; exact hm⟩
  obtain ⟨r, hr⟩ := (anyAllLoop_ok (a := {}) (n := .nil)).2 hE
  have hfields : r.1.parent ≠ [] := by
    rw [anyAllLoop_fields (parent := parent) (R := ret.map (anyRetVal env)) hr]
    · have hm : parentKey ∈ (env.ord (0 :: p) (interpretKids env kvs p 2)).map (·.1) := by
        rw [((ho _ _).map _).mem_iff, kids_keys]; exact hpk
      simp only [if_pos hm]
      exact parent_ne h.parentOk
    · intro x hx e
      have := (kids_mem ((ho _ _).mem_iff.1 hx)).1
      rw [e] at this
      exact mem_unique h.distinct this h.hasParent
    · intro x hx e
      have := (kids_mem ((ho _ _).mem_iff.1 hx)).1
      rw [e] at this
      exact (readReturnMap_iff ho).2 ⟨ret, h.hasRet _ this, h.retOk, rfl⟩
  unfold getAnyAllNode
  rw [if_pos hv, hr, Go.ok_bind, if_neg hfields]
  by_cases e : kw = gs"ANY"
  · exact ⟨.any r.1 r.2, by simp [e]⟩
  · exact ⟨.all r.1 r.2, by simp [e]⟩


/-! ## Lists -/

theorem connective_iff {kw : Str} {ns : List Node} {n : Node} : connective kw ns = .ok n ↔
    kw = gs"AND" ∧ n = .and ns ∨ kw = gs"OR" ∧ n = .or ns ∨ kw = gs"NOT" ∧ n = .not (ns.getLast?.getD .nil) := by
  unfold connective
  constructor
  · intro h
    refine ite_elim h (fun e h => ?_) fun _ h => ite_elim h (fun e h => ?_) fun _ h => ite_elim h (fun e h => ?_) fun _ h => ?_
    · simp at h; exact .inl ⟨e, h.symm⟩
    · simp at h; exact .inr (.inl ⟨e, h.symm⟩)
    · simp at h; exact .inr (.inr ⟨e, h.symm⟩)
    · simp at h
  · rintro (⟨rfl, rfl⟩ | ⟨rfl, rfl⟩ | ⟨rfl, rfl⟩) <;> simp

theorem handleArray_iff {kw : Str} {subs : List (Go Node)} {n : Node} : handleArray kw subs = .ok n ↔
    kw = [] ∧ subs = [.ok n] ∨ ∃ ns, sequenceNodes subs = .ok ns ∧ connective kw ns = .ok n := by
  unfold handleArray
  constructor
  · intro h
    refine ite_elim h (fun e h => ?_) fun _ h => ?_
    · split at h
      · subst h; exact .inl ⟨e, rfl⟩
      · simp at h
    · simp only [Go.bind_eq_ok] at h
      obtain ⟨_, _, ns, h1, h2⟩ := h
      exact .inr ⟨ns, h1, h2⟩
  · rintro (⟨rfl, rfl⟩ | ⟨ns, h1, h2⟩)
    · simp
    · have h3 := connective_iff.1 h2
      have hne : kw ≠ [] := by rintro rfl; simp at h3
      rw [if_neg hne, h1]
      have h4 : ∃ m, connective kw [] = .ok m := by
        rcases h3 with ⟨rfl, _⟩ | ⟨rfl, _⟩ | ⟨rfl, _⟩ <;> exact ⟨_, rfl⟩
      obtain ⟨m, hm⟩ := h4
      rw [hm]
      exact h2

/-! ## The grammar is the parser -/

mutual
/-- What the grammar reads, the parser reads, in any order of iteration. -/
theorem interpret_of_reads (ho : env.OrdOk) : ∀ {kw : Str} {j : Json} {n : Node}, Reads env lossy False kw j n → ∀ p, interpret env j kw p = .ok n
  | _, _, _, .cond hk h ok, p => by
    rw [interpret, handleMap, if_pos (condMap_node h), getNodeCondition_of h ok, if_neg]
    simp only [List.mem_cons, List.not_mem_nil, or_false] at hk
    rintro ⟨h1, h2, h3⟩
    rcases hk with hk | hk | hk
    · exact h1 hk
    · exact h2 hk
    · exact h3 hk
  | _, _, _, .andCond h ok, p => by
    rw [interpret, handleMap, if_pos (condMap_node h), getNodeCondition_of h ok]; rfl
  | _, _, _, .orCond h ok, p => by
    rw [interpret, handleMap, if_pos (condMap_node h), getNodeCondition_of h ok]; rfl
  | _, _, _, .notCond h ok, p => by
    rw [interpret, handleMap, if_pos (condMap_node h), getNodeCondition_of h ok]; rfl
  | _, _, _, .key (k := k) (v := v) (n := n) hk h, p => by
    have hs := (singleKid_iff (env := env) (p := p) (i := 2) (n := n)).2 ⟨k, v, rfl, interpret_of_reads ho h _⟩
    rw [interpret, handleMap, if_neg (by rw [oneKey_not_condition]; simp)]
    simp only [List.mem_cons, List.not_mem_nil, or_false] at hk
    rcases hk with rfl | rfl | rfl | rfl <;> simpa using hs
  | _, _, _, .single h, p => by
    rw [interpret, handleArray_iff]
    exact .inl ⟨rfl, by simp [interpretList, interpret_of_reads ho h]⟩
  | _, _, _, .and h, p => by
    rw [interpret, handleArray_iff]
    exact .inr ⟨_, sequence_of_reads ho h p 2, rfl⟩
  | _, _, _, .or h, p => by
    rw [interpret, handleArray_iff]
    exact .inr ⟨_, sequence_of_reads ho h p 2, rfl⟩
  | _, _, _, .not (k := k) (v := v) (n := n) h, p => by
    have hs := (singleKid_iff (env := env) (p := p) (i := 2) (n := n)).2 ⟨k, v, rfl, interpret_of_reads ho h _⟩
    rw [interpret, handleMap, if_neg (by rw [oneKey_not_condition]; simp)]
    simp [hs]
  | _, _, _, .notSingle h, p => by
    rw [interpret, handleArray_iff]
    exact .inr ⟨[_], by simp [interpretList, sequenceNodes, interpret_of_reads ho h], rfl⟩
  | _, _, _, .quantifier (kw := kw) (k := k) (v := v) (kvs := kvs) (n := n) hk h hc hone hn, p => by
    have ih := interpret_of_reads ho hn
    have hpk := List.mem_map_of_mem (f := (·.1)) h.hasParent
    obtain ⟨m, hm⟩ := getAnyAll_ok ho (p := p) (kw := kw) h (fun x hx i => by rw [hone x hx]; exact ⟨n, ih _⟩)
    rw [interpret, handleMap, if_neg (by rw [anyMap_not_condition hpk]; simp), if_pos hk, hm]
    obtain ⟨parent', ret', c, h', rfl, -, h1⟩ := getAnyAll_inv ho h.distinct hm
    obtain ⟨rfl, rfl⟩ := anyMap_unique h h'
    rcases h1 with ⟨x, i, hx, hi⟩ | ⟨h1, -⟩
    · rw [hone x hx] at hi
      rw [ih] at hi
      simp at hi; rw [hi]
    · exact absurd hc (h1 _)
  | _, _, _, .dropped (k := k) (v := v) (n := n) hl hk h, p => by
    have hs := (singleKid_iff (env := env) (p := p) (i := 2) (n := n)).2 ⟨k, v, rfl, interpret_of_reads ho h _⟩
    rw [interpret, handleMap, if_neg (by rw [oneKey_not_condition]; simp)]
    rcases hk with rfl | rfl <;> simpa using hs
  | _, _, _, .notLast hl h hn, p => by
    rw [interpret, handleArray_iff]
    exact .inr ⟨_, sequence_of_reads ho h p 2, connective_iff.2 (.inr (.inr ⟨rfl, by rw [hn]; rfl⟩))⟩
  | _, _, _, .notNone hl, p => by
    rw [interpret, handleArray_iff]
    exact .inr ⟨[], rfl, rfl⟩
  | _, _, _, .noChild (kw := kw) hl hk h hnone, p => by
    have hpk := List.mem_map_of_mem (f := (·.1)) h.hasParent
    obtain ⟨m, hm⟩ := getAnyAll_ok ho (p := p) (kw := kw) h (fun x hx i => absurd hx (hnone x))
    rw [interpret, handleMap, if_neg (by rw [anyMap_not_condition hpk]; simp), if_pos hk, hm]
    obtain ⟨parent', ret', c, h', rfl, -, h1⟩ := getAnyAll_inv ho h.distinct hm
    obtain ⟨rfl, rfl⟩ := anyMap_unique h h'
    rcases h1 with ⟨x, i, hx, hi⟩ | ⟨-, rfl⟩
    · exact absurd hx (hnone x)
    · rfl
  | _, _, _, .twoChildren ha _ _ _ _ _ _ _, _ => ha.elim

theorem sequence_of_reads (ho : env.OrdOk) : ∀ {l : List Json} {ns : List Node}, ReadsAll env lossy False l ns → ∀ p i,
    sequenceNodes (interpretList env l p i) = .ok ns
  | _, _, .nil, p, i => rfl
  | _, _, .cons h hs, p, i => by
    simp [interpretList, sequenceNodes, interpret_of_reads ho h, sequence_of_reads ho hs]
end

mutual
/-- What the parser reads, the grammar reads. -/
theorem reads_of_interpret (ho : env.OrdOk) : ∀ (j : Json), IsMap j → ∀ {kw : Str} {p : List Nat} {n : Node}, interpret env j kw p = .ok n →
    Reads env True True kw j n
  | .obj kvs, hj, kw, p, n, h => by
    obtain ⟨hd, hkids⟩ : (kvs.map (·.1)).Nodup ∧ ∀ x ∈ kvs, IsMap x.2 := by cases hj; constructor <;> assumption
    have ih := reads_of_kids ho kvs hkids
    rw [interpret] at h
    unfold handleMap at h
    refine ite_elim h (fun hc h => getNodeCondition_inv hd hc h) fun hc h => ite_elim h (fun hk h => ?_) fun _ h => ite_elim h (fun e h => ?_) fun _ h =>
      ite_elim h (fun hk h => ?_) fun _ h => ?_
    · obtain ⟨parent, ret, c, hm, rfl, hall, hc⟩ := getAnyAll_inv ho hd h
      rcases hc with ⟨⟨k, v⟩, i, hx, hi⟩ | ⟨hnone, rfl⟩
      · by_cases hone : ∀ y, Child kvs y → y = (k, v)
        · exact .quantifier hk hm hx hone (ih _ hx.1 hi)
        · simp only [not_forall] at hone
          obtain ⟨⟨k', v'⟩, hy, hne⟩ := hone
          obtain ⟨i', m, hm'⟩ := hall _ hy
          refine .twoChildren trivial hk hm hx hy ?_ (ih _ hx.1 hi) (ih _ hy.1 hm')
          rintro rfl
          exact hne (by rw [mem_unique hd hy.1 hx.1])
      · exact .noChild trivial hk hm hnone
    · simp only [Go.bind_eq_ok] at h
      obtain ⟨m, h1, h⟩ := h
      simp at h; subst h; subst e
      obtain ⟨k, v, rfl, hi⟩ := singleKid_iff.1 h1
      exact .not (ih (k, v) (by simp) hi)
    · obtain ⟨k, v, rfl, hi⟩ := singleKid_iff.1 h
      have hr := ih (k, v) (by simp) hi
      rcases hk with rfl | rfl | rfl | rfl | rfl | rfl
      · exact .dropped trivial (.inr rfl) hr
      · exact .dropped trivial (.inl rfl) hr
      all_goals exact .key (by simp) hr
    · simp at h
  | .arr l, hj, kw, p, n, h => by
    have hl : ∀ x ∈ l, IsMap x := by cases hj; assumption
    have ih := @reads_of_list ho l hl
    rw [interpret, handleArray_iff] at h
    rcases h with ⟨rfl, h⟩ | ⟨ns, h1, h2⟩
    · have h3 := ih p 2 [n] (by rw [h]; rfl)
      cases h3 with
      | cons h4 hs => cases hs; exact .single h4
    · have h3 := ih p 2 ns h1
      rcases connective_iff.1 h2 with ⟨rfl, rfl⟩ | ⟨rfl, rfl⟩ | ⟨rfl, rfl⟩
      · exact .and h3
      · exact .or h3
      · cases hg : ns.getLast? with
        | none =>
          rw [List.getLast?_eq_none_iff] at hg
          subst hg
          cases h3
          exact .notNone trivial
        | some m => exact .notLast trivial h3 hg
  | .null, _, _, _, _, h => by simp [interpret] at h
  | .bool _, _, _, _, _, h => by simp [interpret] at h
  | .num _, _, _, _, _, h => by simp [interpret] at h
  | .str _, _, _, _, _, h => by simp [interpret] at h

theorem reads_of_kids (ho : env.OrdOk) : ∀ (kvs : List (Str × Json)), (∀ x ∈ kvs, IsMap x.2) → ∀ x ∈ kvs, ∀ {p : List Nat} {n : Node},
    interpret env x.2 x.1 p = .ok n → Reads env True True x.1 x.2 n
  | [], _, x, hx, _, _, _ => by simp at hx
  | (k, v) :: kvs, hk, x, hx, p, n, h => by
    rcases List.mem_cons.1 hx with rfl | hx'
    · exact reads_of_interpret ho v (hk (k, v) (by simp)) h
    · exact reads_of_kids ho kvs (fun x hx => hk x (by simp [hx])) x hx' h

theorem reads_of_list (ho : env.OrdOk) : ∀ {l : List Json}, (∀ x ∈ l, IsMap x) → ∀ p i ns, sequenceNodes (interpretList env l p i) = .ok ns →
    ReadsAll env True True l ns
  | [], _, p, i, ns, h => by simp [interpretList, sequenceNodes] at h; subst h; exact .nil
  | j :: l, hl, p, i, ns, h => by
    simp only [interpretList, sequenceNodes, Go.bind_eq_ok] at h
    obtain ⟨m, h1, ms, h2, h⟩ := h
    simp at h; subst h
    exact .cons (reads_of_interpret ho j (hl j (by simp)) h1) (reads_of_list ho (fun x hx => hl x (by simp [hx])) p (i + 1) ms h2)
end

mutual
/-- Without two children the grammar is unambiguous. -/
theorem reads_oneChild {e : Ext} : ∀ {kw : Str} {j : Json} {n : Node}, Reads e lossy True kw j n → OneChild j → Reads e lossy False kw j n
  | _, _, _, .cond hk h ok, _ => .cond hk h ok
  | _, _, _, .andCond h ok, _ => .andCond h ok
  | _, _, _, .orCond h ok, _ => .orCond h ok
  | _, _, _, .notCond h ok, _ => .notCond h ok
  | _, _, _, .key (k := k) (v := v) hk h, ho => .key hk (reads_oneChild h (by cases ho with | obj _ h => exact h (k, v) (by simp)))
  | _, _, _, .single h, ho => .single (reads_oneChild h (by cases ho with | arr h => exact h _ (by simp)))
  | _, _, _, .and h, ho => .and (readsAll_oneChild h (by cases ho; assumption))
  | _, _, _, .or h, ho => .or (readsAll_oneChild h (by cases ho; assumption))
  | _, _, _, .not (k := k) (v := v) h, ho => .not (reads_oneChild h (by cases ho with | obj _ h => exact h (k, v) (by simp)))
  | _, _, _, .notSingle h, ho => .notSingle (reads_oneChild h (by cases ho with | arr h => exact h _ (by simp)))
  | _, _, _, .quantifier (k := k) (v := v) hk h hc hone hn, ho =>
    .quantifier hk h hc hone (reads_oneChild hn (by cases ho with | obj _ h => exact h (k, v) hc.1))
  | _, _, _, .dropped (k := k) (v := v) hl hk h, ho => .dropped hl hk (reads_oneChild h (by cases ho with | obj _ h => exact h (k, v) (by simp)))
  | _, _, _, .notLast hl h hn, ho => .notLast hl (readsAll_oneChild h (by cases ho; assumption)) hn
  | _, _, _, .notNone hl, _ => .notNone hl
  | _, _, _, .noChild hl hk h hnone, _ => .noChild hl hk h hnone
  | _, _, _, .twoChildren ha hk h hc hc' hne hn hn', ho => by
    cases ho with
    | obj one _ => exact absurd (one (List.mem_map_of_mem (f := (·.1)) h.hasParent) _ _ hc hc') hne

theorem readsAll_oneChild {e : Ext} : ∀ {l : List Json} {ns : List Node}, ReadsAll e lossy True l ns → (∀ x ∈ l, OneChild x) → ReadsAll e lossy False l ns
  | _, _, .nil, _ => .nil
  | _, _, .cons h hs, ho => .cons (reads_oneChild h (ho _ (by simp))) (readsAll_oneChild hs fun x hx => ho x (by simp [hx]))
end

end Mapl

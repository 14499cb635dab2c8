import Verif.Spec.Find
import Verif.Lemmas.Mongo
import Verif.Lemmas.Policy

/-!
# Added fields

What the steps of an aggregation do to a stored document.
-/

namespace Mapl
open Spec

theorem lookup_assign (k k' : Str) (v : Json) : ∀ kvs : List (Str × Json), lookup k' (Spec.setKey k v kvs) = if k' = k then some v else lookup k' kvs
  | [] => by simp [Spec.setKey, lookup]
  | (a, b) :: rest => by
    rw [Spec.setKey]
    by_cases h : k = a
    · subst h
      rw [if_pos rfl, lookup, lookup]
      by_cases hk : k' = k
      · rw [if_pos hk, if_pos hk]
      · rw [if_neg hk, if_neg hk, if_neg hk]
    · rw [if_neg h, lookup, lookup, lookup_assign k k' v rest]
      by_cases hk : k' = a
      · rw [if_pos hk, if_pos hk, if_neg fun e => h (e.symm.trans hk)]
      · rw [if_neg hk, if_neg hk]

/-- There is no list on the way. -/
def NoList : Json → List Str → Prop
  | _, [] => True
  | .obj kvs, s :: ss => match lookup s kvs with
    | some v => NoList v ss
    | none => True
  | .arr _, _ :: _ => False
  | _, _ :: _ => True

theorem noList_null (l : List Str) : NoList .null l := by cases l <;> simp [NoList]

/-- The names as steps. -/
abbrev fieldsOf (l : List Str) : List Step := l.map .field

theorem setField_here (x : Json) : ∀ (l : List Str) (d : Json), NoList d l → Leads (setField l x d) (fieldsOf l) (some x)
  | [], d, _ => by rw [setField]; exact .here x
  | s :: ss, .obj kvs, h => by
    rw [setField]
    refine .field (v := setField ss x ((lookup s kvs).getD .null)) (by rw [lookup_assign, if_pos rfl]) (setField_here x ss _ ?_)
    rw [NoList] at h
    cases hl : lookup s kvs with
    | none => exact noList_null ss
    | some v => rw [hl] at h; exact h
  | s :: ss, .arr _, h => by rw [NoList] at h; exact h.elim
  | s :: ss, .null, h => by
    rw [setField]
    · exact .field (v := setField ss x .null) (by simp [lookup]) (setField_here x ss _ (noList_null ss))
    all_goals simp
  | s :: ss, .bool _, h => by
    rw [setField]
    · exact .field (v := setField ss x .null) (by simp [lookup]) (setField_here x ss _ (noList_null ss))
    all_goals simp
  | s :: ss, .num _, h => by
    rw [setField]
    · exact .field (v := setField ss x .null) (by simp [lookup]) (setField_here x ss _ (noList_null ss))
    all_goals simp
  | s :: ss, .str _, h => by
    rw [setField]
    · exact .field (v := setField ss x .null) (by simp [lookup]) (setField_here x ss _ (noList_null ss))
    all_goals simp

/-- Other fields are left as they are. -/
theorem setField_other (x : Json) : ∀ (l m : List Str) (d y : Json), ¬ l <+: m → ¬ m <+: l → Leads d (fieldsOf m) (some y) → Leads (setField l x d) (fieldsOf m) (some y)
  | [], m, d, y, h, _, _ => absurd (List.nil_prefix) h
  | l, [], d, y, _, h, _ => absurd (List.nil_prefix) h
  | s :: ss, a :: as, d, y, h1, h2, h => by
    cases h with
    | field hl hp =>
      rw [setField]
      by_cases e : a = s
      · subst e
        refine .field (by rw [lookup_assign, if_pos rfl]) ?_
        rw [hl]
        exact setField_other x ss as _ y (fun hh => h1 (by simpa using hh)) (fun hh => h2 (by simpa using hh)) hp
      · exact .field (by rw [lookup_assign, if_neg e]; exact hl) hp

theorem setField_noList (x : Json) : ∀ (l m : List Str) (d : Json), (l <+: m → l = m) → NoList d l → NoList d m → NoList (setField l x d) m
  | _, [], _, _, _, _ => by simp [NoList]
  | [], _ :: _, _, h, _, _ => by cases h List.nil_prefix
  | s :: ss, a :: as, d, h, hl, hm => by
    have hp : ss <+: as → a = s → ss = as := fun hh e => by
      subst e
      simpa using h (by simpa using hh)
    have new : NoList (.obj [(s, setField ss x .null)]) (a :: as) := by
      rw [NoList, lookup]
      by_cases e : a = s
      · rw [if_pos e]
        exact setField_noList x ss as _ (fun hh => hp hh e) (noList_null _) (noList_null _)
      · rw [if_neg e]
        exact trivial
    cases d with
    | obj kvs =>
      rw [setField, NoList, lookup_assign]
      rw [NoList] at hl hm
      by_cases e : a = s
      · rw [if_pos e]
        subst e
        cases hk : lookup a kvs with
        | none => exact setField_noList x ss as _ (fun hh => hp hh rfl) (noList_null _) (noList_null _)
        | some v =>
          rw [hk] at hl hm
          exact setField_noList x ss as _ (fun hh => hp hh rfl) hl hm
      · rw [if_neg e]
        exact hm
    | arr _ => rw [NoList] at hl; exact hl.elim
    | null => rw [setField]; exact new; all_goals simp
    | bool _ => rw [setField]; exact new; all_goals simp
    | num _ => rw [setField]; exact new; all_goals simp
    | str _ => rw [setField]; exact new; all_goals simp

/-! ## The steps -/

variable {env : Ext} {ns : List Str} {doc root : Json}

/-- The field in which the steps put the lists of entries. -/
abbrev addedName : Str := gs"addedField"

/-- The step for the object in the field with the given names. -/
def stepFor (ns l : List Str) : MStep := { new := join gs"." (addedName :: (ns ++ l)), source := join gs"." (ns ++ l) }

/-- The list that it puts there. -/
def listFor (ns : List Str) (doc : Json) (l : List Str) : Json := objectToArray (reach (ns ++ l) doc).head?

/-- The document `doc` after some of the steps. -/
structure Partly (ns : List Str) (doc : Json) (all ready : List (List Str)) (d : Json) : Prop where
  fields : ∃ kvs kvs', doc = .obj kvs ∧ d = .obj kvs' ∧ (∀ k, k ≠ addedName → lookup k kvs' = lookup k kvs) ∧
    (∀ l ∈ all, NoList ((lookup addedName kvs').getD .null) (ns ++ l)) ∧
    ∀ l ∈ ready, ∃ T, lookup addedName kvs' = some T ∧ Leads T (fieldsOf (ns ++ l)) (some (listFor ns doc l))

theorem partly_step {all ready : List (List Str)} {d : Json} {l : List Str} (hn : ∃ n r, ns = n :: r ∧ n ≠ addedName) (hp : ∀ n ∈ addedName :: (ns ++ l), PathName n)
    (ha : ∀ a ∈ all, ∀ b ∈ all, a <+: b → a = b) (hl : l ∈ all) (hr : ∀ x ∈ ready, x ∈ all) (h : Partly ns doc all ready d) :
    Partly ns doc all (l :: ready) ((mongoDB env).add (stepFor ns l) d) := by
  obtain ⟨kvs, kvs', rfl, rfl, h1, h2, h3⟩ := h.fields
  obtain ⟨n, r, rfl, hne⟩ := hn
  have hs1 : split '.' (stepFor (n :: r) l).new = addedName :: (n :: r ++ l) := split_join (by simp) fun x hx => by
    intro hc
    exact (hp x hx).2 _ hc (by simp)
  have hs2 : split '.' (stepFor (n :: r) l).source = n :: r ++ l := split_join (by simp) fun x hx => by
    intro hc
    exact (hp x (.tail _ hx)).2 _ hc (by simp)
  have hsrc : reach (n :: r ++ l) (.obj kvs') = reach (n :: r ++ l) (.obj kvs) := by
    rw [List.cons_append, reach, reach, h1 n hne]
  show Partly _ _ _ _ (setField (split '.' (stepFor (n :: r) l).new) (objectToArray (reach (split '.' (stepFor (n :: r) l).source) (.obj kvs')).head?) (.obj kvs'))
  rw [hs1, hs2, hsrc, setField]
  refine ⟨kvs, _, rfl, rfl, fun k hk => ?_, fun m hm => ?_, fun m hm => ?_⟩
  · rw [lookup_assign, if_neg hk, h1 k hk]
  · rw [lookup_assign, if_pos rfl]
    exact setField_noList _ _ _ _ (fun hh => by rw [ha l hl m hm (by simpa using hh)]) (h2 l hl) (h2 m hm)
  · refine ⟨_, by rw [lookup_assign, if_pos rfl], ?_⟩
    by_cases e : m = l
    · subst e
      exact setField_here _ _ _ (h2 m hl)
    · rcases List.mem_cons.1 hm with rfl | hm
      · exact absurd rfl e
      obtain ⟨T, hT, hL⟩ := h3 m hm
      rw [hT]
      refine setField_other _ _ _ _ _ (fun hh => e (ha l hl m (hr m hm) (by simpa using hh)).symm) (fun hh => e (ha m (hr m hm) l hl (by simpa using hh))) hL

theorem partly_steps {all : List (List Str)} (hn : ∃ n r, ns = n :: r ∧ n ≠ addedName) (hp : ∀ l ∈ all, ∀ n ∈ addedName :: (ns ++ l), PathName n)
    (ha : ∀ a ∈ all, ∀ b ∈ all, a <+: b → a = b) : ∀ (ls ready : List (List Str)) (d : Json), (∀ l ∈ ls, l ∈ all) → (∀ x ∈ ready, x ∈ all) → Partly ns doc all ready d →
    ∃ ready', (∀ l ∈ ready, l ∈ ready') ∧ (∀ l ∈ ls, l ∈ ready') ∧ Partly ns doc all ready' (added (mongoDB env) (ls.map (stepFor ns)) d)
  | [], ready, d, _, _, h => ⟨ready, fun _ h => h, by simp, h⟩
  | a :: ls, ready, d, h1, h2, h => by
    obtain ⟨ready', k1, k2, k3⟩ := partly_steps hn hp ha ls (a :: ready) _ (fun l hl => h1 l (.tail _ hl)) (fun x hx => (List.mem_cons.1 hx).elim (fun e => e ▸ h1 a (by simp)) (h2 x))
      (partly_step (env := env) hn (hp a (h1 a (by simp))) ha (h1 a (by simp)) h2 h)
    exact ⟨ready', fun x hx => k1 x (.tail _ hx), fun x hx => (List.mem_cons.1 hx).elim (fun e => e ▸ k1 a (by simp)) (k2 x), k3⟩

/-- After all steps the data are where they were, and the lists of entries are in the added fields. -/
theorem steps_done {ls : List (List Str)} (hb : BaseField ns) (hs : ∀ l ∈ ls, ∀ n ∈ l, PathName n) (ha : ∀ a ∈ ls, ∀ b ∈ ls, a <+: b → a = b)
    (hr : Leads doc (fieldsOf ns) (some root)) (hf : ls ≠ [] → Leads doc [.field addedName] none) :
    Leads (added (mongoDB env) (ls.map (stepFor ns)) doc) (fieldsOf ns) (some root) ∧
    ∀ l ∈ ls, Leads (added (mongoDB env) (ls.map (stepFor ns)) doc) (fieldsOf (addedName :: (ns ++ l))) (some (listFor ns doc l)) := by
  by_cases he : ls = []
  · subst he
    exact ⟨hr, by simp⟩
  obtain ⟨n, r, rfl⟩ := List.exists_cons_of_ne_nil hb.ne
  have hp : ∀ l ∈ ls, ∀ x ∈ addedName :: (n :: r ++ l), PathName x := by
    intro l hl x hx
    rcases List.mem_cons.1 hx with rfl | hx
    · exact ⟨by decide, by decide⟩
    · rcases List.mem_append.1 hx with hx | hx
      · obtain ⟨h1, h2, -⟩ := hb.all x hx
        refine ⟨h1, fun c hc hm => ?_⟩
        rcases h2 c hc with h | rfl
        · simp only [List.mem_cons, List.not_mem_nil, or_false] at hm
          rcases hm with rfl | rfl | rfl | rfl | rfl <;> revert h <;> decide
        · revert hm; decide
      · exact hs l hl x hx
  cases hr with
  | @field _ kvs v _ _ hl hr =>
    have hnone : lookup addedName kvs = none := by cases hf he with | noField h => exact h | field _ h => cases h
    have hne : n ≠ addedName := by
      rintro rfl
      rw [hl] at hnone
      cases hnone
    obtain ⟨ready, -, h1, h2⟩ := partly_steps (env := env) (all := ls) ⟨n, r, rfl, hne⟩ hp ha ls [] (.obj kvs) (fun _ h => h) (by simp)
      ⟨kvs, kvs, rfl, rfl, fun _ _ => rfl, fun l _ => by rw [hnone]; exact noList_null _, by simp⟩
    obtain ⟨k0, k1, e0, e1, g1, g2, g3⟩ := h2.fields
    cases e0
    rw [e1]
    refine ⟨.field (by rw [g1 n hne]; exact hl) hr, fun l hl => ?_⟩
    obtain ⟨T, hT, hL⟩ := g3 l (h1 l hl)
    exact .field hT hL

end Mapl

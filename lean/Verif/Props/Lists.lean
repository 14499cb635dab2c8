import Verif.Props.Split
import Verif.Lemmas.Mongo
import Verif.Lemmas.Go
import Verif.Spec.Tree
import Verif.Demo
import Mathlib.Data.List.Chain

/-!
# C66: lists of lists in documents given as text
-/

namespace Mapl
open Spec

/-- Two characters that may follow each other in a text without `[[` and `]]`. -/
def Apart (a b : Char) : Prop := ¬ (a = '[' ∧ b = '[') ∧ ¬ (a = ']' ∧ b = ']')

theorem apart_of_absent {s : Str} (h : ∀ a b, s ≠ a ++ gs"[[" ++ b ∧ s ≠ a ++ gs"]]" ++ b) : s.IsChain Apart := by
  induction s with
  | nil => exact .nil
  | cons c s ih =>
    have hs := ih fun a b => ⟨fun e => (h (c :: a) b).1 (by simp [e]), fun e => (h (c :: a) b).2 (by simp [e])⟩
    cases s with
    | nil => exact .singleton _
    | cons d s =>
      refine .cons_cons ⟨?_, ?_⟩ hs
      · rintro ⟨rfl, rfl⟩; exact (h [] s).1 rfl
      · rintro ⟨rfl, rfl⟩; exact (h [] s).2 rfl

theorem absent_of_apart {s : Str} (h : s.IsChain Apart) : contains s gs"[[" = false ∧ contains s gs"]]" = false := by
  constructor
  · rw [contains_false]
    rintro ⟨a, b, rfl⟩
    rw [List.append_assoc] at h
    have := (List.isChain_append.1 h).2.1
    cases this with
    | cons_cons h _ => exact h.1 ⟨rfl, rfl⟩
  · rw [contains_false]
    rintro ⟨a, b, rfl⟩
    rw [List.append_assoc] at h
    have := (List.isChain_append.1 h).2.1
    cases this with
    | cons_cons h _ => exact h.2 ⟨rfl, rfl⟩

/-- A text that is empty, or begins with `{` and ends with `}`. -/
def Braced (s : Str) : Prop := s = [] ∨ s.head? = some '{' ∧ s.getLast? = some '}'

/-- The text of the elements of one of the lists. -/
structure Inner (s : Str) : Prop where
  apart : s.IsChain Apart
  braced : Braced s
  sep : contains s gs"],[" = false

theorem object_braced {s : Str} (h : ObjectText P s) : s.head? = some '{' ∧ s.getLast? = some '}' := by
  obtain ⟨l, _, _, rfl⟩ := h
  refine ⟨rfl, ?_⟩
  rw [List.getLast?_cons, List.getLast?_append]
  rfl

theorem inner_object {s : Str} (h : ObjectText P s) (hn : NoListOfLists s) : Inner s :=
  ⟨apart_of_absent fun a b => ⟨(hn a b).1, (hn a b).2.1⟩, .inr (object_braced h), contains_false.2 fun ⟨a, b, e⟩ => (hn a b).2.2 e⟩

theorem apart_join {x y : Str} {sep : Char} (h1 : sep ≠ '[') (h2 : sep ≠ ']') (hx : x.IsChain Apart) (hy : y.IsChain Apart) :
    (x ++ sep :: y).IsChain Apart := by
  refine List.isChain_append.2 ⟨hx, List.isChain_cons.2 ⟨fun b _ => ⟨fun e => h1 e.1, fun e => h2 e.1⟩, hy⟩, ?_⟩
  intro a _ b hb
  simp at hb; subst hb
  exact ⟨fun e => h1 e.2, fun e => h2 e.2⟩

theorem join_cons2 {sep x y : Str} {l : List Str} : join sep (x :: y :: l) = x ++ (sep ++ join sep (y :: l)) := by
  rw [join, List.append_assoc]

theorem sep_join {x y : Str} (hx : x.getLast? = some '}') (hy : y.head? = some '{') (h1 : contains x gs"],[" = false) (h2 : contains y gs"],[" = false) :
    contains (x ++ ',' :: y) gs"],[" = false := by
  obtain ⟨x', rfl⟩ := List.getLast?_eq_some_iff.1 hx
  obtain ⟨y', rfl⟩ : ∃ y', y = '{' :: y' := by
    cases y with
    | nil => simp at hy
    | cons c y => simp at hy; exact ⟨y, by rw [hy]⟩
  rw [← Bool.not_eq_true]
  intro h
  rw [List.append_assoc, List.singleton_append] at h
  rcases contains_split (by simp) h (by simp) with h | h
  · rw [contains_iff] at h
    obtain ⟨a, b, e⟩ := h
    exact contains_false.1 h1 ⟨a, b ++ gs"}", by simp [e]⟩
  · rw [show (',' :: '{' :: y') = gs"," ++ '{' :: y' from rfl] at h
    rcases contains_split (by simp) h (by simp) with h | h
    · simp [contains, index] at h
    · rw [contains_iff] at h
      obtain ⟨a, b, e⟩ := h
      exact contains_false.1 h2 ⟨'{' :: a, b, by simp [e]⟩

/-- The elements of one list. -/
theorem inner_join {l : List Str} (h : ∀ x ∈ l, Inner x ∧ x ≠ []) : Inner (join gs"," l) ∧ (l ≠ [] → join gs"," l ≠ []) := by
  induction l with
  | nil => exact ⟨⟨.nil, .inl rfl, rfl⟩, fun e => absurd rfl e⟩
  | cons x l ih =>
    obtain ⟨hx, hne⟩ := h x (by simp)
    cases l with
    | nil => exact ⟨hx, fun _ => hne⟩
    | cons y l =>
      obtain ⟨hr, hrne⟩ := ih fun z hz => h z (by simp [hz])
      have hrne := hrne (by simp)
      rw [join_cons2]
      obtain ⟨b1, b2⟩ := hx.braced.resolve_left hne
      obtain ⟨c1, c2⟩ := hr.braced.resolve_left hrne
      refine ⟨⟨apart_join (by decide) (by decide) hx.apart hr.apart, .inr ⟨?_, ?_⟩, sep_join b2 c1 hx.sep hr.sep⟩, fun _ => by simp⟩
      · rw [List.head?_append, b1]; rfl
      · rw [List.getLast?_append, List.getLast?_append, c2]; rfl

theorem apart_close {x : Str} (h : Inner x) : (x ++ gs"]").IsChain Apart := by
  refine List.isChain_append.2 ⟨h.apart, .singleton _, ?_⟩
  intro a ha b hb
  rcases h.braced with rfl | hb'
  · simp at ha
  · rw [hb'.2] at ha
    simp at ha; subst ha
    exact ⟨fun e => by simp at e, fun e => by simp at e⟩

theorem apart_open {x : Str} (hc : x.IsChain Apart) (h : x.head? ≠ some '[') : ('[' :: x).IsChain Apart := by
  refine List.isChain_cons.2 ⟨fun b hb => ⟨fun e => h (by rw [← e.2]; exact hb), fun e => by simp at e⟩, hc⟩

theorem inner_head {x : Str} (h : Inner x) (t : Str) (ht : t.head? ≠ some '[') : (x ++ t).head? ≠ some '[' := by
  rcases h.braced with rfl | hb
  · exact ht
  · rw [List.head?_append, hb.1]; simp

/-- The lists, separated by `],[`, with the last bracket. -/
def closeLists (xs : List Str) : Str := join gs"],[" xs ++ gs"]"

theorem closeLists_cons {x y : Str} {l : List Str} : closeLists (x :: y :: l) = x ++ (gs"],[" ++ closeLists (y :: l)) := by
  simp [closeLists, join_cons2]

theorem closeLists_head {xs : List Str} (h : ∀ x ∈ xs, Inner x) : (closeLists xs).head? ≠ some '[' := by
  cases xs with
  | nil => simp [closeLists, join]
  | cons x l =>
    cases l with
    | nil => exact inner_head (h x (by simp)) _ (by simp)
    | cons y l => rw [closeLists_cons]; exact inner_head (h x (by simp)) _ (by simp)

theorem apart_closeLists {xs : List Str} (h : ∀ x ∈ xs, Inner x) : (closeLists xs).IsChain Apart := by
  induction xs with
  | nil => exact .singleton _
  | cons x l ih =>
    cases l with
    | nil => exact apart_close (h x (by simp))
    | cons y l =>
      have ih := ih fun z hz => h z (by simp [hz])
      rw [closeLists_cons, show x ++ (gs"],[" ++ closeLists (y :: l)) = (x ++ gs"]") ++ ',' :: '[' :: closeLists (y :: l) by simp]
      exact apart_join (by decide) (by decide) (apart_close (h x (by simp))) (apart_open ih (closeLists_head fun z hz => h z (by simp [hz])))

theorem listsText_eq {ll : List (List Str)} (hne : ll ≠ []) : listsText ll = gs"[[" ++ closeLists (ll.map (join gs",")) ++ gs"]" := by
  suffices h : join gs"," (ll.map fun l => '[' :: (join gs"," l ++ gs"]")) = '[' :: closeLists (ll.map (join gs",")) by
    simp [listsText, h]
  induction ll with
  | nil => exact absurd rfl hne
  | cons l ll ih =>
    cases ll with
    | nil => simp [join, closeLists]
    | cons l' ll =>
      have ih := ih (by simp)
      simp only [List.map_cons] at ih ⊢
      rw [join_cons2, ih, closeLists_cons]
      simp

/-- `strings.Replace` passes over a text that does not contain what is replaced and ends with a brace. -/
theorem replaceAll_pass {x r : Str} (h : contains x gs"],[" = false) (hl : x = [] ∨ x.getLast? = some '}') :
    replaceAll (x ++ r) gs"],[" gs"," = x ++ replaceAll r gs"],[" gs"," := by
  induction x with
  | nil => rfl
  | cons c x ih =>
    have hl' : (c :: x).getLast? = some '}' := hl.resolve_left (by simp)
    have hx : x = [] ∨ x.getLast? = some '}' := by
      cases x with
      | nil => exact .inl rfl
      | cons d x => exact .inr (by simpa using hl')
    have hc : contains x gs"],[" = false := by
      rw [contains_false] at h ⊢
      rintro ⟨a, b, rfl⟩
      exact h ⟨c :: a, b, by simp⟩
    have hp : (gs"],[").isPrefixOf (c :: x ++ r) = false := by
      rw [← Bool.not_eq_true]
      intro hp
      rw [List.isPrefixOf_iff_prefix] at hp
      obtain ⟨t, ht⟩ := hp
      rw [contains_false] at h
      match x with
      | [] =>
        simp at hl' ht
        rw [hl'] at ht; simp at ht
      | [d] =>
        simp at hl' ht
        rw [hl'] at ht; simp at ht
      | d :: e :: x =>
        simp at ht
        obtain ⟨rfl, rfl, rfl, _⟩ := ht
        exact h ⟨[], x, rfl⟩
    have ih := ih hc hx
    unfold replaceAll at ih ⊢
    rw [List.cons_append, replaceAux, ← List.cons_append, hp]
    simp only [Bool.false_eq_true, if_false]
    rw [ih]
    rfl

theorem replaceAll_closeLists {xs : List Str} (h : ∀ x ∈ xs, Inner x) : replaceAll (closeLists xs) gs"],[" gs"," = join gs"," xs ++ gs"]" := by
  induction xs with
  | nil => rfl
  | cons x l ih =>
    have hx := h x (by simp)
    have hp : ∀ r, replaceAll (x ++ r) gs"],[" gs"," = x ++ replaceAll r gs"],[" gs"," := fun r =>
      replaceAll_pass hx.sep (hx.braced.imp id And.right)
    cases l with
    | nil =>
      change replaceAll (x ++ gs"]") _ _ = _
      rw [hp]
      rfl
    | cons y l =>
      have ih := ih fun z hz => h z (by simp [hz])
      rw [closeLists_cons, hp, join_cons2]
      have : replaceAll (gs"],[" ++ closeLists (y :: l)) gs"],[" gs"," = gs"," ++ replaceAll (closeLists (y :: l)) gs"],[" gs"," := by
        simp [replaceAll, replaceAux]
      rw [this, ih]
      simp

theorem apart_joined {xs : List Str} (h : ∀ x ∈ xs, Inner x) : (join gs"," xs ++ gs"]").IsChain Apart ∧ (join gs"," xs ++ gs"]").head? ≠ some '[' := by
  induction xs with
  | nil => exact ⟨.singleton _, by simp [join]⟩
  | cons x l ih =>
    have hx := h x (by simp)
    cases l with
    | nil => exact ⟨apart_close hx, inner_head hx _ (by simp)⟩
    | cons y l =>
      have ih := ih fun z hz => h z (by simp [hz])
      rw [join_cons2, List.append_assoc]
      exact ⟨apart_join (by decide) (by decide) hx.apart ih.1, inner_head hx _ (by simp)⟩

theorem scan_join {l : List Str} (h : ∀ x ∈ l, ObjectText Nested x) (r : Str) : scanObjects 0 none (join gs"," l ++ r) = l ++ scanObjects 0 none r := by
  induction l with
  | nil => rfl
  | cons x l ih =>
    have hx := h x (by simp)
    cases l with
    | nil => exact scan_object hx
    | cons y l =>
      rw [join_cons2, List.append_assoc, scan_object hx, List.append_assoc, scan_outside (by simp), ih fun z hz => h z (by simp [hz])]
      rfl

theorem scan_joins {ll : List (List Str)} (h : ∀ l ∈ ll, ∀ x ∈ l, ObjectText Nested x) (r : Str) :
    scanObjects 0 none (join gs"," (ll.map (join gs",")) ++ r) = ll.flatten ++ scanObjects 0 none r := by
  induction ll with
  | nil => rfl
  | cons l ll ih =>
    have hl := scan_join (h l (by simp))
    cases ll with
    | nil => simpa [join] using hl r
    | cons l' ll =>
      have ih := ih fun z hz => h z (by simp [hz])
      simp only [List.map_cons] at ih ⊢
      rw [join_cons2, List.append_assoc, hl, List.append_assoc, scan_outside (by simp), ih]
      simp

theorem replaceFirst_at {old new a b : Str} (hne : old ≠ []) (h : contains (a ++ old.dropLast) old = false) :
    replaceFirst old new (a ++ old ++ b) = a ++ new ++ b := by
  induction a with
  | nil =>
    obtain ⟨c, cs, rfl⟩ := List.exists_cons_of_ne_nil hne
    exact replaceFirst_prefix
  | cons c a ih =>
    have h' : contains (a ++ old.dropLast) old = false := by
      rw [contains_false] at h ⊢
      rintro ⟨x, y, e⟩
      exact h ⟨c :: x, y, by simp [e]⟩
    have hp : old.isPrefixOf (c :: a ++ old ++ b) = false := by
      rw [← Bool.not_eq_true]
      intro hp
      rw [List.isPrefixOf_iff_prefix] at hp
      apply contains_false.1 h
      have hq : old <+: c :: a ++ old.dropLast := by
        refine List.prefix_of_prefix_length_le hp (l₃ := c :: a ++ old ++ b) ⟨[old.getLast hne] ++ b, ?_⟩ ?_
        · rw [← List.append_assoc, List.append_assoc _ old.dropLast, List.dropLast_append_getLast hne]
        · simp
          omega
      obtain ⟨t, ht⟩ := hq
      exact ⟨[], t, by simpa using ht.symm⟩
    simp only [List.cons_append] at hp ⊢
    rw [replaceFirst, hp]
    simp only [Bool.false_eq_true, if_false]
    rw [ih h']

end Mapl

namespace Mapl.Props
open Spec

/-- The text of a list of lists of objects is split into the objects of all the lists, if no object has lists of lists in it. -/
theorem flatten_objects {env : Ext} {data : Str} {ll : List (List Str)} (hu : env.ugly data = listsText ll) (hd : 2 ≤ data.length) (hne : ll ≠ [])
    (h : ∀ l ∈ ll, ∀ x ∈ l, ObjectText Nested x ∧ NoListOfLists x) :
    ∃ s, getArrayFromArrayOfArrays env data = .ok (some s) ∧ getArrayOfJsonsFromInterfaceArray s = some ll.flatten := by
  have hin : ∀ x ∈ ll.map (join gs","), Inner x := by
    intro x hx
    obtain ⟨l, hl, rfl⟩ := List.mem_map.1 hx
    exact (inner_join fun x hx => ⟨inner_object (h l hl x hx).1 (h l hl x hx).2, fun e => by
      have := (object_braced (h l hl x hx).1).1
      rw [e] at this; simp at this⟩).1
  have hj := apart_joined hin
  have hfin := absent_of_apart (apart_open hj.1 hj.2)
  refine ⟨'[' :: (join gs"," (ll.map (join gs",")) ++ gs"]"), ?_, ?_⟩
  · unfold getArrayFromArrayOfArrays
    rw [if_neg (by omega), hu, listsText_eq hne]
    have e1 : replaceFirst gs"[[" gs"[" (gs"[[" ++ closeLists (ll.map (join gs",")) ++ gs"]") = '[' :: closeLists (ll.map (join gs",")) ++ gs"]" := by
      rw [List.append_assoc]
      exact replaceFirst_prefix
    have e2 : replaceFirst gs"]]" gs"]" ('[' :: closeLists (ll.map (join gs",")) ++ gs"]") = '[' :: closeLists (ll.map (join gs",")) := by
      have := replaceFirst_at (old := gs"]]") (new := gs"]") (a := '[' :: join gs"],[" (ll.map (join gs","))) (b := []) (by simp) (by
        have := (absent_of_apart (apart_open (apart_closeLists hin) (closeLists_head hin))).2
        simpa [closeLists] using this)
      simpa [closeLists] using this
    have e3 : replaceAll ('[' :: closeLists (ll.map (join gs","))) gs"],[" gs"," = '[' :: (join gs"," (ll.map (join gs",")) ++ gs"]") := by
      rw [← replaceAll_closeLists hin]
      simp [replaceAll, replaceAux]
    simp only [List.cons_append, List.nil_append] at e1 e2 ⊢
    simp only [ne_eq, not_true_eq_false, if_false]
    rw [e1, e2, e3, hfin.1, hfin.2]
    simp
  · change some (scanObjects 0 none (gs"[" ++ (join gs"," (ll.map (join gs",")) ++ gs"]"))) = _
    rw [scan_outside (by simp), scan_joins fun l hl x hx => (h l hl x hx).1]
    simp [scanObjects]

/-- **C66**, as far as it holds: for a document given as text whose selected part is a non-empty list of lists of objects, ANY and ALL range over
the objects of all the lists, in order — provided that no object contains a list of lists, nor text that looks like one, and that braces in
strings are balanced. -/
theorem C66_partial {env : Ext} {a : AnyAll} {m : Msg} {data : Str} {ll : List (List Str)} (hi : m.rawI = none ∨ a.queries = [])
    (hs : SelectedPart env a m data) (hu : env.ugly data = listsText ll) (hd : 2 ≤ data.length) (hne : ll ≠ [])
    (h : ∀ l ∈ ll, ∀ x ∈ l, ObjectText Nested x ∧ NoListOfLists x) :
    (∀ (ord : {α : Type} → List Nat → List α → List α) p,
      scopes { env with ord := ord } p a m = .ok (some (ll.flatten.map fun x => { m with jsonRawRel := some x }))) ∧
    (∀ n, Sat env (.any a n) m ↔ ∃ l ∈ ll, ∃ x ∈ l, Sat env n { m with jsonRawRel := some x }) ∧
    (∀ n, Sat env (.all a n) m ↔ ∀ l ∈ ll, ∀ x ∈ l, Sat env n { m with jsonRawRel := some x }) := by
  have hc : collectJsons env m [] true a.parentArr = .ok (some data) := by
    obtain ⟨q, raw, hq, hr⟩ := hs
    rw [hq]
    unfold collectJsons
    by_cases hrel : isRelativeParent q = true
    · rw [if_pos hrel] at hr ⊢
      rw [hr.1]
      simp [deref, hr.2, collectJsons, pure, Except.pure, bind, Except.bind]
    · rw [if_neg hrel] at hr ⊢
      rw [hr.1]
      simp [deref, hr.2, collectJsons, pure, Except.pure, bind, Except.bind]
  obtain ⟨s, h1, h2⟩ := flatten_objects hu hd hne h
  have key : ∀ (ord : {α : Type} → List Nat → List α → List α) p,
      scopes { env with ord := ord } p a m = .ok (some (ll.flatten.map fun x => { m with jsonRawRel := some x })) := by
    intro ord p
    unfold scopes
    rw [if_neg (by rintro ⟨e1, e2⟩; rcases hi with hi | hi; · simp [hi] at e1
                   · exact e2 hi)]
    unfold getArrayOfJsons
    dsimp only
    rw [hc]
    simp only [bind, Except.bind]
    rw [h1]
    simp only [h2]
    rfl
  have hp := key (fun _ l => l) []
  refine ⟨key, fun n => ?_, fun n => ?_⟩
  · rw [Sat, plain, hp]
    constructor
    · rintro ⟨l, e, m', hm, hsat⟩
      injection e with e; injection e with e
      subst e
      obtain ⟨x, hx, rfl⟩ := List.mem_map.1 hm
      obtain ⟨l, hl, hx⟩ := List.mem_flatten.1 hx
      exact ⟨l, hl, x, hx, hsat⟩
    · rintro ⟨l, hl, x, hx, hsat⟩
      exact ⟨_, rfl, _, List.mem_map.2 ⟨x, List.mem_flatten.2 ⟨l, hl, hx⟩, rfl⟩, hsat⟩
  · rw [Sat, plain, hp]
    constructor
    · rintro ⟨l', e, hall⟩ l hl x hx
      injection e with e; injection e with e
      subst e
      exact hall _ (List.mem_map.2 ⟨x, List.mem_flatten.2 ⟨l, hl, hx⟩, rfl⟩)
    · intro hall
      refine ⟨_, rfl, fun m' hm => ?_⟩
      obtain ⟨x, hx, rfl⟩ := List.mem_map.1 hm
      obtain ⟨l, hl, hx⟩ := List.mem_flatten.1 hx
      exact hall l hl x hx

theorem noListOfLists {s : Str} (h1 : contains s gs"[[" = false) (h2 : contains s gs"]]" = false) (h3 : contains s gs"],[" = false) : NoListOfLists s :=
  fun a b => ⟨fun e => contains_false.1 h1 ⟨a, b, e⟩, fun e => contains_false.1 h2 ⟨a, b, e⟩, fun e => contains_false.1 h3 ⟨a, b, e⟩⟩

/-- `{"c":[[{"n":[1]},{}],[],[{"n":"x"}]]}` with parent `$.c` -/
example : ∃ (a : AnyAll) (m : Msg) (data : Str) (ll : List (List Str)), (m.rawI = none ∨ a.queries = []) ∧ SelectedPart Demo.ext a m data ∧
    Demo.ext.ugly data = listsText ll ∧ 2 ≤ data.length ∧ ll ≠ [] ∧ (∀ l ∈ ll, ∀ x ∈ l, ObjectText Nested x ∧ NoListOfLists x) ∧
    ll.flatten = [gs"{\"n\":[1]}", gs"{}", gs"{\"n\":\"x\"}"] := by
  refine ⟨{ parentOrig := gs"jsonpath:$.c", parent := gs"$.c", parentArr := [gs"$.c"] }, { jsonRaw := some gs"{\"c\":[[{\"n\":[1]},{}],[],[{\"n\":\"x\"}]]}" },
    gs"[[{\"n\":[1]},{}],[],[{\"n\":\"x\"}]]", [[gs"{\"n\":[1]}", gs"{}"], [], [gs"{\"n\":\"x\"}"]], .inl rfl,
    ⟨gs"$.c", gs"{\"c\":[[{\"n\":[1]},{}],[],[{\"n\":\"x\"}]]}", rfl, ?_⟩, rfl, by decide, by simp, ?_, rfl⟩
  · rw [if_neg (by decide +kernel)]
    exact ⟨rfl, by decide +kernel⟩
  · simp only [List.mem_cons, List.not_mem_nil, or_false]
    rintro l (rfl | rfl | rfl) x hx
    · simp only [List.mem_cons, List.not_mem_nil, or_false] at hx
      rcases hx with rfl | rfl
      · exact ⟨object_text (k := gs"n") (by simp) (nested_plain (by simp)) (.arr (l := [gs"1"])
          (by simp only [List.mem_singleton, forall_eq]; exact .atom (by simp))),
          noListOfLists (by decide +kernel) (by decide +kernel) (by decide +kernel)⟩
      · exact ⟨⟨[], by simp, by simp, rfl⟩, noListOfLists (by decide +kernel) (by decide +kernel) (by decide +kernel)⟩
    · simp at hx
    · simp only [List.mem_cons, List.not_mem_nil, or_false] at hx
      subst hx
      exact ⟨object_text (k := gs"n") (by simp) (nested_plain (by simp)) (.str (s := gs"x") (quoted_plain (by simp)) (nested_plain (by simp))),
        noListOfLists (by decide +kernel) (by decide +kernel) (by decide +kernel)⟩

/-- A block rule: some element of `$.c` has `n` equal to the value. -/
def someN (v : Str) : RuleObj := Demo.rule gs"block" (some (Demo.anyOf gs"jsonpath:$.c" (Demo.cond gs"jsonpath:$RELATIVE.n" gs"EQ" v)))

set_option maxRecDepth 20000 in
/-- Violation of C66: a list of lists inside of one object makes the whole ANY fail for the text, while the parsed document is blocked. -/
theorem C66_violated : ∃ (r : RuleObj) (text : Str) (doc : Json) (o o' : RuleOut), Demo.env.jsonUnmarshal text = some doc ∧
    r.check Demo.env {} [] { rawI := some doc } = .ok o ∧ r.check Demo.env {} [] { jsonRaw := some text } = .ok o' ∧
    o.result = 3 ∧ o'.result = 0 := by
  obtain ⟨o, h1, h2⟩ : ∃ o, (someN gs"x").check Demo.env {} []
      { rawI := some (.obj [(gs"c", .arr [.arr [.obj [(gs"n", .str gs"y"), (gs"p", .arr [.arr [.num (.fin 1)]])]], .arr [.obj [(gs"n", .str gs"x")]]])]) } = .ok o ∧
      o.result = 3 := ⟨_, rfl, by decide +kernel⟩
  obtain ⟨o', h3, h4⟩ : ∃ o, (someN gs"x").check Demo.env {} []
      { jsonRaw := some gs"{\"c\":[[{\"n\":\"y\",\"p\":[[1]]}],[{\"n\":\"x\"}]]}" } = .ok o ∧ o.result = 0 := ⟨_, rfl, by decide +kernel⟩
  exact ⟨_, _, _, o, o', by with_unfolding_all rfl, h1, h3, h2, h4⟩

set_option maxRecDepth 20000 in
/-- Violation of C66: brackets in a string are changed, so that a rule blocks a document although the value it asks for is not in it. -/
theorem C66_violated_string : ∃ (r : RuleObj) (text : Str) (doc : Json) (o o' : RuleOut), Demo.env.jsonUnmarshal text = some doc ∧
    r.check Demo.env {} [] { rawI := some doc } = .ok o ∧ r.check Demo.env {} [] { jsonRaw := some text } = .ok o' ∧
    o.result = 0 ∧ o'.result = 3 := by
  obtain ⟨o, h1, h2⟩ : ∃ o, (someN gs"a,b").check Demo.env {} []
      { rawI := some (.obj [(gs"c", .arr [.arr [.obj [(gs"n", .str gs"a],[b")]]])]) } = .ok o ∧
      o.result = 0 := ⟨_, rfl, by decide +kernel⟩
  obtain ⟨o', h3, h4⟩ : ∃ o, (someN gs"a,b").check Demo.env {} []
      { jsonRaw := some gs"{\"c\":[[{\"n\":\"a],[b\"}]]}" } = .ok o ∧ o.result = 3 := ⟨_, rfl, by decide +kernel⟩
  exact ⟨_, _, _, o, o', by with_unfolding_all rfl, h1, h3, h2, h4⟩

end Mapl.Props

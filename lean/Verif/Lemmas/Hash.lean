import Verif.Model.Hash
import Verif.Spec.Hash
import Verif.Lemmas.Sort
import Verif.Lemmas.Go
import Verif.Lemmas.Convert
import Verif.Spec.Documents

/-! # Text forms of trees -/

namespace Mapl

open Spec

/-! ## Trees that are alike have the same text -/

mutual
theorem string_error : ∀ {n : Node} {e : Fail}, n.string = .error e → e = .panic .nilDeref
  | .nil, e, h => by simp [Node.string] at h; exact h.symm
  | .and ns, e, h => by
    simp only [Node.string, Go.bind_eq_error] at h
    rcases h with h | ⟨l, _, h⟩
    · exact stringNodes_error h
    · simp at h
  | .or ns, e, h => by
    simp only [Node.string, Go.bind_eq_error] at h
    rcases h with h | ⟨l, _, h⟩
    · exact stringNodes_error h
    · simp at h
  | .not n, e, h => by
    simp only [Node.string, Go.bind_eq_error] at h
    rcases h with h | ⟨l, _, h⟩
    · exact string_error h
    · simp at h
  | .any a n, e, h => by
    simp only [Node.string, Go.bind_eq_error] at h
    rcases h with h | ⟨l, _, h⟩
    · exact string_error h
    · simp at h
  | .all a n, e, h => by
    simp only [Node.string, Go.bind_eq_error] at h
    rcases h with h | ⟨l, _, h⟩
    · exact string_error h
    · simp at h
  | .tt, e, h => by simp [Node.string] at h
  | .ff, e, h => by simp [Node.string] at h
  | .cond c, e, h => by simp [Node.string] at h

theorem stringNodes_error : ∀ {ns : List Node} {e : Fail}, stringNodes ns = .error e → e = .panic .nilDeref
  | [], e, h => by simp [stringNodes] at h
  | n :: ns, e, h => by
    simp only [stringNodes, Go.bind_eq_error] at h
    rcases h with h | ⟨s, _, h | ⟨l, _, h⟩⟩
    · exact string_error h
    · exact stringNodes_error h
    · simp at h
end

theorem stringNodes_ok {ns : List Node} {l : List Str} : stringNodes ns = .ok l ↔ List.Forall₂ (fun n s => n.string = .ok s) ns l := by
  induction ns generalizing l with
  | nil => simp [stringNodes, eq_comm]
  | cons n ns ih =>
    simp only [stringNodes, Go.bind_eq_ok]
    constructor
    · rintro ⟨s, hs, l', hl, h⟩
      simp at h
      subst h
      exact .cons hs (ih.1 hl)
    · intro h
      cases h with
      | cons hs hl => exact ⟨_, hs, _, ih.2 hl, rfl⟩

theorem stringNodes_perm {ns ns' : List Node} (h : ns.Perm ns') :
    (∃ l l', stringNodes ns = .ok l ∧ stringNodes ns' = .ok l' ∧ l.Perm l') ∨ stringNodes ns = stringNodes ns' := by
  have err : ∀ {ns ns' : List Node}, ns.Perm ns' → ∀ l, stringNodes ns = .ok l → ∃ l', stringNodes ns' = .ok l' ∧ l.Perm l' := by
    intro ns ns' h
    induction h with
    | nil => intro l hl; exact ⟨l, hl, .refl _⟩
    | cons n hp ih =>
      intro l hl
      cases stringNodes_ok.1 hl with
      | cons hs hq =>
        obtain ⟨l', h1, h2⟩ := ih _ (stringNodes_ok.2 hq)
        exact ⟨_, stringNodes_ok.2 (.cons hs (stringNodes_ok.1 h1)), h2.cons _⟩
    | swap a b l =>
      intro l hl
      cases stringNodes_ok.1 hl with
      | cons hs hq =>
        cases hq with
        | cons hs' hq => exact ⟨_, stringNodes_ok.2 (.cons hs' (.cons hs hq)), .swap _ _ _⟩
    | trans _ _ ih1 ih2 =>
      intro l hl
      obtain ⟨l1, h1, p1⟩ := ih1 l hl
      obtain ⟨l2, h2, p2⟩ := ih2 l1 h1
      exact ⟨l2, h2, p1.trans p2⟩
  cases hl : stringNodes ns with
  | ok l =>
    obtain ⟨l', h1, h2⟩ := err h l hl
    exact .inl ⟨l, l', rfl, h1, h2⟩
  | error e =>
    cases hl' : stringNodes ns' with
    | ok l' =>
      obtain ⟨l, h1, _⟩ := err h.symm l' hl'
      rw [hl] at h1
      exact absurd h1 (by simp)
    | error e' => right; rw [stringNodes_error hl, stringNodes_error hl']

theorem andOrString_perm {l l' : List Str} (h : l.Perm l') (sep : Str) : andOrString l sep = andOrString l' sep := by
  match l, l', h with
  | [], l', h => rw [List.nil_perm.1 h]
  | [s], l', h => rw [List.singleton_perm.1 h]
  | x :: y :: l, [], h => exact absurd h.length_eq (by simp)
  | x :: y :: l, [z], h => exact absurd h.length_eq (by simp)
  | x :: y :: l, z :: w :: l', h => simp only [andOrString]; rw [sortStrings_perm h]

theorem fmtStringMap_perm {l l' : List (Str × Str)} (h : l.Perm l') (hd : (l.map (·.1)).Nodup) : fmtStringMap l = fmtStringMap l' := by
  unfold fmtStringMap
  rw [sortBy_eq (fun a b => strLe_total a.1 b.1) (fun a b c => strLe_trans a.1 b.1 c.1) h]
  intro a ha b hb h1 h2
  exact List.inj_on_of_nodup_map hd ha hb (strLe_antisymm _ _ h1 h2)

theorem anyAllString_perm {a : AnyAll} {ret : List RetVal} (hd : (a.ret.map (·.name)).Nodup) (hr : a.ret.Perm ret) (kw s : Str) :
    anyAllString kw a s = anyAllString kw { a with ret := ret } s := by
  unfold anyAllString
  rw [fmtStringMap_perm (l := retOrig a.ret) (l' := retOrig ret)]
  · exact hr.map _
  · simpa [retOrig, Function.comp_def] using hd

mutual
theorem string_alike {n n' : Node} : Alike n n' → n.string = n'.string
  | .refl => rfl
  | .symm h => (string_alike h).symm
  | .trans h h' => (string_alike h).trans (string_alike h')
  | .andOne => by
    simp only [Node.string, stringNodes, bind_assoc]
    cases n'.string <;> rfl
  | .orOne => by
    simp only [Node.string, stringNodes, bind_assoc]
    cases n'.string <;> rfl
  | .andPerm h => by
    simp only [Node.string]
    rcases stringNodes_perm h with ⟨l, l', h1, h2, hp⟩ | h
    · rw [h1, h2, Go.ok_bind, Go.ok_bind, andOrString_perm hp]
    · rw [h]
  | .orPerm h => by
    simp only [Node.string]
    rcases stringNodes_perm h with ⟨l, l', h1, h2, hp⟩ | h
    · rw [h1, h2, Go.ok_bind, Go.ok_bind, andOrString_perm hp]
    · rw [h]
  | .and h => by simp only [Node.string]; rw [strings_alike h]
  | .or h => by simp only [Node.string]; rw [strings_alike h]
  | .not h => by simp only [Node.string]; rw [string_alike h]
  | .any hd hr h => by
    simp only [Node.string]; rw [string_alike h]
    simp only [anyAllString_perm hd hr]
  | .all hd hr h => by
    simp only [Node.string]; rw [string_alike h]
    simp only [anyAllString_perm hd hr]

theorem strings_alike {ns ns' : List Node} : AlikeAll ns ns' → stringNodes ns = stringNodes ns'
  | .nil => rfl
  | .cons h hs => by simp only [stringNodes]; rw [string_alike h, strings_alike hs]
end

/-! ## Reading texts back -/

/-- What can follow the text of a node. -/
def After (r : Str) : Prop := r = [] ∨ ∃ c t, r = c :: t ∧ c ∈ [' ', ')', ']']

theorem after_of {c : Char} {t : Str} (h : c ∈ [' ', ')', ']']) : After (c :: t) := .inr ⟨c, t, rfl, h⟩

theorem split_unique {c : Char} {x x' r r' : Str} (hx : c ∉ x) (hx' : c ∉ x') (h : x ++ c :: r = x' ++ c :: r') : x = x' ∧ r = r' := by
  induction x generalizing x' with
  | nil =>
    cases x' with
    | nil => simpa using h
    | cons a x' => simp at h; simp [h.1] at hx'
  | cons a x ih =>
    cases x' with
    | nil => simp at h; simp [h.1] at hx
    | cons b x' =>
      simp only [List.mem_cons, not_or] at hx hx'
      simp only [List.cons_append, List.cons.injEq] at h
      obtain ⟨h1, h2⟩ := ih hx.2 hx'.2 h.2
      exact ⟨by rw [h.1, h1], h2⟩

/-- A text ends at the first `>` that is followed by the end or by a blank, `)` or `]`. -/
theorem value_unique {v v' r r' : Str} (hv : PlainValue v) (hv' : PlainValue v') (hr : After r) (hr' : After r') (h : v ++ '>' :: r = v' ++ '>' :: r') :
    v = v' ∧ r = r' := by
  have key : ∀ {v v' r r' : Str} {w : Str}, PlainValue v' → After r → v' = v ++ '>' :: w → r = w ++ '>' :: r' → False := by
    intro v v' r r' w hv' hr h1 h2
    rcases hr with rfl | ⟨c, t, rfl, hc⟩
    · simp at h2
    · cases w with
      | nil =>
        simp only [List.nil_append, List.cons.injEq] at h2
        rw [h2.1] at hc
        exact absurd hc (by decide)
      | cons d w =>
        simp only [List.cons_append, List.cons.injEq] at h2
        obtain ⟨rfl, _⟩ := h2
        exact hv' v c w h1 hc
  rcases List.append_eq_append_iff.1 h with ⟨w, h1, h2⟩ | ⟨w, h1, h2⟩
  · cases w with
    | nil => simp at h1 h2; exact ⟨h1.symm, h2⟩
    | cons d w =>
      simp only [List.cons_append, List.cons.injEq] at h2
      obtain ⟨rfl, h2⟩ := h2
      exact (key hv' hr h1 h2).elim
  · cases w with
    | nil => simp at h1 h2; exact ⟨h1, h2.symm⟩
    | cons d w =>
      simp only [List.cons_append, List.cons.injEq] at h2
      obtain ⟨rfl, h2⟩ := h2
      exact (key hv hr' h1 h2).elim

theorem methods_no_dash : ∀ m ∈ allMethods, '-' ∉ m := by decide

theorem attr_unique {a a' m m' r r' : Str} (ha : PlainAttr a) (ha' : PlainAttr a') (hm : m ∈ allMethods) (hm' : m' ∈ allMethods)
    (h : a ++ '-' :: (m ++ '-' :: r) = a' ++ '-' :: (m' ++ '-' :: r')) : a = a' ∧ m = m' ∧ r = r' := by
  have key : ∀ {a a' m r s w : Str}, PlainAttr a' → m ∈ allMethods → a' = a ++ '-' :: w → m ++ '-' :: r = w ++ '-' :: s → False := by
    intro a a' m r s w ha' hm h1 h2
    have hd := methods_no_dash m hm
    rcases List.append_eq_append_iff.1 h2 with ⟨x, e1, e2⟩ | ⟨x, e1, e2⟩
    · refine ha' m hm ?_
      cases x with
      | nil =>
        simp only [List.append_nil] at e1
        subst e1
        exact ⟨a, [], by simp [h1]⟩
      | cons d x =>
        simp only [List.cons_append, List.cons.injEq] at e2
        obtain ⟨rfl, _⟩ := e2
        exact ⟨a, x ++ gs"-", by simp [h1, e1]⟩
    · cases x with
      | nil =>
        simp only [List.append_nil] at e1
        subst e1
        exact ha' _ hm ⟨a, [], by simp [h1]⟩
      | cons d x =>
        simp only [List.cons_append, List.cons.injEq] at e2
        obtain ⟨rfl, _⟩ := e2
        exact hd (by rw [e1]; simp)
  have fin : ∀ {m m' : Str}, m ∈ allMethods → m' ∈ allMethods → m ++ '-' :: r = m' ++ '-' :: r' → m = m' ∧ r = r' :=
    fun hm hm' h => split_unique (methods_no_dash _ hm) (methods_no_dash _ hm') h
  rcases List.append_eq_append_iff.1 h with ⟨w, h1, h2⟩ | ⟨w, h1, h2⟩
  · cases w with
    | nil =>
      simp at h1 h2
      exact ⟨h1.symm, fin hm hm' h2⟩
    | cons d w =>
      simp only [List.cons_append, List.cons.injEq] at h2
      obtain ⟨rfl, h2⟩ := h2
      exact (key ha' hm h1 h2).elim
  · cases w with
    | nil =>
      simp at h1 h2
      exact ⟨h1, fin hm hm' h2.symm⟩
    | cons d w =>
      simp only [List.cons_append, List.cons.injEq] at h2
      obtain ⟨rfl, h2⟩ := h2
      exact (key ha hm' h1 h2).elim

/-- The text of one entry, followed by the next entry or the end of the map. -/
theorem query_unique {q q' r r' : Str} (hq : PlainQuery q) (hq' : PlainQuery q') (hr : (∃ t, r = ' ' :: t) ∨ ∃ t, r = gs"]>:" ++ t)
    (hr' : (∃ t, r' = ' ' :: t) ∨ ∃ t, r' = gs"]>:" ++ t) (h : q ++ r = q' ++ r') : q = q' ∧ r = r' := by
  have key : ∀ {q q' r r' w : Str} {d : Char}, PlainQuery q' → ((∃ t, r = ' ' :: t) ∨ ∃ t, r = gs"]>:" ++ t) → ((∃ t, r' = ' ' :: t) ∨ ∃ t, r' = gs"]>:" ++ t) →
      q' = q ++ d :: w → r = d :: w ++ r' → False := by
    intro q q' r r' w d hq' hr hr' h1 h2
    rcases hr with ⟨t, rfl⟩ | ⟨t, rfl⟩
    · simp only [List.cons_append, List.cons.injEq] at h2
      obtain ⟨rfl, _⟩ := h2
      exact hq'.1 (by rw [h1]; simp)
    · simp only [List.cons_append, List.cons.injEq, List.nil_append] at h2
      obtain ⟨rfl, h2⟩ := h2
      match w, h2 with
      | [], h2 =>
        rcases hr' with ⟨t', rfl⟩ | ⟨t', rfl⟩ <;> simp at h2
      | [a], h2 =>
        simp only [List.cons_append, List.cons.injEq, List.nil_append] at h2
        rcases hr' with ⟨t', rfl⟩ | ⟨t', rfl⟩ <;> simp at h2
      | a :: b :: w, h2 =>
        simp only [List.cons_append, List.cons.injEq] at h2
        obtain ⟨rfl, rfl, _⟩ := h2
        exact hq'.2 ⟨q, w, by simp [h1]⟩
  rcases List.append_eq_append_iff.1 h with ⟨w, h1, h2⟩ | ⟨w, h1, h2⟩
  · cases w with
    | nil => simp at h1 h2; exact ⟨h1.symm, h2⟩
    | cons d w => exact (key hq' hr hr' h1 h2).elim
  · cases w with
    | nil => simp at h1 h2; exact ⟨h1, h2.symm⟩
    | cons d w => exact (key hq hr' hr h1 h2).elim

/-- Entries of a map, one after the other. -/
def entries (l : List (Str × Str)) : Str := join gs" " (l.map fun x => x.1 ++ gs":" ++ x.2)

theorem entries_cons (x : Str × Str) (l : List (Str × Str)) : ∀ t, ∃ r, entries (x :: l) ++ (gs"]>:" ++ t) = x.1 ++ ':' :: (x.2 ++ r) ∧
    ((l = [] ∧ r = gs"]>:" ++ t) ∨ (l ≠ [] ∧ r = ' ' :: (entries l ++ (gs"]>:" ++ t)))) := by
  intro t
  cases l with
  | nil => exact ⟨_, by simp [entries, join], .inl ⟨rfl, rfl⟩⟩
  | cons y l => exact ⟨_, by simp [entries, join], .inr ⟨by simp, rfl⟩⟩

theorem entries_unique : ∀ {l l' : List (Str × Str)} {t t' : Str}, (∀ x ∈ l, PlainName x.1 ∧ PlainQuery x.2) → (∀ x ∈ l', PlainName x.1 ∧ PlainQuery x.2) →
    entries l ++ (gs"]>:" ++ t) = entries l' ++ (gs"]>:" ++ t') → l = l' ∧ t = t'
  | [], [], t, t', _, _, h => by simpa [entries, join] using h
  | [], x :: l, t, t', _, hl, h => by
    obtain ⟨r, e, _⟩ := entries_cons x l t'
    rw [e] at h
    have hn := (hl x (by simp)).1
    cases hx : x.1 with
    | nil => rw [hx] at h; simp [entries, join] at h
    | cons c k =>
      rw [hx] at h hn
      simp [entries, join] at h
      exact absurd hn.2.2 (by rw [← h.1]; simp)
  | x :: l, [], t, t', hl, _, h => by
    obtain ⟨r, e, _⟩ := entries_cons x l t
    rw [e] at h
    have hn := (hl x (by simp)).1
    cases hx : x.1 with
    | nil => rw [hx] at h; simp [entries, join] at h
    | cons c k =>
      rw [hx] at h hn
      simp [entries, join] at h
      exact absurd hn.2.2 (by simp [h.1])
  | x :: l, x' :: l', t, t', hl, hl', h => by
    obtain ⟨r, e, hr⟩ := entries_cons x l t
    obtain ⟨r', e', hr'⟩ := entries_cons x' l' t'
    rw [e, e'] at h
    obtain ⟨h1, h⟩ := split_unique (hl x (by simp)).1.1 (hl' x' (by simp)).1.1 h
    have form : ∀ {l : List (Str × Str)} {r t : Str}, ((l = [] ∧ r = gs"]>:" ++ t) ∨ (l ≠ [] ∧ r = ' ' :: (entries l ++ (gs"]>:" ++ t)))) →
        (∃ t, r = ' ' :: t) ∨ ∃ t, r = gs"]>:" ++ t := by
      rintro l r t (⟨_, h⟩ | ⟨_, h⟩)
      · exact .inr ⟨_, h⟩
      · exact .inl ⟨_, h⟩
    obtain ⟨h2, h3⟩ := query_unique (hl x (by simp)).2 (hl' x' (by simp)).2 (form hr) (form hr') h
    have hx : x = x' := Prod.ext h1 h2
    subst hx
    rcases hr with ⟨rfl, rfl⟩ | ⟨_, rfl⟩ <;> rcases hr' with ⟨rfl, rfl⟩ | ⟨_, rfl⟩
    · exact ⟨rfl, by simpa using h3⟩
    · simp at h3
    · simp at h3
    · simp only [List.cons.injEq, true_and] at h3
      obtain ⟨rfl, ht⟩ := entries_unique (fun y hy => hl y (by simp [hy])) (fun y hy => hl' y (by simp [hy])) h3
      exact ⟨rfl, ht⟩

/-! ## Normal forms -/

/-- The text of a tree. -/
def txt (n : Node) : Str :=
  match n.string with
  | .ok s => s
  | .error _ => []

theorem txt_of {n : Node} {s : Str} (h : n.string = .ok s) : txt n = s := by unfold txt; rw [h]

theorem plain_string {env : Ext} {n : Node} (h : Plain env n) : n.string = .ok (txt n) := by
  have list : ∀ {ns : List Node}, (∀ n ∈ ns, n.string = .ok (txt n)) → stringNodes ns = .ok (ns.map txt) := by
    intro ns h
    rw [stringNodes_ok]
    induction ns with
    | nil => exact .nil
    | cons n ns ih => exact .cons (h n (by simp)) (ih fun m hm => h m (by simp [hm]))
  suffices ∃ s, n.string = .ok s by
    obtain ⟨s, hs⟩ := this
    rw [txt_of hs, hs]
  induction h with
  | cond => exact ⟨_, rfl⟩
  | and hne h ih => exact ⟨_, by rw [Node.string, list fun n hn => by obtain ⟨s, hs⟩ := ih n hn; rw [txt_of hs, hs]]; rfl⟩
  | or hne h ih => exact ⟨_, by rw [Node.string, list fun n hn => by obtain ⟨s, hs⟩ := ih n hn; rw [txt_of hs, hs]]; rfl⟩
  | not h ih => obtain ⟨s, hs⟩ := ih; exact ⟨_, by rw [Node.string, hs]; rfl⟩
  | any _ _ _ _ h ih => obtain ⟨s, hs⟩ := ih; exact ⟨_, by rw [Node.string, hs]; rfl⟩
  | all _ _ _ _ h ih => obtain ⟨s, hs⟩ := ih; exact ⟨_, by rw [Node.string, hs]; rfl⟩
  | tt => exact ⟨_, rfl⟩
  | ff => exact ⟨_, rfl⟩

/-- The order of children. -/
def nodeLe (a b : Node) : Bool := strLe (txt a) (txt b)

def pairLe (a b : Str × Str) : Bool := strLe a.1 b.1

/-- Plain trees in which connectives have at least two children, in the order of their texts, and return values are in the order of their names. -/
inductive Norm (env : Ext) : Node → Prop
  | cond {a m v : Str} (hm : m ∈ allMethods) (ha : PlainAttr a) (hv : PlainValue v) : Norm env (condNode env a m v none)
  | and {ns : List Node} (h2 : 2 ≤ ns.length) (hs : ns.Pairwise fun a b => nodeLe a b = true) (h : ∀ n ∈ ns, Norm env n) : Norm env (.and ns)
  | or {ns : List Node} (h2 : 2 ≤ ns.length) (hs : ns.Pairwise fun a b => nodeLe a b = true) (h : ∀ n ∈ ns, Norm env n) : Norm env (.or ns)
  | not {n : Node} (h : Norm env n) : Norm env (.not n)
  | any {parent : Str} {ret : List (Str × Str)} {n : Node} (hne : parent ≠ []) (hp : ';' ∉ parent) (hs : ret.Pairwise fun a b => pairLe a b = true)
      (hr : ∀ x ∈ ret, PlainName x.1 ∧ PlainQuery x.2) (h : Norm env n) : Norm env (.any (anyFields env parent ret) n)
  | all {parent : Str} {ret : List (Str × Str)} {n : Node} (hne : parent ≠ []) (hp : ';' ∉ parent) (hs : ret.Pairwise fun a b => pairLe a b = true)
      (hr : ∀ x ∈ ret, PlainName x.1 ∧ PlainQuery x.2) (h : Norm env n) : Norm env (.all (anyFields env parent ret) n)
  | tt : Norm env .tt
  | ff : Norm env .ff

theorem alikeAll_of {ns ns' : List Node} (h : List.Forall₂ Alike ns ns') : AlikeAll ns ns' := by
  induction h with
  | nil => exact .nil
  | cons h _ ih => exact .cons h ih

theorem forall₂_choose {α β : Type} {R : α → β → Prop} : ∀ {l : List α}, (∀ x ∈ l, ∃ y, R x y) → ∃ l', List.Forall₂ R l l'
  | [], _ => ⟨[], .nil⟩
  | x :: l, h => by
    obtain ⟨y, hy⟩ := h x (by simp)
    obtain ⟨l', hl⟩ := forall₂_choose fun z hz => h z (List.mem_cons_of_mem _ hz)
    exact ⟨y :: l', .cons hy hl⟩

theorem forall₂_right {α β : Type} {R : α → β → Prop} {l : List α} {l' : List β} (h : List.Forall₂ R l l') : ∀ y ∈ l', ∃ x ∈ l, R x y := by
  induction h with
  | nil => simp
  | cons hx _ ih =>
    intro y hy
    rcases List.mem_cons.1 hy with rfl | hy
    · exact ⟨_, by simp, hx⟩
    · obtain ⟨x, h1, h2⟩ := ih y hy; exact ⟨x, by simp [h1], h2⟩

theorem anyFields_ret {env : Ext} {parent : Str} {ret ret' : List (Str × Str)} (hd : (ret.map (·.1)).Nodup) (hp : ret.Perm ret') :
    ((anyFields env parent ret).ret.map (·.name)).Nodup ∧ (anyFields env parent ret).ret.Perm (ret'.map (anyRetVal env)) ∧
    anyFields env parent ret' = { anyFields env parent ret with ret := ret'.map (anyRetVal env) } := by
  refine ⟨?_, hp.map _, rfl⟩
  have : (fun x => x.1 : Str × Str → Str) = RetVal.name ∘ anyRetVal env := rfl
  simpa [anyFields, this] using hd

/-- Every plain tree is like a normal one. -/
theorem norm_exists {env : Ext} {n : Node} (h : Plain env n) : ∃ n', Norm env n' ∧ Alike n n' := by
  have tot : ∀ a b : Node, nodeLe a b = true ∨ nodeLe b a = true := fun a b => strLe_total _ _
  have tr : ∀ a b c : Node, nodeLe a b = true → nodeLe b c = true → nodeLe a c = true := fun a b c => strLe_trans _ _ _
  induction h with
  | cond hm ha hv => exact ⟨_, .cond hm ha hv, .refl⟩
  | @and ns hne h ih =>
    obtain ⟨ns', hns⟩ := forall₂_choose ih
    have all : ∀ y ∈ ns', Norm env y := fun y hy => by obtain ⟨x, _, h, _⟩ := forall₂_right hns y hy; exact h
    have hal : Alike (.and ns) (.and ns') := .and (alikeAll_of (hns.imp fun _ _ h => h.2))
    have hlen := hns.length_eq
    match ns', hlen with
    | [], hlen => simp at hlen; exact absurd hlen hne
    | [x], _ => exact ⟨x, all x (by simp), .trans hal .andOne⟩
    | x :: y :: l, _ =>
      have hp := sortBy_perm (le := nodeLe) (x :: y :: l)
      exact ⟨_, .and (by rw [hp.length_eq]; simp) (sortBy_sorted tot tr _) (fun n hn => all n (hp.mem_iff.1 hn)), .trans hal (.andPerm hp.symm)⟩
  | @or ns hne h ih =>
    obtain ⟨ns', hns⟩ := forall₂_choose ih
    have all : ∀ y ∈ ns', Norm env y := fun y hy => by obtain ⟨x, _, h, _⟩ := forall₂_right hns y hy; exact h
    have hal : Alike (.or ns) (.or ns') := .or (alikeAll_of (hns.imp fun _ _ h => h.2))
    have hlen := hns.length_eq
    match ns', hlen with
    | [], hlen => simp at hlen; exact absurd hlen hne
    | [x], _ => exact ⟨x, all x (by simp), .trans hal .orOne⟩
    | x :: y :: l, _ =>
      have hp := sortBy_perm (le := nodeLe) (x :: y :: l)
      exact ⟨_, .or (by rw [hp.length_eq]; simp) (sortBy_sorted tot tr _) (fun n hn => all n (hp.mem_iff.1 hn)), .trans hal (.orPerm hp.symm)⟩
  | not _ ih => obtain ⟨n', h1, h2⟩ := ih; exact ⟨_, .not h1, .not h2⟩
  | @any parent ret n hne hp hd hr _ ih =>
    obtain ⟨n', h1, h2⟩ := ih
    have hpr := sortBy_perm (le := pairLe) ret
    obtain ⟨f1, f2, f3⟩ := anyFields_ret (env := env) (parent := parent) hd hpr.symm
    refine ⟨.any (anyFields env parent (sortBy pairLe ret)) n', .any hne hp (sortBy_sorted (fun a b => strLe_total a.1 b.1) (fun a b c => strLe_trans a.1 b.1 c.1) _)
      (fun x hx => hr x (hpr.mem_iff.1 hx)) h1, ?_⟩
    rw [f3]
    exact .any f1 f2 h2
  | @all parent ret n hne hp hd hr _ ih =>
    obtain ⟨n', h1, h2⟩ := ih
    have hpr := sortBy_perm (le := pairLe) ret
    obtain ⟨f1, f2, f3⟩ := anyFields_ret (env := env) (parent := parent) hd hpr.symm
    refine ⟨.all (anyFields env parent (sortBy pairLe ret)) n', .all hne hp (sortBy_sorted (fun a b => strLe_total a.1 b.1) (fun a b c => strLe_trans a.1 b.1 c.1) _)
      (fun x hx => hr x (hpr.mem_iff.1 hx)) h1, ?_⟩
    rw [f3]
    exact .all f1 f2 h2
  | tt => exact ⟨_, .tt, .refl⟩
  | ff => exact ⟨_, .ff, .refl⟩

/-! ## Texts of normal trees -/

theorem norm_string {env : Ext} {n : Node} (h : Norm env n) : n.string = .ok (txt n) := by
  have list : ∀ {ns : List Node}, (∀ n ∈ ns, n.string = .ok (txt n)) → stringNodes ns = .ok (ns.map txt) := by
    intro ns h
    rw [stringNodes_ok]
    induction ns with
    | nil => exact .nil
    | cons n ns ih => exact .cons (h n (by simp)) (ih fun m hm => h m (by simp [hm]))
  suffices ∃ s, n.string = .ok s by
    obtain ⟨s, hs⟩ := this
    rw [txt_of hs, hs]
  induction h with
  | cond => exact ⟨_, rfl⟩
  | and _ _ h ih => exact ⟨_, by rw [Node.string, list fun n hn => by obtain ⟨s, hs⟩ := ih n hn; rw [txt_of hs, hs]]; rfl⟩
  | or _ _ h ih => exact ⟨_, by rw [Node.string, list fun n hn => by obtain ⟨s, hs⟩ := ih n hn; rw [txt_of hs, hs]]; rfl⟩
  | not h ih => obtain ⟨s, hs⟩ := ih; exact ⟨_, by rw [Node.string, hs]; rfl⟩
  | any _ _ _ _ h ih => obtain ⟨s, hs⟩ := ih; exact ⟨_, by rw [Node.string, hs]; rfl⟩
  | all _ _ _ _ h ih => obtain ⟨s, hs⟩ := ih; exact ⟨_, by rw [Node.string, hs]; rfl⟩
  | tt => exact ⟨_, rfl⟩
  | ff => exact ⟨_, rfl⟩

theorem norm_strings {env : Ext} {ns : List Node} (h : ∀ n ∈ ns, Norm env n) : stringNodes ns = .ok (ns.map txt) := by
  rw [stringNodes_ok]
  induction ns with
  | nil => exact .nil
  | cons n ns ih => exact .cons (norm_string (h n (by simp))) (ih fun m hm => h m (by simp [hm]))

/-- What follows the text of the first child. -/
def seqTail (sep : Str) (r : Str) : List Node → Str
  | [] => ')' :: r
  | n :: ns => sep ++ (txt n ++ seqTail sep r ns)

theorem join_tail (sep r : Str) : ∀ (n : Node) (ns : List Node), join sep ((n :: ns).map txt) ++ ')' :: r = txt n ++ seqTail sep r ns
  | n, [] => by simp [join, seqTail]
  | n, m :: ns => by
    have := join_tail sep r m ns
    simp only [List.map_cons, join, List.append_assoc, seqTail] at this ⊢
    rw [this]

theorem sorted_texts {ns : List Node} (h : ns.Pairwise fun a b => nodeLe a b = true) : sortStrings (ns.map txt) = ns.map txt := by
  refine sortBy_id ?_
  rw [List.pairwise_map]
  exact h

theorem andOr_text {ns : List Node} (h2 : 2 ≤ ns.length) (hs : ns.Pairwise fun a b => nodeLe a b = true) (sep r : Str) :
    ∃ n m l, ns = n :: m :: l ∧ andOrString (ns.map txt) sep ++ r = '(' :: (txt n ++ seqTail sep r (m :: l)) := by
  match ns, h2 with
  | n :: m :: l, _ =>
    refine ⟨n, m, l, rfl, ?_⟩
    have : andOrString ((n :: m :: l).map txt) sep = gs"(" ++ join sep (sortStrings ((n :: m :: l).map txt)) ++ gs")" := rfl
    rw [this, sorted_texts hs]
    have := join_tail sep r n (m :: l)
    rw [← this]
    simp

theorem txt_and {env : Ext} {ns : List Node} (h : ∀ n ∈ ns, Norm env n) : txt (.and ns) = andOrString (ns.map txt) gs" && " :=
  txt_of (by rw [Node.string, norm_strings h]; rfl)

theorem txt_or {env : Ext} {ns : List Node} (h : ∀ n ∈ ns, Norm env n) : txt (.or ns) = andOrString (ns.map txt) gs" || " :=
  txt_of (by rw [Node.string, norm_strings h]; rfl)

theorem txt_not {env : Ext} {n : Node} (h : Norm env n) : txt (.not n) = gs"!(" ++ txt n ++ gs")" :=
  txt_of (by rw [Node.string, norm_string h]; rfl)

theorem txt_cond (env : Ext) (a m v : Str) : txt (condNode env a m v none) = '<' :: (a ++ '-' :: (m ++ '-' :: (v ++ gs">"))) :=
  txt_of (by simp [condNode, Node.string, Condition.string, parsed_eq, orOrig])

theorem retOrig_any (env : Ext) (ret : List (Str × Str)) : retOrig (ret.map (anyRetVal env)) = ret := by
  simp [retOrig, Function.comp_def, anyRetVal]

theorem anyAll_text {env : Ext} {parent : Str} {ret : List (Str × Str)} (hne : parent ≠ []) (hs : ret.Pairwise fun a b => pairLe a b = true) (kw s r : Str) :
    anyAllString kw (anyFields env parent ret) s ++ r = '[' :: (kw ++ '<' :: (parent ++ ';' :: (gs"map[" ++ (entries ret ++ (gs"]>:" ++ (s ++ ']' :: r)))))) := by
  have h1 : orOrig (anyFields env parent ret).parent (anyFields env parent ret).parentOrig = parent := by
    unfold orOrig anyFields
    rw [if_pos (List.length_pos_iff.2 hne)]
  have h2 : fmtStringMap (retOrig (anyFields env parent ret).ret) = gs"map[" ++ entries ret ++ gs"]" := by
    rw [show (anyFields env parent ret).ret = ret.map (anyRetVal env) from rfl, retOrig_any]
    unfold fmtStringMap
    rw [show (fun a b : Str × Str => strLe a.1 b.1) = pairLe from rfl, sortBy_id hs]
    rfl
  unfold anyAllString
  rw [h1, h2]
  simp

theorem txt_any {env : Ext} {a : AnyAll} {n : Node} (h : Norm env n) : txt (.any a n) = anyAllString gs"ANY" a (txt n) :=
  txt_of (by rw [Node.string, norm_string h]; rfl)

theorem txt_all {env : Ext} {a : AnyAll} {n : Node} (h : Norm env n) : txt (.all a n) = anyAllString gs"ALL" a (txt n) :=
  txt_of (by rw [Node.string, norm_string h]; rfl)

/-- The text of a normal tree, by its first characters. -/
inductive Shape (env : Ext) (r : Str) : Node → Str → Prop
  | cond {a m v : Str} (hm : m ∈ allMethods) (ha : PlainAttr a) (hv : PlainValue v) :
      Shape env r (condNode env a m v none) ('<' :: (a ++ '-' :: (m ++ '-' :: (v ++ '>' :: r))))
  | and {n m : Node} {l : List Node} (hn : ∀ x ∈ n :: m :: l, Norm env x) :
      Shape env r (.and (n :: m :: l)) ('(' :: (txt n ++ seqTail gs" && " r (m :: l)))
  | or {n m : Node} {l : List Node} (hn : ∀ x ∈ n :: m :: l, Norm env x) :
      Shape env r (.or (n :: m :: l)) ('(' :: (txt n ++ seqTail gs" || " r (m :: l)))
  | not {n : Node} (h : Norm env n) : Shape env r (.not n) ('!' :: '(' :: (txt n ++ ')' :: r))
  | any {parent : Str} {ret : List (Str × Str)} {n : Node} (hp : ';' ∉ parent) (hr : ∀ x ∈ ret, PlainName x.1 ∧ PlainQuery x.2) (h : Norm env n) :
      Shape env r (.any (anyFields env parent ret) n)
        ('[' :: (gs"ANY" ++ '<' :: (parent ++ ';' :: (gs"map[" ++ (entries ret ++ (gs"]>:" ++ (txt n ++ ']' :: r)))))))
  | all {parent : Str} {ret : List (Str × Str)} {n : Node} (hp : ';' ∉ parent) (hr : ∀ x ∈ ret, PlainName x.1 ∧ PlainQuery x.2) (h : Norm env n) :
      Shape env r (.all (anyFields env parent ret) n)
        ('[' :: (gs"ALL" ++ '<' :: (parent ++ ';' :: (gs"map[" ++ (entries ret ++ (gs"]>:" ++ (txt n ++ ']' :: r)))))))
  | tt : Shape env r .tt ('t' :: (gs"rue" ++ r))
  | ff : Shape env r .ff ('f' :: (gs"alse" ++ r))

theorem norm_shape {env : Ext} {n : Node} (h : Norm env n) (r : Str) : Shape env r n (txt n ++ r) := by
  cases h with
  | cond hm ha hv =>
    rw [txt_cond]
    simpa using Shape.cond (env := env) (r := r) hm ha hv
  | and h2 hs h =>
    obtain ⟨n, m, l, rfl, ht⟩ := andOr_text h2 hs gs" && " r
    rw [txt_and h, ht]
    exact .and h
  | or h2 hs h =>
    obtain ⟨n, m, l, rfl, ht⟩ := andOr_text h2 hs gs" || " r
    rw [txt_or h, ht]
    exact .or h
  | not h =>
    rw [txt_not h]
    simpa using Shape.not (env := env) (r := r) h
  | any hne hp hs hr h =>
    rw [txt_any h, anyAll_text hne hs]
    exact .any hp hr h
  | all hne hp hs hr h =>
    rw [txt_all h, anyAll_text hne hs]
    exact .all hp hr h
  | tt => exact .tt
  | ff => exact .ff

theorem seqTail_after {sep r : Str} (hs : ∃ t, sep = ' ' :: t) : ∀ l : List Node, After (seqTail sep r l)
  | [] => .inr ⟨_, _, rfl, by decide⟩
  | n :: l => by
    obtain ⟨t, rfl⟩ := hs
    exact .inr ⟨_, _, rfl, by decide⟩

theorem seqTail_unique {env : Ext} {sep r r' : Str} (hsep : ∃ t, sep = ' ' :: t) : ∀ {l l' : List Node},
    (∀ n ∈ l, ∀ n', Norm env n' → ∀ r r', After r → After r' → txt n ++ r = txt n' ++ r' → n = n' ∧ r = r') → (∀ n ∈ l', Norm env n) →
    seqTail sep r l = seqTail sep r' l' → l = l' ∧ r = r'
  | [], [], _, _, h => by simpa [seqTail] using h
  | [], _ :: _, _, _, h => by obtain ⟨t, rfl⟩ := hsep; simp [seqTail] at h
  | _ :: _, [], _, _, h => by obtain ⟨t, rfl⟩ := hsep; simp [seqTail] at h
  | n :: l, n' :: l', ih, hl, h => by
    simp only [seqTail] at h
    obtain ⟨rfl, h'⟩ := ih n (by simp) n' (hl n' (by simp)) _ _ (seqTail_after hsep l) (seqTail_after hsep l') (List.append_cancel_left h)
    obtain ⟨rfl, hr⟩ := seqTail_unique hsep (fun m hm => ih m (by simp [hm])) (fun m hm => hl m (by simp [hm])) h'
    exact ⟨rfl, hr⟩

/-- A normal tree can be read off the beginning of a text. -/
theorem norm_unique {env : Ext} {n : Node} (h : Norm env n) : ∀ n', Norm env n' → ∀ r r', After r → After r' → txt n ++ r = txt n' ++ r' → n = n' ∧ r = r' := by
  induction h with
  | @cond a m v hm ha hv =>
    intro n' hn' r r' hr hr' heq
    have hs := norm_shape hn' r'
    rw [← heq, txt_cond] at hs
    generalize hx : '<' :: (a ++ '-' :: (m ++ '-' :: (v ++ gs">"))) ++ r = x at hs
    cases hs with
    | @cond a' m' v' hm' ha' hv' =>
      simp only [List.cons_append, List.append_assoc, List.nil_append, List.cons.injEq, true_and] at hx
      obtain ⟨rfl, rfl, h⟩ := attr_unique ha ha' hm hm' hx
      obtain ⟨rfl, rfl⟩ := value_unique hv hv' hr hr' h
      exact ⟨rfl, rfl⟩
    | _ => simp at hx
  | and h2 hs h ih =>
    intro n' hn' r r' hr hr' heq
    obtain ⟨n, m, l, rfl, ht⟩ := andOr_text h2 hs gs" && " r
    have hs := norm_shape hn' r'
    rw [← heq, txt_and h, ht] at hs
    generalize hx : '(' :: (txt n ++ seqTail gs" && " r (m :: l)) = x at hs
    cases hs with
    | @and n' m' l' hn =>
      simp only [List.cons.injEq, true_and] at hx
      obtain ⟨rfl, hx'⟩ := ih n (by simp) n' (hn n' (by simp)) _ _ (seqTail_after ⟨_, rfl⟩ _) (seqTail_after ⟨_, rfl⟩ _) hx
      obtain ⟨e, rfl⟩ := seqTail_unique ⟨_, rfl⟩ (fun y hy => ih y (List.mem_cons_of_mem _ hy)) (fun y hy => hn y (List.mem_cons_of_mem _ hy)) hx'
      rw [e]
      exact ⟨rfl, rfl⟩
    | @or n' m' l' hn =>
      simp only [List.cons.injEq, true_and] at hx
      obtain ⟨rfl, hx'⟩ := ih n (by simp) n' (hn n' (by simp)) _ _ (seqTail_after ⟨_, rfl⟩ _) (seqTail_after ⟨_, rfl⟩ _) hx
      simp [seqTail] at hx'
    | _ => simp at hx
  | or h2 hs h ih =>
    intro n' hn' r r' hr hr' heq
    obtain ⟨n, m, l, rfl, ht⟩ := andOr_text h2 hs gs" || " r
    have hs := norm_shape hn' r'
    rw [← heq, txt_or h, ht] at hs
    generalize hx : '(' :: (txt n ++ seqTail gs" || " r (m :: l)) = x at hs
    cases hs with
    | @or n' m' l' hn =>
      simp only [List.cons.injEq, true_and] at hx
      obtain ⟨rfl, hx'⟩ := ih n (by simp) n' (hn n' (by simp)) _ _ (seqTail_after ⟨_, rfl⟩ _) (seqTail_after ⟨_, rfl⟩ _) hx
      obtain ⟨e, rfl⟩ := seqTail_unique ⟨_, rfl⟩ (fun y hy => ih y (List.mem_cons_of_mem _ hy)) (fun y hy => hn y (List.mem_cons_of_mem _ hy)) hx'
      rw [e]
      exact ⟨rfl, rfl⟩
    | @and n' m' l' hn =>
      simp only [List.cons.injEq, true_and] at hx
      obtain ⟨rfl, hx'⟩ := ih n (by simp) n' (hn n' (by simp)) _ _ (seqTail_after ⟨_, rfl⟩ _) (seqTail_after ⟨_, rfl⟩ _) hx
      simp [seqTail] at hx'
    | _ => simp at hx
  | @not n hn ih =>
    intro n' hn' r r' hr hr' heq
    have hs := norm_shape hn' r'
    rw [← heq, txt_not hn] at hs
    generalize hx : gs"!(" ++ txt n ++ gs")" ++ r = x at hs
    cases hs with
    | @not n' hm' =>
      simp only [List.cons_append, List.append_assoc, List.nil_append, List.cons.injEq, true_and] at hx
      obtain ⟨rfl, hx'⟩ := ih n' hm' _ _ (after_of (by decide)) (after_of (by decide)) hx
      exact ⟨rfl, by simpa using hx'⟩
    | _ => simp at hx
  | @any parent ret n hne hp hs hr hn ih =>
    intro n' hn' r r' hra hra' heq
    have hsh := norm_shape hn' r'
    rw [← heq, txt_any hn, anyAll_text hne hs] at hsh
    generalize hx : '[' :: (gs"ANY" ++ '<' :: (parent ++ ';' :: (gs"map[" ++ (entries ret ++ (gs"]>:" ++ (txt n ++ ']' :: r)))))) = x at hsh
    cases hsh with
    | any hp' hr' hm' =>
      simp only [List.cons_append, List.nil_append, List.cons.injEq, true_and] at hx
      obtain ⟨rfl, hx'⟩ := split_unique hp hp' hx
      simp only [List.cons.injEq, true_and] at hx'
      obtain ⟨rfl, hx''⟩ := entries_unique hr hr' hx'
      obtain ⟨rfl, hx'''⟩ := ih _ hm' _ _ (after_of (c := ']') (by decide)) (after_of (c := ']') (by decide)) hx''
      exact ⟨rfl, by simpa using hx'''⟩
    | _ => simp at hx
  | @all parent ret n hne hp hs hr hn ih =>
    intro n' hn' r r' hra hra' heq
    have hsh := norm_shape hn' r'
    rw [← heq, txt_all hn, anyAll_text hne hs] at hsh
    generalize hx : '[' :: (gs"ALL" ++ '<' :: (parent ++ ';' :: (gs"map[" ++ (entries ret ++ (gs"]>:" ++ (txt n ++ ']' :: r)))))) = x at hsh
    cases hsh with
    | all hp' hr' hm' =>
      simp only [List.cons_append, List.nil_append, List.cons.injEq, true_and] at hx
      obtain ⟨rfl, hx'⟩ := split_unique hp hp' hx
      simp only [List.cons.injEq, true_and] at hx'
      obtain ⟨rfl, hx''⟩ := entries_unique hr hr' hx'
      obtain ⟨rfl, hx'''⟩ := ih _ hm' _ _ (after_of (c := ']') (by decide)) (after_of (c := ']') (by decide)) hx''
      exact ⟨rfl, by simpa using hx'''⟩
    | _ => simp at hx
  | tt =>
    intro n' hn' r r' hr hr' heq
    have hs := norm_shape hn' r'
    rw [← heq] at hs
    generalize hx : txt .tt ++ r = x at hs
    rw [show txt .tt = gs"true" from rfl] at hx
    cases hs with
    | tt => exact ⟨rfl, by simpa using hx⟩
    | _ => simp at hx
  | ff =>
    intro n' hn' r r' hr hr' heq
    have hs := norm_shape hn' r'
    rw [← heq] at hs
    generalize hx : txt .ff ++ r = x at hs
    rw [show txt .ff = gs"false" from rfl] at hx
    cases hs with
    | ff => exact ⟨rfl, by simpa using hx⟩
    | _ => simp at hx

/-- Plain trees with the same text are alike. -/
theorem alike_of_string {env : Ext} {n n' : Node} (hn : Plain env n) (hn' : Plain env n') (h : n.string = n'.string) : Alike n n' := by
  obtain ⟨x, hx, a⟩ := norm_exists hn
  obtain ⟨x', hx', a'⟩ := norm_exists hn'
  have : x.string = x'.string := by rw [← string_alike a, ← string_alike a', h]
  rw [norm_string hx, norm_string hx'] at this
  have ht : txt x = txt x' := by simpa using this
  obtain ⟨rfl, _⟩ := norm_unique hx x' hx' [] [] (.inl rfl) (.inl rfl) (by simpa using ht)
  exact .trans a (.symm a')

end Mapl

namespace Mapl

open Spec

/-! ## What trees that are alike have in common -/

mutual
theorem leaves_alike {n n' : Node} : Alike n n' → (leaves n).Perm (leaves n')
  | .refl => .refl _
  | .symm h => (leaves_alike h).symm
  | .trans h h' => (leaves_alike h).trans (leaves_alike h')
  | .andOne => by simp [leaves, leavesOf]
  | .orOne => by simp [leaves, leavesOf]
  | .andPerm h => by simp only [leaves]; exact leavesOf_perm h
  | .orPerm h => by simp only [leaves]; exact leavesOf_perm h
  | .and h => by simp only [leaves]; exact leaves_alikeAll h
  | .or h => by simp only [leaves]; exact leaves_alikeAll h
  | .not h => by simp only [leaves]; exact leaves_alike h
  | .any _ _ h => by simp only [leaves]; exact leaves_alike h
  | .all _ _ h => by simp only [leaves]; exact leaves_alike h

theorem leaves_alikeAll {ns ns' : List Node} : AlikeAll ns ns' → (leavesOf ns).Perm (leavesOf ns')
  | .nil => .refl _
  | .cons h hs => by simp only [leavesOf]; exact (leaves_alike h).append (leaves_alikeAll hs)

theorem leavesOf_perm {ns ns' : List Node} : ns.Perm ns' → (leavesOf ns).Perm (leavesOf ns')
  | .nil => .refl _
  | .cons _ h => by simp only [leavesOf]; exact (leavesOf_perm h).append_left _
  | .swap _ _ _ => by simp only [leavesOf, ← List.append_assoc]; exact List.perm_append_comm.append_right _
  | .trans h h' => (leavesOf_perm h).trans (leavesOf_perm h')
end

mutual
/-- What a tree would answer if all conditions failed and no element were found. -/
def bare : Node → Bool
  | .and ns => bareAll ns
  | .or ns => bareAny ns
  | .not n => !bare n
  | .tt => true
  | _ => false

def bareAll : List Node → Bool
  | [] => true
  | n :: ns => bare n && bareAll ns

def bareAny : List Node → Bool
  | [] => false
  | n :: ns => bare n || bareAny ns
end

theorem bareAll_perm {ns ns' : List Node} (h : ns.Perm ns') : bareAll ns = bareAll ns' := by
  induction h with
  | nil => rfl
  | cons _ _ ih => simp only [bareAll, ih]
  | swap => simp only [bareAll, Bool.and_left_comm]
  | trans _ _ ih ih' => exact ih.trans ih'

theorem bareAny_perm {ns ns' : List Node} (h : ns.Perm ns') : bareAny ns = bareAny ns' := by
  induction h with
  | nil => rfl
  | cons _ _ ih => simp only [bareAny, ih]
  | swap => simp only [bareAny, Bool.or_left_comm]
  | trans _ _ ih ih' => exact ih.trans ih'

mutual
theorem bare_alike {n n' : Node} : Alike n n' → bare n = bare n'
  | .refl => rfl
  | .symm h => (bare_alike h).symm
  | .trans h h' => (bare_alike h).trans (bare_alike h')
  | .andOne => by simp [bare, bareAll]
  | .orOne => by simp [bare, bareAny]
  | .andPerm h => by simp only [bare]; exact bareAll_perm h
  | .orPerm h => by simp only [bare]; exact bareAny_perm h
  | .and h => by simp only [bare]; exact (bare_alikeAll h).1
  | .or h => by simp only [bare]; exact (bare_alikeAll h).2
  | .not h => by simp only [bare, bare_alike h]
  | .any _ _ h => by simp only [bare]
  | .all _ _ h => by simp only [bare]

theorem bare_alikeAll {ns ns' : List Node} : AlikeAll ns ns' → bareAll ns = bareAll ns' ∧ bareAny ns = bareAny ns'
  | .nil => ⟨rfl, rfl⟩
  | .cons h hs => by simp only [bareAll, bareAny, bare_alike h, (bare_alikeAll hs).1, (bare_alikeAll hs).2, and_self]
end

/-! ## The text of a prepared tree -/

theorem prepare_text {env : Ext} {t : Predef} {a m v : Str} {r : Option (List RetVal)} {c : Condition} (h : (parsed env a m v r).prepare env t = .ok c) :
    ∃ w, ValueResolves env t m v w ∧ ((w = [] → m ∉ [gs"IN", gs"NIN", gs"IS"]) → c.string = (parsed env a m w r).string) := by
  obtain ⟨w, e, hw, hacc, _, hpart, hfin⟩ := prepare_inv h
  refine ⟨w, hw, fun hm => ?_⟩
  have hval : w = [] → finalValue m w = [] := by
    intro h
    have := hm h
    simp only [List.mem_cons, List.not_mem_nil, or_false, not_or] at this
    simp [finalValue, this, h]
  have hmne : m ≠ [] := by
    have := hacc.method
    rintro rfl
    exact absurd this (by decide)
  have hane : a ≠ [] := by
    rintro rfl
    generalize hx : ([] : Str) = x at hpart
    cases hpart with
    | simple h => subst hx; exact absurd h (by decide)
    | _ => simp at hx
  have hv : ∀ d : Condition, (valuePart d).origAttr = d.origAttr ∧ (valuePart d).origMethod = d.origMethod ∧ (valuePart d).origValue = d.origValue ∧
      (d.value = [] → (valuePart d).value = []) := by
    intro d
    unfold valuePart
    split
    · next h => exact ⟨rfl, rfl, rfl, fun hd => by rw [hd] at h; exact absurd h (by decide)⟩
    · split
      · next h => exact ⟨rfl, rfl, rfl, fun hd => by rw [hd] at h; exact absurd h (by decide)⟩
      · exact ⟨rfl, rfl, rfl, id⟩
  obtain ⟨v1, v2, v3, v4⟩ := hv (baseOf env a m v w r)
  have he : e.origAttr = a ∧ e.origMethod = m ∧ e.origValue = w ∧ (w = [] → e.value = []) := by
    have h4 : w = [] → (valuePart (baseOf env a m v w r)).value = [] := fun h => v4 (hval h)
    cases hpart <;> exact ⟨v1, v2, v3, h4⟩
  have hc : c.origAttr = a ∧ c.origMethod = m ∧ c.origValue = w ∧ (w = [] → c.value = []) := by
    cases hfin <;> exact he
  obtain ⟨c1, c2, c3, c4⟩ := hc
  rw [parsed_eq]
  simp only [Condition.string, orOrig, c1, c2, c3]
  rw [if_pos (List.length_pos_iff.2 hane), if_pos (List.length_pos_iff.2 hmne)]
  by_cases hw0 : w = []
  · simp [hw0, c4 hw0]
  · rw [if_pos (List.length_pos_iff.2 hw0)]; simp

theorem anyAll_prepare_text {env : Ext} {a a' : AnyAll} (h : a.prepare env = .ok a') (kw s : Str) : anyAllString kw a' s = anyAllString kw a s := by
  simp only [AnyAll.prepare, Go.bind_eq_ok] at h
  obtain ⟨qs, _, h⟩ := h
  simp at h
  subst h
  rfl

mutual
theorem prepare_string {env : Ext} {t : Predef} : ∀ {n n' : Node}, (∀ c ∈ leaves n, ∀ c', c.prepare env t = .ok c' → c'.string = c.string) →
    n.prepare env t = .ok n' → n'.string = n.string
  | .nil, n', _, h => by simp [Node.prepare] at h
  | .and ns, n', hc, h => by
    simp only [Node.prepare, Go.bind_eq_ok] at h
    obtain ⟨ns', h1, h⟩ := h
    simp at h; subst h
    simp only [Node.string]; rw [prepare_strings (fun c hx => hc c (by simpa [leaves] using hx)) h1]
  | .or ns, n', hc, h => by
    simp only [Node.prepare, Go.bind_eq_ok] at h
    obtain ⟨ns', h1, h⟩ := h
    simp at h; subst h
    simp only [Node.string]; rw [prepare_strings (fun c hx => hc c (by simpa [leaves] using hx)) h1]
  | .not n, n', hc, h => by
    simp only [Node.prepare, Go.bind_eq_ok] at h
    obtain ⟨ns', h1, h⟩ := h
    simp at h; subst h
    simp only [Node.string]; rw [prepare_string (fun c hx => hc c (by simpa [leaves] using hx)) h1]
  | .any a n, n', hc, h => by
    simp only [Node.prepare, Go.bind_eq_ok] at h
    obtain ⟨n1, h1, a1, h2, h⟩ := h
    simp at h; subst h
    simp only [Node.string]; rw [prepare_string (fun c hx => hc c (by simpa [leaves] using hx)) h1]
    simp only [anyAll_prepare_text h2]
  | .all a n, n', hc, h => by
    simp only [Node.prepare, Go.bind_eq_ok] at h
    obtain ⟨n1, h1, a1, h2, h⟩ := h
    simp at h; subst h
    simp only [Node.string]; rw [prepare_string (fun c hx => hc c (by simpa [leaves] using hx)) h1]
    simp only [anyAll_prepare_text h2]
  | .tt, n', _, h => by simp [Node.prepare] at h; rw [h]
  | .ff, n', _, h => by simp [Node.prepare] at h; rw [h]
  | .cond c, n', hc, h => by
    simp only [Node.prepare, Go.bind_eq_ok] at h
    obtain ⟨c', h1, h⟩ := h
    simp at h; subst h
    simp only [Node.string]; rw [hc c (by simp [leaves]) c' h1]

theorem prepare_strings {env : Ext} {t : Predef} : ∀ {ns ns' : List Node}, (∀ c ∈ leavesOf ns, ∀ c', c.prepare env t = .ok c' → c'.string = c.string) →
    prepareNodes env t ns = .ok ns' → stringNodes ns' = stringNodes ns
  | [], ns', _, h => by simp [prepareNodes] at h; rw [h]
  | n :: ns, ns', hc, h => by
    simp only [prepareNodes, Go.bind_eq_ok] at h
    obtain ⟨n1, h1, ns1, h2, h⟩ := h
    simp at h; subst h
    simp only [stringNodes]
    rw [prepare_string (fun c hx => hc c (by simp [leavesOf, hx])) h1, prepare_strings (fun c hx => hc c (by simp [leavesOf, hx])) h2]
end

end Mapl

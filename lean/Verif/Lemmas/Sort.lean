import Verif.Model.Str
import Mathlib.Data.Char
import Mathlib.Data.List.Sort

/-! # Sorting -/

namespace Mapl

variable {α : Type} {le : α → α → Bool}

theorem insertBy_perm (x : α) : ∀ l : List α, (insertBy le x l).Perm (x :: l)
  | [] => .refl _
  | y :: ys => by
    unfold insertBy; split
    · exact .refl _
    · exact ((insertBy_perm x ys).cons y).trans (.swap _ _ _)

theorem sortBy_perm : ∀ l : List α, (sortBy le l).Perm l
  | [] => .refl _
  | x :: xs => (insertBy_perm x _).trans ((sortBy_perm xs).cons x)

theorem insertBy_sorted (htot : ∀ a b, le a b = true ∨ le b a = true) (htr : ∀ a b c, le a b = true → le b c = true → le a c = true) (x : α) :
    ∀ {l : List α}, l.Pairwise (fun a b => le a b = true) → (insertBy le x l).Pairwise (fun a b => le a b = true)
  | [], _ => by simp [insertBy]
  | y :: ys, h => by
    unfold insertBy; split
    · next hxy =>
      refine List.pairwise_cons.2 ⟨?_, h⟩
      intro z hz
      rcases List.mem_cons.1 hz with rfl | hz
      · exact hxy
      · exact htr _ _ _ hxy ((List.pairwise_cons.1 h).1 z hz)
    · next hxy =>
      refine List.pairwise_cons.2 ⟨?_, insertBy_sorted htot htr x (List.pairwise_cons.1 h).2⟩
      intro z hz
      rcases List.mem_cons.1 ((insertBy_perm x ys).mem_iff.1 hz) with rfl | hz
      · exact (htot y z).resolve_right hxy
      · exact (List.pairwise_cons.1 h).1 z hz

theorem sortBy_sorted (htot : ∀ a b, le a b = true ∨ le b a = true) (htr : ∀ a b c, le a b = true → le b c = true → le a c = true) :
    ∀ l : List α, (sortBy le l).Pairwise (fun a b => le a b = true)
  | [] => .nil
  | x :: xs => insertBy_sorted htot htr x (sortBy_sorted htot htr xs)

/-- Sorting does not depend on the order of the input if `le` is antisymmetric on it. -/
theorem sortBy_eq (htot : ∀ a b, le a b = true ∨ le b a = true) (htr : ∀ a b c, le a b = true → le b c = true → le a c = true)
    {l l' : List α} (hp : l.Perm l') (hs : ∀ a ∈ l, ∀ b ∈ l, le a b = true → le b a = true → a = b) : sortBy le l = sortBy le l' := by
  have hpp : (sortBy le l).Perm (sortBy le l') := ((sortBy_perm l).trans hp).trans (sortBy_perm l').symm
  refine List.Perm.eq_of_pairwise ?_ (sortBy_sorted htot htr l) (sortBy_sorted htot htr l') hpp
  intro a b ha hb h1 h2
  exact hs a ((sortBy_perm l).mem_iff.1 ha) b (hp.mem_iff.2 ((sortBy_perm l').mem_iff.1 hb)) h1 h2

theorem sortBy_id {l : List α} (h : l.Pairwise (fun a b => le a b = true)) : sortBy le l = l := by
  induction l with
  | nil => rfl
  | cons x xs ih =>
    obtain ⟨h1, h2⟩ := List.pairwise_cons.1 h
    show insertBy le x (sortBy le xs) = _
    rw [ih h2]
    cases xs with
    | nil => rfl
    | cons y ys => unfold insertBy; rw [if_pos (h1 y (by simp))]

theorem insertBy_map {β : Type} {le' : β → β → Bool} (f : α → β) (h : ∀ a b, le a b = le' (f a) (f b)) (x : α) :
    ∀ l : List α, (insertBy le x l).map f = insertBy le' (f x) (l.map f)
  | [] => rfl
  | y :: ys => by
    simp only [insertBy, List.map_cons, h]
    split
    · rfl
    · rw [List.map_cons, insertBy_map f h x ys]

theorem sortBy_map {β : Type} {le' : β → β → Bool} (f : α → β) (h : ∀ a b, le a b = le' (f a) (f b)) :
    ∀ l : List α, (sortBy le l).map f = sortBy le' (l.map f)
  | [] => rfl
  | x :: xs => by
    show (insertBy le x (sortBy le xs)).map f = insertBy le' (f x) (sortBy le' (xs.map f))
    rw [insertBy_map f h, sortBy_map f h xs]

/-! ## The order of texts -/

theorem strLe_total : ∀ a b : Str, strLe a b = true ∨ strLe b a = true
  | [], _ => .inl rfl
  | _ :: _, [] => .inr rfl
  | a :: as, b :: bs => by
    simp only [strLe, Bool.or_eq_true, decide_eq_true_eq, Bool.and_eq_true, beq_iff_eq]
    rcases lt_trichotomy a b with h | h | h
    · exact .inl (.inl h)
    · subst h
      rcases strLe_total as bs with h | h
      · exact .inl (.inr ⟨rfl, h⟩)
      · exact .inr (.inr ⟨rfl, h⟩)
    · exact .inr (.inl h)

theorem strLe_antisymm : ∀ a b : Str, strLe a b = true → strLe b a = true → a = b
  | [], [], _, _ => rfl
  | [], _ :: _, _, h => by simp [strLe] at h
  | _ :: _, [], h, _ => by simp [strLe] at h
  | a :: as, b :: bs, h, h' => by
    simp only [strLe, Bool.or_eq_true, decide_eq_true_eq, Bool.and_eq_true, beq_iff_eq] at h h'
    rcases h with h | ⟨rfl, h⟩
    · rcases h' with h' | ⟨rfl, _⟩
      · exact absurd h (lt_asymm h')
      · exact absurd h (lt_irrefl _)
    · rcases h' with h' | ⟨_, h'⟩
      · exact absurd h' (lt_irrefl _)
      · rw [strLe_antisymm as bs h h']

theorem strLe_trans : ∀ a b c : Str, strLe a b = true → strLe b c = true → strLe a c = true
  | [], _, _, _, _ => rfl
  | _ :: _, [], _, h, _ => by simp [strLe] at h
  | _ :: _, _ :: _, [], _, h => by simp [strLe] at h
  | a :: as, b :: bs, c :: cs, h, h' => by
    simp only [strLe, Bool.or_eq_true, decide_eq_true_eq, Bool.and_eq_true, beq_iff_eq] at h h' ⊢
    rcases h with h | ⟨rfl, h⟩
    · rcases h' with h' | ⟨rfl, _⟩
      · exact .inl (lt_trans h h')
      · exact .inl h
    · rcases h' with h' | ⟨rfl, h'⟩
      · exact .inl h'
      · exact .inr ⟨rfl, strLe_trans as bs cs h h'⟩

theorem sortStrings_perm {l l' : List Str} (h : l.Perm l') : sortStrings l = sortStrings l' :=
  sortBy_eq strLe_total strLe_trans h fun a _ b _ => strLe_antisymm a b

end Mapl

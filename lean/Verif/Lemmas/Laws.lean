import Verif.Lemmas.Order

/-! # Invariance of formulas under reordering and logical laws -/

namespace Mapl

open Spec

variable {env : Ext}

theorem reordered_sat {n n' : Node} (h : Reordered n n') : ∀ m, (Sat env n m ↔ Sat env n' m) ∧ (KeySafe env n m ↔ KeySafe env n' m) := by
  induction h with
  | refl => exact fun m => ⟨Iff.rfl, Iff.rfl⟩
  | trans _ _ ih1 ih2 => exact fun m => ⟨(ih1 m).1.trans (ih2 m).1, (ih1 m).2.trans (ih2 m).2⟩
  | and_perm hp => intro m; simp only [Sat, KeySafe, satAll_iff, keySafeAll_iff, hp.mem_iff]; exact ⟨trivial, trivial⟩
  | or_perm hp => intro m; simp only [Sat, KeySafe, satSome_iff, keySafeAll_iff, hp.mem_iff]; exact ⟨trivial, trivial⟩
  | in_and l1 l2 _ ih =>
    intro m
    simp only [Sat, KeySafe, satAll_iff, keySafeAll_iff, List.mem_append, List.mem_cons, or_imp, forall_and, forall_eq, (ih m).1, (ih m).2]
    exact ⟨trivial, trivial⟩
  | in_or l1 l2 _ ih =>
    intro m
    simp only [Sat, KeySafe, satSome_iff, keySafeAll_iff, List.mem_append, List.mem_cons, or_imp, forall_and, forall_eq, (ih m).2]
    refine ⟨?_, trivial⟩
    simp only [or_and_right, exists_or, exists_eq_left, (ih m).1]
  | in_not _ ih => intro m; simp only [Sat, KeySafe, (ih m).1, (ih m).2]; exact ⟨trivial, trivial⟩
  | in_any a _ ih =>
    intro m
    simp only [Sat, KeySafe, fun m => (ih m).1, fun m => (ih m).2]; exact ⟨trivial, trivial⟩
  | in_all a _ ih =>
    intro m
    simp only [Sat, KeySafe, fun m => (ih m).1, fun m => (ih m).2]; exact ⟨trivial, trivial⟩

theorem laws_sat {n n' : Node} (h : Laws n n') : ∀ m, (Sat env n m ↔ Sat env n' m) ∧ (KeySafe env n m ↔ KeySafe env n' m) := by
  induction h with
  | refl => exact fun m => ⟨Iff.rfl, Iff.rfl⟩
  | symm _ ih => exact fun m => ⟨(ih m).1.symm, (ih m).2.symm⟩
  | trans _ _ ih1 ih2 => exact fun m => ⟨(ih1 m).1.trans (ih2 m).1, (ih1 m).2.trans (ih2 m).2⟩
  | not_and l => intro m; simp [Sat, KeySafe, satAll_iff, satSome_iff, keySafeAll_iff]
  | not_or l => intro m; simp [Sat, KeySafe, satAll_iff, satSome_iff, keySafeAll_iff]
  | not_not n => intro m; simp [Sat, KeySafe]
  | not_tt => intro m; simp [Sat, KeySafe]
  | and_perm hp => intro m; simp only [Sat, KeySafe, satAll_iff, keySafeAll_iff, hp.mem_iff]; exact ⟨trivial, trivial⟩
  | or_perm hp => intro m; simp only [Sat, KeySafe, satSome_iff, keySafeAll_iff, hp.mem_iff]; exact ⟨trivial, trivial⟩
  | and_flat l1 l2 l3 =>
    intro m
    simp only [Sat, KeySafe, satAll_iff, keySafeAll_iff, List.mem_append, List.mem_cons, or_imp, forall_and, forall_eq, and_assoc]
    exact ⟨trivial, trivial⟩
  | or_flat l1 l2 l3 =>
    intro m
    simp only [Sat, KeySafe, satSome_iff, keySafeAll_iff, List.mem_append, List.mem_cons, or_imp, forall_and, forall_eq, and_assoc]
    refine ⟨?_, trivial⟩
    simp only [or_and_right, exists_or, exists_eq_left, Sat, satSome_iff, or_assoc]
  | and_one n => intro m; simp [Sat, KeySafe, SatAll, KeySafeAll]
  | or_one n => intro m; simp [Sat, KeySafe, SatSome, KeySafeAll]
  | and_none => intro m; simp [Sat, KeySafe, SatAll, KeySafeAll]
  | or_none => intro m; simp [Sat, KeySafe, SatSome, KeySafeAll]
  | in_and l1 l2 _ ih =>
    intro m
    simp only [Sat, KeySafe, satAll_iff, keySafeAll_iff, List.mem_append, List.mem_cons, or_imp, forall_and, forall_eq, (ih m).1, (ih m).2]
    exact ⟨trivial, trivial⟩
  | in_or l1 l2 _ ih =>
    intro m
    simp only [Sat, KeySafe, satSome_iff, keySafeAll_iff, List.mem_append, List.mem_cons, or_imp, forall_and, forall_eq, (ih m).2]
    refine ⟨?_, trivial⟩
    simp only [or_and_right, exists_or, exists_eq_left, (ih m).1]
  | in_not _ ih => intro m; simp only [Sat, KeySafe, (ih m).1, (ih m).2]; exact ⟨trivial, trivial⟩
  | in_any a _ ih =>
    intro m
    simp only [Sat, KeySafe, fun m => (ih m).1, fun m => (ih m).2]; exact ⟨trivial, trivial⟩
  | in_all a _ ih =>
    intro m
    simp only [Sat, KeySafe, fun m => (ih m).1, fun m => (ih m).2]; exact ⟨trivial, trivial⟩

end Mapl

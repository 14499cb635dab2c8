import Verif.Model.Base

/-! # Lemmas on Go results -/

namespace Mapl

variable {α β : Type}

theorem Go.bind_eq_ok {x : Go α} {f : α → Go β} {b : β} :
    (x >>= f) = .ok b ↔ ∃ a, x = .ok a ∧ f a = .ok b := by
  cases x <;> simp [bind, Except.bind]

theorem Go.bind_eq_error {x : Go α} {f : α → Go β} {e : Fail} :
    (x >>= f) = .error e ↔ x = .error e ∨ ∃ a, x = .ok a ∧ f a = .error e := by
  cases x <;> simp [bind, Except.bind]

@[simp] theorem Go.pure_eq {a : α} : (pure a : Go α) = .ok a := rfl

@[simp] theorem Go.ok_bind {a : α} {f : α → Go β} : ((Except.ok a : Go α) >>= f) = f a := rfl

@[simp] theorem Go.error_bind {e : Fail} {f : α → Go β} : ((Except.error e : Go α) >>= f) = .error e := rfl

theorem Go.map_eq_ok {x : Go α} {f : α → β} {b : β} :
    x.map f = .ok b ↔ ∃ a, x = .ok a ∧ f a = b := by
  cases x <;> simp [Except.map]

theorem deref_eq_ok {x : Option α} {a : α} : deref x = .ok a ↔ x = some a := by
  cases x <;> simp [deref]

/-- Case analysis on an `if` without rewriting the rest. -/
theorem ite_elim {α : Type} {P C : Prop} [Decidable P] {x y z : α} (h : (if P then x else y) = z) (h1 : P → x = z → C)
    (h2 : ¬ P → y = z → C) : C := by
  by_cases hp : P
  · rw [if_pos hp] at h; exact h1 hp h
  · rw [if_neg hp] at h; exact h2 hp h

end Mapl

import Verif.Lemmas.EvalMsg
import Verif.Spec.Tree
import Mathlib.Data.List.Perm.Basic

/-! # Evaluation and the formulas of trees -/

namespace Mapl

open Spec

/-! ## One execution -/

theorem anyLoop_flag {α : Type} {child : Nat → Msg → Go EvalOut} {set : α → Msg → Msg} {reset : Msg → Msg}
    {ret : Msg → Go (List Extra)} {checkAll : Bool} {m : Msg}
    (hmsg : ∀ i m o, child i m = .ok o → o.msg = m) (hset : ∀ v w, set v (set w m) = set v m) :
    ∀ (l : List α) (i : Nat) (result : Bool) (acc : List Extra) (m1 : Msg) (o : EvalOut),
      (m1 = m ∨ ∃ w, m1 = set w m) →
      anyLoop child set reset ret checkAll i result acc m1 l = .ok o →
      (o.flag = true → result = true ∨ ∃ (k : Nat) (v : α) (oc : EvalOut), l[k]? = some v ∧ child (i + k) (set v m) = .ok oc ∧ oc.flag = true) ∧
      (o.flag = false → result = false ∧ ∀ (k : Nat) (v : α), l[k]? = some v →
        ∃ oc, child (i + k) (set v m) = .ok oc ∧ oc.flag = false)
  | [], i, result, acc, m1, o, _, h => by simp [anyLoop] at h; subst h; simp
  | v :: vs, i, result, acc, m1, o, hm1, h => by
    have hs : set v m1 = set v m := by
      rcases hm1 with rfl | ⟨w, rfl⟩
      · rfl
      · exact hset v w
    simp only [anyLoop, hs, Go.bind_eq_ok] at h
    obtain ⟨oc, hc, h⟩ := h
    have hmsgc := hmsg _ _ _ hc
    split at h
    · next hf =>
      simp only [Go.bind_eq_ok] at h
      obtain ⟨e, _, h⟩ := h
      have hright : ∃ (k : Nat) (v' : α) (oc : EvalOut), (v :: vs)[k]? = some v' ∧ child (i + k) (set v' m) = .ok oc ∧ oc.flag = true :=
        ⟨0, v, oc, rfl, hc, hf⟩
      split at h
      · have := anyLoop_flag hmsg hset vs (i + 1) true _ _ o (Or.inr ⟨v, hmsgc⟩) h
        refine ⟨fun _ => Or.inr hright, fun hfalse => ?_⟩
        have := (this.2 hfalse).1
        simp at this
      · simp at h; subst h; exact ⟨fun _ => Or.inr hright, fun hfalse => by simp at hfalse⟩
    · next hf =>
      have := anyLoop_flag hmsg hset vs (i + 1) result _ _ o (Or.inr ⟨v, hmsgc⟩) h
      refine ⟨fun ht => ?_, fun hfalse => ⟨(this.2 hfalse).1, ?_⟩⟩
      · rcases this.1 ht with h | ⟨k, v', oc', h1, h2, h3⟩
        · exact Or.inl h
        · exact Or.inr ⟨k + 1, v', oc', by simpa using h1, by rw [← h2]; congr 1; omega, h3⟩
      · intro k v' hk
        cases k with
        | zero =>
          simp at hk; subst hk
          exact ⟨oc, hc, by simpa using hf⟩
        | succ k =>
          obtain ⟨oc', h1, h2⟩ := (this.2 hfalse).2 k v' (by simpa using hk)
          exact ⟨oc', by rw [← h1]; congr 1; omega, h2⟩

theorem allLoop_flag {α : Type} {child : Nat → Msg → Go EvalOut} {set : α → Msg → Msg} {reset : Msg → Msg} {m : Msg}
    (hmsg : ∀ i m o, child i m = .ok o → o.msg = m) (hset : ∀ v w, set v (set w m) = set v m) :
    ∀ (l : List α) (i : Nat) (m1 : Msg) (o : EvalOut), (m1 = m ∨ ∃ w, m1 = set w m) →
      allLoop child set reset i m1 l = .ok o →
      (o.flag = true → ∀ (k : Nat) (v : α), l[k]? = some v → ∃ oc, child (i + k) (set v m) = .ok oc ∧ oc.flag = true) ∧
      (o.flag = false → ∃ (k : Nat) (v : α) (oc : EvalOut), l[k]? = some v ∧ child (i + k) (set v m) = .ok oc ∧ oc.flag = false)
  | [], i, m1, o, _, h => by simp [allLoop] at h; subst h; simp
  | v :: vs, i, m1, o, hm1, h => by
    have hs : set v m1 = set v m := by
      rcases hm1 with rfl | ⟨w, rfl⟩
      · rfl
      · exact hset v w
    simp only [allLoop, hs, Go.bind_eq_ok] at h
    obtain ⟨oc, hc, h⟩ := h
    have hmsgc := hmsg _ _ _ hc
    split at h
    · next hf =>
      have := allLoop_flag hmsg hset vs (i + 1) _ o (Or.inr ⟨v, hmsgc⟩) h
      refine ⟨fun ht => ?_, fun hfalse => ?_⟩
      · intro k v' hk
        cases k with
        | zero => simp at hk; subst hk; exact ⟨oc, hc, hf⟩
        | succ k =>
          obtain ⟨oc', h1, h2⟩ := this.1 ht k v' (by simpa using hk)
          exact ⟨oc', by rw [← h1]; congr 1; omega, h2⟩
      · obtain ⟨k, v', oc', h1, h2, h3⟩ := this.2 hfalse
        exact ⟨k + 1, v', oc', by simpa using h1, by rw [← h2]; congr 1; omega, h3⟩
    · next hf =>
      simp at h; subst h
      exact ⟨fun ht => by simp at ht, fun _ => ⟨0, v, oc, rfl, hc, by simpa using hf⟩⟩

theorem evalAny_flag {env : Env} {p : List Nat} {a : AnyAll} {child : Nat → Msg → Go EvalOut} {m : Msg} {o : EvalOut}
    (hmsg : ∀ i m o, child i m = .ok o → o.msg = m) (h : evalAny env p a child m = .ok o) :
    ∃ l?, scopes env p a m = .ok l? ∧
      (o.flag = true → ∃ l, l? = some l ∧
        ∃ (i : Nat) (m' : Msg) (oc : EvalOut), l[i]? = some m' ∧ child (i + 1) m' = .ok oc ∧ oc.flag = true) ∧
      (o.flag = false → ∀ l, l? = some l → ∀ (i : Nat) (m' : Msg), l[i]? = some m' →
        ∃ oc, child (i + 1) m' = .ok oc ∧ oc.flag = false) := by
  unfold evalAny at h
  split at h
  · next hc =>
    simp only [Go.bind_eq_ok] at h
    obtain ⟨l, hl, h⟩ := h
    have := anyLoop_flag hmsg (m := m) (fun v w => rfl) l 1 false _ _ o (Or.inl rfl) h
    refine ⟨some (l.map fun v => setRawIRel v m), ?_, fun ht => ⟨_, rfl, ?_⟩, fun hfalse l' hl' => ?_⟩
    · rw [scopes, if_pos hc, hl]; rfl
    · rcases this.1 ht with h | ⟨k, v, oc, h1, h2, h3⟩
      · simp at h
      · exact ⟨k, setRawIRel v m, oc, by simp [h1], by rw [Nat.add_comm]; exact h2, h3⟩
    · simp at hl'; subst hl'
      intro i m' hi
      simp at hi
      obtain ⟨v, hv, rfl⟩ := hi
      rw [Nat.add_comm]
      exact (this.2 hfalse).2 i v hv
  · next hc =>
    simp only [Go.bind_eq_ok] at h
    obtain ⟨l?, hl, h⟩ := h
    cases l? with
    | none =>
      simp at h; subst h
      exact ⟨none, by rw [scopes, if_neg hc, hl]; rfl, by simp, by simp⟩
    | some l =>
      simp only at h
      have := anyLoop_flag hmsg (m := m) (fun v w => rfl) l 1 false _ _ o (Or.inl rfl) h
      refine ⟨some (l.map fun v => setJsonRawRel v m), ?_, fun ht => ⟨_, rfl, ?_⟩, fun hfalse l' hl' => ?_⟩
      · rw [scopes, if_neg hc, hl]; rfl
      · rcases this.1 ht with h | ⟨k, v, oc, h1, h2, h3⟩
        · simp at h
        · exact ⟨k, setJsonRawRel v m, oc, by simp [h1], by rw [Nat.add_comm]; exact h2, h3⟩
      · simp at hl'; subst hl'
        intro i m' hi
        simp at hi
        obtain ⟨v, hv, rfl⟩ := hi
        rw [Nat.add_comm]
        exact (this.2 hfalse).2 i v hv

theorem evalAll_flag {env : Env} {p : List Nat} {a : AnyAll} {child : Nat → Msg → Go EvalOut} {m : Msg} {o : EvalOut}
    (hmsg : ∀ i m o, child i m = .ok o → o.msg = m) (h : evalAll env p a child m = .ok o) :
    ∃ l?, scopes env p a m = .ok l? ∧
      (o.flag = true → ∃ l, l? = some l ∧ ∀ (i : Nat) (m' : Msg), l[i]? = some m' →
        ∃ oc, child (i + 1) m' = .ok oc ∧ oc.flag = true) ∧
      (o.flag = false → ∀ l, l? = some l →
        ∃ (i : Nat) (m' : Msg) (oc : EvalOut), l[i]? = some m' ∧ child (i + 1) m' = .ok oc ∧ oc.flag = false) := by
  unfold evalAll at h
  split at h
  · next hc =>
    simp only [Go.bind_eq_ok] at h
    obtain ⟨l, hl, h⟩ := h
    have := allLoop_flag hmsg (m := m) (fun v w => rfl) l 1 _ o (Or.inl rfl) h
    refine ⟨some (l.map fun v => setRawIRel v m), ?_, fun ht => ⟨_, rfl, ?_⟩, fun hfalse l' hl' => ?_⟩
    · rw [scopes, if_pos hc, hl]; rfl
    · intro i m' hi
      simp at hi
      obtain ⟨v, hv, rfl⟩ := hi
      rw [Nat.add_comm]
      exact this.1 ht i v hv
    · simp at hl'; subst hl'
      obtain ⟨k, v, oc, h1, h2, h3⟩ := this.2 hfalse
      exact ⟨k, setRawIRel v m, oc, by simp [h1], by rw [Nat.add_comm]; exact h2, h3⟩
  · next hc =>
    simp only [Go.bind_eq_ok] at h
    obtain ⟨l?, hl, h⟩ := h
    cases l? with
    | none =>
      simp at h; subst h
      exact ⟨none, by rw [scopes, if_neg hc, hl]; rfl, by simp, by simp⟩
    | some l =>
      simp only at h
      have := allLoop_flag hmsg (m := m) (fun v w => rfl) l 1 _ o (Or.inl rfl) h
      refine ⟨some (l.map fun v => setJsonRawRel v m), ?_, fun ht => ⟨_, rfl, ?_⟩, fun hfalse l' hl' => ?_⟩
      · rw [scopes, if_neg hc, hl]; rfl
      · intro i m' hi
        simp at hi
        obtain ⟨v, hv, rfl⟩ := hi
        rw [Nat.add_comm]
        exact this.1 ht i v hv
      · simp at hl'; subst hl'
        obtain ⟨k, v, oc, h1, h2, h3⟩ := this.2 hfalse
        exact ⟨k, setJsonRawRel v m, oc, by simp [h1], by rw [Nat.add_comm]; exact h2, h3⟩

mutual
theorem eval_holds (env : Env) : ∀ (n : Node) (p : List Nat) (m : Msg) (o : EvalOut), eval env n p m = .ok o →
    (o.flag = true ↔ Holds env n p m)
  | .nil, _, _, _, h => by simp [eval] at h
  | .and ns, p, m, o, h => by
    rw [eval] at h
    simpa [Holds] using evalAnd_holds env ns p 1 [] m o h
  | .or ns, p, m, o, h => by
    rw [eval] at h
    simpa [Holds] using evalOr_holds env ns p 1 false [] m o h
  | .not n, p, m, o, h => by
    simp only [eval, Go.bind_eq_ok] at h
    obtain ⟨o1, h1, h⟩ := h
    simp at h; subst h
    have := eval_holds env n (1 :: p) m o1 h1
    simp only [Holds, ← this]
    cases o1.flag <;> simp
  | .any a n, p, m, o, h => by
    rw [eval] at h
    obtain ⟨l?, hl, h1, h2⟩ := evalAny_flag (fun i m o h => eval_msg env n _ m o h) h
    simp only [Holds, hl]
    constructor
    · intro ht
      obtain ⟨l, rfl, i, m', oc, hi, hc, hf⟩ := h1 ht
      exact ⟨l, rfl, i, m', hi, (eval_holds env n _ _ oc hc).1 hf⟩
    · rintro ⟨l, hl', i, m', hi, hh⟩
      simp at hl'; subst hl'
      by_contra hne
      have hfalse : o.flag = false := by simpa using hne
      obtain ⟨oc, hc, hf⟩ := h2 hfalse l rfl i m' hi
      rw [← eval_holds env n _ _ oc hc] at hh
      rw [hf] at hh; simp at hh
  | .all a n, p, m, o, h => by
    rw [eval] at h
    obtain ⟨l?, hl, h1, h2⟩ := evalAll_flag (fun i m o h => eval_msg env n _ m o h) h
    simp only [Holds, hl]
    constructor
    · intro ht
      obtain ⟨l, rfl, hall⟩ := h1 ht
      refine ⟨l, rfl, fun i m' hi => ?_⟩
      obtain ⟨oc, hc, hf⟩ := hall i m' hi
      exact (eval_holds env n _ _ oc hc).1 hf
    · rintro ⟨l, hl', hall⟩
      simp at hl'; subst hl'
      by_contra hne
      have hfalse : o.flag = false := by simpa using hne
      obtain ⟨i, m', oc, hi, hc, hf⟩ := h2 hfalse l rfl
      have hh := hall i m' hi
      rw [← eval_holds env n _ _ oc hc] at hh
      rw [hf] at hh; simp at hh
  | .tt, _, _, _, h => by simp [eval] at h; subst h; simp [Holds]
  | .ff, _, _, _, h => by simp [eval] at h; subst h; simp [Holds]
  | .cond c, p, m, o, h => by
    simp only [eval, Go.bind_eq_ok] at h
    obtain ⟨r, hr, h⟩ := h
    simp at h; subst h
    simp only [Holds, hr]
    obtain ⟨f, e⟩ := r
    simp [eq_comm]

theorem evalAnd_holds (env : Env) : ∀ (ns : List Node) (p : List Nat) (i : Nat) (acc : List Extra) (m : Msg) (o : EvalOut),
    evalAnd env ns p i acc m = .ok o → (o.flag = true ↔ HoldsAll env ns p i m)
  | [], _, _, _, _, _, h => by simp [evalAnd] at h; subst h; simp [HoldsAll]
  | n :: ns, p, i, acc, m, o, h => by
    simp only [evalAnd, Go.bind_eq_ok] at h
    obtain ⟨o1, h1, h⟩ := h
    have hm := eval_msg env n _ _ _ h1
    have ih := eval_holds env n _ _ _ h1
    split at h
    · next hf =>
      simp at h; subst h
      simp [HoldsAll, ← ih, hf]
    · next hf =>
      rw [hm] at h
      rw [evalAnd_holds env ns _ _ _ _ _ h]
      simp [HoldsAll, ← ih, hf]

theorem evalOr_holds (env : Env) : ∀ (ns : List Node) (p : List Nat) (i : Nat) (f : Bool) (acc : List Extra) (m : Msg)
    (o : EvalOut), evalOr env ns p i f acc m = .ok o → (o.flag = true ↔ f = true ∨ HoldsSome env ns p i m)
  | [], _, _, _, _, _, _, h => by simp [evalOr] at h; subst h; simp [HoldsSome]
  | n :: ns, p, i, f, acc, m, o, h => by
    simp only [evalOr, Go.bind_eq_ok] at h
    obtain ⟨o1, h1, h⟩ := h
    have hm := eval_msg env n _ _ _ h1
    have ih := eval_holds env n _ _ _ h1
    rw [hm] at h
    rw [evalOr_holds env ns _ _ _ _ _ _ h]
    simp [HoldsSome, ← ih, or_assoc]
end

end Mapl

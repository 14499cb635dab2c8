import Verif.Lemmas.Go
import Verif.Model.Eval

/-! # Evaluation leaves the message as it was -/

namespace Mapl

variable {α : Type}

theorem anyLoop_msg {child : Nat → Msg → Go EvalOut} {set : α → Msg → Msg} {reset : Msg → Msg}
    {ret : Msg → Go (List Extra)} {checkAll : Bool} {m0 : Msg}
    (hchild : ∀ i m o, child i m = .ok o → o.msg = m) (hset : ∀ v m, reset (set v m) = reset m) :
    ∀ (l : List α) (i : Nat) (res : Bool) (acc : List Extra) (m : Msg) (o : EvalOut), reset m = m0 →
      anyLoop child set reset ret checkAll i res acc m l = .ok o → o.msg = m0
  | [], _, _, _, _, _, hm, h => by
    simp [anyLoop] at h; subst h; exact hm
  | v :: vs, i, res, acc, m, o, hm, h => by
    simp only [anyLoop, Go.bind_eq_ok] at h
    obtain ⟨o1, h1, h⟩ := h
    have hmsg := hchild _ _ _ h1
    have hr : reset o1.msg = m0 := by rw [hmsg, hset, hm]
    split at h
    · simp only [Go.bind_eq_ok] at h
      obtain ⟨e, _, h⟩ := h
      split at h
      · exact anyLoop_msg hchild hset vs _ _ _ _ _ hr h
      · simp at h; subst h; exact hr
    · exact anyLoop_msg hchild hset vs _ _ _ _ _ hr h

theorem allLoop_msg {child : Nat → Msg → Go EvalOut} {set : α → Msg → Msg} {reset : Msg → Msg} {m0 : Msg}
    (hchild : ∀ i m o, child i m = .ok o → o.msg = m) (hset : ∀ v m, reset (set v m) = reset m) :
    ∀ (l : List α) (i : Nat) (m : Msg) (o : EvalOut), reset m = m0 →
      allLoop child set reset i m l = .ok o → o.msg = m0
  | [], _, _, _, hm, h => by
    simp [allLoop] at h; subst h; exact hm
  | v :: vs, i, m, o, hm, h => by
    simp only [allLoop, Go.bind_eq_ok] at h
    obtain ⟨o1, h1, h⟩ := h
    have hmsg := hchild _ _ _ h1
    have hr : reset o1.msg = m0 := by rw [hmsg, hset, hm]
    split at h
    · exact allLoop_msg hchild hset vs _ _ _ hr h
    · simp at h; subst h; exact hr

theorem evalAny_msg {env : Env} {p : List Nat} {a : AnyAll} {child : Nat → Msg → Go EvalOut} {m : Msg} {o : EvalOut}
    (hchild : ∀ i m o, child i m = .ok o → o.msg = m) (h : evalAny env p a child m = .ok o) : o.msg = m := by
  unfold evalAny at h
  split at h
  · simp only [Go.bind_eq_ok] at h
    obtain ⟨l, _, h⟩ := h
    exact anyLoop_msg hchild (by intros; rfl) l _ _ _ _ _ (by rfl) h
  · simp only [Go.bind_eq_ok] at h
    obtain ⟨l, _, h⟩ := h
    cases l with
    | none => simp at h; subst h; rfl
    | some l => exact anyLoop_msg hchild (by intros; rfl) l _ _ _ _ _ (by rfl) h

theorem evalAll_msg {env : Env} {p : List Nat} {a : AnyAll} {child : Nat → Msg → Go EvalOut} {m : Msg} {o : EvalOut}
    (hchild : ∀ i m o, child i m = .ok o → o.msg = m) (h : evalAll env p a child m = .ok o) : o.msg = m := by
  unfold evalAll at h
  split at h
  · simp only [Go.bind_eq_ok] at h
    obtain ⟨l, _, h⟩ := h
    exact allLoop_msg hchild (by intros; rfl) l _ _ _ (by rfl) h
  · simp only [Go.bind_eq_ok] at h
    obtain ⟨l, _, h⟩ := h
    cases l with
    | none => simp at h; subst h; rfl
    | some l => exact allLoop_msg hchild (by intros; rfl) l _ _ _ (by rfl) h

mutual
theorem eval_msg (env : Env) : ∀ (n : Node) (p : List Nat) (m : Msg) (o : EvalOut), eval env n p m = .ok o → o.msg = m
  | .nil, _, _, _, h => by simp [eval] at h
  | .and ns, p, m, o, h => by
    rw [eval] at h; exact evalAnd_msg env ns p 1 [] m o h
  | .or ns, p, m, o, h => by
    rw [eval] at h; exact evalOr_msg env ns p 1 false [] m o h
  | .not n, p, m, o, h => by
    simp only [eval, Go.bind_eq_ok] at h
    obtain ⟨o1, h1, h⟩ := h
    simp at h; subst h
    exact eval_msg env n _ _ o1 h1
  | .any a n, p, m, o, h => by
    rw [eval] at h
    exact evalAny_msg (fun i m o h => eval_msg env n _ m o h) h
  | .all a n, p, m, o, h => by
    rw [eval] at h
    exact evalAll_msg (fun i m o h => eval_msg env n _ m o h) h
  | .tt, _, _, _, h => by simp [eval] at h; subst h; rfl
  | .ff, _, _, _, h => by simp [eval] at h; subst h; rfl
  | .cond c, p, m, o, h => by
    simp only [eval, Go.bind_eq_ok] at h
    obtain ⟨r, _, h⟩ := h
    simp at h; subst h; rfl

theorem evalAnd_msg (env : Env) : ∀ (ns : List Node) (p : List Nat) (i : Nat) (acc : List Extra) (m : Msg) (o : EvalOut),
    evalAnd env ns p i acc m = .ok o → o.msg = m
  | [], _, _, _, _, _, h => by simp [evalAnd] at h; subst h; rfl
  | n :: ns, p, i, acc, m, o, h => by
    simp only [evalAnd, Go.bind_eq_ok] at h
    obtain ⟨o1, h1, h⟩ := h
    have := eval_msg env n _ _ _ h1
    split at h
    · simp at h; subst h; exact this
    · rw [this] at h; exact evalAnd_msg env ns _ _ _ _ _ h

theorem evalOr_msg (env : Env) : ∀ (ns : List Node) (p : List Nat) (i : Nat) (f : Bool) (acc : List Extra) (m : Msg)
    (o : EvalOut), evalOr env ns p i f acc m = .ok o → o.msg = m
  | [], _, _, _, _, _, _, h => by simp [evalOr] at h; subst h; rfl
  | n :: ns, p, i, f, acc, m, o, h => by
    simp only [evalOr, Go.bind_eq_ok] at h
    obtain ⟨o1, h1, h⟩ := h
    have := eval_msg env n _ _ _ h1
    rw [this] at h
    exact evalOr_msg env ns _ _ _ _ _ _ h
end

end Mapl

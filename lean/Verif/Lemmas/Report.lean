import Verif.Lemmas.Order

/-! # Returned values, laws, elements -/

namespace Mapl

open Spec

theorem concatLists_eq (l : List Json) : concatLists l = flattenArrays l := by
  induction l with
  | nil => rfl
  | cons x l ih => cases x <;> simp [concatLists, flattenArrays, ih]

theorem arrangeArray_elements {env : Env} (ho : env.OrdOk) {p : List Nat} {d : Json} {l : List Json}
    (h : arrangeArray env p d = .ok l) : l.Perm (elementsOf d) := by
  cases d <;> simp [arrangeArray] at h
  · subst h; exact .refl _
  · next l' =>
    subst h
    simp only [elementsOf, concatLists_eq]
    cases flattenArrays l' <;> exact .refl _
  · subst h; exact (ho p _).map _

theorem queryElements_elements {env : Env} (ho : env.OrdOk) {p : List Nat} {d : Json} :
    ∀ {qs : List JPath} {j : Nat} {l : List Json}, queryElements env p (some d) j qs = .ok l →
      l.Perm (qs.flatMap fun q => elementsOf (env.jpGet q.src d).1)
  | [], _, l, h => by simp [queryElements] at h; subst h; exact .refl _
  | q :: qs, j, l, h => by
    simp only [queryElements, Go.bind_eq_ok] at h
    obtain ⟨doc, hd, a, ha, rest, hr, h⟩ := h
    simp at h; subst h
    simp [deref] at hd; subst hd
    exact (arrangeArray_elements ho ha).append (queryElements_elements ho hr)

theorem extraFromInterface_eq {env : Ext} {m : Msg} : ∀ {ret : List RetVal} {e : Extra},
    extraFromInterface env m ret = .ok e → e = reportOn env True ret m
  | [], e, h => by simp [extraFromInterface] at h; subst h; rfl
  | r :: rs, e, h => by
    simp only [extraFromInterface, Go.bind_eq_ok] at h
    obtain ⟨here, hh, rest, hr, h⟩ := h
    simp at h; subst h
    have ih := extraFromInterface_eq hr
    have key : here = ((reportedValue env m r).map fun v => (r.name, v)).toList := by
      unfold extraEntryInterface at hh
      split at hh
      · next hq =>
        simp only [Go.bind_eq_ok, pick, deref_eq_ok] at hh
        obtain ⟨d, hd, hh⟩ := hh
        simp at hh; subst hh
        simp [reportedValue, hq, hd]
      · next hq =>
        simp only [reportedValue, hq, if_false]
        split at hh
        · next q hp =>
          simp only [hp]
          simp only [Go.bind_eq_ok, pick, deref_eq_ok] at hh
          obtain ⟨d, hd, hh⟩ := hh
          simp at hh; subst hh
          simp only [hd, Option.bind_some]
          cases queryInterface env q d <;> rfl
        · next hp =>
          simp only [hp]
          simp at hh; subst hh; rfl
    rw [key, ih]
    simp only [reportOn, if_true, List.filterMap_cons]
    cases reportedValue env m r <;> rfl

theorem extraFromBytes_eq {env : Ext} {m : Msg} : ∀ {ret : List RetVal} {e : Extra},
    extraFromBytes env m ret = .ok e → e = reportOn env False ret m
  | [], e, h => by simp [extraFromBytes] at h; subst h; rfl
  | r :: rs, e, h => by
    simp only [extraFromBytes, Go.bind_eq_ok, pick, deref_eq_ok] at h
    obtain ⟨raw, hraw, rest, hr, h⟩ := h
    simp at h; subst h
    have ih := extraFromBytes_eq hr
    rw [ih]
    simp only [reportOn, if_false, List.filterMap_cons, reportedText, hraw, Option.bind_some]
    cases env.jsonUnmarshal (env.jsGet raw r.query).1 <;> rfl

theorem anyLoop_reports {α : Type} {child : Nat → Msg → Go EvalOut} {set : α → Msg → Msg} {reset : Msg → Msg}
    {f : Msg → Go Extra} {m : Msg} {P : Nat → Msg → Prop}
    (hP : ∀ i m o, child i m = .ok o → (o.flag = true ↔ P i m))
    (hmsg : ∀ i m o, child i m = .ok o → o.msg = m) (hset : ∀ v w, set v (set w m) = set v m) :
    ∀ (l : List α) (i : Nat) (result : Bool) (acc : List Extra) (m1 : Msg) (o : EvalOut),
      (m1 = m ∨ ∃ w, m1 = set w m) →
      anyLoop child set reset (fun m' => do let e ← f m'; pure [e]) true i result acc m1 l = .ok o →
      ∃ es, o.extra = acc ++ es ∧ Reports P (fun m' e => f m' = .ok e) i (l.map fun v => set v m) es
  | [], i, result, acc, m1, o, _, h => by simp [anyLoop] at h; subst h; exact ⟨[], by simp, .nil i⟩
  | v :: vs, i, result, acc, m1, o, hm1, h => by
    have hs : set v m1 = set v m := by
      rcases hm1 with rfl | ⟨w, rfl⟩
      · rfl
      · exact hset v w
    simp only [anyLoop, hs, Go.bind_eq_ok] at h
    obtain ⟨oc, hc, h⟩ := h
    have hmsgc := hmsg _ _ _ hc
    split at h
    · next hf =>
      simp only [Go.bind_eq_ok, if_true, Go.pure_eq] at h
      obtain ⟨e', ⟨e, he, he'⟩, h⟩ := h
      simp at he'; subst he'
      obtain ⟨es, h1, h2⟩ := anyLoop_reports hP hmsg hset vs (i + 1) true _ _ o (Or.inr ⟨v, hmsgc⟩) h
      refine ⟨e :: es, by simp [h1], .yes ((hP _ _ _ hc).1 hf) (by simp only [← hmsgc]; exact he) h2⟩
    · next hf =>
      obtain ⟨es, h1, h2⟩ := anyLoop_reports hP hmsg hset vs (i + 1) result _ _ o (Or.inr ⟨v, hmsgc⟩) h
      exact ⟨es, h1, .no (fun hp => hf ((hP _ _ _ hc).2 hp)) h2⟩

theorem anyLoop_none {α : Type} {child : Nat → Msg → Go EvalOut} {set : α → Msg → Msg} {reset : Msg → Msg}
    {b : Bool} : ∀ (l : List α) (i : Nat) (result : Bool) (m1 : Msg) (o : EvalOut),
      anyLoop child set reset (fun _ => pure []) b i result [] m1 l = .ok o → o.extra = []
  | [], i, result, m1, o, h => by simp [anyLoop] at h; subst h; rfl
  | v :: vs, i, result, m1, o, h => by
    simp only [anyLoop, Go.bind_eq_ok] at h
    obtain ⟨oc, hc, h⟩ := h
    split at h
    · simp at h
      split at h
      · exact anyLoop_none _ _ _ _ _ h
      · simp at h; subst h; rfl
    · exact anyLoop_none _ _ _ _ _ h

theorem reports_imp {P : Nat → Msg → Prop} {E E' : Msg → Extra → Prop} (hE : ∀ m e, E m e → E' m e) :
    ∀ {i : Nat} {l : List Msg} {es : List Extra}, Reports P E i l es → Reports P E' i l es
  | _, _, _, .nil i => .nil i
  | _, _, _, .yes h1 h2 h3 => .yes h1 (hE _ _ h2) (reports_imp hE h3)
  | _, _, _, .no h1 h3 => .no h1 (reports_imp hE h3)

theorem evalAny_reports {env : Env} {p : List Nat} {a : AnyAll} {n : Node} {m : Msg} {o : EvalOut} (hr : a.ret ≠ [])
    (h : eval env (.any a n) p m = .ok o) :
    (scopes env p a m = .ok none ∧ o.extra = []) ∨ ∃ l, scopes env p a m = .ok (some l) ∧
      Reports (fun i m' => Holds env n (i :: p) m')
        (fun m' e => e = reportOn env (m.rawI.isSome ∧ a.queries ≠ []) a.ret m') 1 l o.extra := by
  rw [eval] at h
  unfold evalAny at h
  split at h
  · next hc =>
    simp only [Go.bind_eq_ok, hr, if_false] at h
    obtain ⟨l, hl, h⟩ := h
    simp only [ne_eq, hr, not_false_eq_true, decide_true] at h
    obtain ⟨es, h1, h2⟩ := anyLoop_reports (fun i m o h => eval_holds env n _ m o h)
      (fun i m o h => eval_msg env n _ m o h) (m := m) (fun v w => rfl) l 1 false _ _ o (Or.inl rfl) h
    simp at h1; subst h1
    refine Or.inr ⟨l.map fun v => setRawIRel v m, by rw [scopes, if_pos hc, hl]; rfl, reports_imp ?_ h2⟩
    intro m' e he
    rw [extraFromInterface_eq he]
    simp [reportOn, hc]
  · next hc =>
    simp only [Go.bind_eq_ok, hr, if_false] at h
    obtain ⟨l?, hl, h⟩ := h
    cases l? with
    | none =>
      simp at h; subst h
      exact Or.inl ⟨by rw [scopes, if_neg hc, hl]; rfl, rfl⟩
    | some l =>
      simp only [ne_eq, hr, not_false_eq_true, decide_true] at h
      obtain ⟨es, h1, h2⟩ := anyLoop_reports (fun i m o h => eval_holds env n _ m o h)
        (fun i m o h => eval_msg env n _ m o h) (m := m) (fun v w => rfl) l 1 false _ _ o (Or.inl rfl) h
      simp at h1; subst h1
      refine Or.inr ⟨l.map fun v => setJsonRawRel v m, by rw [scopes, if_neg hc, hl]; rfl, reports_imp ?_ h2⟩
      intro m' e he
      rw [extraFromBytes_eq he]
      simp only [reportOn, if_neg hc, if_false]

theorem evalAny_noret {env : Env} {p : List Nat} {a : AnyAll} {n : Node} {m : Msg} {o : EvalOut} (hr : a.ret = [])
    (h : eval env (.any a n) p m = .ok o) : o.extra = [] := by
  rw [eval] at h
  unfold evalAny at h
  simp only [hr, if_true, Go.bind_eq_ok] at h
  split at h
  · simp only [Go.bind_eq_ok] at h
    obtain ⟨l, hl, h⟩ := h
    exact anyLoop_none _ _ _ _ _ h
  · simp only [Go.bind_eq_ok] at h
    obtain ⟨l?, hl, h⟩ := h
    cases l? with
    | none => simp at h; subst h; rfl
    | some l => exact anyLoop_none _ _ _ _ _ h

theorem allLoop_extra {α : Type} {child : Nat → Msg → Go EvalOut} {set : α → Msg → Msg} {reset : Msg → Msg} :
    ∀ (l : List α) (i : Nat) (m1 : Msg) (o : EvalOut), allLoop child set reset i m1 l = .ok o → o.extra = []
  | [], i, m1, o, h => by simp [allLoop] at h; subst h; rfl
  | v :: vs, i, m1, o, h => by
    simp only [allLoop, Go.bind_eq_ok] at h
    obtain ⟨oc, hc, h⟩ := h
    split at h
    · exact allLoop_extra _ _ _ _ h
    · simp at h; subst h; rfl

theorem evalAll_extra {env : Env} {p : List Nat} {a : AnyAll} {n : Node} {m : Msg} {o : EvalOut}
    (h : eval env (.all a n) p m = .ok o) : o.extra = [] := by
  rw [eval] at h
  unfold evalAll at h
  split at h
  · simp only [Go.bind_eq_ok] at h
    obtain ⟨l, hl, h⟩ := h
    exact allLoop_extra _ _ _ _ h
  · simp only [Go.bind_eq_ok] at h
    obtain ⟨l?, hl, h⟩ := h
    cases l? with
    | none => simp at h; subst h; rfl
    | some l => exact allLoop_extra _ _ _ _ h

/-- The outcomes of the children of an OR, all of which are evaluated. -/
theorem evalOr_outs {env : Env} {p : List Nat} : ∀ {ns : List Node} {i : Nat} {f : Bool} {acc : List Extra} {m : Msg} {o : EvalOut},
    evalOr env ns p i f acc m = .ok o →
    ∃ outs : List EvalOut, outs.length = ns.length ∧
      (∀ (k : Nat) (n : Node), ns[k]? = some n → ∃ oc, outs[k]? = some oc ∧ eval env n ((i + k) :: p) m = .ok oc) ∧
      o.extra = acc ++ (outs.filter (·.flag)).flatMap (·.extra)
  | [], i, f, acc, m, o, h => by
    simp [evalOr] at h; subst h
    exact ⟨[], rfl, by simp, by simp⟩
  | n :: ns, i, f, acc, m, o, h => by
    simp only [evalOr, Go.bind_eq_ok] at h
    obtain ⟨o1, h1, h⟩ := h
    have hm := eval_msg env n _ _ _ h1
    rw [hm] at h
    obtain ⟨outs, h2, h3, h4⟩ := evalOr_outs h
    refine ⟨o1 :: outs, by simp [h2], ?_, ?_⟩
    · intro k n' hk
      cases k with
      | zero => simp at hk; subst hk; exact ⟨o1, rfl, h1⟩
      | succ k =>
        obtain ⟨oc, h5, h6⟩ := h3 k n' (by simpa using hk)
        exact ⟨oc, by simpa using h5, by rw [← h6]; congr 2; omega⟩
    · rw [h4]
      cases hf : o1.flag <;> simp [hf]

theorem anyLoop_false {α : Type} {child : Nat → Msg → Go EvalOut} {set : α → Msg → Msg} {reset : Msg → Msg}
    {ret : Msg → Go (List Extra)} {b : Bool} : ∀ (l : List α) (i : Nat) (result : Bool) (acc : List Extra) (m1 : Msg) (o : EvalOut),
      (result = false → acc = []) →
      anyLoop child set reset ret b i result acc m1 l = .ok o → o.flag = false → o.extra = []
  | [], i, result, acc, m1, o, hacc, h => by simp [anyLoop] at h; subst h; exact hacc
  | v :: vs, i, result, acc, m1, o, hacc, h => by
    simp only [anyLoop, Go.bind_eq_ok] at h
    obtain ⟨oc, hc, h⟩ := h
    split at h
    · simp only [Go.bind_eq_ok] at h
      obtain ⟨e, he, h⟩ := h
      split at h
      · exact anyLoop_false _ _ _ _ _ _ (by simp) h
      · simp at h; subst h; simp
    · exact anyLoop_false _ _ _ _ _ _ hacc h

theorem evalAny_false {env : Env} {p : List Nat} {a : AnyAll} {n : Node} {m : Msg} {o : EvalOut}
    (h : eval env (.any a n) p m = .ok o) (hf : o.flag = false) : o.extra = [] := by
  rw [eval] at h
  unfold evalAny at h
  split at h
  · simp only [Go.bind_eq_ok] at h
    obtain ⟨l, hl, h⟩ := h
    exact anyLoop_false _ _ _ _ _ _ (by simp) h hf
  · simp only [Go.bind_eq_ok] at h
    obtain ⟨l?, hl, h⟩ := h
    cases l? with
    | none => simp at h; subst h; rfl
    | some l => exact anyLoop_false _ _ _ _ _ _ (by simp) h hf

theorem evalOr_false {env : Env} {p : List Nat} : ∀ {ns : List Node} {i : Nat} {f : Bool} {acc : List Extra} {m : Msg} {o : EvalOut},
    (f = false → acc = []) → evalOr env ns p i f acc m = .ok o → o.flag = false → o.extra = []
  | [], i, f, acc, m, o, hacc, h => by simp [evalOr] at h; subst h; exact hacc
  | n :: ns, i, f, acc, m, o, hacc, h => by
    simp only [evalOr, Go.bind_eq_ok] at h
    obtain ⟨o1, h1, h⟩ := h
    refine evalOr_false ?_ h
    intro hff
    simp at hff
    simp [hff.2, hacc hff.1]

theorem testOneCondition_false {env : Env} {p : List Nat} {c : Condition} {m : Msg} {e : List Extra}
    (h : testOneCondition env p c m = .ok (false, e)) : e = [] := by
  have pureCase : ∀ {P : Prop} {x : Go Bool}, P → (do let b ← x; pure (b, [])) = .ok (false, e) → e = [] := by
    intro P x _ hx
    simp only [Go.bind_eq_ok] at hx
    obtain ⟨b, _, hx⟩ := hx
    simp at hx; exact hx.2
  have okCase : ∀ {P : Prop} {b : Bool}, P → (.ok (b, []) : Go (Bool × List Extra)) = .ok (false, e) → e = [] := by
    intro P b _ hx; simp at hx; exact hx.2
  unfold testOneCondition at h
  refine ite_elim h okCase fun _ h => ?_
  refine ite_elim h okCase fun _ h => ?_
  refine ite_elim h pureCase fun _ h => ?_
  refine ite_elim h okCase fun _ h => ?_
  refine ite_elim h pureCase fun _ h => ?_
  refine ite_elim h okCase fun _ h => ?_
  refine ite_elim h (fun _ h => ?_) fun _ h => ?_
  · simp only [Go.bind_eq_ok] at h
    obtain ⟨v, _, b, _, h⟩ := h
    simp at h; exact h.2
  refine ite_elim h okCase fun _ h => ?_
  refine ite_elim h okCase fun _ h => ?_
  refine ite_elim h okCase fun _ h => ?_
  refine ite_elim h okCase fun _ h => ?_
  refine ite_elim h okCase fun _ h => ?_
  refine ite_elim h (fun _ h => ?_) okCase
  rw [Go.bind_eq_ok] at h
  obtain ⟨f, _, h⟩ := h
  split at h
  · simp only [Go.bind_eq_ok] at h
    obtain ⟨v, _, h⟩ := h
    simp at h
  · simp at h; exact h.2

end Mapl

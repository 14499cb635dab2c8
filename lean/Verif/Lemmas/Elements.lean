import Verif.Lemmas.Trees
import Verif.Lemmas.Tree
import Verif.Lemmas.Order

/-! # What ANY and ALL can answer -/

namespace Mapl
open Spec

variable {env : Env} {g : Predef} {m : Msg}

/-! ## Positions below the children -/

/-- As `Reroot`, for the positions that the evaluation of a node uses. -/
structure Below (env env' : Env) (p p' : List Nat) : Prop where
  ext : env'.toExt = env.toExt
  ord : ∀ {α : Type} (q : List Nat) (l : List α), 2 ≤ q.length → env'.ord (q ++ p') l = env.ord (q ++ p) l

theorem Below.two {E E' : Env} {p p' : List Nat} (h : Below E E' p p') (i j : Nat) : Reroot E E' (i :: j :: p) (i :: j :: p') where
  ext := h.ext
  ord q l := by
    have := h.ord (q ++ [i, j]) l (by simp)
    simpa using this

theorem Below.one {E E' : Env} {p p' : List Nat} (h : Below E E' p p') (i : Nat) : Below E E' (i :: p) (i :: p') where
  ext := h.ext
  ord q l hq := by
    have := h.ord (q ++ [i]) l (by simp; omega)
    simpa using this

theorem queryElements_below {E E' : Env} {p p' : List Nat} (h : Below E E' p p') (d : Option Json) :
    ∀ (qs : List JPath) (j : Nat), queryElements E' p' d j qs = queryElements E p d j qs
  | [], _ => rfl
  | q :: qs, j => by
    simp only [queryElements, arrangeArray_reroot (h.two 0 j), h.ext, queryElements_below h d qs]

theorem getArrayOfInterfaces_below {E E' : Env} {p p' : List Nat} (h : Below E E' p p') (a : AnyAll) (m : Msg) :
    getArrayOfInterfaces E' p' a m = getArrayOfInterfaces E p a m := by
  unfold getArrayOfInterfaces
  simp only [queryElements_below h, (h.two 0 0).here]

theorem getArrayOfJsons_below {E E' : Env} {p p' : List Nat} (h : Below E E' p p') (a : AnyAll) (m : Msg) :
    getArrayOfJsons E' p' a m = getArrayOfJsons E p a m := by
  unfold getArrayOfJsons getArrayOfJsonsFromMap
  simp only [h.ext, (h.two 0 0).here]

theorem evalAny_below {E E' : Env} {p p' : List Nat} (h : Below E E' p p') (a : AnyAll) (child : Nat → Msg → Go EvalOut) (m : Msg) :
    evalAny E' p' a child m = evalAny E p a child m := by
  unfold evalAny
  simp only [getArrayOfInterfaces_below h, getArrayOfJsons_below h, h.ext]

theorem evalAll_below {E E' : Env} {p p' : List Nat} (h : Below E E' p p') (a : AnyAll) (child : Nat → Msg → Go EvalOut) (m : Msg) :
    evalAll E' p' a child m = evalAll E p a child m := by
  unfold evalAll
  simp only [getArrayOfInterfaces_below h, getArrayOfJsons_below h]

mutual
theorem eval_below {E E' : Env} : ∀ (n : Node) {p p' : List Nat} (_ : Below E E' p p') (m : Msg), eval E' n p' m = eval E n p m
  | .nil, _, _, _, _ => by simp [eval]
  | .and ns, _, _, h, m => by simp only [eval]; exact evalAnd_below ns h 1 [] m
  | .or ns, _, _, h, m => by simp only [eval]; exact evalOr_below ns h 1 false [] m
  | .not n, _, _, h, m => by simp only [eval, eval_below n (h.one 1)]
  | .any a n, p, p', h, m => by
    have : (fun i m' => eval E' n (i :: p') m') = (fun i m' => eval E n (i :: p) m') := by
      funext i m'; exact eval_below n (h.one i) m'
    simp only [eval, this, evalAny_below h]
  | .all a n, p, p', h, m => by
    have : (fun i m' => eval E' n (i :: p') m') = (fun i m' => eval E n (i :: p) m') := by
      funext i m'; exact eval_below n (h.one i) m'
    simp only [eval, this, evalAll_below h]
  | .tt, _, _, _, _ => by simp [eval]
  | .ff, _, _, _, _ => by simp [eval]
  | .cond c, _, _, h, m => by simp only [eval, testOneCondition_reroot (h.two 0 0)]

theorem evalAnd_below {E E' : Env} : ∀ (ns : List Node) {p p' : List Nat} (_ : Below E E' p p') (i : Nat)
    (acc : List Extra) (m : Msg), evalAnd E' ns p' i acc m = evalAnd E ns p i acc m
  | [], _, _, _, _, _, _ => by simp [evalAnd]
  | n :: ns, _, _, h, i, acc, m => by
    simp only [evalAnd, eval_below n (h.one i)]
    congr 1; funext o
    split
    · rfl
    · exact evalAnd_below ns h _ _ _

theorem evalOr_below {E E' : Env} : ∀ (ns : List Node) {p p' : List Nat} (_ : Below E E' p p') (i : Nat)
    (f : Bool) (acc : List Extra) (m : Msg), evalOr E' ns p' i f acc m = evalOr E ns p i f acc m
  | [], _, _, _, _, _, _, _ => by simp [evalOr]
  | n :: ns, _, _, h, i, f, acc, m => by
    simp only [evalOr, eval_below n (h.one i)]
    congr 1; funext o
    exact evalOr_below ns h _ _ _ _
end

/-- One oracle that behaves like `O` for the elements selected at `b`, and like `E i` below child `i`. -/
def graftOn (O : Env) (E : Nat → Env) (q : Nat → List Nat) (b : List Nat) : Env :=
  { O with ord := fun p l =>
      if p.length = b.length + 2 then O.ord p l else
      match p[p.length - b.length - 1]? with
      | none => l
      | some i => (E i).ord (p.take (p.length - b.length - 1) ++ q i) l }

theorem graftOn_child {O : Env} {E : Nat → Env} {q : Nat → List Nat} {b : List Nat} (i : Nat) (h : (E i).toExt = O.toExt) :
    Below (E i) (graftOn O E q b) (q i) (i :: b) where
  ext := h.symm
  ord p l hp := by
    have e : (p ++ i :: b).length - b.length - 1 = p.length := by simp; omega
    simp only [graftOn, e]
    rw [if_neg (by simp; omega)]
    simp

theorem graftOn_run {O : Env} {E : Nat → Env} {q : Nat → List Nat} {b : List Nat} (hO : Run env O) (h : ∀ i, Run env (E i)) :
    Run env (graftOn O E q b) where
  ext := hO.ext
  ord := by
    intro α p l
    simp only [graftOn]
    split
    · exact hO.ord _ _
    · split
      · exact List.Perm.refl _
      · exact (h _).ord _ _

theorem graftOn_own {O : Env} {E : Nat → Env} {q : Nat → List Nat} {b : List Nat} {α : Type} (i j : Nat) (l : List α) :
    (graftOn O E q b).ord (i :: j :: b) l = O.ord (i :: j :: b) l := by
  simp [graftOn]

theorem own_queries {E E' : Env} {p : List Nat} (hx : E'.toExt = E.toExt) (h : ∀ {α : Type} (i j : Nat) (l : List α), E'.ord (i :: j :: p) l = E.ord (i :: j :: p) l)
    (d : Option Json) : ∀ (qs : List JPath) (j : Nat), queryElements E' p d j qs = queryElements E p d j qs
  | [], _ => rfl
  | q :: qs, j => by
    have : ∀ x, arrangeArray E' (0 :: j :: p) x = arrangeArray E (0 :: j :: p) x := fun x => by cases x <;> simp [arrangeArray, h]
    simp only [queryElements, this, hx, own_queries hx h d qs]

/-- The elements are selected by the oracle of the node. -/
theorem own_scopes {E E' : Env} {p : List Nat} (hx : E'.toExt = E.toExt) (h : ∀ {α : Type} (i j : Nat) (l : List α), E'.ord (i :: j :: p) l = E.ord (i :: j :: p) l)
    (a : AnyAll) (m : Msg) : getArrayOfInterfaces E' p a m = getArrayOfInterfaces E p a m ∧ getArrayOfJsons E' p a m = getArrayOfJsons E p a m := by
  constructor
  · unfold getArrayOfInterfaces
    simp only [own_queries hx h, h]
  · unfold getArrayOfJsons getArrayOfJsonsFromMap
    simp only [hx, h]

theorem own_evalAny {E E' : Env} {p : List Nat} (hx : E'.toExt = E.toExt) (h : ∀ {α : Type} (i j : Nat) (l : List α), E'.ord (i :: j :: p) l = E.ord (i :: j :: p) l)
    (a : AnyAll) (child : Nat → Msg → Go EvalOut) (m : Msg) : evalAny E' p a child m = evalAny E p a child m := by
  unfold evalAny
  simp only [(own_scopes hx h a m).1, (own_scopes hx h a m).2, hx]

theorem own_evalAll {E E' : Env} {p : List Nat} (hx : E'.toExt = E.toExt) (h : ∀ {α : Type} (i j : Nat) (l : List α), E'.ord (i :: j :: p) l = E.ord (i :: j :: p) l)
    (a : AnyAll) (child : Nat → Msg → Go EvalOut) (m : Msg) : evalAll E' p a child m = evalAll E p a child m := by
  unfold evalAll
  simp only [(own_scopes hx h a m).1, (own_scopes hx h a m).2]

/-! ## The loops depend on the answers of the children only -/

/-- The answer alone, `none` for a failure. -/
def answerOf (x : Go EvalOut) : Option Bool := (x.map (·.flag)).toOption

theorem answerOf_ev {E : Env} {n : Node} {q : List Nat} : (ev E n q m).toOption = answerOf (eval E n q m) := rfl

theorem answerOf_ok {x : Go EvalOut} {b : Bool} : answerOf x = some b ↔ ∃ o, x = .ok o ∧ o.flag = b := by
  cases x <;> simp [answerOf, Except.map, Except.toOption]

theorem answerOf_error {x : Go EvalOut} : answerOf x = none ↔ ∃ e, x = .error e := by
  cases x <;> simp [answerOf, Except.map, Except.toOption]

theorem anyLoop_answers {α : Type} {child child' : Nat → Msg → Go EvalOut} {set : α → Msg → Msg} {reset : Msg → Msg} {ret : Msg → Go (List Extra)} {ca : Bool}
    (hm : ∀ i m o, child i m = .ok o → o.msg = m) (hm' : ∀ i m o, child' i m = .ok o → o.msg = m) (hs : ∀ v w m, set v (set w m) = set v m) :
    ∀ (l : List α) (i : Nat) (res : Bool) (acc acc' : List Extra) (m : Msg),
      (∀ k v, l[k]? = some v → answerOf (child (i + k) (set v m)) = answerOf (child' (i + k) (set v m))) →
      answerOf (anyLoop child set reset ret ca i res acc m l) = answerOf (anyLoop child' set reset ret ca i res acc' m l)
  | [], _, _, _, _, _, _ => rfl
  | v :: vs, i, res, acc, acc', m, h => by
    have h0 := h 0 v rfl
    have hrest : ∀ k w, vs[k]? = some w → answerOf (child (i + 1 + k) (set w (set v m))) = answerOf (child' (i + 1 + k) (set w (set v m))) := by
      intro k w hw
      rw [hs, show i + 1 + k = i + (k + 1) by omega]
      exact h (k + 1) w (by simpa using hw)
    simp only [Nat.add_zero] at h0
    simp only [anyLoop]
    cases h1 : child i (set v m) with
    | error e =>
      rw [h1] at h0
      obtain ⟨e', h2⟩ := answerOf_error.1 (h0.symm.trans rfl)
      rw [h2]; rfl
    | ok o =>
      rw [h1] at h0
      obtain ⟨o', h2, hf⟩ := answerOf_ok.1 (h0.symm.trans (answerOf_ok.2 ⟨o, rfl, rfl⟩))
      rw [h2]
      have e1 := hm _ _ _ h1
      have e2 := hm' _ _ _ h2
      simp only [Go.ok_bind, hf, e1, e2]
      split
      · cases ret (set v m) with
        | error e => rfl
        | ok e =>
          simp only [Go.ok_bind]
          split
          · exact anyLoop_answers hm hm' hs vs _ _ _ _ _ hrest
          · rfl
      · exact anyLoop_answers hm hm' hs vs _ _ _ _ _ hrest

theorem allLoop_answers {α : Type} {child child' : Nat → Msg → Go EvalOut} {set : α → Msg → Msg} {reset : Msg → Msg}
    (hm : ∀ i m o, child i m = .ok o → o.msg = m) (hm' : ∀ i m o, child' i m = .ok o → o.msg = m) (hs : ∀ v w m, set v (set w m) = set v m) :
    ∀ (l : List α) (i : Nat) (m : Msg), (∀ k v, l[k]? = some v → answerOf (child (i + k) (set v m)) = answerOf (child' (i + k) (set v m))) →
      answerOf (allLoop child set reset i m l) = answerOf (allLoop child' set reset i m l)
  | [], _, _, _ => rfl
  | v :: vs, i, m, h => by
    have h0 := h 0 v rfl
    have hrest : ∀ k w, vs[k]? = some w → answerOf (child (i + 1 + k) (set w (set v m))) = answerOf (child' (i + 1 + k) (set w (set v m))) := by
      intro k w hw
      rw [hs, show i + 1 + k = i + (k + 1) by omega]
      exact h (k + 1) w (by simpa using hw)
    simp only [Nat.add_zero] at h0
    simp only [allLoop]
    cases h1 : child i (set v m) with
    | error e =>
      rw [h1] at h0
      obtain ⟨e', h2⟩ := answerOf_error.1 (h0.symm.trans rfl)
      rw [h2]; rfl
    | ok o =>
      rw [h1] at h0
      obtain ⟨o', h2, hf⟩ := answerOf_ok.1 (h0.symm.trans (answerOf_ok.2 ⟨o, rfl, rfl⟩))
      rw [h2]
      have e1 := hm _ _ _ h1
      have e2 := hm' _ _ _ h2
      simp only [Go.ok_bind, hf, e1, e2]
      split
      · exact allLoop_answers hm hm' hs vs _ _ hrest
      · rfl

/-- The answer of an ANY is determined by those of its child on the messages in scope. -/
theorem evalAny_answers {E : Env} {p : List Nat} {a : AnyAll} {child child' : Nat → Msg → Go EvalOut} (hm : ∀ i m o, child i m = .ok o → o.msg = m)
    (hm' : ∀ i m o, child' i m = .ok o → o.msg = m)
    (h : ∀ l, scopes E p a m = .ok (some l) → ∀ k m', l[k]? = some m' → answerOf (child (k + 1) m') = answerOf (child' (k + 1) m')) :
    answerOf (evalAny E p a child m) = answerOf (evalAny E p a child' m) := by
  unfold evalAny
  split
  · rename_i hc
    cases hl : getArrayOfInterfaces E p a m with
    | error e => rfl
    | ok l =>
      simp only [Go.ok_bind]
      refine anyLoop_answers (set := setRawIRel) hm hm' (fun _ _ _ => rfl) l _ _ _ _ _ fun k v hk => ?_
      rw [Nat.add_comm]
      exact h _ (by rw [scopes, if_pos hc, hl]; rfl) k _ (by simp [hk, setRawIRel])
  · rename_i hc
    cases hl : getArrayOfJsons E p a m with
    | error e => rfl
    | ok l? =>
      simp only [Go.ok_bind]
      cases l? with
      | none => rfl
      | some l =>
        refine anyLoop_answers (set := setJsonRawRel) hm hm' (fun _ _ _ => rfl) l _ _ _ _ _ fun k v hk => ?_
        rw [Nat.add_comm]
        exact h _ (by rw [scopes, if_neg hc, hl]; rfl) k _ (by simp [hk, setJsonRawRel])

theorem evalAll_answers {E : Env} {p : List Nat} {a : AnyAll} {child child' : Nat → Msg → Go EvalOut} (hm : ∀ i m o, child i m = .ok o → o.msg = m)
    (hm' : ∀ i m o, child' i m = .ok o → o.msg = m)
    (h : ∀ l, scopes E p a m = .ok (some l) → ∀ k m', l[k]? = some m' → answerOf (child (k + 1) m') = answerOf (child' (k + 1) m')) :
    answerOf (evalAll E p a child m) = answerOf (evalAll E p a child' m) := by
  unfold evalAll
  split
  · rename_i hc
    cases hl : getArrayOfInterfaces E p a m with
    | error e => rfl
    | ok l =>
      simp only [Go.ok_bind]
      refine allLoop_answers (set := setRawIRel) hm hm' (fun _ _ _ => rfl) l _ _ fun k v hk => ?_
      rw [Nat.add_comm]
      exact h _ (by rw [scopes, if_pos hc, hl]; rfl) k _ (by simp [hk, setRawIRel])
  · rename_i hc
    cases hl : getArrayOfJsons E p a m with
    | error e => rfl
    | ok l? =>
      simp only [Go.ok_bind]
      cases l? with
      | none => rfl
      | some l =>
        refine allLoop_answers (set := setJsonRawRel) hm hm' (fun _ _ _ => rfl) l _ _ fun k v hk => ?_
        rw [Nat.add_comm]
        exact h _ (by rw [scopes, if_neg hc, hl]; rfl) k _ (by simp [hk, setJsonRawRel])

/-! ## Answers chosen for each element -/

/-- An execution in which the elements are selected as by `O`, and the child answers for each of them as it can. -/
theorem choose_answers {O : Env} {p : List Nat} {n : Node} (hO : Run env O) (f : Nat → Msg → Option Bool) (M : Nat → Msg)
    (h : ∀ k, ∃ x, Yields env (M k) n x ∧ x.toOption = f k (M k)) :
    ∃ G, Run env G ∧ G.toExt = O.toExt ∧ (∀ {α : Type} (i j : Nat) (l : List α), G.ord (i :: j :: p) l = O.ord (i :: j :: p) l) ∧
      ∀ k, answerOf (eval G n (k :: p) (M k)) = f k (M k) := by
  choose x hx hf using h
  choose E q hE he using hx
  refine ⟨graftOn O E q p, graftOn_run hO hE, rfl, graftOn_own, fun k => ?_⟩
  rw [eval_below n (graftOn_child k ((hE k).ext.trans hO.ext.symm)), ← answerOf_ev, he, hf]

/-- The message in scope for the element with the given number. -/
def scopeAt (s : Go (Option (List Msg))) (m : Msg) (k : Nat) : Msg :=
  match s with
  | .ok (some l) => l[k - 1]?.getD m
  | _ => m

theorem scopeAt_eq {s : Go (Option (List Msg))} {l : List Msg} {k : Nat} {m' : Msg} (hs : s = .ok (some l)) (hk : l[k]? = some m') : scopeAt s m (k + 1) = m' := by
  subst hs
  simp [scopeAt, hk]

theorem own_scopes_eq {E E' : Env} {p : List Nat} (hx : E'.toExt = E.toExt) (h : ∀ {α : Type} (i j : Nat) (l : List α), E'.ord (i :: j :: p) l = E.ord (i :: j :: p) l)
    (a : AnyAll) (m : Msg) : scopes E' p a m = scopes E p a m := by
  unfold scopes
  rw [(own_scopes hx h a m).1, (own_scopes hx h a m).2]

theorem can_any_congr {a : AnyAll} {n n' : Node} (ho : env.OrdOk) (h : ∀ m o, Can env g m n o → Can env g m n' o) {o : Option Bool} (hc : Can env g m (.any a n) o) :
    Can env g m (.any a n') o := by
  obtain ⟨A, x, h1, ⟨E, q, hE, rfl⟩, rfl⟩ := hc
  simp only [Node.prepare, Go.bind_eq_ok, Go.pure_eq, Except.ok.injEq] at h1
  obtain ⟨n1, hn1, a', ha', rfl⟩ := h1
  obtain ⟨o', ho'⟩ := can_of_prepare (m := m) ho hn1
  obtain ⟨n2, hn2⟩ := (h _ _ ho').prepares
  obtain ⟨G, hG, gx, go, gf⟩ := choose_answers (p := q) (n := n2) hE (fun k M => answerOf (eval E n1 (k :: q) M)) (scopeAt (scopes E q a' m) m) (fun k => by
    obtain ⟨b, y, hb, hy, e⟩ := h _ _ (⟨n1, _, hn1, ⟨E, k :: q, hE, rfl⟩, rfl⟩ : Can env g (scopeAt (scopes E q a' m) m k) n _)
    rw [hn2] at hb
    cases hb
    exact ⟨y, hy, e⟩)
  refine ⟨.any a' n2, _, by simp [Node.prepare, hn2, ha'], ⟨G, q, hG, rfl⟩, ?_⟩
  rw [answerOf_ev, answerOf_ev, eval, eval, own_evalAny gx go]
  refine evalAny_answers (fun i => eval_msg G n2 (i :: q)) (fun i => eval_msg E n1 (i :: q)) fun l hl k m' hk => ?_
  have := gf (k + 1)
  rw [scopeAt_eq hl hk] at this
  exact this

theorem can_all_congr {a : AnyAll} {n n' : Node} (ho : env.OrdOk) (h : ∀ m o, Can env g m n o → Can env g m n' o) {o : Option Bool} (hc : Can env g m (.all a n) o) :
    Can env g m (.all a n') o := by
  obtain ⟨A, x, h1, ⟨E, q, hE, rfl⟩, rfl⟩ := hc
  simp only [Node.prepare, Go.bind_eq_ok, Go.pure_eq, Except.ok.injEq] at h1
  obtain ⟨n1, hn1, a', ha', rfl⟩ := h1
  obtain ⟨o', ho'⟩ := can_of_prepare (m := m) ho hn1
  obtain ⟨n2, hn2⟩ := (h _ _ ho').prepares
  obtain ⟨G, hG, gx, go, gf⟩ := choose_answers (p := q) (n := n2) hE (fun k M => answerOf (eval E n1 (k :: q) M)) (scopeAt (scopes E q a' m) m) (fun k => by
    obtain ⟨b, y, hb, hy, e⟩ := h _ _ (⟨n1, _, hn1, ⟨E, k :: q, hE, rfl⟩, rfl⟩ : Can env g (scopeAt (scopes E q a' m) m k) n _)
    rw [hn2] at hb
    cases hb
    exact ⟨y, hy, e⟩)
  refine ⟨.all a' n2, _, by simp [Node.prepare, hn2, ha'], ⟨G, q, hG, rfl⟩, ?_⟩
  rw [answerOf_ev, answerOf_ev, eval, eval, own_evalAll gx go]
  refine evalAll_answers (fun i => eval_msg G n2 (i :: q)) (fun i => eval_msg E n1 (i :: q)) fun l hl k m' hk => ?_
  have := gf (k + 1)
  rw [scopeAt_eq hl hk] at this
  exact this

/-! ## Children that do not fail -/

theorem anyLoop_returns {α : Type} {child : Nat → Msg → Go EvalOut} {set : α → Msg → Msg} {reset : Msg → Msg} {ret : Msg → Go (List Extra)} {ca : Bool}
    (hc : ∀ i m, ∃ o, child i m = .ok o) (hr : ∀ m, ∃ e, ret m = .ok e) :
    ∀ (l : List α) (i : Nat) (res : Bool) (acc : List Extra) (m : Msg), ∃ o, anyLoop child set reset ret ca i res acc m l = .ok o
  | [], _, _, _, _ => ⟨_, rfl⟩
  | v :: vs, i, res, acc, m => by
    obtain ⟨o, ho⟩ := hc i (set v m)
    obtain ⟨e, he⟩ := hr o.msg
    simp only [anyLoop, ho, Go.ok_bind, he]
    split
    · split
      · exact anyLoop_returns hc hr vs _ _ _ _
      · exact ⟨_, rfl⟩
    · exact anyLoop_returns hc hr vs _ _ _ _

theorem allLoop_returns {α : Type} {child : Nat → Msg → Go EvalOut} {set : α → Msg → Msg} {reset : Msg → Msg} (hc : ∀ i m, ∃ o, child i m = .ok o) :
    ∀ (l : List α) (i : Nat) (m : Msg), ∃ o, allLoop child set reset i m l = .ok o
  | [], _, _ => ⟨_, rfl⟩
  | v :: vs, i, m => by
    obtain ⟨o, ho⟩ := hc i (set v m)
    simp only [allLoop, ho, Go.ok_bind]
    split
    · exact allLoop_returns hc vs _ _
    · exact ⟨_, rfl⟩

theorem evalAny_returns {E : Env} {p : List Nat} {a : AnyAll} {child : Nat → Msg → Go EvalOut} {l? : Option (List Msg)} (hr : a.ret = [])
    (hc : ∀ i m, ∃ o, child i m = .ok o) (hs : scopes E p a m = .ok l?) : ∃ o, evalAny E p a child m = .ok o := by
  unfold evalAny
  unfold scopes at hs
  split at hs
  · rename_i h
    obtain ⟨l, hl, -⟩ := Go.map_eq_ok.1 hs
    rw [if_pos h, hl]
    exact anyLoop_returns hc (fun _ => ⟨[], by rw [if_pos hr]; rfl⟩) _ _ _ _ _
  · rename_i h
    obtain ⟨l, hl, -⟩ := Go.map_eq_ok.1 hs
    rw [if_neg h, hl]
    cases l with
    | none => exact ⟨_, rfl⟩
    | some l => exact anyLoop_returns hc (fun _ => ⟨[], by rw [if_pos hr]; rfl⟩) _ _ _ _ _

theorem evalAll_returns {E : Env} {p : List Nat} {a : AnyAll} {child : Nat → Msg → Go EvalOut} {l? : Option (List Msg)}
    (hc : ∀ i m, ∃ o, child i m = .ok o) (hs : scopes E p a m = .ok l?) : ∃ o, evalAll E p a child m = .ok o := by
  unfold evalAll
  unfold scopes at hs
  split at hs
  · rename_i h
    obtain ⟨l, hl, -⟩ := Go.map_eq_ok.1 hs
    rw [if_pos h, hl]
    exact allLoop_returns hc _ _ _
  · rename_i h
    obtain ⟨l, hl, -⟩ := Go.map_eq_ok.1 hs
    rw [if_neg h, hl]
    cases l with
    | none => exact ⟨_, rfl⟩
    | some l => exact allLoop_returns hc _ _ _

theorem Spec.Run.same {E : Env} (ho : env.OrdOk) (h : Run env E) : SameExt env E := ⟨h.ext, ho, h.ord⟩

/-- Every execution selects the same elements, up to the order. -/
theorem scopes_run {E : Env} (ho : env.OrdOk) (hE : Run env E) (q : List Nat) (a : AnyAll) :
    (∃ e e', scopes env [] a m = .error e ∧ scopes E q a m = .error e') ∨ (scopes env [] a m = .ok none ∧ scopes E q a m = .ok none) ∨
      ∃ l l', scopes env [] a m = .ok (some l) ∧ scopes E q a m = .ok (some l') ∧ l.Perm l' := by
  cases h : scopes env [] a m with
  | ok l? =>
    cases l? with
    | none => exact .inr (.inl ⟨rfl, scopes_none (hE.same ho) _ _ _ _ h⟩)
    | some l =>
      obtain ⟨l', h', hp⟩ := scopes_perm (hE.same ho) [] q a m h
      exact .inr (.inr ⟨l, l', rfl, h', hp⟩)
  | error e =>
    have hb : SameExt E env := (hE.same ho).symm
    cases h' : scopes E q a m with
    | error e' => exact .inl ⟨e, e', rfl, rfl⟩
    | ok l? =>
      cases l? with
      | none => rw [scopes_none hb q [] a m h'] at h; cases h
      | some l =>
        obtain ⟨l', h2, -⟩ := scopes_perm hb q [] a m h'
        rw [h2] at h; cases h

/-- The answers a child gives: those it can give on the messages in scope. -/
theorem can_any_iff (ho : env.OrdOk) {a a' : AnyAll} {n : Node} (hn : NeverFails env g n) (hr : a.ret = []) (ha : a.prepare env = .ok a') :
    (Can env g m (.any a n) none ↔ Prep env g n ∧ ∃ e, scopes env [] a' m = .error e) ∧
    (Can env g m (.any a n) (some true) ↔ ∃ l, scopes env [] a' m = .ok (some l) ∧ ∃ m' ∈ l, Can env g m' n (some true)) ∧
    (Can env g m (.any a n) (some false) ↔ Prep env g n ∧ ∃ l?, scopes env [] a' m = .ok l? ∧ ∀ l, l? = some l → ∀ m' ∈ l, Can env g m' n (some false)) := by
  classical
  have hr' : a'.ret = [] := by
    simp only [AnyAll.prepare, Go.bind_eq_ok, Go.pure_eq, Except.ok.injEq] at ha
    obtain ⟨_, _, rfl⟩ := ha
    exact hr
  -- every answer comes from an execution of the prepared node
  have split : ∀ {o}, Can env g m (.any a n) o ↔ ∃ n', n.prepare env g = .ok n' ∧ ∃ E q, Run env E ∧ answerOf (evalAny E q a' (fun i m' => eval E n' (i :: q) m') m) = o := by
    intro o
    constructor
    · rintro ⟨A, x, h1, ⟨E, q, hE, rfl⟩, rfl⟩
      simp only [Node.prepare, Go.bind_eq_ok, Go.pure_eq, Except.ok.injEq] at h1
      obtain ⟨n1, hn1, a2, ha2, rfl⟩ := h1
      rw [ha] at ha2; cases ha2
      exact ⟨n1, hn1, E, q, hE, by rw [answerOf_ev, eval]⟩
    · rintro ⟨n', hn', E, q, hE, rfl⟩
      exact ⟨.any a' n', _, by simp [Node.prepare, hn', ha], ⟨E, q, hE, rfl⟩, by rw [answerOf_ev, eval]⟩
  have run : ∀ {n' E q}, n.prepare env g = .ok n' → Run env E → ∀ l?, scopes E q a' m = .ok l? → ∃ o, evalAny E q a' (fun i m' => eval E n' (i :: q) m') m = .ok o :=
    fun hn' hE _ hs => evalAny_returns hr' (fun i m' => hn _ _ _ _ hE hn') hs
  have fails : ∀ {n' E q}, ∀ e, scopes E q a' m = .error e → answerOf (evalAny E q a' (fun i m' => eval E n' (i :: q) m') m) = none := by
    intro n' E q e hs
    cases h : evalAny E q a' (fun i m' => eval E n' (i :: q) m') m with
    | error e => rfl
    | ok o =>
      obtain ⟨l?, h1, -⟩ := evalAny_flag (fun i => eval_msg E n' (i :: q)) h
      rw [hs] at h1; cases h1
  refine ⟨?_, ?_, ?_⟩
  · rw [split]
    constructor
    · rintro ⟨n', hn', E, q, hE, h⟩
      refine ⟨⟨n', hn'⟩, ?_⟩
      rcases scopes_run (m := m) ho hE q a' with ⟨e, _, h1, -⟩ | ⟨-, h2⟩ | ⟨_, _, -, h2, -⟩
      · exact ⟨e, h1⟩
      all_goals
        obtain ⟨o, ho⟩ := run hn' hE _ h2
        rw [ho] at h; cases h
    · rintro ⟨⟨n', hn'⟩, e, he⟩
      exact ⟨n', hn', env, [], ⟨rfl, ho⟩, fails e he⟩
  · rw [split]
    constructor
    · rintro ⟨n', hn', E, q, hE, h⟩
      obtain ⟨o, h, hf⟩ := answerOf_ok.1 h
      obtain ⟨l?, h1, h2, -⟩ := evalAny_flag (fun i => eval_msg E n' (i :: q)) h
      obtain ⟨l', rfl, i, m', oc, h3, h4, h5⟩ := h2 hf
      rcases scopes_run (m := m) ho hE q a' with ⟨_, _, -, h6⟩ | ⟨-, h6⟩ | ⟨l, l'', h6, h7, hp⟩
      · rw [h1] at h6; cases h6
      · rw [h1] at h6; cases h6
      · rw [h1] at h7; cases h7
        exact ⟨l, h6, m', hp.mem_iff.2 (List.mem_of_getElem? h3), n', _, hn', ⟨E, _, hE, rfl⟩, by rw [answerOf_ev, h4]; exact answerOf_ok.2 ⟨_, rfl, h5⟩⟩
    · rintro ⟨l, hl, m', hm', n', x, hn', hy, hx⟩
      obtain ⟨k, hk⟩ := List.mem_iff_getElem?.1 hm'
      obtain ⟨G, hG, gx, go, gf⟩ := choose_answers (p := []) (n := n') (O := env) ⟨rfl, ho⟩
        (fun i M => if i = k + 1 then some true else answerOf (eval env n' [] M)) (scopeAt (scopes env [] a' m) m) (fun i => by
          by_cases hi : i = k + 1
          · subst hi
            rw [scopeAt_eq hl hk]
            exact ⟨x, hy, by simp [hx]⟩
          · exact ⟨_, ⟨env, [], ⟨rfl, ho⟩, rfl⟩, by simp [hi, answerOf_ev]⟩)
      have hG' := own_scopes_eq gx go a' m
      obtain ⟨o, h⟩ := run hn' hG _ (hG'.trans hl)
      refine ⟨n', hn', G, [], hG, answerOf_ok.2 ⟨o, h, ?_⟩⟩
      obtain ⟨l?, h1, -, h2⟩ := evalAny_flag (fun i => eval_msg G n' [i]) h
      rw [hG', hl] at h1; cases h1
      cases hf : o.flag with
      | true => rfl
      | false =>
        obtain ⟨oc, h3, h4⟩ := h2 hf l rfl k m' hk
        have h5 := gf (k + 1)
        rw [scopeAt_eq hl hk, h3, if_pos rfl] at h5
        obtain ⟨_, h6, h7⟩ := answerOf_ok.1 h5
        cases h6
        rw [h4] at h7; cases h7
  · rw [split]
    constructor
    · rintro ⟨n', hn', E, q, hE, h⟩
      refine ⟨⟨n', hn'⟩, ?_⟩
      obtain ⟨o, h, hf⟩ := answerOf_ok.1 h
      obtain ⟨l?, h1, -, h2⟩ := evalAny_flag (fun i => eval_msg E n' (i :: q)) h
      rcases scopes_run (m := m) ho hE q a' with ⟨_, _, -, h6⟩ | ⟨h5, h6⟩ | ⟨l, l'', h6, h7, hp⟩
      · rw [h1] at h6; cases h6
      · exact ⟨_, h5, fun _ h => by cases h⟩
      · rw [h1] at h7; cases h7
        refine ⟨_, h6, fun l1 e m' hm' => ?_⟩
        cases e
        obtain ⟨k, hk⟩ := List.mem_iff_getElem?.1 (hp.mem_iff.1 hm')
        obtain ⟨oc, h3, h4⟩ := h2 hf _ rfl k m' hk
        exact ⟨n', _, hn', ⟨E, _, hE, rfl⟩, by rw [answerOf_ev, h3]; exact answerOf_ok.2 ⟨_, rfl, h4⟩⟩
    · rintro ⟨⟨n', hn'⟩, l?, hl, hall⟩
      obtain ⟨G, hG, gx, go, gf⟩ := choose_answers (p := []) (n := n') (O := env) ⟨rfl, ho⟩
        (fun i M => if ∃ l, l? = some l ∧ M ∈ l then some false else answerOf (eval env n' [] M)) (scopeAt (scopes env [] a' m) m) (fun i => by
          by_cases hi : ∃ l, l? = some l ∧ scopeAt (scopes env [] a' m) m i ∈ l
          · obtain ⟨l, e, hi'⟩ := hi
            obtain ⟨n2, x, h1, h2, h3⟩ := hall l e _ hi'
            rw [hn'] at h1; cases h1
            exact ⟨x, h2, by rw [if_pos ⟨l, e, hi'⟩, h3]⟩
          · exact ⟨_, ⟨env, [], ⟨rfl, ho⟩, rfl⟩, by rw [if_neg hi, answerOf_ev]⟩)
      have hG' := own_scopes_eq gx go a' m
      obtain ⟨o, h⟩ := run hn' hG _ (hG'.trans hl)
      refine ⟨n', hn', G, [], hG, answerOf_ok.2 ⟨o, h, ?_⟩⟩
      obtain ⟨l2, h1, h2, -⟩ := evalAny_flag (fun i => eval_msg G n' [i]) h
      rw [hG', hl] at h1; cases h1
      cases hf : o.flag with
      | false => rfl
      | true =>
        obtain ⟨l, rfl, k, m', oc, hk, h3, h4⟩ := h2 hf
        have h5 := gf (k + 1)
        rw [scopeAt_eq hl hk, h3, if_pos ⟨l, rfl, List.mem_of_getElem? hk⟩] at h5
        obtain ⟨_, h6, h7⟩ := answerOf_ok.1 h5
        cases h6
        rw [h4] at h7; cases h7

theorem can_all_iff (ho : env.OrdOk) {a a' : AnyAll} {n : Node} (hn : NeverFails env g n) (ha : a.prepare env = .ok a') :
    (Can env g m (.all a n) none ↔ Prep env g n ∧ ∃ e, scopes env [] a' m = .error e) ∧
    (Can env g m (.all a n) (some true) ↔ Prep env g n ∧ ∃ l, scopes env [] a' m = .ok (some l) ∧ ∀ m' ∈ l, Can env g m' n (some true)) ∧
    (Can env g m (.all a n) (some false) ↔ Prep env g n ∧ (scopes env [] a' m = .ok none ∨
      ∃ l, scopes env [] a' m = .ok (some l) ∧ ∃ m' ∈ l, Can env g m' n (some false))) := by
  classical
  -- every answer comes from an execution of the prepared node
  have split : ∀ {o}, Can env g m (.all a n) o ↔ ∃ n', n.prepare env g = .ok n' ∧ ∃ E q, Run env E ∧ answerOf (evalAll E q a' (fun i m' => eval E n' (i :: q) m') m) = o := by
    intro o
    constructor
    · rintro ⟨A, x, h1, ⟨E, q, hE, rfl⟩, rfl⟩
      simp only [Node.prepare, Go.bind_eq_ok, Go.pure_eq, Except.ok.injEq] at h1
      obtain ⟨n1, hn1, a2, ha2, rfl⟩ := h1
      rw [ha] at ha2; cases ha2
      exact ⟨n1, hn1, E, q, hE, by rw [answerOf_ev, eval]⟩
    · rintro ⟨n', hn', E, q, hE, rfl⟩
      exact ⟨.all a' n', _, by simp [Node.prepare, hn', ha], ⟨E, q, hE, rfl⟩, by rw [answerOf_ev, eval]⟩
  have run : ∀ {n' E q}, n.prepare env g = .ok n' → Run env E → ∀ l?, scopes E q a' m = .ok l? → ∃ o, evalAll E q a' (fun i m' => eval E n' (i :: q) m') m = .ok o :=
    fun hn' hE _ hs => evalAll_returns (fun i m' => hn _ _ _ _ hE hn') hs
  have fails : ∀ {n' E q}, ∀ e, scopes E q a' m = .error e → answerOf (evalAll E q a' (fun i m' => eval E n' (i :: q) m') m) = none := by
    intro n' E q e hs
    cases h : evalAll E q a' (fun i m' => eval E n' (i :: q) m') m with
    | error e => rfl
    | ok o =>
      obtain ⟨l?, h1, -⟩ := evalAll_flag (fun i => eval_msg E n' (i :: q)) h
      rw [hs] at h1; cases h1
  refine ⟨?_, ?_, ?_⟩
  · rw [split]
    constructor
    · rintro ⟨n', hn', E, q, hE, h⟩
      refine ⟨⟨n', hn'⟩, ?_⟩
      rcases scopes_run (m := m) ho hE q a' with ⟨e, _, h1, -⟩ | ⟨-, h2⟩ | ⟨_, _, -, h2, -⟩
      · exact ⟨e, h1⟩
      all_goals
        obtain ⟨o, ho⟩ := run hn' hE _ h2
        rw [ho] at h; cases h
    · rintro ⟨⟨n', hn'⟩, e, he⟩
      exact ⟨n', hn', env, [], ⟨rfl, ho⟩, fails e he⟩
  · rw [split]
    constructor
    · rintro ⟨n', hn', E, q, hE, h⟩
      refine ⟨⟨n', hn'⟩, ?_⟩
      obtain ⟨o, h, hf⟩ := answerOf_ok.1 h
      obtain ⟨l?, h1, h2, -⟩ := evalAll_flag (fun i => eval_msg E n' (i :: q)) h
      obtain ⟨l', rfl, h2'⟩ := h2 hf
      rcases scopes_run (m := m) ho hE q a' with ⟨_, _, -, h6⟩ | ⟨h5, h6⟩ | ⟨l, l'', h6, h7, hp⟩
      · rw [h1] at h6; cases h6
      · rw [h1] at h6; cases h6
      · rw [h1] at h7; cases h7
        refine ⟨_, h6, fun m' hm' => ?_⟩
        obtain ⟨k, hk⟩ := List.mem_iff_getElem?.1 (hp.mem_iff.1 hm')
        obtain ⟨oc, h3, h4⟩ := h2' k m' hk
        exact ⟨n', _, hn', ⟨E, _, hE, rfl⟩, by rw [answerOf_ev, h3]; exact answerOf_ok.2 ⟨_, rfl, h4⟩⟩
    · rintro ⟨⟨n', hn'⟩, l, hl, hall⟩
      obtain ⟨G, hG, gx, go, gf⟩ := choose_answers (p := []) (n := n') (O := env) ⟨rfl, ho⟩
        (fun i M => if M ∈ l then some true else answerOf (eval env n' [] M)) (scopeAt (scopes env [] a' m) m) (fun i => by
          by_cases hi : scopeAt (scopes env [] a' m) m i ∈ l
          · obtain ⟨n2, x, h1, h2, h3⟩ := hall _ hi
            rw [hn'] at h1; cases h1
            exact ⟨x, h2, by rw [if_pos hi, h3]⟩
          · exact ⟨_, ⟨env, [], ⟨rfl, ho⟩, rfl⟩, by rw [if_neg hi, answerOf_ev]⟩)
      have hG' := own_scopes_eq gx go a' m
      obtain ⟨o, h⟩ := run hn' hG _ (hG'.trans hl)
      refine ⟨n', hn', G, [], hG, answerOf_ok.2 ⟨o, h, ?_⟩⟩
      obtain ⟨l2, h1, -, h2⟩ := evalAll_flag (fun i => eval_msg G n' [i]) h
      rw [hG', hl] at h1; cases h1
      cases hf : o.flag with
      | true => rfl
      | false =>
        obtain ⟨k, m', oc, hk, h3, h4⟩ := h2 hf l rfl
        have h5 := gf (k + 1)
        rw [scopeAt_eq hl hk, h3, if_pos (List.mem_of_getElem? hk)] at h5
        obtain ⟨_, h6, h7⟩ := answerOf_ok.1 h5
        cases h6
        rw [h4] at h7; cases h7
  · rw [split]
    constructor
    · rintro ⟨n', hn', E, q, hE, h⟩
      refine ⟨⟨n', hn'⟩, ?_⟩
      obtain ⟨o, h, hf⟩ := answerOf_ok.1 h
      obtain ⟨l?, h1, -, h2⟩ := evalAll_flag (fun i => eval_msg E n' (i :: q)) h
      rcases scopes_run (m := m) ho hE q a' with ⟨_, _, -, h6⟩ | ⟨h5, -⟩ | ⟨l, l'', h6, h7, hp⟩
      · rw [h1] at h6; cases h6
      · exact .inl h5
      · rw [h1] at h7; cases h7
        obtain ⟨i, m', oc, h3, h4, h5⟩ := h2 hf _ rfl
        exact .inr ⟨l, h6, m', hp.mem_iff.2 (List.mem_of_getElem? h3), n', _, hn', ⟨E, _, hE, rfl⟩, by
          rw [answerOf_ev, h4]; exact answerOf_ok.2 ⟨_, rfl, h5⟩⟩
    · rintro ⟨⟨n', hn'⟩, hl | ⟨l, hl, m', hm', n2, x, hn2, hy, hx⟩⟩
      · obtain ⟨o, h⟩ := run hn' ⟨rfl, ho⟩ _ hl
        refine ⟨n', hn', env, [], ⟨rfl, ho⟩, answerOf_ok.2 ⟨o, h, ?_⟩⟩
        obtain ⟨l2, h1, h2, -⟩ := evalAll_flag (fun i => eval_msg env n' [i]) h
        rw [hl] at h1; cases h1
        cases hf : o.flag with
        | false => rfl
        | true =>
          obtain ⟨l, e, -⟩ := h2 hf
          cases e
      · rw [hn'] at hn2; cases hn2
        obtain ⟨k, hk⟩ := List.mem_iff_getElem?.1 hm'
        obtain ⟨G, hG, gx, go, gf⟩ := choose_answers (p := []) (n := n') (O := env) ⟨rfl, ho⟩
          (fun i M => if i = k + 1 then some false else answerOf (eval env n' [] M)) (scopeAt (scopes env [] a' m) m) (fun i => by
            by_cases hi : i = k + 1
            · subst hi
              rw [scopeAt_eq hl hk]
              exact ⟨x, hy, by simp [hx]⟩
            · exact ⟨_, ⟨env, [], ⟨rfl, ho⟩, rfl⟩, by simp [hi, answerOf_ev]⟩)
        have hG' := own_scopes_eq gx go a' m
        obtain ⟨o, h⟩ := run hn' hG _ (hG'.trans hl)
        refine ⟨n', hn', G, [], hG, answerOf_ok.2 ⟨o, h, ?_⟩⟩
        obtain ⟨l?, h1, h2, -⟩ := evalAll_flag (fun i => eval_msg G n' [i]) h
        rw [hG', hl] at h1; cases h1
        cases hf : o.flag with
        | false => rfl
        | true =>
          obtain ⟨l1, e, h2⟩ := h2 hf
          cases e
          obtain ⟨oc, h3, h4⟩ := h2 k m' hk
          have h5 := gf (k + 1)
          rw [scopeAt_eq hl hk, h3, if_pos rfl] at h5
          obtain ⟨_, h6, h7⟩ := answerOf_ok.1 h5
          cases h6
          rw [h4] at h7; cases h7

theorem prep_any {a a' : AnyAll} {n : Node} (ha : a.prepare env.toExt = .ok a') : Prep env g (.any a n) ↔ Prep env g n := by
  constructor
  · rintro ⟨x, h⟩
    simp only [Node.prepare, Go.bind_eq_ok] at h
    obtain ⟨y, hy, -⟩ := h
    exact ⟨y, hy⟩
  · rintro ⟨y, hy⟩
    exact ⟨_, by simp only [Node.prepare, hy, ha, Go.ok_bind]; rfl⟩

theorem prep_all {a a' : AnyAll} {n : Node} (ha : a.prepare env.toExt = .ok a') : Prep env g (.all a n) ↔ Prep env g n := by
  constructor
  · rintro ⟨x, h⟩
    simp only [Node.prepare, Go.bind_eq_ok] at h
    obtain ⟨y, hy, -⟩ := h
    exact ⟨y, hy⟩
  · rintro ⟨y, hy⟩
    exact ⟨_, by simp only [Node.prepare, hy, ha, Go.ok_bind]; rfl⟩

theorem evalOr_returns {E : Env} {q : List Nat} : ∀ (ns : List Node) (i : Nat) (f : Bool) (acc : List Extra) (m : Msg),
    (∀ n ∈ ns, ∀ q m, ∃ o, eval E n q m = .ok o) → ∃ o, evalOr E ns q i f acc m = .ok o
  | [], _, _, _, _, _ => ⟨_, rfl⟩
  | n :: ns, i, f, acc, m, h => by
    obtain ⟨o, ho⟩ := h n (by simp) (i :: q) m
    simp only [evalOr, ho, Go.ok_bind]
    exact evalOr_returns ns _ _ _ _ (fun x hx => h x (by simp [hx]))

theorem evalAnd_returns {E : Env} {q : List Nat} : ∀ (ns : List Node) (i : Nat) (acc : List Extra) (m : Msg),
    (∀ n ∈ ns, ∀ q m, ∃ o, eval E n q m = .ok o) → ∃ o, evalAnd E ns q i acc m = .ok o
  | [], _, _, _, _ => ⟨_, rfl⟩
  | n :: ns, i, acc, m, h => by
    obtain ⟨o, ho⟩ := h n (by simp) (i :: q) m
    simp only [evalAnd, ho, Go.ok_bind]
    split
    · exact ⟨_, rfl⟩
    · exact evalAnd_returns ns _ _ _ (fun x hx => h x (by simp [hx]))

theorem prepareNodes_mem {e : Ext} : ∀ {ns ns' : List Node}, prepareNodes e g ns = .ok ns' → ∀ x' ∈ ns', ∃ x ∈ ns, x.prepare e g = .ok x'
  | [], ns', h, x', hx => by
    simp only [prepareNodes, Except.ok.injEq, Go.pure_eq] at h
    subst h
    cases hx
  | n :: ns, ns', h, x', hx => by
    simp only [prepareNodes, Go.bind_eq_ok, Go.pure_eq, Except.ok.injEq] at h
    obtain ⟨y, hy, ys, hys, rfl⟩ := h
    rcases List.mem_cons.1 hx with rfl | hx
    · exact ⟨n, by simp, hy⟩
    · obtain ⟨x, h1, h2⟩ := prepareNodes_mem hys x' hx
      exact ⟨x, by simp [h1], h2⟩

theorem neverFails_or {ns : List Node} (h : ∀ n ∈ ns, NeverFails env g n) : NeverFails env g (.or ns) := by
  intro E x q m hE hx
  simp only [Node.prepare, Go.bind_eq_ok, Go.pure_eq, Except.ok.injEq] at hx
  obtain ⟨ys, hys, rfl⟩ := hx
  rw [eval]
  refine evalOr_returns ys _ _ _ _ fun y hy q m => ?_
  obtain ⟨n, h1, h2⟩ := prepareNodes_mem hys y hy
  exact h n h1 _ _ _ _ hE h2

theorem neverFails_and {ns : List Node} (h : ∀ n ∈ ns, NeverFails env g n) : NeverFails env g (.and ns) := by
  intro E x q m hE hx
  simp only [Node.prepare, Go.bind_eq_ok, Go.pure_eq, Except.ok.injEq] at hx
  obtain ⟨ys, hys, rfl⟩ := hx
  rw [eval]
  refine evalAnd_returns ys _ _ _ fun y hy q m => ?_
  obtain ⟨n, h1, h2⟩ := prepareNodes_mem hys y hy
  exact h n h1 _ _ _ _ hE h2

/-- Children that can only fail. -/
theorem or_fails (ho : env.OrdOk) {ns : List Node} (hne : ns ≠ []) (h : ∀ n ∈ ns, ∀ o, Can env g m n o ↔ Prep env g n ∧ o = none) (o : Option Bool) :
    Can env g m (.or ns) o ↔ (∀ n ∈ ns, Prep env g n) ∧ o = none := by
  obtain ⟨n, ns, rfl⟩ := List.exists_cons_of_ne_nil hne
  rw [can_or_cons, List.forall_mem_cons]
  constructor
  · rintro ⟨x, y, hx, hy, rfl⟩
    obtain ⟨hn, rfl⟩ := (h n (by simp) x).1 hx
    exact ⟨⟨hn, prep_or.1 hy.prepares⟩, by cases y <;> rfl⟩
  · rintro ⟨⟨hn, hns⟩, rfl⟩
    obtain ⟨y, hy⟩ := (prep_can (m := m) ho).1 (prep_or.2 hns)
    exact ⟨none, y, (h n (by simp) none).2 ⟨hn, rfl⟩, hy, by cases y <;> rfl⟩

theorem and_fails (ho : env.OrdOk) {ns : List Node} (hne : ns ≠ []) (h : ∀ n ∈ ns, ∀ o, Can env g m n o ↔ Prep env g n ∧ o = none) (o : Option Bool) :
    Can env g m (.and ns) o ↔ (∀ n ∈ ns, Prep env g n) ∧ o = none := by
  obtain ⟨n, ns, rfl⟩ := List.exists_cons_of_ne_nil hne
  rw [can_and_cons, List.forall_mem_cons]
  constructor
  · rintro ⟨x, y, hx, hy, rfl⟩
    obtain ⟨hn, rfl⟩ := (h n (by simp) x).1 hx
    exact ⟨⟨hn, prep_and.1 hy.prepares⟩, by cases y <;> rfl⟩
  · rintro ⟨⟨hn, hns⟩, rfl⟩
    obtain ⟨y, hy⟩ := (prep_can (m := m) ho).1 (prep_and.2 hns)
    exact ⟨none, y, (h n (by simp) none).2 ⟨hn, rfl⟩, hy, by cases y <;> rfl⟩

theorem prepares_of_any {a : AnyAll} {n : Node} {o : Option Bool} (h : Can env g m (.any a n) o) : ∃ a', a.prepare env.toExt = .ok a' := by
  obtain ⟨x, h⟩ := h.prepares
  simp only [Node.prepare, Go.bind_eq_ok] at h
  obtain ⟨_, _, a', ha, -⟩ := h
  exact ⟨a', ha⟩

theorem prepares_of_all {a : AnyAll} {n : Node} {o : Option Bool} (h : Can env g m (.all a n) o) : ∃ a', a.prepare env.toExt = .ok a' := by
  obtain ⟨x, h⟩ := h.prepares
  simp only [Node.prepare, Go.bind_eq_ok] at h
  obtain ⟨_, _, a', ha, -⟩ := h
  exact ⟨a', ha⟩

/-- ANY of a disjunction. -/
theorem any_or (ho : env.OrdOk) {a : AnyAll} {ns : List Node} (hne : ns ≠ []) (hr : a.ret = []) (hs : ∀ n ∈ ns, NeverFails env g n) (o : Option Bool) :
    Can env g m (.any a (.or ns)) o ↔ Can env g m (.or (ns.map (.any a))) o := by
  have hne' : ns.map (Node.any a) ≠ [] := by simpa using hne
  by_cases ha : ∃ a', a.prepare env.toExt = .ok a'
  · obtain ⟨a', ha⟩ := ha
    obtain ⟨c1, c2, c3⟩ := can_any_iff (m := m) ho (neverFails_or hs) hr ha
    have each := fun n hn => can_any_iff (m := m) ho (hs n hn) hr ha
    have safe : ∀ m, ∀ n ∈ ns, ¬ Can env g m n none := fun m n hn => never_none (hs n hn)
    have pr : (∀ n ∈ ns.map (Node.any a), Prep env g n) ↔ ∀ n ∈ ns, Prep env g n := by simp [prep_any ha]
    cases hsc : scopes env [] a' m with
    | error e =>
      rw [or_fails ho hne' (by
        intro x hx o
        obtain ⟨n, hn, rfl⟩ := List.mem_map.1 hx
        obtain ⟨d1, d2, d3⟩ := each n hn
        rw [prep_any ha]
        rcases o with _ | _ | _
        · simp [d1, hsc]
        · simp [d3, hsc]
        · simp [d2, hsc]), pr]
      rcases o with _ | _ | _
      · simp [c1, hsc, prep_or]
      · simp [c3, hsc]
      · simp [c2, hsc]
    | ok l? =>
      obtain ⟨e1, e2, e3⟩ := or_safe (env := env) (g := g) (m := m) ho (ns := ns.map (.any a)) (by
        intro x hx
        obtain ⟨n, hn, rfl⟩ := List.mem_map.1 hx
        simp [(each n hn).1, hsc])
      rcases o with _ | _ | _
      · simp [c1, hsc, e3]
      · rw [c3, e2, prep_or]
        simp only [hsc, List.forall_mem_map]
        constructor
        · rintro ⟨h1, l2, e, h2⟩ n hn
          cases e
          refine (each n hn).2.2.2 ⟨h1 n hn, l?, hsc, fun l e m' hm' => ?_⟩
          exact ((or_safe ho (safe m')).2.1.1 (h2 l e m' hm')) n hn
        · intro h
          refine ⟨fun n hn => (prep_any ha).1 (h n hn).prepares, l?, rfl, fun l e m' hm' => (or_safe ho (safe m')).2.1.2 fun n hn => ?_⟩
          obtain ⟨-, l2, e2, h3⟩ := (each n hn).2.2.1 (h n hn)
          rw [hsc] at e2; cases e2
          exact h3 l e m' hm'
      · rw [c2, e1, pr]
        constructor
        · rintro ⟨l, h1, m', hm', h2⟩
          obtain ⟨h3, n, hn, h4⟩ := (or_safe ho (safe m')).1.1 h2
          exact ⟨h3, _, List.mem_map.2 ⟨n, hn, rfl⟩, (each n hn).2.1.2 ⟨l, h1, m', hm', h4⟩⟩
        · rintro ⟨h3, x, hx, h4⟩
          obtain ⟨n, hn, rfl⟩ := List.mem_map.1 hx
          obtain ⟨l, h1, m', hm', h5⟩ := (each n hn).2.1.1 h4
          exact ⟨l, h1, m', hm', (or_safe ho (safe m')).1.2 ⟨h3, n, hn, h5⟩⟩
  · refine iff_of_false (fun h => ha (prepares_of_any h)) fun h => ha ?_
    obtain ⟨n, hn⟩ := List.exists_mem_of_ne_nil _ hne
    obtain ⟨x, hx⟩ := (prep_can (m := m) ho).1 (prep_or.1 h.prepares _ (List.mem_map.2 ⟨n, hn, rfl⟩))
    exact prepares_of_any hx

/-- ALL of a conjunction. -/
theorem all_and (ho : env.OrdOk) {a : AnyAll} {ns : List Node} (hne : ns ≠ []) (hs : ∀ n ∈ ns, NeverFails env g n) (o : Option Bool) :
    Can env g m (.all a (.and ns)) o ↔ Can env g m (.and (ns.map (.all a))) o := by
  have hne' : ns.map (Node.all a) ≠ [] := by simpa using hne
  by_cases ha : ∃ a', a.prepare env.toExt = .ok a'
  · obtain ⟨a', ha⟩ := ha
    obtain ⟨c1, c2, c3⟩ := can_all_iff (m := m) ho (neverFails_and hs) ha
    have each := fun n hn => can_all_iff (m := m) ho (hs n hn) ha
    have safe : ∀ m, ∀ n ∈ ns, ¬ Can env g m n none := fun m n hn => never_none (hs n hn)
    have pr : (∀ n ∈ ns.map (Node.all a), Prep env g n) ↔ ∀ n ∈ ns, Prep env g n := by simp [prep_all ha]
    cases hsc : scopes env [] a' m with
    | error e =>
      rw [and_fails ho hne' (by
        intro x hx o
        obtain ⟨n, hn, rfl⟩ := List.mem_map.1 hx
        obtain ⟨d1, d2, d3⟩ := each n hn
        rw [prep_all ha]
        rcases o with _ | _ | _
        · simp [d1, hsc]
        · simp [d3, hsc]
        · simp [d2, hsc]), pr]
      rcases o with _ | _ | _
      · simp [c1, hsc, prep_and]
      · simp [c3, hsc]
      · simp [c2, hsc]
    | ok l? =>
      obtain ⟨e1, e2, e3⟩ := and_safe (env := env) (g := g) (m := m) ho (ns := ns.map (.all a)) (by
        intro x hx
        obtain ⟨n, hn, rfl⟩ := List.mem_map.1 hx
        simp [(each n hn).1, hsc])
      rcases o with _ | _ | _
      · simp [c1, hsc, e3]
      · rw [c3, e1, pr, prep_and]
        refine and_congr_right fun hp => ?_
        constructor
        · rintro (h | ⟨l, h1, m', hm', h2⟩)
          · obtain ⟨n, hn⟩ := List.exists_mem_of_ne_nil _ hne
            exact ⟨_, List.mem_map.2 ⟨n, hn, rfl⟩, (each n hn).2.2.2 ⟨hp n hn, .inl h⟩⟩
          · obtain ⟨-, n, hn, h4⟩ := (and_safe ho (safe m')).1.1 h2
            exact ⟨_, List.mem_map.2 ⟨n, hn, rfl⟩, (each n hn).2.2.2 ⟨hp n hn, .inr ⟨l, h1, m', hm', h4⟩⟩⟩
        · rintro ⟨x, hx, h4⟩
          obtain ⟨n, hn, rfl⟩ := List.mem_map.1 hx
          obtain ⟨-, h | ⟨l, h1, m', hm', h5⟩⟩ := (each n hn).2.2.1 h4
          · exact .inl h
          · exact .inr ⟨l, h1, m', hm', (and_safe ho (safe m')).1.2 ⟨hp, n, hn, h5⟩⟩
      · rw [c2, e2, prep_and]
        simp only [List.forall_mem_map]
        constructor
        · rintro ⟨h1, l, h0, h2⟩ n hn
          exact (each n hn).2.1.2 ⟨h1 n hn, l, h0, fun m' hm' => (and_safe ho (safe m')).2.1.1 (h2 m' hm') n hn⟩
        · intro h
          obtain ⟨n, hn⟩ := List.exists_mem_of_ne_nil _ hne
          obtain ⟨-, l, h0, -⟩ := (each n hn).2.1.1 (h n hn)
          refine ⟨fun n hn => (prep_all ha).1 (h n hn).prepares, l, h0, fun m' hm' => (and_safe ho (safe m')).2.1.2 fun n hn => ?_⟩
          obtain ⟨-, l2, e2, h3⟩ := (each n hn).2.1.1 (h n hn)
          rw [h0] at e2; cases e2
          exact h3 m' hm'
  · refine iff_of_false (fun h => ha (prepares_of_all h)) fun h => ha ?_
    obtain ⟨n, hn⟩ := List.exists_mem_of_ne_nil _ hne
    obtain ⟨x, hx⟩ := (prep_can (m := m) ho).1 (prep_and.1 h.prepares _ (List.mem_map.2 ⟨n, hn, rfl⟩))
    exact prepares_of_all hx

end Mapl

import Verif.Lemmas.Refactor
import Verif.Lemmas.EvalMsg
import Verif.Lemmas.Copy

/-! # What a tree can answer, under all orders of iteration -/

namespace Mapl
open Spec

variable {env : Env} {g : Predef} {m : Msg}

/-! ## Oracles put together -/

/-- One oracle that behaves like `E i` at the positions below child `i` of `b`. -/
def graft (env : Env) (E : Nat → Env) (q : Nat → List Nat) (b : List Nat) : Env :=
  { env with ord := fun p l =>
      match p[p.length - b.length - 1]? with
      | none => l
      | some i => (E i).ord (p.take (p.length - b.length - 1) ++ q i) l }

theorem graft_reroot {E : Nat → Env} {q : Nat → List Nat} {b : List Nat} (i : Nat) (h : (E i).toExt = env.toExt) :
    Reroot (E i) (graft env E q b) (q i) (i :: b) where
  ext := h.symm
  ord p l := by
    have e : (p ++ i :: b).length - b.length - 1 = p.length := by simp; omega
    simp only [graft, e]
    simp

theorem graft_run {E : Nat → Env} {q : Nat → List Nat} {b : List Nat} (h : ∀ i, Run env (E i)) : Run env (graft env E q b) where
  ext := rfl
  ord := by
    intro α p l
    simp only [graft]
    split
    · exact List.Perm.refl _
    · exact (h _).ord _ _

/-- An oracle that behaves at `b` as `E` does at `q`. -/
def moved (E : Env) (q b : List Nat) : Env :=
  { E with ord := fun p l => E.ord (p.take (p.length - b.length) ++ q) l }

theorem moved_reroot {E : Env} {q b : List Nat} : Reroot E (moved E q b) q b where
  ext := rfl
  ord p l := by
    simp [moved]

theorem moved_run {E : Env} {q b : List Nat} (h : Run env E) : Run env (moved E q b) where
  ext := h.ext
  ord := fun _ _ => h.ord _ _

/-! ## Answers of evaluation -/

/-- The answer alone. -/
def ev (E : Env) (n : Node) (q : List Nat) (m : Msg) : Go Bool := (eval E n q m).map (·.flag)

def evo (E : Env) (ns : List Node) (q : List Nat) (i : Nat) (m : Msg) : Go Bool := (evalOr E ns q i false [] m).map (·.flag)

def eva (E : Env) (ns : List Node) (q : List Nat) (i : Nat) (m : Msg) : Go Bool := (evalAnd E ns q i [] m).map (·.flag)

theorem evalOr_acc {E : Env} : ∀ (ns : List Node) (q : List Nat) (i : Nat) (f : Bool) (acc : List Extra) (m : Msg),
    (evalOr E ns q i f acc m).map (·.flag) = (evo E ns q i m).map (f || ·)
  | [], q, i, f, acc, m => by simp [evo, evalOr, Except.map]
  | n :: ns, q, i, f, acc, m => by
    simp only [evo, evalOr]
    cases h : eval E n (i :: q) m with
    | error x => rfl
    | ok o =>
      simp only [Go.ok_bind, evalOr_acc ns]
      cases evo E ns q (i + 1) o.msg <;> simp [Except.map, Bool.or_assoc]

theorem evo_cons {E : Env} {n : Node} {ns : List Node} {q : List Nat} {i : Nat} :
    evo E (n :: ns) q i m = (do
      let a ← ev E n (i :: q) m
      let b ← evo E ns q (i + 1) m
      pure (a || b)) := by
  simp only [evo, evalOr, ev]
  cases h : eval E n (i :: q) m with
  | error x => rfl
  | ok o =>
    have hm := eval_msg E n _ m o h
    simp only [Go.ok_bind]
    rw [evalOr_acc, hm]
    simp only [Except.map, Go.ok_bind, evo]
    cases evalOr E ns q (i + 1) false [] m <;> simp [Except.map, Go.pure_eq]

theorem evalAnd_acc {E : Env} : ∀ (ns : List Node) (q : List Nat) (i : Nat) (acc : List Extra) (m : Msg),
    (evalAnd E ns q i acc m).map (·.flag) = eva E ns q i m
  | [], q, i, acc, m => by simp [eva, evalAnd, Except.map]
  | n :: ns, q, i, acc, m => by
    simp only [eva, evalAnd]
    cases h : eval E n (i :: q) m with
    | error x => rfl
    | ok o =>
      simp only [Go.ok_bind]
      split
      · rfl
      · rw [evalAnd_acc, evalAnd_acc]

theorem eva_cons {E : Env} {n : Node} {ns : List Node} {q : List Nat} {i : Nat} :
    eva E (n :: ns) q i m = (do
      let a ← ev E n (i :: q) m
      if a then eva E ns q (i + 1) m else pure false) := by
  simp only [eva, evalAnd, ev]
  cases h : eval E n (i :: q) m with
  | error x => rfl
  | ok o =>
    have hm := eval_msg E n _ m o h
    simp only [Go.ok_bind, Except.map]
    cases o.flag with
    | false => simp
    | true =>
      simp only [Bool.true_eq_false, if_false, if_true]
      have := @evalAnd_acc E ns q (i + 1) (if o.extra.length > 0 then o.extra else []) o.msg
      simp only [Except.map] at this
      rw [this, hm]
      simp [eva, Except.map]

theorem ev_reroot {E E' : Env} {n : Node} {q q' : List Nat} (h : Reroot E E' q q') : ev E' n q' m = ev E n q m := by
  simp only [ev, eval_reroot n h]

theorem evo_shift {E E' : Env} {q q' : List Nat} : ∀ (ns : List Node) (i j : Nat),
    (∀ d, Reroot E E' ((i + d) :: q) ((j + d) :: q')) → evo E' ns q' j m = evo E ns q i m
  | [], i, j, _ => by simp [evo, evalOr]
  | n :: ns, i, j, h => by
    rw [evo_cons, evo_cons, ev_reroot (show Reroot E E' (i :: q) (j :: q') from h 0), evo_shift ns (i + 1) (j + 1) (fun d => by
      have := h (d + 1)
      rwa [show i + (d + 1) = i + 1 + d by omega, show j + (d + 1) = j + 1 + d by omega] at this)]

theorem eva_shift {E E' : Env} {q q' : List Nat} : ∀ (ns : List Node) (i j : Nat),
    (∀ d, Reroot E E' ((i + d) :: q) ((j + d) :: q')) → eva E' ns q' j m = eva E ns q i m
  | [], i, j, _ => by simp [eva, evalAnd]
  | n :: ns, i, j, h => by
    rw [eva_cons, eva_cons, ev_reroot (show Reroot E E' (i :: q) (j :: q') from h 0), eva_shift ns (i + 1) (j + 1) (fun d => by
      have := h (d + 1)
      rwa [show i + (d + 1) = i + 1 + d by omega, show j + (d + 1) = j + 1 + d by omega] at this)]

/-! ## Possible answers -/

/-- Some execution of the evaluation gives the result. -/
def Yields (env : Env) (m : Msg) (n : Node) (x : Go Bool) : Prop := ∃ E q, Run env E ∧ ev E n q m = x

theorem Yields.at {n : Node} {x : Go Bool} (h : Yields env m n x) (b : List Nat) : ∃ E, Run env E ∧ ev E n b m = x := by
  obtain ⟨E, q, hE, h⟩ := h
  exact ⟨moved E q b, moved_run hE, by rw [ev_reroot moved_reroot, h]⟩

theorem exists_yields (ho : env.OrdOk) (n : Node) : ∃ x, Yields env m n x := ⟨_, env, [], ⟨rfl, ho⟩, rfl⟩

theorem yields_not {n : Node} {x : Go Bool} : Yields env m (.not n) x ↔ ∃ y, Yields env m n y ∧ x = y.map (!·) := by
  have key : ∀ E q, ev E (.not n) q m = (ev E n (1 :: q) m).map (!·) := by
    intro E q
    simp only [ev, eval]
    cases eval E n (1 :: q) m <;> rfl
  constructor
  · rintro ⟨E, q, hE, rfl⟩
    exact ⟨_, ⟨E, _, hE, rfl⟩, key E q⟩
  · rintro ⟨y, h, rfl⟩
    obtain ⟨E, hE, rfl⟩ := h.at [1]
    exact ⟨E, [], hE, key E []⟩

/-- The head and the tail of a list of children can be chosen independently. -/
theorem yields_pair {n : Node} {ns : List Node} {x y : Go Bool} (f : Env → List Node → List Nat → Nat → Msg → Go Bool)
    (hf : ∀ {E E' : Env} {q q' : List Nat} (ns : List Node) (i j : Nat),
      (∀ d, Reroot E E' ((i + d) :: q) ((j + d) :: q')) → f E' ns q' j m = f E ns q i m) :
    (Yields env m n x ∧ ∃ E q, Run env E ∧ f E ns q 1 m = y) ↔ ∃ E q, Run env E ∧ ev E n (1 :: q) m = x ∧ f E ns q 2 m = y := by
  constructor
  · rintro ⟨⟨E1, q1, h1, e1⟩, E2, q2, h2, e2⟩
    refine ⟨graft env (fun i => if i = 1 then E1 else E2) (fun i => if i = 1 then q1 else (i - 1) :: q2) [], [], graft_run ?_, ?_, ?_⟩
    · intro i; split
      · exact h1
      · exact h2
    · have := @graft_reroot env (fun i => if i = 1 then E1 else E2) (fun i => if i = 1 then q1 else (i - 1) :: q2) [] 1 h1.ext
      simp only [if_true] at this
      rw [ev_reroot this, e1]
    · rw [hf (E := E2) (q := q2) ns 1 2, e2]
      intro d
      have := @graft_reroot env (fun i => if i = 1 then E1 else E2) (fun i => if i = 1 then q1 else (i - 1) :: q2) [] (2 + d)
        (by rw [if_neg (by omega)]; exact h2.ext)
      rw [if_neg (by omega), if_neg (by omega), show 2 + d - 1 = 1 + d by omega] at this
      exact this
  · rintro ⟨E, q, hE, e1, e2⟩
    refine ⟨⟨E, _, hE, e1⟩, graft env (fun _ => E) (fun i => (i + 1) :: q) [], [], graft_run fun _ => hE, ?_⟩
    rw [hf (E := E) (q := q) ns 2 1, e2]
    intro d
    have := @graft_reroot env (fun _ => E) (fun i => (i + 1) :: q) [] (1 + d) hE.ext
    rw [show 1 + d + 1 = 2 + d by omega] at this
    exact this

theorem yields_or_nil (ho : env.OrdOk) {x : Go Bool} : Yields env m (.or []) x ↔ x = .ok false := by
  have : ∀ E q, ev E (.or []) q m = .ok false := fun E q => by simp [ev, eval, evalOr, Except.map]
  constructor
  · rintro ⟨E, q, -, rfl⟩; exact this E q
  · rintro rfl; exact ⟨env, [], ⟨rfl, ho⟩, this _ _⟩

theorem yields_and_nil (ho : env.OrdOk) {x : Go Bool} : Yields env m (.and []) x ↔ x = .ok true := by
  have : ∀ E q, ev E (.and []) q m = .ok true := fun E q => by simp [ev, eval, evalAnd, Except.map]
  constructor
  · rintro ⟨E, q, -, rfl⟩; exact this E q
  · rintro rfl; exact ⟨env, [], ⟨rfl, ho⟩, this _ _⟩

theorem yields_or_cons {n : Node} {ns : List Node} {x : Go Bool} : Yields env m (.or (n :: ns)) x ↔
    ∃ y z, Yields env m n y ∧ Yields env m (.or ns) z ∧ x = (do let a ← y; let b ← z; pure (a || b)) := by
  have key : ∀ E q, ev E (.or (n :: ns)) q m = evo E (n :: ns) q 1 m := fun _ _ => by simp [ev, eval, evo]
  have key' : ∀ z, Yields env m (.or ns) z ↔ ∃ E q, Run env E ∧ evo E ns q 1 m = z := fun z => by simp [Yields, ev, eval, evo]
  have pair := fun x y => @yields_pair env m n ns x y evo (fun ns i j h => evo_shift ns i j h)
  constructor
  · rintro ⟨E, q, hE, h⟩
    obtain ⟨h1, h2⟩ := (pair _ _).2 ⟨E, q, hE, rfl, rfl⟩
    refine ⟨_, _, h1, (key' _).2 h2, ?_⟩
    rw [← h, key, evo_cons]
  · rintro ⟨y, z, h1, h2, rfl⟩
    obtain ⟨E, q, hE, e1, e2⟩ := (pair _ _).1 ⟨h1, (key' _).1 h2⟩
    refine ⟨E, q, hE, ?_⟩
    rw [key, evo_cons, e1, e2]

theorem yields_and_cons {n : Node} {ns : List Node} {x : Go Bool} : Yields env m (.and (n :: ns)) x ↔
    ∃ y z, Yields env m n y ∧ Yields env m (.and ns) z ∧ x = (do let a ← y; if a then z else pure false) := by
  have key : ∀ E q, ev E (.and (n :: ns)) q m = eva E (n :: ns) q 1 m := fun _ _ => by simp [ev, eval, eva]
  have key' : ∀ z, Yields env m (.and ns) z ↔ ∃ E q, Run env E ∧ eva E ns q 1 m = z := fun z => by simp [Yields, ev, eval, eva]
  have pair := fun x y => @yields_pair env m n ns x y eva (fun ns i j h => eva_shift ns i j h)
  constructor
  · rintro ⟨E, q, hE, h⟩
    obtain ⟨h1, h2⟩ := (pair _ _).2 ⟨E, q, hE, rfl, rfl⟩
    refine ⟨_, _, h1, (key' _).2 h2, ?_⟩
    rw [← h, key, eva_cons]
  · rintro ⟨y, z, h1, h2, rfl⟩
    obtain ⟨E, q, hE, e1, e2⟩ := (pair _ _).1 ⟨h1, (key' _).1 h2⟩
    refine ⟨E, q, hE, ?_⟩
    rw [key, eva_cons, e1, e2]

/-! ## Answers of written trees -/

/-- The tree can be prepared, and then some execution of the evaluation gives the answer; `none` is a failure. -/
def Can (env : Env) (g : Predef) (m : Msg) (n : Node) (o : Option Bool) : Prop :=
  ∃ a x, n.prepare env g = .ok a ∧ Yields env m a x ∧ x.toOption = o

theorem can_of_prepare (ho : env.OrdOk) {n a : Node} (h : n.prepare env g = .ok a) : ∃ o, Can env g m n o := by
  obtain ⟨x, hx⟩ := exists_yields (m := m) ho a
  exact ⟨_, a, x, h, hx, rfl⟩

theorem Can.prepares {n : Node} {o : Option Bool} (h : Can env g m n o) : ∃ a, n.prepare env g = .ok a := by
  obtain ⟨a, _, h, _⟩ := h
  exact ⟨a, h⟩

/-- The answer of a disjunction: all children are evaluated. -/
def orO : Option Bool → Option Bool → Option Bool
  | some a, some b => some (a || b)
  | _, _ => none

/-- The answer of a conjunction: the rest is only evaluated after a success. -/
def andO : Option Bool → Option Bool → Option Bool
  | none, _ => none
  | some false, _ => some false
  | some true, b => b

theorem can_not {n : Node} {o : Option Bool} : Can env g m (.not n) o ↔ ∃ o', Can env g m n o' ∧ o = o'.map (!·) := by
  have tm : ∀ y : Go Bool, (y.map (!·)).toOption = y.toOption.map (!·) := by intro y; cases y <;> rfl
  constructor
  · rintro ⟨a, x, h1, h2, rfl⟩
    simp only [Node.prepare, Go.bind_eq_ok, Go.pure_eq, Except.ok.injEq] at h1
    obtain ⟨n', h1, rfl⟩ := h1
    obtain ⟨y, hy, rfl⟩ := yields_not.1 h2
    exact ⟨_, ⟨n', y, h1, hy, rfl⟩, tm y⟩
  · rintro ⟨_, ⟨n', y, h1, hy, rfl⟩, rfl⟩
    exact ⟨.not n', _, by simp [Node.prepare, h1], yields_not.2 ⟨y, hy, rfl⟩, tm y⟩

theorem can_or_nil (ho : env.OrdOk) {o : Option Bool} : Can env g m (.or []) o ↔ o = some false := by
  constructor
  · rintro ⟨a, x, h1, h2, rfl⟩
    simp [Node.prepare, prepareNodes] at h1
    subst h1
    rw [(yields_or_nil ho).1 h2]; rfl
  · rintro rfl
    exact ⟨.or [], .ok false, by simp [Node.prepare, prepareNodes], (yields_or_nil ho).2 rfl, rfl⟩

theorem can_and_nil (ho : env.OrdOk) {o : Option Bool} : Can env g m (.and []) o ↔ o = some true := by
  constructor
  · rintro ⟨a, x, h1, h2, rfl⟩
    simp [Node.prepare, prepareNodes] at h1
    subst h1
    rw [(yields_and_nil ho).1 h2]; rfl
  · rintro rfl
    exact ⟨.and [], .ok true, by simp [Node.prepare, prepareNodes], (yields_and_nil ho).2 rfl, rfl⟩

theorem prepare_or_cons {e : Ext} {n : Node} {ns : List Node} {a : Node} : (Node.or (n :: ns)).prepare e g = .ok a ↔
    ∃ n' ns', n.prepare e g = .ok n' ∧ (Node.or ns).prepare e g = .ok (.or ns') ∧ a = .or (n' :: ns') := by
  simp only [Node.prepare, prepareNodes, Go.bind_eq_ok, Go.pure_eq, Except.ok.injEq]
  constructor
  · rintro ⟨_, ⟨n', h1, ns', h2, rfl⟩, rfl⟩
    exact ⟨n', ns', h1, ⟨ns', h2, rfl⟩, rfl⟩
  · rintro ⟨n', ns', h1, ⟨_, h2, h3⟩, rfl⟩
    simp at h3; subst h3
    exact ⟨_, ⟨n', h1, _, h2, rfl⟩, rfl⟩

theorem prepare_and_cons {e : Ext} {n : Node} {ns : List Node} {a : Node} : (Node.and (n :: ns)).prepare e g = .ok a ↔
    ∃ n' ns', n.prepare e g = .ok n' ∧ (Node.and ns).prepare e g = .ok (.and ns') ∧ a = .and (n' :: ns') := by
  simp only [Node.prepare, prepareNodes, Go.bind_eq_ok, Go.pure_eq, Except.ok.injEq]
  constructor
  · rintro ⟨_, ⟨n', h1, ns', h2, rfl⟩, rfl⟩
    exact ⟨n', ns', h1, ⟨ns', h2, rfl⟩, rfl⟩
  · rintro ⟨n', ns', h1, ⟨_, h2, h3⟩, rfl⟩
    simp at h3; subst h3
    exact ⟨_, ⟨n', h1, _, h2, rfl⟩, rfl⟩

theorem or_prepared {e : Ext} {ns : List Node} {a : Node} (h : (Node.or ns).prepare e g = .ok a) : ∃ ns', a = .or ns' := by
  simp only [Node.prepare, Go.bind_eq_ok, Go.pure_eq, Except.ok.injEq] at h
  obtain ⟨ns', -, rfl⟩ := h
  exact ⟨ns', rfl⟩

theorem and_prepared {e : Ext} {ns : List Node} {a : Node} (h : (Node.and ns).prepare e g = .ok a) : ∃ ns', a = .and ns' := by
  simp only [Node.prepare, Go.bind_eq_ok, Go.pure_eq, Except.ok.injEq] at h
  obtain ⟨ns', -, rfl⟩ := h
  exact ⟨ns', rfl⟩

theorem can_or_cons {n : Node} {ns : List Node} {o : Option Bool} : Can env g m (.or (n :: ns)) o ↔
    ∃ a b, Can env g m n a ∧ Can env g m (.or ns) b ∧ o = orO a b := by
  have te : ∀ y z : Go Bool, (do let a ← y; let b ← z; pure (a || b) : Go Bool).toOption = orO y.toOption z.toOption := by
    intro y z; cases y <;> cases z <;> rfl
  constructor
  · rintro ⟨a, x, h1, h2, rfl⟩
    obtain ⟨n', ns', h3, h4, rfl⟩ := prepare_or_cons.1 h1
    obtain ⟨y, z, hy, hz, rfl⟩ := yields_or_cons.1 h2
    exact ⟨_, _, ⟨n', y, h3, hy, rfl⟩, ⟨_, z, h4, hz, rfl⟩, te y z⟩
  · rintro ⟨_, _, ⟨n', y, h3, hy, rfl⟩, ⟨b, z, h4, hz, rfl⟩, rfl⟩
    obtain ⟨ns', rfl⟩ := or_prepared h4
    exact ⟨_, _, prepare_or_cons.2 ⟨n', ns', h3, h4, rfl⟩, yields_or_cons.2 ⟨y, z, hy, hz, rfl⟩, te y z⟩

theorem can_and_cons {n : Node} {ns : List Node} {o : Option Bool} : Can env g m (.and (n :: ns)) o ↔
    ∃ a b, Can env g m n a ∧ Can env g m (.and ns) b ∧ o = andO a b := by
  have te : ∀ y z : Go Bool, (do let a ← y; if a then z else pure false : Go Bool).toOption = andO y.toOption z.toOption := by
    intro y z
    cases y with
    | error e => rfl
    | ok a => cases a <;> rfl
  constructor
  · rintro ⟨a, x, h1, h2, rfl⟩
    obtain ⟨n', ns', h3, h4, rfl⟩ := prepare_and_cons.1 h1
    obtain ⟨y, z, hy, hz, rfl⟩ := yields_and_cons.1 h2
    exact ⟨_, _, ⟨n', y, h3, hy, rfl⟩, ⟨_, z, h4, hz, rfl⟩, te y z⟩
  · rintro ⟨_, _, ⟨n', y, h3, hy, rfl⟩, ⟨b, z, h4, hz, rfl⟩, rfl⟩
    obtain ⟨ns', rfl⟩ := and_prepared h4
    exact ⟨_, _, prepare_and_cons.2 ⟨n', ns', h3, h4, rfl⟩, yields_and_cons.2 ⟨y, z, hy, hz, rfl⟩, te y z⟩

/-! ## Algebra of answers -/

theorem orO_assoc : ∀ a b c, orO (orO a b) c = orO a (orO b c) := by
  rintro (_ | a) (_ | b) (_ | c) <;> simp [orO, Bool.or_assoc]
theorem orO_comm : ∀ a b, orO a b = orO b a := by
  rintro (_ | a) (_ | b) <;> simp [orO, Bool.or_comm]
theorem orO_false : ∀ a, orO a (some false) = a := by
  rintro (_ | a) <;> simp [orO]
theorem false_orO : ∀ a, orO (some false) a = a := by
  rintro (_ | a) <;> simp [orO]
theorem andO_assoc : ∀ a b c, andO (andO a b) c = andO a (andO b c) := by
  rintro (_ | _ | _) (_ | _ | _) (_ | _ | _) <;> rfl
theorem andO_true : ∀ a, andO a (some true) = a := by
  rintro (_ | _ | _) <;> rfl
theorem true_andO : ∀ a, andO (some true) a = a := by
  rintro (_ | _ | _) <;> rfl

theorem can_or_append (ho : env.OrdOk) {ys : List Node} : ∀ {xs : List Node} {o : Option Bool}, Can env g m (.or (xs ++ ys)) o ↔
    ∃ a b, Can env g m (.or xs) a ∧ Can env g m (.or ys) b ∧ o = orO a b
  | [], o => by
    simp only [List.nil_append, can_or_nil ho]
    constructor
    · intro h; exact ⟨_, o, rfl, h, (false_orO o).symm⟩
    · rintro ⟨_, b, rfl, h, rfl⟩; rwa [false_orO]
  | x :: xs, o => by
    simp only [List.cons_append, can_or_cons, can_or_append ho (xs := xs)]
    constructor
    · rintro ⟨a, _, ha, ⟨b, c, hb, hc, rfl⟩, rfl⟩
      exact ⟨_, c, ⟨a, b, ha, hb, rfl⟩, hc, (orO_assoc a b c).symm⟩
    · rintro ⟨_, c, ⟨a, b, ha, hb, rfl⟩, hc, rfl⟩
      exact ⟨a, _, ha, ⟨b, c, hb, hc, rfl⟩, orO_assoc a b c⟩

theorem can_and_append (ho : env.OrdOk) {ys : List Node} : ∀ {xs : List Node} {o : Option Bool}, Can env g m (.and (xs ++ ys)) o ↔
    ∃ a b, Can env g m (.and xs) a ∧ Can env g m (.and ys) b ∧ o = andO a b
  | [], o => by
    simp only [List.nil_append, can_and_nil ho]
    constructor
    · intro h; exact ⟨_, o, rfl, h, (true_andO o).symm⟩
    · rintro ⟨_, b, rfl, h, rfl⟩; exact h
  | x :: xs, o => by
    simp only [List.cons_append, can_and_cons, can_and_append ho (xs := xs)]
    constructor
    · rintro ⟨a, _, ha, ⟨b, c, hb, hc, rfl⟩, rfl⟩
      exact ⟨_, c, ⟨a, b, ha, hb, rfl⟩, hc, (andO_assoc a b c).symm⟩
    · rintro ⟨_, c, ⟨a, b, ha, hb, rfl⟩, hc, rfl⟩
      exact ⟨a, _, ha, ⟨b, c, hb, hc, rfl⟩, andO_assoc a b c⟩

theorem can_or_one (ho : env.OrdOk) {n : Node} {o : Option Bool} : Can env g m (.or [n]) o ↔ Can env g m n o := by
  simp only [can_or_cons, can_or_nil ho]
  constructor
  · rintro ⟨a, _, h, rfl, rfl⟩; rwa [orO_false]
  · intro h; exact ⟨o, _, h, rfl, (orO_false o).symm⟩

theorem can_and_one (ho : env.OrdOk) {n : Node} {o : Option Bool} : Can env g m (.and [n]) o ↔ Can env g m n o := by
  simp only [can_and_cons, can_and_nil ho]
  constructor
  · rintro ⟨a, _, h, rfl, rfl⟩; rwa [andO_true]
  · intro h; exact ⟨o, _, h, rfl, (andO_true o).symm⟩

theorem can_or_perm {xs ys : List Node} (h : xs.Perm ys) : ∀ {o : Option Bool}, Can env g m (.or xs) o ↔ Can env g m (.or ys) o := by
  induction h with
  | nil => intro o; rfl
  | cons x _ ih => intro o; simp only [can_or_cons, ih]
  | swap x y l =>
    intro o
    simp only [can_or_cons]
    constructor
    · rintro ⟨a, _, ha, ⟨b, c, hb, hc, rfl⟩, rfl⟩
      exact ⟨b, _, hb, ⟨a, c, ha, hc, rfl⟩, by rw [← orO_assoc, orO_comm a b, orO_assoc]⟩
    · rintro ⟨a, _, ha, ⟨b, c, hb, hc, rfl⟩, rfl⟩
      exact ⟨b, _, hb, ⟨a, c, ha, hc, rfl⟩, by rw [← orO_assoc, orO_comm a b, orO_assoc]⟩
  | trans _ _ ih1 ih2 => intro o; rw [ih1, ih2]

/-! ## Children that do not fail -/

def Prep (env : Ext) (g : Predef) (n : Node) : Prop := ∃ a, n.prepare env g = .ok a

theorem never_none {n : Node} (h : NeverFails env g n) : ¬ Can env g m n none := by
  rintro ⟨a, x, h1, ⟨E, q, hE, rfl⟩, h3⟩
  obtain ⟨o, ho⟩ := h E a q m hE h1
  simp [ev, ho, Except.map, Except.toOption] at h3

theorem prep_can (ho : env.OrdOk) {n : Node} : Prep env g n ↔ ∃ o, Can env g m n o :=
  ⟨fun ⟨_, h⟩ => can_of_prepare ho h, fun ⟨_, h⟩ => h.prepares⟩

theorem prep_safe (ho : env.OrdOk) {n : Node} (hs : ¬ Can env g m n none) : Prep env g n ↔ ∃ f, Can env g m n (some f) := by
  rw [prep_can (m := m) ho]
  constructor
  · rintro ⟨_ | f, h⟩
    · exact absurd h hs
    · exact ⟨f, h⟩
  · rintro ⟨f, h⟩; exact ⟨_, h⟩

theorem prep_not {e : Ext} {n : Node} : Prep e g (.not n) ↔ Prep e g n := by
  simp only [Prep, Node.prepare, Go.bind_eq_ok, Go.pure_eq]
  constructor
  · rintro ⟨_, a, h, _⟩; exact ⟨a, h⟩
  · rintro ⟨a, h⟩; exact ⟨_, a, h, rfl⟩

theorem prep_or {e : Ext} : ∀ {ns : List Node}, Prep e g (.or ns) ↔ ∀ n ∈ ns, Prep e g n
  | [] => by simp [Prep, Node.prepare, prepareNodes]
  | n :: ns => by
    rw [List.forall_mem_cons, ← prep_or (ns := ns)]
    constructor
    · rintro ⟨a, h⟩
      obtain ⟨n', ns', h1, h2, -⟩ := prepare_or_cons.1 h
      exact ⟨⟨_, h1⟩, _, h2⟩
    · rintro ⟨⟨n', h1⟩, b, h2⟩
      obtain ⟨ns', rfl⟩ := or_prepared h2
      exact ⟨_, prepare_or_cons.2 ⟨n', ns', h1, h2, rfl⟩⟩

theorem prep_and {e : Ext} : ∀ {ns : List Node}, Prep e g (.and ns) ↔ ∀ n ∈ ns, Prep e g n
  | [] => by simp [Prep, Node.prepare, prepareNodes]
  | n :: ns => by
    rw [List.forall_mem_cons, ← prep_and (ns := ns)]
    constructor
    · rintro ⟨a, h⟩
      obtain ⟨n', ns', h1, h2, -⟩ := prepare_and_cons.1 h
      exact ⟨⟨_, h1⟩, _, h2⟩
    · rintro ⟨⟨n', h1⟩, b, h2⟩
      obtain ⟨ns', rfl⟩ := and_prepared h2
      exact ⟨_, prepare_and_cons.2 ⟨n', ns', h1, h2, rfl⟩⟩

theorem or_safe (ho : env.OrdOk) : ∀ {ns : List Node}, (∀ n ∈ ns, ¬ Can env g m n none) →
    (Can env g m (.or ns) (some true) ↔ (∀ n ∈ ns, Prep env g n) ∧ ∃ n ∈ ns, Can env g m n (some true)) ∧
    (Can env g m (.or ns) (some false) ↔ ∀ n ∈ ns, Can env g m n (some false)) ∧ ¬ Can env g m (.or ns) none
  | [], _ => by simp [can_or_nil ho]
  | n :: ns, h => by
    obtain ⟨ih1, ih2, ih3⟩ := or_safe ho (ns := ns) (fun x hx => h x (by simp [hx]))
    have hn := h n (by simp)
    refine ⟨?_, ?_, ?_⟩
    · rw [can_or_cons, List.forall_mem_cons, ← prep_or, prep_safe ho hn, prep_safe ho ih3]
      constructor
      · rintro ⟨_ | a, _ | b, ha, hb, hc⟩
        · exact absurd ha hn
        · exact absurd ha hn
        · exact absurd hb ih3
        · refine ⟨⟨⟨a, ha⟩, ⟨b, hb⟩⟩, ?_⟩
          cases a with
          | true => exact ⟨n, by simp, ha⟩
          | false =>
            cases b with
            | true =>
              obtain ⟨-, x, hx, hx'⟩ := ih1.1 hb
              exact ⟨x, by simp [hx], hx'⟩
            | false => simp [orO] at hc
      · rintro ⟨⟨⟨a, ha⟩, ⟨b, hb⟩⟩, x, hx, hx'⟩
        rcases List.mem_cons.1 hx with rfl | hx
        · exact ⟨_, _, hx', hb, by simp [orO]⟩
        · have hp : ∀ n ∈ ns, Prep env g n := prep_or.1 ((prep_safe ho ih3).2 ⟨b, hb⟩)
          exact ⟨_, _, ha, ih1.2 ⟨hp, x, hx, hx'⟩, by simp [orO]⟩
    · rw [can_or_cons, List.forall_mem_cons, ← ih2]
      constructor
      · rintro ⟨_ | a, _ | b, ha, hb, hc⟩
        · exact absurd ha hn
        · exact absurd ha hn
        · exact absurd hb ih3
        · simp [orO] at hc
          obtain ⟨rfl, rfl⟩ := hc
          exact ⟨ha, hb⟩
      · rintro ⟨ha, hb⟩
        exact ⟨_, _, ha, hb, rfl⟩
    · rw [can_or_cons]
      rintro ⟨_ | a, _ | b, ha, hb, hc⟩
      · exact absurd ha hn
      · exact absurd ha hn
      · exact absurd hb ih3
      · simp [orO] at hc

theorem and_safe (ho : env.OrdOk) : ∀ {ns : List Node}, (∀ n ∈ ns, ¬ Can env g m n none) →
    (Can env g m (.and ns) (some false) ↔ (∀ n ∈ ns, Prep env g n) ∧ ∃ n ∈ ns, Can env g m n (some false)) ∧
    (Can env g m (.and ns) (some true) ↔ ∀ n ∈ ns, Can env g m n (some true)) ∧ ¬ Can env g m (.and ns) none
  | [], _ => by simp [can_and_nil ho]
  | n :: ns, h => by
    obtain ⟨ih1, ih2, ih3⟩ := and_safe ho (ns := ns) (fun x hx => h x (by simp [hx]))
    have hn := h n (by simp)
    refine ⟨?_, ?_, ?_⟩
    · rw [can_and_cons, List.forall_mem_cons, ← prep_and, prep_safe ho hn, prep_safe ho ih3]
      constructor
      · rintro ⟨_ | a, _ | b, ha, hb, hc⟩
        · exact absurd ha hn
        · exact absurd ha hn
        · exact absurd hb ih3
        · refine ⟨⟨⟨a, ha⟩, ⟨b, hb⟩⟩, ?_⟩
          cases a with
          | false => exact ⟨n, by simp, ha⟩
          | true =>
            cases b with
            | false =>
              obtain ⟨-, x, hx, hx'⟩ := ih1.1 hb
              exact ⟨x, by simp [hx], hx'⟩
            | true => simp [andO] at hc
      · rintro ⟨⟨⟨a, ha⟩, ⟨b, hb⟩⟩, x, hx, hx'⟩
        rcases List.mem_cons.1 hx with rfl | hx
        · exact ⟨_, _, hx', hb, by simp [andO]⟩
        · have hp : ∀ n ∈ ns, Prep env g n := prep_and.1 ((prep_safe ho ih3).2 ⟨b, hb⟩)
          exact ⟨_, _, ha, ih1.2 ⟨hp, x, hx, hx'⟩, by cases a <;> simp [andO]⟩
    · rw [can_and_cons, List.forall_mem_cons, ← ih2]
      constructor
      · rintro ⟨_ | a, _ | b, ha, hb, hc⟩
        · exact absurd ha hn
        · exact absurd ha hn
        · exact absurd hb ih3
        · cases a with
          | false => simp [andO] at hc
          | true =>
            simp [andO] at hc
            subst hc
            exact ⟨ha, hb⟩
      · rintro ⟨ha, hb⟩
        exact ⟨_, _, ha, hb, rfl⟩
    · rw [can_and_cons]
      rintro ⟨_ | a, _ | b, ha, hb, hc⟩
      · exact absurd ha hn
      · exact absurd ha hn
      · exact absurd hb ih3
      · cases a <;> simp [andO] at hc

end Mapl

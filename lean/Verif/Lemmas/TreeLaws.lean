import Verif.Lemmas.Elements

/-! # Trees that can be exchanged -/

namespace Mapl
open Spec

variable {env : Env} {g : Predef} {m : Msg}

/-! ## The laws -/

theorem law_can (ho : env.OrdOk) {a b : Node} (h : Law (NeverFails env g) a b) : ∀ {m : Msg} {o : Option Bool},
    Can env g m a o ↔ Can env g m b o := by
  induction h with
  | refl => intro m o; rfl
  | symm _ ih => intro m o; exact ih.symm
  | trans _ _ ih1 ih2 => intro m o; rw [ih1, ih2]
  | inNot _ ih => intro m o; simp only [can_not, ih]
  | inOr xs zs _ ih => intro m o; simp only [can_or_append ho, can_or_one ho, ih]
  | inAnd xs zs _ ih => intro m o; simp only [can_and_append ho, can_and_one ho, ih]
  | notNot n =>
    intro m o
    simp only [can_not]
    constructor
    · rintro ⟨_, ⟨x, h, rfl⟩, rfl⟩
      cases x <;> simpa using h
    · intro h
      exact ⟨_, ⟨o, h, rfl⟩, by cases o <;> simp⟩
  | inAny _ _ ih => intro m o; exact ⟨can_any_congr ho fun _ _ => ih.1, can_any_congr ho fun _ _ => ih.2⟩
  | inAll _ _ ih => intro m o; exact ⟨can_all_congr ho fun _ _ => ih.1, can_all_congr ho fun _ _ => ih.2⟩
  | anyOr hne hr hs => intro m o; exact any_or ho hne hr hs o
  | allAnd _ hne hs => intro m o; exact all_and ho hne hs o
  | oneOr n => intro m o; exact can_or_one ho
  | oneAnd n => intro m o; exact can_and_one ho
  | nestOr xs ys zs => intro m o; simp only [can_or_append ho, can_or_one ho]
  | nestAnd xs ys zs => intro m o; simp only [can_and_append ho, can_and_one ho]
  | orderOr h => intro m o; exact can_or_perm h
  | twiceOr xs zs n =>
    intro m o
    have : ∀ o, Can env g m (.or [n, n]) o ↔ Can env g m (.or [n]) o := by
      intro o
      rw [can_or_cons]
      simp only [can_or_one ho]
      constructor
      · rintro ⟨x, y, hx, hy, rfl⟩
        rcases x with _ | _ | _ <;> rcases y with _ | _ | _ <;> first | exact hx | exact hy
      · intro h
        exact ⟨o, o, h, h, by cases o <;> simp [orO]⟩
    simp only [can_or_append ho, this]
  | twiceAnd xs zs n =>
    intro m o
    have : ∀ o, Can env g m (.and [n, n]) o ↔ Can env g m (.and [n]) o := by
      intro o
      rw [can_and_cons]
      simp only [can_and_one ho]
      constructor
      · rintro ⟨x, y, hx, hy, rfl⟩
        rcases x with _ | _ | _ <;> first | exact hx | exact hy
      · intro h
        exact ⟨o, o, h, h, by rcases o with _ | _ | _ <;> rfl⟩
    simp only [can_and_append ho, this]
  | orderAnd hs h =>
    intro m o
    obtain ⟨a1, a2, a3⟩ := @and_safe env g m ho _ (fun n hn => never_none (hs n hn))
    obtain ⟨b1, b2, b3⟩ := @and_safe env g m ho _ (fun n hn => never_none (hs n (h.mem_iff.2 hn)))
    rcases o with _ | _ | _
    · exact iff_of_false a3 b3
    · rw [a1, b1]; simp only [h.mem_iff]
    · rw [a2, b2]; simp only [h.mem_iff]
  | deMorgan ns hs =>
    intro m o
    have cn : ∀ n o, Can env g m (.not n) o ↔ Can env g m n (o.map (!·)) := by
      intro n o
      rw [can_not]
      constructor
      · rintro ⟨x, h, rfl⟩; cases x <;> simpa using h
      · intro h; exact ⟨_, h, by cases o <;> simp⟩
    have nn : ∀ n ∈ ns, ¬ Can env g m n none := fun n hn => never_none (hs n hn)
    obtain ⟨a1, a2, a3⟩ := @or_safe env g m ho ns nn
    obtain ⟨b1, b2, b3⟩ := @and_safe env g m ho (ns.map .not) (by
      intro n hn
      obtain ⟨x, hx, rfl⟩ := List.mem_map.1 hn
      rw [cn]; exact nn x hx)
    rw [cn]
    rcases o with _ | _ | _
    · exact iff_of_false a3 b3
    · rw [b1]
      exact a1.trans (by simp [prep_not, cn])
    · rw [b2]
      exact a2.trans (by simp [cn])
  | distribute n hne hn hs =>
    intro m o
    next ns =>
    have n0 : ¬ Can env g m n none := never_none hn
    have nn : ∀ x ∈ ns, ¬ Can env g m x none := fun x hx => never_none (hs x hx)
    obtain ⟨o1, o2, o3⟩ := @or_safe env g m ho ns nn
    obtain ⟨a1, a2, a3⟩ := @and_safe env g m ho [n, .or ns] (by simp [n0, o3])
    have pair : ∀ x ∈ ns, _ := fun x hx => @and_safe env g m ho [n, x] (by simp [n0, nn x hx])
    obtain ⟨b1, b2, b3⟩ := @or_safe env g m ho (ns.map fun x => .and [n, x]) (by
      intro y hy
      obtain ⟨x, hx, rfl⟩ := List.mem_map.1 hy
      exact (pair x hx).2.2)
    rcases o with _ | _ | _
    · exact iff_of_false a3 b3
    · rw [a1, b2]
      simp only [List.forall_mem_map, List.mem_cons, List.not_mem_nil, or_false, forall_eq_or_imp, forall_eq, exists_eq_or_imp, exists_eq_left]
      constructor
      · rintro ⟨⟨p1, p2⟩, h⟩ x hx
        rw [(pair x hx).1]
        simp only [List.mem_cons, List.not_mem_nil, or_false, forall_eq_or_imp, forall_eq, exists_eq_or_imp, exists_eq_left]
        refine ⟨⟨p1, prep_or.1 p2 x hx⟩, ?_⟩
        exact h.imp id fun h => o2.1 h x hx
      · intro h
        have p1 : Prep env g n := by
          obtain ⟨x, hx⟩ := List.exists_mem_of_ne_nil _ hne
          exact ((pair x hx).1.1 (h x hx)).1 n (by simp)
        have p2 : Prep env g (.or ns) := prep_or.2 fun x hx => ((pair x hx).1.1 (h x hx)).1 x (by simp)
        refine ⟨⟨p1, p2⟩, ?_⟩
        by_cases hf : Can env g m n (some false)
        · exact .inl hf
        · refine .inr (o2.2 fun x hx => ?_)
          have := ((pair x hx).1.1 (h x hx)).2
          simp only [List.mem_cons, List.not_mem_nil, or_false, exists_eq_or_imp, exists_eq_left] at this
          exact this.resolve_left hf
    · rw [a2, b1]
      simp only [List.forall_mem_map, List.mem_cons, List.not_mem_nil, or_false, forall_eq_or_imp, forall_eq, prep_and]
      rw [o1]
      constructor
      · rintro ⟨h1, h2, x, hx, h3⟩
        refine ⟨fun y hy => ⟨h1.prepares, h2 y hy⟩, _, List.mem_map.2 ⟨x, hx, rfl⟩, ?_⟩
        rw [(pair x hx).2.1]
        simp [h1, h3]
      · rintro ⟨h1, _, hy, h2⟩
        obtain ⟨x, hx, rfl⟩ := List.mem_map.1 hy
        rw [(pair x hx).2.1] at h2
        simp at h2
        exact ⟨h2.1, fun y hy => (h1 y hy).2, x, hx, h2.2⟩

/-! ## Rules with a tree -/

/-- Sender, receiver, operation and resource match. -/
def Applies (env : Ext) (g : Predef) (r : Rule) (m : Msg) : Prop :=
  Meets env g r m ∧ ∃ op re, compile env (convertOperationStringToRegex r.operation) = some op ∧
    compile env (convertStringToRegex r.resourceName gs"WithWildcards") = some re ∧ matchPtr env (some op) m.requestMethod = .ok true ∧
    testResource env { r with resourceNameRegex := some re } m = .ok true

theorem static_provided {e : Ext} {r : Rule} {n : Node} {sl rl : List ExpandedSR} {op re : Re} :
    Static e g (provided r n).body sl rl op re ↔ Static e g r sl rl op re :=
  ⟨fun h => ⟨h.sender, h.receiver, h.operation, h.resource⟩, fun h => ⟨h.sender, h.receiver, h.operation, h.resource⟩⟩

theorem loads_provided {e : Ext} {r : Rule} {n : Node} : Loads e g (provided r n).body ↔ Loads e g r := by
  simp only [Loads, static_provided]

theorem meets_provided {e : Ext} {r : Rule} {n : Node} : Meets e g (provided r n).body m ↔ Meets e g r m := by
  simp only [Meets, static_provided]

theorem fresh_provided {r : Rule} {n : Node} (h : r.converted = false) : Fresh (provided r n) := ⟨rfl, rfl, h⟩

theorem readies_provided {E : Env} (hE : E.OrdOk) {n : Node} {p : List Nat} (hn : Copyable E n) :
    Readies E g p (some n) ↔ Prep E g n := by
  unfold Readies
  rw [copy_copyable hE hn]
  constructor
  · rintro ⟨c, x, h1, h2⟩
    simp at h1; subst h1
    rcases h2 with ⟨h, -⟩ | ⟨a, b, h1, h2, -⟩
    · simp at h
    · simp at h1; subst h1; exact ⟨b, h2⟩
  · rintro ⟨b, h⟩
    exact ⟨_, _, rfl, .inr ⟨n, b, rfl, h, rfl⟩⟩

theorem testResource_returns {e : Ext} {r : Rule} {re : Re} : ∃ b, testResource e { r with resourceNameRegex := some re } m = .ok b := by
  unfold testResource
  simp only [matchPtr]
  split
  · exact ⟨_, rfl⟩
  · split
    · split
      · exact ⟨_, rfl⟩
      · split <;> exact ⟨_, rfl⟩
    · exact ⟨_, rfl⟩

theorem res_provided {E : Env} (hE : E.OrdOk) {r : Rule} {n : Node} {p : List Nat} (hc : r.converted = false) (hn : Copyable E n) {d : Nat} :
    Res E g p (provided r n) m d ↔ Loads E g r ∧ ∃ a, n.prepare E g = .ok a ∧
      ((Applies E g r m ∧ ∃ f, ev E a (1 :: 1 :: p) m = .ok f ∧ d = if f then decisionCode r.decision else DEFAULT) ∨
        (¬ Applies E g r m ∧ d = DEFAULT)) := by
  rw [res_iff (fresh_provided hc), loads_provided, meets_provided, show (provided r n).body.conditions = some n from rfl, readies_provided hE hn]
  constructor
  · rintro ⟨h1, ⟨a, h2⟩, h3⟩
    refine ⟨h1, a, h2, ?_⟩
    rcases h3 with ⟨hm, op, re, c, x, t1, t2, t3, t4, t5⟩ | ⟨hm, rfl⟩
    · rw [show (provided r n).body.conditions = some n from rfl, copy_copyable hE hn] at t3
      simp at t3; subst t3
      rcases t4 with ⟨h, -⟩ | ⟨_, b, h3, h4, rfl⟩
      · simp at h
      simp at h3; subst h3
      rw [h2] at h4; simp at h4; subst h4
      obtain ⟨b1, hb1⟩ : ∃ b, matchPtr E.toExt (some op) m.requestMethod = .ok b := ⟨_, rfl⟩
      obtain ⟨b2, hb2⟩ := @testResource_returns m E.toExt r re
      have app : ∀ {b}, b ≠ (true, true) → (b1, b2) = b → ¬ Applies E.toExt g r m := by
        rintro _ hne rfl ⟨-, op', re', k1, k2, k3, k4⟩
        have e1 := t1.symm.trans k1
        have e2 := t2.symm.trans k2
        simp at e1 e2; subst e1; subst e2
        rw [hb1] at k3; rw [hb2] at k4
        simp at k3 k4
        exact hne (by rw [k3, k4])
      simp only [tailJudge, show testResource E.toExt { (provided r n).body with resourceNameRegex := some re } m = _ from hb2, hb1, Go.ok_bind] at t5
      cases b1 with
      | false => simp at t5; exact .inr ⟨app (by simp) rfl, t5.symm⟩
      | true =>
        cases b2 with
        | false => simp at t5; exact .inr ⟨app (by simp) rfl, t5.symm⟩
        | true =>
          simp at t5
          refine .inl ⟨⟨hm, op, re, t1, t2, hb1, hb2⟩, ?_⟩
          simp only [ev]
          cases he : eval E a (1 :: 1 :: p) m with
          | error x => rw [he] at t5; simp at t5
          | ok o =>
            rw [he] at t5
            simp at t5
            exact ⟨o.flag, rfl, t5.symm⟩
    · exact .inr ⟨fun h => hm h.1, rfl⟩
  · rintro ⟨h1, a, h2, h3⟩
    refine ⟨h1, ⟨a, h2⟩, ?_⟩
    rcases h3 with ⟨⟨hm, op, re, t1, t2, t3, t4⟩, f, hf, rfl⟩ | ⟨ha, rfl⟩
    · refine .inl ⟨hm, op, re, some n, some a, t1, t2, copy_copyable hE hn _, .inr ⟨n, a, rfl, h2, rfl⟩, ?_⟩
      simp only [tailJudge, show testResource E.toExt { (provided r n).body with resourceNameRegex := some re } m = _ from t4, t3, Go.ok_bind]
      simp only [ev] at hf
      cases he : eval E a (1 :: 1 :: p) m with
      | error x => rw [he] at hf; simp [Except.map] at hf
      | ok o =>
        rw [he] at hf
        simp [Except.map] at hf
        subst hf
        simp
        rfl
    · by_cases hm : Meets E.toExt g r m
      · obtain ⟨sl, rl, op, re, hst⟩ := h1
        refine .inl ⟨hm, op, re, some n, some a, hst.operation, hst.resource, copy_copyable hE hn _, .inr ⟨n, a, rfl, h2, rfl⟩, ?_⟩
        obtain ⟨b1, hb1⟩ : ∃ b, matchPtr E.toExt (some op) m.requestMethod = .ok b := ⟨_, rfl⟩
        obtain ⟨b2, hb2⟩ := @testResource_returns m E.toExt r re
        simp only [tailJudge, show testResource E.toExt { (provided r n).body with resourceNameRegex := some re } m = _ from hb2, hb1, Go.ok_bind]
        cases b1 with
        | false => simp
        | true =>
          cases b2 with
          | false => simp
          | true => exact absurd ⟨hm, op, re, hst.operation, hst.resource, hb1, hb2⟩ ha
      · exact .inr ⟨hm, rfl⟩

/-- What a rule with a tree can decide. -/
theorem gives_provided {r : Rule} {n : Node} (ho : env.OrdOk) (hc : r.converted = false) (hn : Copyable env n) {d : Decision} :
    Gives env g m (provided r n) d ↔ Loads env g r ∧ Prep env g n ∧
      ((Applies env g r m ∧ ∃ f, Can env g m n (some f) ∧ d.rank = if f then decisionCode r.decision else DEFAULT) ∨
        (¬ Applies env g r m ∧ d.rank = DEFAULT)) := by
  rw [gives_iff]
  constructor
  · rintro ⟨E, p, hE, h⟩
    rw [res_provided hE.ord hc (by rw [hE.ext]; exact hn), hE.ext] at h
    obtain ⟨h1, a, h2, h3⟩ := h
    refine ⟨h1, ⟨a, h2⟩, h3.imp ?_ id⟩
    rintro ⟨k1, f, k2, k3⟩
    exact ⟨k1, f, ⟨a, _, h2, ⟨E, _, hE, k2⟩, rfl⟩, k3⟩
  · rintro ⟨h1, ⟨a, h2⟩, h3⟩
    rcases h3 with ⟨k1, f, ⟨a', x, h4, h5, h6⟩, k3⟩ | h3
    · rw [h2] at h4; simp at h4; subst h4
      obtain ⟨E, hE, h5⟩ := h5.at [1, 1]
      cases x with
      | error e => simp [Except.toOption] at h6
      | ok f' =>
        simp [Except.toOption] at h6; subst h6
        refine ⟨E, [], hE, ?_⟩
        rw [res_provided hE.ord hc (by rw [hE.ext]; exact hn), hE.ext]
        exact ⟨h1, a, h2, .inl ⟨k1, _, h5, k3⟩⟩
    · refine ⟨env, [], ⟨rfl, ho⟩, ?_⟩
      rw [res_provided ho hc hn]
      exact ⟨h1, a, h2, .inr h3⟩

/-- When it can fail. -/
theorem breaks_provided {r : Rule} {n : Node} (ho : env.OrdOk) (hc : r.converted = false) (hn : Copyable env n) :
    Breaks env g m (provided r n) ↔ ¬ Loads env g r ∨ ¬ Prep env g n ∨ (Applies env g r m ∧ Can env g m n none) := by
  rw [breaks_iff]
  constructor
  · rintro ⟨E, p, hE, h⟩
    by_contra hcon
    simp only [not_or, not_not] at hcon
    obtain ⟨h1, ⟨a, h2⟩, h3⟩ := hcon
    apply h
    simp only [res_provided hE.ord hc (show Copyable E.toExt n by rw [hE.ext]; exact hn), hE.ext]
    by_cases ha : Applies env g r m
    · cases hx : ev E a (1 :: 1 :: p) m with
      | error x => exact absurd ⟨ha, a, _, h2, ⟨E, _, hE, hx⟩, rfl⟩ h3
      | ok f => exact ⟨_, h1, a, h2, .inl ⟨ha, f, hx, rfl⟩⟩
    · exact ⟨_, h1, a, h2, .inr ⟨ha, rfl⟩⟩
  · rintro (h | h | ⟨h1, a, x, h2, h3, h4⟩)
    · refine ⟨env, [], ⟨rfl, ho⟩, ?_⟩
      rintro ⟨d, hd⟩
      exact h ((res_provided ho hc hn).1 hd).1
    · refine ⟨env, [], ⟨rfl, ho⟩, ?_⟩
      rintro ⟨d, hd⟩
      obtain ⟨-, a, ha, -⟩ := (res_provided ho hc hn).1 hd
      exact h ⟨a, ha⟩
    · obtain ⟨E, hE, h3⟩ := h3.at [1, 1]
      refine ⟨E, [], hE, ?_⟩
      rintro ⟨d, hd⟩
      rw [res_provided hE.ord hc (by rw [hE.ext]; exact hn), hE.ext] at hd
      obtain ⟨-, a', k1, k2⟩ := hd
      rw [h2] at k1; simp at k1; subst k1
      rcases k2 with ⟨-, f, k3, -⟩ | ⟨k2, -⟩
      · rw [h3] at k3; subst k3; simp [Except.toOption] at h4
      · exact k2 h1

theorem trees_equivalent (ho : env.OrdOk) {r : Rule} {a b : Node} (hc : r.converted = false) (ha : Copyable env a) (hb : Copyable env b)
    (h : ∀ {m o}, Can env g m a o ↔ Can env g m b o) : Equivalent env g [provided r a] [provided r b] := by
  have hp : ∀ _ : Msg, (Prep env g a ↔ Prep env g b) := fun m => by simp only [prep_can (m := m) ho, h]
  refine ⟨fun m d => ?_, fun m => ?_⟩
  · simp only [canDecide_one ho, gives_provided ho hc ha, gives_provided ho hc hb, hp m, h]
  · simp only [canFail_one ho, breaks_provided ho hc ha, breaks_provided ho hc hb, hp m, h]

/-- A disjunction against its head and its tail. -/
theorem or_equivalent (ho : env.OrdOk) {r : Rule} {n : Node} {ns : List Node} (hc : r.converted = false) (hn : Copyable env n)
    (hns : Copyable env (.or ns)) : Equivalent env g [provided r (.or (n :: ns))] [provided r n, provided r (.or ns)] := by
  have hall : Copyable env (.or (n :: ns)) := by
    cases hns with
    | or _ h => exact .or (by simp) (by simpa using ⟨hn, h⟩)
  have hsplit : ([provided r n, provided r (.or ns)] : List RuleObj) = [provided r n] ++ [provided r (.or ns)] := rfl
  have hp : Prep env g (.or (n :: ns)) ↔ Prep env g n ∧ Prep env g (.or ns) := by
    rw [prep_or, prep_or, List.forall_mem_cons]
  refine ⟨fun m d => ?_, fun m => ?_⟩
  · rw [hsplit, canDecide_append ho]
    simp only [canDecide_one ho, gives_provided ho hc hn, gives_provided ho hc hns, gives_provided ho hc hall, hp]
    constructor
    · rintro ⟨h1, ⟨h2, h3⟩, ⟨ha, f, hf, hd⟩ | ⟨ha, hd⟩⟩
      · obtain ⟨a, b, h4, h5, h6⟩ := can_or_cons.1 hf
        cases a with
        | none => simp [orO] at h6
        | some a =>
          cases b with
          | none => simp [orO] at h6
          | some b =>
            simp [orO] at h6; subst h6
            obtain ⟨D, hD⟩ := decisionCode_rank r.decision
            have pick : ∀ f : Bool, ∃ d : Decision, d.rank = if f then decisionCode r.decision else DEFAULT := by
              intro f; cases f
              · exact ⟨.default, rfl⟩
              · exact ⟨D, hD.symm⟩
            obtain ⟨d1, e1⟩ := pick a
            obtain ⟨d2, e2⟩ := pick b
            refine ⟨d1, d2, ⟨h1, h2, .inl ⟨ha, a, h4, e1⟩⟩, ⟨h1, h3, .inl ⟨ha, b, h5, e2⟩⟩, rank_inj ?_⟩
            rw [worse_rank, e1, e2, hd]
            cases a <;> cases b <;> simp [DEFAULT]
      · exact ⟨d, d, ⟨h1, h2, .inr ⟨ha, hd⟩⟩, ⟨h1, h3, .inr ⟨ha, hd⟩⟩, rank_inj (by rw [worse_rank]; simp)⟩
    · rintro ⟨d1, d2, ⟨h1, h2, k1⟩, ⟨-, h3, k2⟩, rfl⟩
      refine ⟨h1, ⟨h2, h3⟩, ?_⟩
      rcases k1 with ⟨ha, a, h4, e1⟩ | ⟨ha, e1⟩ <;> rcases k2 with ⟨ha', b, h5, e2⟩ | ⟨ha', e2⟩
      · refine .inl ⟨ha, a || b, can_or_cons.2 ⟨_, _, h4, h5, rfl⟩, ?_⟩
        rw [worse_rank, e1, e2]
        cases a <;> cases b <;> simp [DEFAULT]
      · exact absurd ha ha'
      · exact absurd ha' ha
      · refine .inr ⟨ha, ?_⟩
        rw [worse_rank, e1, e2]; rfl
  · rw [hsplit, canFail_append ho]
    simp only [canFail_one ho, breaks_provided ho hc hn, breaks_provided ho hc hns, breaks_provided ho hc hall, hp, can_or_cons]
    have key : Prep env g n → Prep env g (.or ns) → ((∃ a b, Can env g m n a ∧ Can env g m (.or ns) b ∧ none = orO a b) ↔
        Can env g m n none ∨ Can env g m (.or ns) none) := by
      intro p1 p2
      constructor
      · rintro ⟨_ | a, _ | b, h1, h2, h3⟩
        · exact .inl h1
        · exact .inl h1
        · exact .inr h2
        · simp [orO] at h3
      · rintro (h | h)
        · obtain ⟨o, h'⟩ := (prep_can (m := m) ho).1 p2
          exact ⟨_, o, h, h', rfl⟩
        · obtain ⟨o, h'⟩ := (prep_can (m := m) ho).1 p1
          exact ⟨o, _, h', h, by cases o <;> rfl⟩
    by_cases p1 : Prep env g n <;> by_cases p2 : Prep env g (.or ns)
    · simp only [p1, p2, key p1 p2]
      tauto
    · simp [p2]
    · simp [p1]
    · simp [p1]

theorem Spec.Equivalent.refl (rs : List RuleObj) : Equivalent env g rs rs := ⟨fun _ _ => Iff.rfl, fun _ => Iff.rfl⟩

theorem Spec.Equivalent.symm {rs rs' : List RuleObj} (h : Equivalent env g rs rs') : Equivalent env g rs' rs :=
  ⟨fun m d => (h.decisions m d).symm, fun m => (h.failures m).symm⟩

theorem Spec.Equivalent.trans {rs rs' rs'' : List RuleObj} (h : Equivalent env g rs rs') (h' : Equivalent env g rs' rs'') : Equivalent env g rs rs'' :=
  ⟨fun m d => (h.decisions m d).trans (h'.decisions m d), fun m => (h.failures m).trans (h'.failures m)⟩

theorem ors_equivalent (ho : env.OrdOk) {r : Rule} (hc : r.converted = false) : ∀ {ns : List Node}, ns ≠ [] → (∀ n ∈ ns, Copyable env n) →
    Equivalent env g [provided r (.or ns)] (ns.map (provided r))
  | [], h, _ => absurd rfl h
  | [n], _, h => trees_equivalent ho hc (.or (by simp) h) (h n (by simp)) (can_or_one ho)
  | n :: x :: ns, _, h => by
    have ih := ors_equivalent ho hc (ns := x :: ns) (by simp) (fun y hy => h y (by simp [hy]))
    refine (or_equivalent ho hc (h n (by simp)) (.or (by simp) fun y hy => h y (by simp [hy]))).trans ?_
    simpa using ih.context ho [provided r n] []

/-! ## Lists of names -/

theorem static_sentBy {e : Ext} {r : Rule} {x : Str} (hx : PlainList x) {sl rl : List ExpandedSR} {op re : Re} :
    Static e g (sentBy r x).body sl rl op re ↔ convertStringToExpandedSenderReceiver e x r.senderType = .ok sl ∧
      (∃ s, replaceName r.receiverName g = .ok s ∧ convertStringToExpandedSenderReceiver e s r.receiverType = .ok rl) ∧
      compile e (convertOperationStringToRegex r.operation) = some op ∧
      compile e (convertStringToRegex r.resourceName gs"WithWildcards") = some re := by
  constructor
  · rintro ⟨⟨s, h1, h2⟩, h3, h4, h5⟩
    obtain rfl := (replaceName_plain hx).1 h1
    exact ⟨h2, h3, h4, h5⟩
  · rintro ⟨h1, h2, h3, h4⟩
    exact ⟨⟨x, (replaceName_plain hx).2 rfl, h1⟩, h2, h3, h4⟩

theorem static_sentTo {e : Ext} {r : Rule} {x : Str} (hx : PlainList x) {sl rl : List ExpandedSR} {op re : Re} :
    Static e g (sentTo r x).body sl rl op re ↔ convertStringToExpandedSenderReceiver e x r.receiverType = .ok rl ∧
      (∃ s, replaceName r.senderName g = .ok s ∧ convertStringToExpandedSenderReceiver e s r.senderType = .ok sl) ∧
      compile e (convertOperationStringToRegex r.operation) = some op ∧
      compile e (convertStringToRegex r.resourceName gs"WithWildcards") = some re := by
  constructor
  · rintro ⟨h3, ⟨s, h1, h2⟩, h4, h5⟩
    obtain rfl := (replaceName_plain hx).1 h1
    exact ⟨h2, h3, h4, h5⟩
  · rintro ⟨h1, h2, h3, h4⟩
    exact ⟨h2, ⟨x, (replaceName_plain hx).2 rfl, h1⟩, h3, h4⟩

theorem ok_inj {α : Type} {x : Go α} {a b : α} (h : x = .ok a) (h' : x = .ok b) : a = b := by
  rw [h] at h'; simpa using h'

theorem sender_equivalent (ho : env.OrdOk) {r : Rule} {a b : Str} (hc : r.converted = false) (ha : PlainList a) (hb : PlainList b) :
    Equivalent env g [sentBy r (a ++ gs"," ++ b)] [sentBy r a, sentBy r b] := by
  refine split_equivalent ho ⟨rfl, rfl, hc⟩ ⟨rfl, rfl, hc⟩ ⟨rfl, rfl, hc⟩ ?_ ?_ rfl rfl (fun _ _ _ _ => Iff.rfl) (fun _ _ _ _ => Iff.rfl)
  · simp only [Loads, static_sentBy (noReference_append ha), static_sentBy ha, static_sentBy hb, expand_append]
    constructor
    · rintro ⟨_, rl, op, re, ⟨la, lb, h1, h2, rfl⟩, h3⟩
      exact ⟨⟨la, rl, op, re, h1, h3⟩, ⟨lb, rl, op, re, h2, h3⟩⟩
    · rintro ⟨⟨la, rl, op, re, h1, h3⟩, ⟨lb, _, _, _, h2, _⟩⟩
      exact ⟨_, rl, op, re, ⟨la, lb, h1, h2, rfl⟩, h3⟩
  · intro m l1 l2
    simp only [Loads, static_sentBy ha, static_sentBy hb] at l1 l2
    obtain ⟨la, rl, op, re, k1, k3⟩ := l1
    obtain ⟨lb, _, _, _, k2, _⟩ := l2
    simp only [Meets, static_sentBy (noReference_append ha), static_sentBy ha, static_sentBy hb, expand_append]
    constructor
    · rintro ⟨_, rl', op', re', ⟨⟨la', lb', h1, h2, rfl⟩, h3⟩, h4, h5⟩
      rw [senderLoop_append h1 h2] at h4
      exact h4.imp (fun h4 => ⟨la', rl', op', re', ⟨h1, h3⟩, h4, h5⟩) (fun h4 => ⟨lb', rl', op', re', ⟨h2, h3⟩, h4, h5⟩)
    · rintro (⟨la', rl', op', re', ⟨h1, h3⟩, h4, h5⟩ | ⟨lb', rl', op', re', ⟨h1, h3⟩, h4, h5⟩)
      · exact ⟨_, rl', op', re', ⟨⟨la', lb, h1, k2, rfl⟩, h3⟩, (senderLoop_append h1 k2).2 (.inl h4), h5⟩
      · exact ⟨_, rl', op', re', ⟨⟨la, lb', k1, h1, rfl⟩, h3⟩, (senderLoop_append k1 h1).2 (.inr h4), h5⟩

theorem receiver_equivalent (ho : env.OrdOk) {r : Rule} {a b : Str} (hc : r.converted = false) (ha : PlainList a) (hb : PlainList b) :
    Equivalent env g [sentTo r (a ++ gs"," ++ b)] [sentTo r a, sentTo r b] := by
  refine split_equivalent ho ⟨rfl, rfl, hc⟩ ⟨rfl, rfl, hc⟩ ⟨rfl, rfl, hc⟩ ?_ ?_ rfl rfl (fun _ _ _ _ => Iff.rfl) (fun _ _ _ _ => Iff.rfl)
  · simp only [Loads, static_sentTo (noReference_append ha), static_sentTo ha, static_sentTo hb, expand_append]
    constructor
    · rintro ⟨sl, _, op, re, ⟨la, lb, h1, h2, rfl⟩, h3⟩
      exact ⟨⟨sl, la, op, re, h1, h3⟩, ⟨sl, lb, op, re, h2, h3⟩⟩
    · rintro ⟨⟨sl, la, op, re, h1, h3⟩, ⟨_, lb, _, _, h2, _⟩⟩
      exact ⟨sl, _, op, re, ⟨la, lb, h1, h2, rfl⟩, h3⟩
  · intro m l1 l2
    simp only [Loads, static_sentTo ha, static_sentTo hb] at l1 l2
    obtain ⟨sl, la, op, re, k1, k3⟩ := l1
    obtain ⟨_, lb, _, _, k2, _⟩ := l2
    simp only [Meets, static_sentTo (noReference_append ha), static_sentTo ha, static_sentTo hb, expand_append]
    constructor
    · rintro ⟨sl', _, op', re', ⟨⟨la', lb', h1, h2, rfl⟩, h3⟩, h5, h4⟩
      rw [receiverLoop_append h1 h2] at h4
      exact h4.imp (fun h4 => ⟨sl', la', op', re', ⟨h1, h3⟩, h5, h4⟩) (fun h4 => ⟨sl', lb', op', re', ⟨h2, h3⟩, h5, h4⟩)
    · rintro (⟨sl', la', op', re', ⟨h1, h3⟩, h5, h4⟩ | ⟨sl', lb', op', re', ⟨h1, h3⟩, h5, h4⟩)
      · exact ⟨sl', _, op', re', ⟨⟨la', lb, h1, k2, rfl⟩, h3⟩, h5, (receiverLoop_append h1 k2).2 (.inl h4)⟩
      · exact ⟨sl', _, op', re', ⟨⟨la, lb', k1, h1, rfl⟩, h3⟩, h5, (receiverLoop_append k1 h1).2 (.inr h4)⟩

/-! ## Order and repetition of rules -/

theorem worse_self (d : Decision) : worse d d = d := rank_inj (by rw [worse_rank]; simp)

theorem worse_comm (d e : Decision) : worse d e = worse e d := rank_inj (by rw [worse_rank, worse_rank, Nat.max_comm])

theorem twice_equivalent (ho : env.OrdOk) (r : RuleObj) : Equivalent env g [r, r] [r] := by
  have hsplit : ([r, r] : List RuleObj) = [r] ++ [r] := rfl
  refine ⟨fun m d => ?_, fun m => ?_⟩
  · rw [hsplit, canDecide_append ho]
    constructor
    · rintro ⟨d1, d2, h1, h2, rfl⟩
      unfold worse
      split
      · exact h2
      · exact h1
    · intro h
      exact ⟨d, d, h, h, (worse_self d).symm⟩
  · rw [hsplit, canFail_append ho, or_self]

theorem swap_equivalent (ho : env.OrdOk) (r s : RuleObj) : Equivalent env g [r, s] [s, r] := by
  have h1 : ([r, s] : List RuleObj) = [r] ++ [s] := rfl
  have h2 : ([s, r] : List RuleObj) = [s] ++ [r] := rfl
  refine ⟨fun m d => ?_, fun m => ?_⟩
  · rw [h1, h2, canDecide_append ho, canDecide_append ho]
    constructor
    · rintro ⟨d1, d2, k1, k2, rfl⟩; exact ⟨d2, d1, k2, k1, worse_comm _ _⟩
    · rintro ⟨d1, d2, k1, k2, rfl⟩; exact ⟨d2, d1, k2, k1, worse_comm _ _⟩
  · rw [h1, h2, canFail_append ho, canFail_append ho, or_comm]

theorem perm_equivalent (ho : env.OrdOk) {rs rs' : List RuleObj} (h : rs.Perm rs') : Equivalent env g rs rs' := by
  induction h with
  | nil => exact .refl _
  | cons x _ ih => simpa using ih.context ho [x] []
  | swap x y l => simpa using (swap_equivalent ho y x).context ho [] l
  | trans _ _ ih1 ih2 => exact ih1.trans ih2

end Mapl

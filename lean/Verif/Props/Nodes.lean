import Verif.Lemmas.Nodes
import Verif.Lemmas.InPlace
import Verif.Props.Mongo

/-!
# Nodes in memory

C99. Trees of conditions are made of pointers: what `Append` does to them, what the parser makes, and what preparing in place does.
-/

namespace Mapl.Props

open Mapl.Spec

variable {env : Env} {h : Cells}

/-! ## Appending -/

/-- **C99**, one tree: the pointers from a value make up at most one tree. -/
theorem C99_one_tree {r : NodeRef} {n n' : Node} {as as' : List Nat} (h1 : TreeAt h r n as) (h2 : TreeAt h r n' as') : n = n' := (tree_unique n n' h1 h2).1

/-- **C99**, `Append`: the node has one more child, or another one. The appended tree must not contain the node. -/
theorem C99_append_partial {i : Nat} {m : NodeRef} {n l : Node} {as bs : List Nat} (ht : TreeAt h (some i) n as) (hm : TreeAt h m l bs) (hi : i ∉ bs) :
    ∃ cs, TreeAt (h.append i m) (some i) (withChild l n) cs := by
  obtain ⟨cs, h1, -⟩ := tree_append ht hm hi
  exact ⟨cs, h1⟩

/-- **C99**, no node is shared after `Append` if none was. -/
theorem C99_alone_partial {i : Nat} {m : NodeRef} {n l : Node} {as bs : List Nat} (ht : Alone h (some i) n as) (hm : Alone h m l bs) (hd : ∀ a ∈ as, a ∉ bs) :
    ∃ cs, Alone (h.append i m) (some i) (withChild l n) cs := by
  obtain ⟨as', rfl, -⟩ := tree_head ht.tree
  obtain ⟨cs, h1, h2, -⟩ := tree_append ht.tree hm.tree (hd i (by simp))
  exact ⟨cs, h1, h2 ht.once hm.once fun a ha hb => hd a ha hb⟩

/-- **C99**, nothing else changes: a tree that does not contain the node is what it was. -/
theorem C99_elsewhere {i : Nat} {m r : NodeRef} {n : Node} {as : List Nat} (ht : TreeAt h r n as) (hi : i ∉ as) : TreeAt (h.append i m) r n as := tree_update _ ht hi

theorem satAll_append (env : Ext) (ns ns' : List Node) (m : Msg) : SatAll env (ns ++ ns') m ↔ SatAll env ns m ∧ SatAll env ns' m := by
  induction ns with
  | nil => simp [SatAll]
  | cons n ns ih => simp [SatAll, ih, and_assoc]

theorem satSome_append (env : Ext) (ns ns' : List Node) (m : Msg) : SatSome env (ns ++ ns') m ↔ SatSome env ns m ∨ SatSome env ns' m := by
  induction ns with
  | nil => simp [SatSome]
  | cons n ns ih => simp [SatSome, ih, or_assoc]

/-- **C99**, the meaning of `Append` to an AND: one more thing is required. -/
theorem C99_and_partial {i : Nat} {m : NodeRef} {ns : List Node} {l n' : Node} {as bs cs : List Nat} (ht : TreeAt h (some i) (.and ns) as) (hm : TreeAt h m l bs) (hi : i ∉ bs)
    (hn : TreeAt (h.append i m) (some i) n' cs) (msg : Msg) : Sat env n' msg ↔ Sat env (.and ns) msg ∧ Sat env l msg := by
  obtain ⟨ds, h1⟩ := C99_append_partial ht hm hi
  rw [C99_one_tree hn h1, withChild, Sat, Sat, satAll_append]
  simp [SatAll]

/-- **C99**, the meaning of `Append` to an OR: there is one more possibility. -/
theorem C99_or_partial {i : Nat} {m : NodeRef} {ns : List Node} {l n' : Node} {as bs cs : List Nat} (ht : TreeAt h (some i) (.or ns) as) (hm : TreeAt h m l bs) (hi : i ∉ bs)
    (hn : TreeAt (h.append i m) (some i) n' cs) (msg : Msg) : Sat env n' msg ↔ Sat env (.or ns) msg ∨ Sat env l msg := by
  obtain ⟨ds, h1⟩ := C99_append_partial ht hm hi
  rw [C99_one_tree hn h1, withChild, Sat, Sat, satSome_append]
  simp [SatSome]

/-- **C99**, the meaning of `Append` to a NOT: the child is replaced. -/
theorem C99_not_partial {i : Nat} {m : NodeRef} {n l n' : Node} {as bs cs : List Nat} (ht : TreeAt h (some i) (.not n) as) (hm : TreeAt h m l bs) (hi : i ∉ bs)
    (hn : TreeAt (h.append i m) (some i) n' cs) (msg : Msg) : Sat env n' msg ↔ ¬ Sat env l msg := by
  obtain ⟨ds, h1⟩ := C99_append_partial ht hm hi
  rw [C99_one_tree hn h1, withChild, Sat]

theorem last_tree {ks : List NodeRef} {m : NodeRef} {ns : List Node} {as : List Nat} (ht : TreesAt h (ks ++ [m]) ns as) : ∃ l bs, TreeAt h m l bs ∧ bs ⊆ as := by
  induction ks generalizing ns as with
  | nil =>
    cases ht with
    | cons hk hks => exact ⟨_, _, hk, List.subset_append_left _ _⟩
  | cons k ks ih =>
    cases ht with
    | cons hk hks =>
      obtain ⟨l, bs, h1, h2⟩ := ih hks
      exact ⟨l, bs, h1, fun x hx => List.mem_append_right _ (h2 hx)⟩

/-- The node can have children. -/
def hasChildren : Node → Prop
  | .and _ | .or _ | .not _ | .any _ _ | .all _ _ => True
  | _ => False

/-- **C99**, the condition is needed: if the appended tree contains the node, there is no tree any more. -/
theorem C99_loop {i : Nat} {m : NodeRef} {n l : Node} {as bs : List Nat} (ht : TreeAt h (some i) n as) (hn : hasChildren n) (hm : TreeAt h m l bs) :
    (∃ n' cs, TreeAt (h.append i m) (some i) n' cs) ↔ i ∉ bs := by
  refine ⟨fun ⟨n', cs, hc⟩ => ?_, fun hi => ⟨_, C99_append_partial ht hm hi⟩⟩
  have key : ∃ l' bs', TreeAt (h.append i m) m l' bs' ∧ i ∉ bs' := by
    obtain ⟨ds, rfl, hd⟩ := tree_head hc
    have hg : ∃ c : Cell, (h.append i m)[i]? = some (c.append m) ∧ ((∃ ks, c = .and ks) ∨ (∃ ks, c = .or ks) ∨ (∃ k, c = .not k) ∨ (∃ a k, c = .any a k) ∨ ∃ a k, c = .all a k) := by
      cases ht with
      | and hi => exact ⟨_, update_here h _ hi, .inl ⟨_, rfl⟩⟩
      | or hi => exact ⟨_, update_here h _ hi, .inr (.inl ⟨_, rfl⟩)⟩
      | not hi => exact ⟨_, update_here h _ hi, .inr (.inr (.inl ⟨_, rfl⟩))⟩
      | any hi => exact ⟨_, update_here h _ hi, .inr (.inr (.inr (.inl ⟨_, _, rfl⟩)))⟩
      | all hi => exact ⟨_, update_here h _ hi, .inr (.inr (.inr (.inr ⟨_, _, rfl⟩)))⟩
      | tt | ff | cond => simp [hasChildren] at hn
    obtain ⟨c, hg, hc'⟩ := hg
    cases hc with
    | and hi hk =>
      rcases hc' with ⟨_, rfl⟩ | ⟨_, rfl⟩ | ⟨_, rfl⟩ | ⟨_, _, rfl⟩ | ⟨_, _, rfl⟩ <;> rw [hi] at hg <;> cases hg
      obtain ⟨l', bs', h1, h2⟩ := last_tree hk
      exact ⟨l', bs', h1, fun hb => hd (h2 hb)⟩
    | or hi hk =>
      rcases hc' with ⟨_, rfl⟩ | ⟨_, rfl⟩ | ⟨_, rfl⟩ | ⟨_, _, rfl⟩ | ⟨_, _, rfl⟩ <;> rw [hi] at hg <;> cases hg
      obtain ⟨l', bs', h1, h2⟩ := last_tree hk
      exact ⟨l', bs', h1, fun hb => hd (h2 hb)⟩
    | not hi hk =>
      rcases hc' with ⟨_, rfl⟩ | ⟨_, rfl⟩ | ⟨_, rfl⟩ | ⟨_, _, rfl⟩ | ⟨_, _, rfl⟩ <;> rw [hi] at hg <;> cases hg
      exact ⟨_, _, hk, hd⟩
    | any hi hk =>
      rcases hc' with ⟨_, rfl⟩ | ⟨_, rfl⟩ | ⟨_, rfl⟩ | ⟨_, _, rfl⟩ | ⟨_, _, rfl⟩ <;> rw [hi] at hg <;> cases hg
      exact ⟨_, _, hk, hd⟩
    | all hi hk =>
      rcases hc' with ⟨_, rfl⟩ | ⟨_, rfl⟩ | ⟨_, rfl⟩ | ⟨_, _, rfl⟩ | ⟨_, _, rfl⟩ <;> rw [hi] at hg <;> cases hg
      exact ⟨_, _, hk, hd⟩
    | tt hi | ff hi | cond hi => rcases hc' with ⟨_, rfl⟩ | ⟨_, rfl⟩ | ⟨_, rfl⟩ | ⟨_, _, rfl⟩ | ⟨_, _, rfl⟩ <;> rw [hi] at hg <;> cases hg
  obtain ⟨l', bs', h1, h2⟩ := key
  have h3 : TreeAt h m l' bs' := tree_frame l' h1 fun j hj => (update_other h (Cell.append m) (i := i) (j := j) fun e => h2 (by rw [e]; exact hj)).symm
  rw [(tree_unique _ _ hm h3).2]
  exact h2

/-! ### Making a tree -/

mutual
theorem construct_fresh : ∀ (n : Node) (h : Cells), ∃ tail as, (construct n h).1 = h ++ tail ∧ Fresh (h ++ tail) h.length (construct n h).2 n as
  | .nil, h => ⟨[], [], by simp [construct], by simpa [construct] using fresh_nil h _⟩
  | .tt, h => ⟨[.tt], [h.length], by simp [construct, Cells.make], .tt (middle_here h [] _), by simp, by simp⟩
  | .ff, h => ⟨[.ff], [h.length], by simp [construct, Cells.make], .ff (middle_here h [] _), by simp, by simp⟩
  | .cond c, h => ⟨[.cond c], [h.length], by simp [construct, Cells.make], .cond (middle_here h [] _), by simp, by simp⟩
  | .and ns, h => by
    obtain ⟨tail, ks, as, h1, h2⟩ := constructEach_fresh ns h [] (.and []) [] [] [] ⟨.nil, by simp, by simp⟩
    refine ⟨_, h.length :: as, by simp only [construct, Cells.make]; exact h1, .and ?_ h2.trees, ?_, ?_⟩
    · exact (middle_here _ _ _).trans (by rw [fold_and])
    · exact List.nodup_cons.2 ⟨fun hm => by have := (h2.new _ hm).1; omega, h2.once⟩
    · intro a ha
      rcases List.mem_cons.1 ha with rfl | ha
      · simp
      · have := h2.new a ha; omega
  | .or ns, h => by
    obtain ⟨tail, ks, as, h1, h2⟩ := constructEach_fresh ns h [] (.or []) [] [] [] ⟨.nil, by simp, by simp⟩
    refine ⟨_, h.length :: as, by simp only [construct, Cells.make]; exact h1, .or ?_ h2.trees, ?_, ?_⟩
    · exact (middle_here _ _ _).trans (by rw [fold_or])
    · exact List.nodup_cons.2 ⟨fun hm => by have := (h2.new _ hm).1; omega, h2.once⟩
    · intro a ha
      rcases List.mem_cons.1 ha with rfl | ha
      · simp
      · have := h2.new a ha; omega
  | .not n, h => by
    obtain ⟨tail, as, h1, h2⟩ := construct_fresh n (h ++ [.not none])
    obtain ⟨h3, h4⟩ := attach_fresh (c := .not none) h1 h2
    refine ⟨_, h.length :: as, by simp only [construct, Cells.make]; exact h3, .not (middle_here _ _ _) h4.tree, ?_, ?_⟩
    · exact List.nodup_cons.2 ⟨fun hm => by have := (h4.new _ hm).1; omega, h4.once⟩
    · intro a ha
      rcases List.mem_cons.1 ha with rfl | ha
      · simp
      · have := h4.new a ha
        exact ⟨by omega, this.2⟩
  | .any b n, h => by
    obtain ⟨tail, as, h1, h2⟩ := construct_fresh n (h ++ [.any b none])
    obtain ⟨h3, h4⟩ := attach_fresh (c := .any b none) h1 h2
    refine ⟨_, h.length :: as, by simp only [construct, Cells.make]; exact h3, .any (middle_here _ _ _) h4.tree, ?_, ?_⟩
    · exact List.nodup_cons.2 ⟨fun hm => by have := (h4.new _ hm).1; omega, h4.once⟩
    · intro a ha
      rcases List.mem_cons.1 ha with rfl | ha
      · simp
      · have := h4.new a ha
        exact ⟨by omega, this.2⟩
  | .all b n, h => by
    obtain ⟨tail, as, h1, h2⟩ := construct_fresh n (h ++ [.all b none])
    obtain ⟨h3, h4⟩ := attach_fresh (c := .all b none) h1 h2
    refine ⟨_, h.length :: as, by simp only [construct, Cells.make]; exact h3, .all (middle_here _ _ _) h4.tree, ?_, ?_⟩
    · exact List.nodup_cons.2 ⟨fun hm => by have := (h4.new _ hm).1; omega, h4.once⟩
    · intro a ha
      rcases List.mem_cons.1 ha with rfl | ha
      · simp
      · have := h4.new a ha
        exact ⟨by omega, this.2⟩

theorem constructEach_fresh : ∀ (ns : List Node) (h rest : Cells) (c : Cell) (ks : List NodeRef) (ns0 : List Node) (as : List Nat), FreshAll (h ++ c :: rest) (h.length + 1) ks ns0 as →
    ∃ tail ks' as', constructEach h.length ns (h ++ c :: rest) = h ++ (ks'.foldl (fun c k => c.append k) c) :: (rest ++ tail) ∧
      FreshAll (h ++ (ks'.foldl (fun c k => c.append k) c) :: (rest ++ tail)) (h.length + 1) (ks ++ ks') (ns0 ++ ns) as'
  | [], h, rest, c, ks, ns0, as, hf => ⟨[], [], as, by simp [constructEach], by simpa using hf⟩
  | n :: ns, h, rest, c, ks, ns0, as, hf => by
    obtain ⟨tail, cs, h1, h2⟩ := construct_fresh n (h ++ c :: rest)
    have k3 := more_fresh hf h2
    have e1 : (h ++ c :: rest) ++ tail = h ++ c :: (rest ++ tail) := by simp
    obtain ⟨tail', ks', as', k4, k5⟩ := constructEach_fresh ns h (rest ++ tail) (c.append (construct n (h ++ c :: rest)).2) _ _ _ k3
    refine ⟨tail ++ tail', (construct n (h ++ c :: rest)).2 :: ks', as', ?_, by simpa using k5⟩
    rw [constructEach]
    rw [h1, e1, Cells.append, update_middle, k4]
    simp
end

/-- **C99**, making a tree: the program that makes the nodes and appends the children in their order has made the tree, of nodes that were not there before and that are not shared. -/
theorem C99_construct (n : Node) (h : Cells) : ∃ tail as, (construct n h).1 = h ++ tail ∧ Alone (construct n h).1 (construct n h).2 n as ∧ ∀ a ∈ as, h.length ≤ a := by
  obtain ⟨tail, as, h1, h2⟩ := construct_fresh n h
  exact ⟨tail, as, h1, ⟨by rw [h1]; exact h2.tree, h2.once⟩, fun a ha => (h2.new a ha).1⟩

/-! ## Parsing and preparing -/

/-- **C99**, the parser: in memory it fails as it does for trees, or makes the tree, of nodes that were not there before and that are not shared. -/
theorem C99_parse (ho : env.OrdOk) (hn : OrdNatural env) (p : List Nat) (j : Json) (h : Cells) :
    (∀ e, parseConditionsTreeAt env p j h = .error e ↔ parseConditionsTree env p j = .error e) ∧
    ∀ h' i, parseConditionsTreeAt env p j h = .ok (h', i) → ∃ tail n as, h' = h ++ tail ∧ parseConditionsTree env p j = .ok n ∧ Alone h' (some i) n as ∧ ∀ a ∈ as, h.length ≤ a := by
  have hb := interpret_builds ho hn j [] p h
  unfold parseConditionsTreeAt parseConditionsTree
  cases hx : interpretAt env j [] p h with
  | error e =>
    rw [hx] at hb
    simp only at hb
    rw [hb]
    exact ⟨fun e' => by simp, fun _ _ h => by cases h⟩
  | ok y =>
    obtain ⟨h', i⟩ := y
    rw [hx] at hb
    simp only at hb
    obtain ⟨tail, n, as, h1, h2, h3⟩ := hb
    rw [h2]
    refine ⟨fun e' => by simp, fun h'' i' he => ?_⟩
    cases he
    exact ⟨tail, n, as, h1, rfl, ⟨h3.tree, h3.once⟩, fun a ha => (h3.new a ha).1⟩

/-- **C99**, preparing in place: if no node is shared, it prepares the tree, or fails as it does for the tree, and leaves all other trees as they are. -/
theorem C99_prepare_partial {env : Ext} {t : Predef} {r : NodeRef} {n : Node} {as : List Nat} (ha : Alone h r n as) {f : Nat} (hf : as.length < f) :
    ∃ h' o, prepareAt env t f h r = some (h', o) ∧ (∀ n', n.prepare env t = .ok n' → o = none ∧ Alone h' r n' as) ∧ (∀ e, n.prepare env t = .error e → o = some e) ∧
      ∀ r' m bs, TreeAt h r' m bs → (∀ b ∈ bs, b ∉ as) → TreeAt h' r' m bs := by
  obtain ⟨h', h1, h2, h3⟩ := prepareAt_tree env t n ha.tree ha.once hf
  refine ⟨h', _, h1, fun n' hn => ?_, fun e he => ?_, fun r' m bs hm hd => tree_frame m hm fun b hb => h3 b (hd b hb)⟩
  · rw [← node_outcome, outcome_ok] at hn
    rw [hn] at h2 ⊢
    exact ⟨rfl, h2, ha.once⟩
  · rw [← node_outcome, outcome_error] at he
    exact he

/-- **C99**: what the parser has made is prepared in place as the tree is. -/
theorem C99_parse_prepare {t : Predef} (ho : env.OrdOk) (hn : OrdNatural env) {p : List Nat} {j : Json} {h' : Cells} {i : Nat} (hp : parseConditionsTreeAt env p j h = .ok (h', i)) :
    ∃ n bound, parseConditionsTree env p j = .ok n ∧ ∀ f ≥ bound, ∃ h'' o, prepareAt env t f h' (some i) = some (h'', o) ∧
      (∀ n', n.prepare env t = .ok n' → o = none ∧ ∃ as, TreeAt h'' (some i) n' as) ∧ (∀ e, n.prepare env t = .error e → o = some e) := by
  obtain ⟨tail, n, as, -, h2, h3, -⟩ := (C99_parse ho hn p j h).2 h' i hp
  refine ⟨n, as.length + 1, h2, fun f hf => ?_⟩
  obtain ⟨h'', o, k1, k2, k3, -⟩ := C99_prepare_partial (env := env.toExt) (t := t) h3 (f := f) (by omega)
  exact ⟨h'', o, k1, fun n' hn => ⟨(k2 n' hn).1, as, (k2 n' hn).2.tree⟩, k3⟩

/-! ### Where the code does something else -/

/-- A condition on the kind of an object, not yet prepared. -/
abbrev kindLeaf : Node := leaf gs"jsonpath:$.kind" gs"EQ" gs"Pod"

/-- The condition `kindLeaf` as a cell. -/
def kindCell : Cell := match kindLeaf with
  | .cond c => .cond c
  | _ => .tt

theorem prepared_twice (env : Ext) (t : Predef) (c : Condition) (f : Nat) :
    prepareAt env t (f + 2) [.and [some 1, some 1], .cond c] (some 0) = match c.prepareIn env t with
      | (c', none) => let x := c'.prepareIn env t; some ([.and [some 1, some 1], .cond x.1], x.2)
      | (c', some e) => some ([.and [some 1, some 1], .cond c'], some e) := by
  rcases hc : c.prepareIn env t with ⟨c', _ | e⟩
  · rcases hx : c'.prepareIn env t with ⟨c'', _ | e⟩ <;> simp [prepareAt, prepareEachAt, hc, hx]
  · simp [prepareAt, prepareEachAt, hc]

/-- **C99**, shared nodes: a condition that is appended twice to an AND is prepared twice, and the second time fails, although the tree can be prepared. -/
theorem C99_violated_shared :
    let h := Cells.append (Cells.append [.and [], kindCell] 0 (some 1)) 0 (some 1)
    TreeAt h (some 0) (.and [kindLeaf, kindLeaf]) [0, 1, 1] ∧ (∃ n, (Node.and [kindLeaf, kindLeaf]).prepare Demo.env {} = .ok n) ∧
      ∀ f ≥ 2, ∃ h' e, prepareAt Demo.env {} f h (some 0) = some (h', some e) := by
  refine ⟨.and (ks := [some 1, some 1]) (by rfl) (.cons (as := [1]) (bs := [1]) (.cond (by rfl)) (.cons (as := [1]) (bs := []) (.cond (by rfl)) .nil)), ⟨_, by rfl⟩, fun f hf => ?_⟩
  obtain ⟨f, rfl⟩ : ∃ k, f = k + 2 := ⟨f - 2, by omega⟩
  exact ⟨_, _, (prepared_twice Demo.env {} _ f).trans (by rfl)⟩

/-- **C99**, loops: a NOT that is appended to itself cannot be prepared: the recursion has no end. -/
theorem C99_violated_loop (t : Predef) (f : Nat) : prepareAt Demo.env t f (Cells.append [.not none] 0 (some 0)) (some 0) = none := by
  have he : Cells.append [.not none] 0 (some 0) = [.not (some 0)] := rfl
  rw [he]
  induction f with
  | zero => simp [prepareAt]
  | succ f ih => simpa [prepareAt] using ih

/-- **C99**, appending after the preparation: the new condition is not prepared. The message has the property that both conditions ask for, but the AND is false; and the tree cannot be
prepared again. -/
theorem C99_violated_late :
    let n := withChild kindLeaf (.and [prepared kindLeaf])
    let m := { Demo.msgI with rawI := some (.obj [(gs"kind", .str gs"Pod")]) }
    (∃ o, eval Demo.env (prepared (.and [kindLeaf, kindLeaf])) [] m = .ok o ∧ o.flag = true) ∧ (∃ o, eval Demo.env n [] m = .ok o ∧ o.flag = false) ∧ ∃ e, n.prepare Demo.env {} = .error e :=
  ⟨⟨_, by rfl, by rfl⟩, ⟨_, by rfl, by rfl⟩, _, by rfl⟩

/-! ### The hypotheses can be met -/

example : OrdNatural Demo.env := fun _ _ _ => rfl

example : ∃ cs, Alone (Cells.append [.and [], kindCell] 0 (some 1)) (some 0) (.and [kindLeaf]) cs :=
  C99_alone_partial (h := [.and [], kindCell]) (n := .and []) ⟨.and (ks := []) (as := []) (by rfl) .nil, by simp⟩ ⟨.cond (by rfl), by simp⟩ (by simp)

example : ∃ h' o, prepareAt Demo.env {} 5 (construct (.or [kindLeaf, .not kindLeaf]) []).1 (construct (.or [kindLeaf, .not kindLeaf]) []).2 = some (h', o) ∧ o = none := by
  have ha : Alone (construct (.or [kindLeaf, .not kindLeaf]) []).1 (construct (.or [kindLeaf, .not kindLeaf]) []).2 (.or [kindLeaf, .not kindLeaf]) [0, 1, 2, 3] :=
    ⟨.or (ks := [some 1, some 2]) (by rfl) (.cons (as := [1]) (bs := [2, 3]) (.cond (by rfl)) (.cons (as := [2, 3]) (bs := []) (.not (k := some 3) (by rfl) (.cond (by rfl))) .nil)), by simp⟩
  obtain ⟨h', o, h1, h2, -⟩ := C99_prepare_partial (env := Demo.env.toExt) (t := {}) ha (f := 5) (by simp)
  exact ⟨h', o, h1, (h2 _ (by rfl)).1⟩

end Mapl.Props

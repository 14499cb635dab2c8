import Verif.Spec.Nodes
import Verif.Lemmas.Go
import Mathlib.Data.List.Nodup

namespace Mapl

open Mapl.Spec

variable {h h' : Cells}

/-! ### Trees in memory -/

mutual
theorem tree_unique : ∀ (n n' : Node) {r : NodeRef} {as as' : List Nat}, TreeAt h r n as → TreeAt h r n' as' → n = n' ∧ as = as'
  | .nil, _, _, _, _, .nil, h' => by cases h'; exact ⟨rfl, rfl⟩
  | .tt, _, _, _, _, .tt hi, h' => by cases h' <;> (rename_i hi'; rw [hi] at hi'; cases hi'); exact ⟨rfl, rfl⟩
  | .ff, _, _, _, _, .ff hi, h' => by cases h' <;> (rename_i hi'; rw [hi] at hi'; cases hi'); exact ⟨rfl, rfl⟩
  | .cond c, _, _, _, _, .cond hi, h' => by
    cases h' with
    | cond hi' => rw [hi] at hi'; cases hi'; exact ⟨rfl, rfl⟩
    | and hi' => rw [hi] at hi'; cases hi'
    | or hi' => rw [hi] at hi'; cases hi'
    | not hi' => rw [hi] at hi'; cases hi'
    | any hi' => rw [hi] at hi'; cases hi'
    | all hi' => rw [hi] at hi'; cases hi'
    | tt hi' => rw [hi] at hi'; cases hi'
    | ff hi' => rw [hi] at hi'; cases hi'
  | .and ns, _, _, _, _, .and hi hk, h' => by
    cases h' with
    | and hi' hk' => rw [hi] at hi'; cases hi'; obtain ⟨rfl, rfl⟩ := trees_unique ns _ hk hk'; exact ⟨rfl, rfl⟩
    | cond hi' => rw [hi] at hi'; cases hi'
    | or hi' => rw [hi] at hi'; cases hi'
    | not hi' => rw [hi] at hi'; cases hi'
    | any hi' => rw [hi] at hi'; cases hi'
    | all hi' => rw [hi] at hi'; cases hi'
    | tt hi' => rw [hi] at hi'; cases hi'
    | ff hi' => rw [hi] at hi'; cases hi'
  | .or ns, _, _, _, _, .or hi hk, h' => by
    cases h' with
    | or hi' hk' => rw [hi] at hi'; cases hi'; obtain ⟨rfl, rfl⟩ := trees_unique ns _ hk hk'; exact ⟨rfl, rfl⟩
    | cond hi' => rw [hi] at hi'; cases hi'
    | and hi' => rw [hi] at hi'; cases hi'
    | not hi' => rw [hi] at hi'; cases hi'
    | any hi' => rw [hi] at hi'; cases hi'
    | all hi' => rw [hi] at hi'; cases hi'
    | tt hi' => rw [hi] at hi'; cases hi'
    | ff hi' => rw [hi] at hi'; cases hi'
  | .not n, _, _, _, _, .not hi hk, h' => by
    cases h' with
    | not hi' hk' => rw [hi] at hi'; cases hi'; obtain ⟨rfl, rfl⟩ := tree_unique n _ hk hk'; exact ⟨rfl, rfl⟩
    | cond hi' => rw [hi] at hi'; cases hi'
    | and hi' => rw [hi] at hi'; cases hi'
    | or hi' => rw [hi] at hi'; cases hi'
    | any hi' => rw [hi] at hi'; cases hi'
    | all hi' => rw [hi] at hi'; cases hi'
    | tt hi' => rw [hi] at hi'; cases hi'
    | ff hi' => rw [hi] at hi'; cases hi'
  | .any a n, _, _, _, _, .any hi hk, h' => by
    cases h' with
    | any hi' hk' => rw [hi] at hi'; cases hi'; obtain ⟨rfl, rfl⟩ := tree_unique n _ hk hk'; exact ⟨rfl, rfl⟩
    | cond hi' => rw [hi] at hi'; cases hi'
    | and hi' => rw [hi] at hi'; cases hi'
    | or hi' => rw [hi] at hi'; cases hi'
    | not hi' => rw [hi] at hi'; cases hi'
    | all hi' => rw [hi] at hi'; cases hi'
    | tt hi' => rw [hi] at hi'; cases hi'
    | ff hi' => rw [hi] at hi'; cases hi'
  | .all a n, _, _, _, _, .all hi hk, h' => by
    cases h' with
    | all hi' hk' => rw [hi] at hi'; cases hi'; obtain ⟨rfl, rfl⟩ := tree_unique n _ hk hk'; exact ⟨rfl, rfl⟩
    | cond hi' => rw [hi] at hi'; cases hi'
    | and hi' => rw [hi] at hi'; cases hi'
    | or hi' => rw [hi] at hi'; cases hi'
    | not hi' => rw [hi] at hi'; cases hi'
    | any hi' => rw [hi] at hi'; cases hi'
    | tt hi' => rw [hi] at hi'; cases hi'
    | ff hi' => rw [hi] at hi'; cases hi'

theorem trees_unique : ∀ (ns ns' : List Node) {ks : List NodeRef} {as as' : List Nat}, TreesAt h ks ns as → TreesAt h ks ns' as' → ns = ns' ∧ as = as'
  | [], _, _, _, _, .nil, h' => by cases h'; exact ⟨rfl, rfl⟩
  | n :: ns, _, _, _, _, .cons hk hks, h' => by
    cases h' with
    | cons hk' hks' =>
      obtain ⟨rfl, rfl⟩ := tree_unique n _ hk hk'
      obtain ⟨rfl, rfl⟩ := trees_unique ns _ hks hks'
      exact ⟨rfl, rfl⟩
end

mutual
/-- Memory that is the same at the addresses of a tree has the same tree. -/
theorem tree_frame : ∀ (n : Node) {r : NodeRef} {as : List Nat}, TreeAt h r n as → (∀ a ∈ as, h'[a]? = h[a]?) → TreeAt h' r n as
  | .nil, _, _, .nil, _ => .nil
  | .tt, _, _, .tt hi, he => .tt ((he _ (by simp)).trans hi)
  | .ff, _, _, .ff hi, he => .ff ((he _ (by simp)).trans hi)
  | .cond _, _, _, .cond hi, he => .cond ((he _ (by simp)).trans hi)
  | .and ns, _, _, .and hi hk, he => .and ((he _ (by simp)).trans hi) (trees_frame ns hk fun a ha => he a (by simp [ha]))
  | .or ns, _, _, .or hi hk, he => .or ((he _ (by simp)).trans hi) (trees_frame ns hk fun a ha => he a (by simp [ha]))
  | .not n, _, _, .not hi hk, he => .not ((he _ (by simp)).trans hi) (tree_frame n hk fun a ha => he a (by simp [ha]))
  | .any _ n, _, _, .any hi hk, he => .any ((he _ (by simp)).trans hi) (tree_frame n hk fun a ha => he a (by simp [ha]))
  | .all _ n, _, _, .all hi hk, he => .all ((he _ (by simp)).trans hi) (tree_frame n hk fun a ha => he a (by simp [ha]))

theorem trees_frame : ∀ (ns : List Node) {ks : List NodeRef} {as : List Nat}, TreesAt h ks ns as → (∀ a ∈ as, h'[a]? = h[a]?) → TreesAt h' ks ns as
  | [], _, _, .nil, _ => .nil
  | n :: ns, _, _, .cons hk hks, he => .cons (tree_frame n hk fun a ha => he a (by simp [ha])) (trees_frame ns hks fun a ha => he a (by simp [ha]))
end

mutual
/-- At every address of a tree there is a tree that is not larger. -/
theorem tree_inside : ∀ (n : Node) {r : NodeRef} {as : List Nat}, TreeAt h r n as → ∀ j ∈ as, ∃ m bs, TreeAt h (some j) m bs ∧ bs.length ≤ as.length
  | .nil, _, _, .nil, _, hj => by cases hj
  | .tt, _, _, .tt hi, _, hj => by cases List.mem_singleton.1 hj; exact ⟨_, _, .tt hi, Nat.le_refl _⟩
  | .ff, _, _, .ff hi, _, hj => by cases List.mem_singleton.1 hj; exact ⟨_, _, .ff hi, Nat.le_refl _⟩
  | .cond _, _, _, .cond hi, _, hj => by cases List.mem_singleton.1 hj; exact ⟨_, _, .cond hi, Nat.le_refl _⟩
  | .and ns, _, _, .and hi hk, j, hj => by
    rcases List.mem_cons.1 hj with rfl | hj
    · exact ⟨_, _, .and hi hk, Nat.le_refl _⟩
    · obtain ⟨m, bs, h1, h2⟩ := trees_inside ns hk j hj
      exact ⟨m, bs, h1, by simp; omega⟩
  | .or ns, _, _, .or hi hk, j, hj => by
    rcases List.mem_cons.1 hj with rfl | hj
    · exact ⟨_, _, .or hi hk, Nat.le_refl _⟩
    · obtain ⟨m, bs, h1, h2⟩ := trees_inside ns hk j hj
      exact ⟨m, bs, h1, by simp; omega⟩
  | .not n, _, _, .not hi hk, j, hj => by
    rcases List.mem_cons.1 hj with rfl | hj
    · exact ⟨_, _, .not hi hk, Nat.le_refl _⟩
    · obtain ⟨m, bs, h1, h2⟩ := tree_inside n hk j hj
      exact ⟨m, bs, h1, by simp; omega⟩
  | .any _ n, _, _, .any hi hk, j, hj => by
    rcases List.mem_cons.1 hj with rfl | hj
    · exact ⟨_, _, .any hi hk, Nat.le_refl _⟩
    · obtain ⟨m, bs, h1, h2⟩ := tree_inside n hk j hj
      exact ⟨m, bs, h1, by simp; omega⟩
  | .all _ n, _, _, .all hi hk, j, hj => by
    rcases List.mem_cons.1 hj with rfl | hj
    · exact ⟨_, _, .all hi hk, Nat.le_refl _⟩
    · obtain ⟨m, bs, h1, h2⟩ := tree_inside n hk j hj
      exact ⟨m, bs, h1, by simp; omega⟩

theorem trees_inside : ∀ (ns : List Node) {ks : List NodeRef} {as : List Nat}, TreesAt h ks ns as → ∀ j ∈ as, ∃ m bs, TreeAt h (some j) m bs ∧ bs.length ≤ as.length
  | [], _, _, .nil, _, hj => by cases hj
  | n :: ns, _, _, .cons hk hks, j, hj => by
    rcases List.mem_append.1 hj with hj | hj
    · obtain ⟨m, bs, h1, h2⟩ := tree_inside n hk j hj
      exact ⟨m, bs, h1, by simp; omega⟩
    · obtain ⟨m, bs, h1, h2⟩ := trees_inside ns hks j hj
      exact ⟨m, bs, h1, by simp; omega⟩
end

/-- A tree begins with its address, and does not pass it again. -/
theorem tree_head {i : Nat} {n : Node} {as : List Nat} (ht : TreeAt h (some i) n as) : ∃ bs, as = i :: bs ∧ i ∉ bs := by
  have key : ∀ bs, as = i :: bs → (∀ j ∈ bs, ∃ m cs, TreeAt h (some j) m cs ∧ cs.length ≤ bs.length) → i ∉ bs := by
    intro bs he hs hi
    obtain ⟨m, cs, h1, h2⟩ := hs i hi
    obtain ⟨-, h3⟩ := tree_unique _ _ ht h1
    rw [← h3, he] at h2
    simp only [List.length_cons] at h2
    omega
  cases ht with
  | tt => exact ⟨[], rfl, by simp⟩
  | ff => exact ⟨[], rfl, by simp⟩
  | cond => exact ⟨[], rfl, by simp⟩
  | and hi hk => exact ⟨_, rfl, key _ rfl (trees_inside _ hk)⟩
  | or hi hk => exact ⟨_, rfl, key _ rfl (trees_inside _ hk)⟩
  | not hi hk => exact ⟨_, rfl, key _ rfl (tree_inside _ hk)⟩
  | any hi hk => exact ⟨_, rfl, key _ rfl (tree_inside _ hk)⟩
  | all hi hk => exact ⟨_, rfl, key _ rfl (tree_inside _ hk)⟩

theorem trees_append {ks ks' : List NodeRef} {ns ns' : List Node} {as as' : List Nat} (h1 : TreesAt h ks ns as) (h2 : TreesAt h ks' ns' as') :
    TreesAt h (ks ++ ks') (ns ++ ns') (as ++ as') := by
  induction ks generalizing ns as with
  | nil => cases h1; exact h2
  | cons k ks ih =>
    cases h1 with
    | cons hk hks =>
      rw [List.cons_append, List.cons_append, List.append_assoc]
      exact .cons hk (ih hks)

theorem update_here (h : Cells) {i : Nat} {c : Cell} (f : Cell → Cell) (hi : h[i]? = some c) : (h.update i f)[i]? = some (f c) := by
  simp [Cells.update, List.getElem?_modify, hi]

theorem update_other (h : Cells) {i j : Nat} (f : Cell → Cell) (hij : i ≠ j) : (h.update i f)[j]? = h[j]? := by
  simp [Cells.update, List.getElem?_modify, hij]

/-- The trees at the addresses of a tree that does not pass the changed address are as before. -/
theorem tree_update {i : Nat} {r : NodeRef} {n : Node} {as : List Nat} (f : Cell → Cell) (ht : TreeAt h r n as) (hi : i ∉ as) : TreeAt (h.update i f) r n as :=
  tree_frame n ht fun a ha => update_other h f fun e => hi (e ▸ ha)

theorem trees_update {i : Nat} {ks : List NodeRef} {ns : List Node} {as : List Nat} (f : Cell → Cell) (ht : TreesAt h ks ns as) (hi : i ∉ as) : TreesAt (h.update i f) ks ns as :=
  trees_frame ns ht fun a ha => update_other h f fun e => hi (e ▸ ha)

/-- The tree after `Append`. -/
theorem tree_append {i : Nat} {m : NodeRef} {n l : Node} {as bs : List Nat} (ht : TreeAt h (some i) n as) (hm : TreeAt h m l bs) (hi : i ∉ bs) :
    ∃ cs, TreeAt (h.append i m) (some i) (withChild l n) cs ∧ (as.Nodup → bs.Nodup → as.Disjoint bs → cs.Nodup) ∧ ∀ c ∈ cs, c ∈ as ∨ c ∈ bs := by
  obtain ⟨as', rfl, hi'⟩ := tree_head ht
  have hm' := tree_update (Cell.append m) hm hi
  unfold Cells.append
  cases ht with
  | tt ha => exact ⟨_, .tt (update_here h _ ha), fun h1 _ _ => h1, fun c hc => .inl hc⟩
  | ff ha => exact ⟨_, .ff (update_here h _ ha), fun h1 _ _ => h1, fun c hc => .inl hc⟩
  | cond ha => exact ⟨_, .cond (update_here h _ ha), fun h1 _ _ => h1, fun c hc => .inl hc⟩
  | and ha hk =>
    have := trees_append (trees_update (Cell.append m) hk hi') (.cons hm' .nil)
    rw [List.append_nil] at this
    exact ⟨_, .and (update_here h _ ha) this, fun h1 h2 h3 => by
      rw [← List.cons_append]; exact List.Nodup.append h1 h2 h3, fun c hc => by simp at hc ⊢; tauto⟩
  | or ha hk =>
    have := trees_append (trees_update (Cell.append m) hk hi') (.cons hm' .nil)
    rw [List.append_nil] at this
    exact ⟨_, .or (update_here h _ ha) this, fun h1 h2 h3 => by
      rw [← List.cons_append]; exact List.Nodup.append h1 h2 h3, fun c hc => by simp at hc ⊢; tauto⟩
  | not ha hk => exact ⟨_, .not (update_here h _ ha) hm', fun _ h2 _ => List.nodup_cons.2 ⟨hi, h2⟩, fun c hc => by simp at hc ⊢; tauto⟩
  | any ha hk => exact ⟨_, .any (update_here h _ ha) hm', fun _ h2 _ => List.nodup_cons.2 ⟨hi, h2⟩, fun c hc => by simp at hc ⊢; tauto⟩
  | all ha hk => exact ⟨_, .all (update_here h _ ha) hm', fun _ h2 _ => List.nodup_cons.2 ⟨hi, h2⟩, fun c hc => by simp at hc ⊢; tauto⟩

/-! ### Preparation -/

theorem set_here {i : Nat} {c : Cell} (c' : Cell) (hi : h[i]? = some c) : (h.set i c')[i]? = some c' := by
  have := (List.getElem?_eq_some_iff.1 hi).1
  simp [List.getElem?_set, this]

theorem set_other {i j : Nat} (c' : Cell) (hij : i ≠ j) : (h.set i c')[j]? = h[j]? := by simp [List.getElem?_set, hij]

mutual
/-- Preparing at the address of a tree without shared nodes leaves the tree that `Node.prepareIn` gives. -/
theorem prepareAt_tree (env : Ext) (t : Predef) : ∀ (n : Node) {h : Cells} {r : NodeRef} {as : List Nat} {f : Nat}, TreeAt h r n as → as.Nodup → as.length < f →
    ∃ h', prepareAt env t f h r = some (h', (n.prepareIn env t).2) ∧ TreeAt h' r (n.prepareIn env t).1 as ∧ ∀ j ∉ as, h'[j]? = h[j]?
  | .nil, h, _, _, f + 1, .nil, _, _ => ⟨h, by simp [prepareAt, Node.prepareIn], by simpa [Node.prepareIn] using .nil, fun _ _ => rfl⟩
  | .tt, h, _, _, f + 1, .tt hi, _, _ => ⟨h, by simp [prepareAt, hi, Node.prepareIn], by simpa [Node.prepareIn] using .tt hi, fun _ _ => rfl⟩
  | .ff, h, _, _, f + 1, .ff hi, _, _ => ⟨h, by simp [prepareAt, hi, Node.prepareIn], by simpa [Node.prepareIn] using .ff hi, fun _ _ => rfl⟩
  | .cond c, h, _, _, f + 1, .cond (i := i) hi, _, _ => by
    refine ⟨h.set i (.cond (c.prepareIn env t).1), by simp only [prepareAt, hi, Node.prepareIn], by simpa [Node.prepareIn] using .cond (set_here _ hi), fun j hj => ?_⟩
    exact set_other _ fun e => hj (by simp [e])
  | .and ns, h, _, _, f + 1, .and hi hk, hd, hf => by
    obtain ⟨hni, hd⟩ := List.nodup_cons.1 hd
    obtain ⟨h', h1, h2, h3⟩ := prepareEachAt_trees env t ns hk hd (by simpa using hf)
    exact ⟨h', by simp only [prepareAt, hi, h1, Node.prepareIn], by simpa [Node.prepareIn] using .and ((h3 _ hni).trans hi) h2, fun j hj => h3 j fun e => hj (by simp [e])⟩
  | .or ns, h, _, _, f + 1, .or hi hk, hd, hf => by
    obtain ⟨hni, hd⟩ := List.nodup_cons.1 hd
    obtain ⟨h', h1, h2, h3⟩ := prepareEachAt_trees env t ns hk hd (by simpa using hf)
    exact ⟨h', by simp only [prepareAt, hi, h1, Node.prepareIn], by simpa [Node.prepareIn] using .or ((h3 _ hni).trans hi) h2, fun j hj => h3 j fun e => hj (by simp [e])⟩
  | .not n, h, _, _, f + 1, .not hi hk, hd, hf => by
    obtain ⟨hni, hd⟩ := List.nodup_cons.1 hd
    obtain ⟨h', h1, h2, h3⟩ := prepareAt_tree env t n hk hd (by simpa using hf)
    exact ⟨h', by simp only [prepareAt, hi, h1, Node.prepareIn], by simpa [Node.prepareIn] using .not ((h3 _ hni).trans hi) h2, fun j hj => h3 j fun e => hj (by simp [e])⟩
  | .any a n, h, _, _, f + 1, .any (i := i) (k := k) hi hk, hd, hf => by
    obtain ⟨hni, hd⟩ := List.nodup_cons.1 hd
    obtain ⟨h', h1, h2, h3⟩ := prepareAt_tree env t n hk hd (by simpa using hf)
    have hi' := (h3 _ hni).trans hi
    cases hx : n.prepareIn env t with
    | mk n' e =>
      rw [hx] at h1 h2
      cases e with
      | some e =>
        exact ⟨h', by simp only [prepareAt, hi, h1, Node.prepareIn, hx, Option.map_some], by simpa [Node.prepareIn, hx] using .any hi' h2, fun j hj => h3 j fun e => hj (by simp [e])⟩
      | none =>
        refine ⟨h'.set i (.any (a.prepareIn env).1 k), by simp only [prepareAt, hi, h1, Node.prepareIn, hx, Option.map_some, prepareParent, hi'], ?_, fun j hj => ?_⟩
        · simp only [Node.prepareIn, hx]
          exact .any (set_here _ hi') (tree_frame _ h2 fun b hb => set_other _ fun e => hni (e ▸ hb))
        · rw [set_other _ fun e => hj (by simp [e])]
          exact h3 j fun e => hj (by simp [e])
  | .all a n, h, _, _, f + 1, .all (i := i) (k := k) hi hk, hd, hf => by
    obtain ⟨hni, hd⟩ := List.nodup_cons.1 hd
    obtain ⟨h', h1, h2, h3⟩ := prepareAt_tree env t n hk hd (by simpa using hf)
    have hi' := (h3 _ hni).trans hi
    cases hx : n.prepareIn env t with
    | mk n' e =>
      rw [hx] at h1 h2
      cases e with
      | some e =>
        exact ⟨h', by simp only [prepareAt, hi, h1, Node.prepareIn, hx, Option.map_some], by simpa [Node.prepareIn, hx] using .all hi' h2, fun j hj => h3 j fun e => hj (by simp [e])⟩
      | none =>
        refine ⟨h'.set i (.all (a.prepareIn env).1 k), by simp only [prepareAt, hi, h1, Node.prepareIn, hx, Option.map_some, prepareParent, hi'], ?_, fun j hj => ?_⟩
        · simp only [Node.prepareIn, hx]
          exact .all (set_here _ hi') (tree_frame _ h2 fun b hb => set_other _ fun e => hni (e ▸ hb))
        · rw [set_other _ fun e => hj (by simp [e])]
          exact h3 j fun e => hj (by simp [e])

theorem prepareEachAt_trees (env : Ext) (t : Predef) : ∀ (ns : List Node) {h : Cells} {ks : List NodeRef} {as : List Nat} {f : Nat}, TreesAt h ks ns as → as.Nodup → as.length < f →
    ∃ h', prepareEachAt env t f h ks = some (h', (prepareNodesIn env t ns).2) ∧ TreesAt h' ks (prepareNodesIn env t ns).1 as ∧ ∀ j ∉ as, h'[j]? = h[j]?
  | [], h, _, _, _, .nil, _, _ => ⟨h, by simp [prepareEachAt, prepareNodesIn], by simpa [prepareNodesIn] using .nil, fun _ _ => rfl⟩
  | n :: ns, h, _, _, f, .cons (as := as) (bs := bs) hk hks, hd, hf => by
    obtain ⟨d1, d2, d3⟩ := List.nodup_append.1 hd
    rw [List.length_append] at hf
    obtain ⟨h', h1, h2, h3⟩ := prepareAt_tree env t n (f := f) hk d1 (by omega)
    have hks' := trees_frame (h' := h') ns hks fun b hb => h3 b fun ha => d3 b ha b hb rfl
    cases hx : n.prepareIn env t with
    | mk n' e =>
      rw [hx] at h1 h2
      cases e with
      | some e =>
        exact ⟨h', by simp only [prepareEachAt, h1, prepareNodesIn, hx], by simpa [prepareNodesIn, hx] using .cons h2 hks', fun j hj => h3 j fun e => hj (by simp [e])⟩
      | none =>
        obtain ⟨h'', k1, k2, k3⟩ := prepareEachAt_trees env t ns (f := f) hks' d2 (by omega)
        refine ⟨h'', by simp only [prepareEachAt, h1, prepareNodesIn, hx, k1], ?_, fun j hj => (k3 j fun e => hj (by simp [e])).trans (h3 j fun e => hj (by simp [e]))⟩
        simp only [prepareNodesIn, hx]
        exact .cons (tree_frame _ h2 fun a ha => k3 a fun hb => d3 a ha a hb rfl) k2
end

/-! ### Parsing -/

/-- The new tree in memory that has been extended: `lo` is where the extension begins. -/
structure Fresh (h : Cells) (lo : Nat) (r : NodeRef) (n : Node) (as : List Nat) : Prop where
  tree : TreeAt h r n as
  once : as.Nodup
  new : ∀ a ∈ as, lo ≤ a ∧ a < h.length

/-- What makes a node in memory does what is done with trees: it fails with the same failure, or extends the memory with the tree. -/
def Builds (b : Build) (x : Go Node) : Prop := ∀ h, match b h with
  | .error e => x = .error e
  | .ok (h', i) => ∃ tail n as, h' = h ++ tail ∧ x = .ok n ∧ Fresh h' h.length (some i) n as

theorem tree_extend {r : NodeRef} {n : Node} {as : List Nat} (tail : Cells) (ht : TreeAt h r n as) (hl : ∀ a ∈ as, a < h.length) : TreeAt (h ++ tail) r n as :=
  tree_frame n ht fun a ha => List.getElem?_append_left (hl a ha)

/-- Changing the cell behind `h`. -/
theorem update_middle (h rest : Cells) (c : Cell) (f : Cell → Cell) : Cells.update (h ++ c :: rest) h.length f = h ++ f c :: rest := by
  induction h with
  | nil => rfl
  | cons x h ih => simpa [Cells.update] using ih

theorem middle_here (h rest : Cells) (c : Cell) : (h ++ c :: rest)[h.length]? = some c := by simp

theorem middle_other (h rest : Cells) (c c' : Cell) {a : Nat} (ha : a ≠ h.length) : (h ++ c' :: rest)[a]? = (h ++ c :: rest)[a]? := by
  rcases Nat.lt_or_ge a h.length with h1 | h1
  · rw [List.getElem?_append_left h1, List.getElem?_append_left h1]
  · rw [List.getElem?_append_right h1, List.getElem?_append_right h1]
    obtain ⟨k, hk⟩ : ∃ k, a - h.length = k + 1 := ⟨a - h.length - 1, by omega⟩
    rw [hk]
    rfl

/-- A tree behind the cell, when the cell is changed and the memory extended. -/
theorem Fresh.later {rest : Cells} {c : Cell} {r : NodeRef} {n : Node} {as : List Nat} (hf : Fresh (h ++ c :: rest) (h.length + 1) r n as) (c' : Cell) (tail : Cells) :
    Fresh (h ++ c' :: (rest ++ tail)) (h.length + 1) r n as := by
  refine ⟨?_, hf.once, fun a ha => ⟨(hf.new a ha).1, by have := (hf.new a ha).2; simp at this ⊢; omega⟩⟩
  have h1 : TreeAt (h ++ c' :: rest) r n as := tree_frame n hf.tree fun a ha => middle_other h rest c c' (by have := (hf.new a ha).1; omega)
  have h2 := tree_extend tail h1 fun a ha => by have := (hf.new a ha).2; simp at this ⊢; omega
  simpa using h2

theorem fresh_nil (h : Cells) (lo : Nat) : Fresh h lo none .nil [] := ⟨.nil, by simp, by simp⟩

/-- Several new trees. -/
structure FreshAll (h : Cells) (lo : Nat) (ks : List NodeRef) (ns : List Node) (as : List Nat) : Prop where
  trees : TreesAt h ks ns as
  once : as.Nodup
  new : ∀ a ∈ as, lo ≤ a ∧ a < h.length

theorem FreshAll.later {rest : Cells} {c : Cell} {ks : List NodeRef} {ns : List Node} {as : List Nat} (hf : FreshAll (h ++ c :: rest) (h.length + 1) ks ns as) (c' : Cell) (tail : Cells) :
    FreshAll (h ++ c' :: (rest ++ tail)) (h.length + 1) ks ns as := by
  refine ⟨?_, hf.once, fun a ha => ⟨(hf.new a ha).1, by have := (hf.new a ha).2; simp at this ⊢; omega⟩⟩
  have h1 : TreesAt (h ++ c' :: rest) ks ns as := trees_frame ns hf.trees fun a ha => middle_other h rest c c' (by have := (hf.new a ha).1; omega)
  have h2 := trees_frame (h' := (h ++ c' :: rest) ++ tail) ns h1 fun a ha => List.getElem?_append_left (by have := (hf.new a ha).2; simp at this ⊢; omega)
  simpa using h2

/-- One more new tree. -/
theorem more_fresh {rest tail : Cells} {c : Cell} {ks : List NodeRef} {ns : List Node} {as cs : List Nat} {r : NodeRef} {n : Node} (hf : FreshAll (h ++ c :: rest) (h.length + 1) ks ns as)
    (hn : Fresh ((h ++ c :: rest) ++ tail) (h ++ c :: rest).length r n cs) :
    FreshAll (h ++ c.append r :: (rest ++ tail)) (h.length + 1) (ks ++ [r]) (ns ++ [n]) (as ++ cs) := by
  have e1 : (h ++ c :: rest) ++ tail = h ++ c :: (rest ++ tail) := by simp
  rw [e1] at hn
  have hn' : Fresh (h ++ c :: (rest ++ tail)) (h.length + 1) r n cs := ⟨hn.tree, hn.once, fun a ha => ⟨by have := (hn.new a ha).1; simp at this; omega, (hn.new a ha).2⟩⟩
  have k1 := hn'.later (c.append r) []
  have k2 := hf.later (c.append r) tail
  rw [List.append_nil] at k1
  refine ⟨?_, List.Nodup.append hf.once hn.once fun a h1 h2 => ?_, fun a ha => ?_⟩
  · have := trees_append k2.trees (.cons k1.tree .nil)
    rwa [List.append_nil] at this
  · have a1 := (hf.new a h1).2
    have a2 := (hn.new a h2).1
    omega
  · rcases List.mem_append.1 ha with ha | ha
    · exact k2.new a ha
    · exact k1.new a ha

/-- A new tree is appended to a node without children. -/
theorem attach_fresh {h' tail : Cells} {c : Cell} {r : NodeRef} {n : Node} {as : List Nat} (h1 : h' = (h ++ [c]) ++ tail) (h2 : Fresh ((h ++ [c]) ++ tail) (h ++ [c]).length r n as) :
    h'.append h.length r = h ++ c.append r :: tail ∧ Fresh (h ++ c.append r :: tail) (h.length + 1) r n as := by
  have e1 : (h ++ [c]) ++ tail = h ++ c :: tail := by simp
  rw [e1] at h1 h2
  subst h1
  have hn' : Fresh (h ++ c :: tail) (h.length + 1) r n as := ⟨h2.tree, h2.once, fun a ha => ⟨by have := (h2.new a ha).1; simp at this; omega, (h2.new a ha).2⟩⟩
  have k1 := hn'.later (c.append r) []
  rw [List.append_nil] at k1
  exact ⟨by rw [Cells.append, update_middle], k1⟩

/-- The loop over the elements of a list. -/
theorem appendEach_builds {bs : List Build} {xs : List (Go Node)} (hb : List.Forall₂ Builds bs xs) : ∀ (rest : Cells) (c : Cell) (ks : List NodeRef) (ns : List Node) (as : List Nat),
    FreshAll (h ++ c :: rest) (h.length + 1) ks ns as →
    match appendEach h.length bs (h ++ c :: rest) with
    | .error e => sequenceNodes xs = .error e
    | .ok h' => ∃ tail ks' ns' as', h' = h ++ (ks'.foldl (fun c k => c.append k) c) :: (rest ++ tail) ∧ sequenceNodes xs = .ok ns' ∧
        FreshAll h' (h.length + 1) (ks ++ ks') (ns ++ ns') as' := by
  induction hb with
  | nil =>
    intro rest c ks ns as hf
    exact ⟨[], [], [], as, by simp, rfl, by simpa using hf⟩
  | @cons b x bs xs hb _ ih =>
    intro rest c ks ns as hf
    have h1 := hb (h ++ c :: rest)
    rw [appendEach]
    cases hx : b (h ++ c :: rest) with
    | error e =>
      rw [hx] at h1
      simp only at h1
      subst h1
      rfl
    | ok y =>
      obtain ⟨h', i⟩ := y
      rw [hx] at h1
      simp only at h1
      obtain ⟨tail, n, cs, rfl, rfl, hn⟩ := h1
      have e1 : (h ++ c :: rest) ++ tail = h ++ c :: (rest ++ tail) := by simp
      have k3 := more_fresh hf hn
      have k4 := ih (rest ++ tail) (c.append (some i)) _ _ _ k3
      simp only [Go.ok_bind]
      rw [e1, Cells.append, update_middle]
      cases hy : appendEach h.length bs (h ++ c.append (some i) :: (rest ++ tail)) with
      | error e =>
        rw [hy] at k4
        simp only at k4 ⊢
        rw [sequenceNodes, k4]
        rfl
      | ok h'' =>
        rw [hy] at k4
        simp only at k4 ⊢
        obtain ⟨tail', ks', ns', as', rfl, k5, k6⟩ := k4
        refine ⟨tail ++ tail', some i :: ks', n :: ns', as', by simp, by rw [sequenceNodes, k5]; rfl, ?_⟩
        simpa using k6

theorem fold_and (ks l : List NodeRef) : ks.foldl (fun c k => c.append k) (.and l) = Cell.and (l ++ ks) := by
  induction ks generalizing l with
  | nil => simp
  | cons k ks ih => rw [List.foldl_cons, Cell.append, ih]; simp

theorem fold_or (ks l : List NodeRef) : ks.foldl (fun c k => c.append k) (.or l) = Cell.or (l ++ ks) := by
  induction ks generalizing l with
  | nil => simp
  | cons k ks ih => rw [List.foldl_cons, Cell.append, ih]; simp

theorem fold_not (ks : List NodeRef) (l : NodeRef) : ks.foldl (fun c k => c.append k) (.not l) = Cell.not (ks.getLast?.getD l) := by
  induction ks generalizing l with
  | nil => rfl
  | cons k ks ih => rw [List.foldl_cons, Cell.append, ih, List.getLast?_cons]; simp

theorem trees_last {ks : List NodeRef} {ns : List Node} {as : List Nat} (hf : TreesAt h ks ns as) :
    ∃ bs, TreeAt h (ks.getLast?.getD none) (ns.getLast?.getD .nil) bs ∧ bs.Sublist as := by
  induction ks generalizing ns as with
  | nil => cases hf; exact ⟨[], .nil, by simp⟩
  | cons k ks ih =>
    cases hf with
    | @cons _ _ n ns as bs hk hks =>
      cases ks with
      | nil =>
        cases hks
        exact ⟨as, by simpa using hk, by simp⟩
      | cons k' ks' =>
        cases hks with
        | @cons _ _ n' ns' as' bs' hk' hks' =>
          obtain ⟨cs, hc, hs⟩ := ih (.cons hk' hks')
          exact ⟨cs, by simpa using hc, hs.trans (List.sublist_append_right _ _)⟩

/-- A new node with its children. -/
theorem connective_tree {parent : Str} {e : Cell} {i : Nat} {ks : List NodeRef} {ns : List Node} {as : List Nat} (he : emptyNode parent = .ok e)
    (hi : h[i]? = some (ks.foldl (fun c k => c.append k) e)) (ht : TreesAt h ks ns as) :
    ∃ n as', connective parent ns = .ok n ∧ TreeAt h (some i) n (i :: as') ∧ as'.Sublist as := by
  unfold emptyNode at he
  unfold connective
  split at he
  · cases he
    rw [if_pos ‹_›]
    rw [fold_and] at hi
    exact ⟨_, _, rfl, .and (by simpa using hi) ht, List.Sublist.refl _⟩
  · split at he
    · cases he
      rw [if_neg ‹_›, if_pos ‹_›]
      rw [fold_or] at hi
      exact ⟨_, _, rfl, .or (by simpa using hi) ht, List.Sublist.refl _⟩
    · split at he
      · cases he
        rw [if_neg ‹_›, if_neg ‹_›, if_pos ‹_›]
        obtain ⟨bs, hb, hs⟩ := trees_last ht
        rw [fold_not] at hi
        exact ⟨_, _, rfl, .not hi hb, hs⟩
      · cases he

/-- A new node with its children is a new tree. -/
theorem connective_builds {parent : Str} {e : Cell} {rest : Cells} {ks : List NodeRef} {ns : List Node} {as : List Nat} (he : emptyNode parent = .ok e)
    (hf : FreshAll (h ++ (ks.foldl (fun c k => c.append k) e) :: rest) (h.length + 1) ks ns as) :
    ∃ n as', connective parent ns = .ok n ∧ Fresh (h ++ (ks.foldl (fun c k => c.append k) e) :: rest) h.length (some h.length) n as' := by
  obtain ⟨n, bs, h1, h2, hs⟩ := connective_tree he (middle_here h rest _) hf.trees
  refine ⟨n, _, h1, h2, List.nodup_cons.2 ⟨fun hm => ?_, hs.nodup hf.once⟩, fun a ha => ?_⟩
  · have := (hf.new _ (hs.subset hm)).1
    omega
  · rcases List.mem_cons.1 ha with rfl | ha
    · simp
    · have := hf.new a (hs.subset ha)
      omega

theorem emptyNode_error {parent : Str} {e : Fail} (he : emptyNode parent = .error e) (ns : List Node) : connective parent ns = .error e := by
  unfold emptyNode at he
  unfold connective
  split at he <;> [cases he; skip]
  split at he <;> [cases he; skip]
  split at he <;> [cases he; skip]
  rw [if_neg ‹_›, if_neg ‹_›, if_neg ‹_›]
  cases he
  rfl

theorem emptyNode_ok {parent : Str} {e : Cell} (he : emptyNode parent = .ok e) (ns : List Node) : ∃ n, connective parent ns = .ok n := by
  unfold emptyNode at he
  unfold connective
  split at he
  · rw [if_pos ‹_›]; exact ⟨_, rfl⟩
  split at he
  · rw [if_neg ‹_›, if_pos ‹_›]; exact ⟨_, rfl⟩
  split at he
  · rw [if_neg ‹_›, if_neg ‹_›, if_pos ‹_›]; exact ⟨_, rfl⟩
  cases he

theorem handleArray_builds {parent : Str} {bs : List Build} {xs : List (Go Node)} (hb : List.Forall₂ Builds bs xs) : Builds (handleArrayAt parent bs) (handleArray parent xs) := by
  intro h
  unfold handleArrayAt handleArray
  by_cases hp : parent = []
  · rw [if_pos hp, if_pos hp]
    cases hb with
    | nil => rfl
    | @cons b x bs xs hx hb =>
      cases hb with
      | nil => exact hx h
      | cons => rfl
  · rw [if_neg hp, if_neg hp]
    cases he : emptyNode parent with
    | error e => rw [emptyNode_error he]; rfl
    | ok c =>
      obtain ⟨n0, h0⟩ := emptyNode_ok he []
      rw [h0]
      simp only [Go.ok_bind, Cells.make]
      have h1 := appendEach_builds (h := h) hb [] c [] [] [] ⟨.nil, by simp, by simp⟩
      cases hx : appendEach h.length bs (h ++ [c]) with
      | error e =>
        rw [hx] at h1
        simp only at h1
        rw [h1]
        rfl
      | ok h' =>
        rw [hx] at h1
        simp only [List.nil_append] at h1
        obtain ⟨tail, ks', ns', as', rfl, h2, h3⟩ := h1
        obtain ⟨n, cs, h4, h5⟩ := connective_builds he h3
        rw [h2]
        exact ⟨_, n, cs, rfl, h4, h5⟩

theorem getNodeCondition_builds (env : Ext) (kvs : List (Str × Json)) (parent : Str) : Builds (getNodeConditionAt env kvs parent) (getNodeCondition env kvs parent) := by
  intro h
  unfold getNodeConditionAt getNodeCondition
  cases readCondition env kvs with
  | error e => rfl
  | ok cn =>
    simp only [Go.ok_bind, prepareOneConditionNode]
    cases validateOneCondition env (conditionFromNode env cn) with
    | error e => rfl
    | ok c =>
      simp only [Go.ok_bind, Go.pure_eq, Cells.make]
      by_cases hp : parent ≠ [] ∧ parent ≠ gs"condition" ∧ parent ≠ gs"conditionsTree"
      · rw [if_pos hp, if_pos hp]
        cases he : emptyNode parent with
        | error e => rw [emptyNode_error he]; rfl
        | ok e =>
          simp only [Go.ok_bind]
          rw [Cells.append, update_middle (h ++ [Cell.cond c]) [] e]
          have hi := middle_here (h ++ [Cell.cond c]) [] (e.append (some h.length))
          have ht : TreesAt ((h ++ [Cell.cond c]) ++ [e.append (some h.length)]) [some h.length] [.cond c] [h.length] := .cons (.cond (by simp)) .nil
          obtain ⟨n, as', h1, h2, hs⟩ := connective_tree (ks := [some h.length]) he hi ht
          refine ⟨[Cell.cond c, e.append (some h.length)], n, _, by simp, h1, h2, List.nodup_cons.2 ⟨fun hm => ?_, hs.nodup (by simp)⟩, fun a ha => ?_⟩
          · have := hs.subset hm
            simp at this
          · rcases List.mem_cons.1 ha with rfl | ha
            · simp
            · have := hs.subset ha
              simp at this
              simp [this]
      · rw [if_neg hp, if_neg hp]
        exact ⟨_, _, _, rfl, rfl, .cond (by simp), by simp, by simp⟩

/-- An entry of an object, with what is made of its value in memory and as a tree. -/
structure SameKid (x : Str × Json × Build) (y : Str × Json × Go Node) : Prop where
  key : x.1 = y.1
  val : x.2.1 = y.2.1
  sub : Builds x.2.2 y.2.2

theorem anyAllLoop_builds (env : Env) (p : List Nat) {mk : AnyAll → NodeRef → Cell} (hmk : mk = Cell.any ∨ mk = Cell.all) {xs : List (Str × Json × Build)} {ys : List (Str × Json × Go Node)}
    (hk : List.Forall₂ SameKid xs ys) : ∀ (rest : Cells) (a : AnyAll) (k : NodeRef) (n : Node) (as : List Nat), Fresh (h ++ mk a k :: rest) (h.length + 1) k n as →
    match anyAllLoopAt env p h.length xs (h ++ mk a k :: rest) with
    | .error e => anyAllLoop env p a n ys = .error e
    | .ok h' => ∃ tail a' k' n' as', h' = h ++ mk a' k' :: (rest ++ tail) ∧ anyAllLoop env p a n ys = .ok (a', n') ∧ Fresh h' (h.length + 1) k' n' as' := by
  have hset : ∀ f a k, Cell.setFields f (mk a k) = mk (f a) k := by intro f a k; rcases hmk with rfl | rfl <;> rfl
  have happ : ∀ m a k, Cell.append m (mk a k) = mk a m := by intro m a k; rcases hmk with rfl | rfl <;> rfl
  induction hk with
  | nil =>
    intro rest a k n as hf
    exact ⟨[], a, k, n, as, by simp, rfl, hf⟩
  | @cons x y xs ys hxy _ ih =>
    intro rest a k n as hf
    obtain ⟨key, val, sub⟩ := x
    obtain ⟨key', val', sub'⟩ := y
    obtain ⟨h1, h2, hb⟩ := hxy
    simp only at h1 h2 hb
    subst h1 h2
    simp only [anyAllLoopAt, anyAllLoop]
    have next : ∀ (f : AnyAll → AnyAll), Fresh (h ++ mk (f a) k :: rest) (h.length + 1) k n as := fun f => by
      have := hf.later (mk (f a) k) []
      rwa [List.append_nil] at this
    by_cases h3 : key = gs"parentJsonpathAttribute"
    · rw [if_pos h3, if_pos h3]
      cases asString val with
      | error e => rfl
      | ok s =>
        simp only [Go.ok_bind]
        by_cases h4 : isValidParent s = true
        · rw [if_pos h4, if_pos h4, update_middle, hset]
          exact ih rest (a.setParent s) k n as (next (·.setParent s))
        · rw [if_neg h4, if_neg h4]
          rfl
    · rw [if_neg h3, if_neg h3]
      by_cases h5 : key = gs"returnValueJsonpath"
      · rw [if_pos h5, if_pos h5]
        cases readReturnMap env (1 :: p) val with
        | error e => rfl
        | ok r =>
          simp only [Go.ok_bind]
          rw [update_middle, hset]
          exact ih rest { a with ret := r } k n as (next ({ · with ret := r }))
      · rw [if_neg h5, if_neg h5]
        have h6 := hb (h ++ mk a k :: rest)
        cases hx : sub (h ++ mk a k :: rest) with
        | error e =>
          rw [hx] at h6
          simp only at h6
          rw [h6]
          rfl
        | ok y =>
          obtain ⟨h', i⟩ := y
          rw [hx] at h6
          simp only at h6
          obtain ⟨tail, n', cs, rfl, rfl, hn⟩ := h6
          have e1 : (h ++ mk a k :: rest) ++ tail = h ++ mk a k :: (rest ++ tail) := by simp
          rw [e1] at hn
          have hn' : Fresh (h ++ mk a k :: (rest ++ tail)) (h.length + 1) (some i) n' cs := ⟨hn.tree, hn.once, fun a ha => ⟨by have := (hn.new a ha).1; simp at this; omega, (hn.new a ha).2⟩⟩
          have k1 := hn'.later (mk a (some i)) []
          rw [List.append_nil] at k1
          have k4 := ih (rest ++ tail) a (some i) n' cs k1
          simp only [Go.ok_bind]
          rw [e1, Cells.append, update_middle, happ]
          cases hy : anyAllLoopAt env p h.length xs (h ++ mk a (some i) :: (rest ++ tail)) with
          | error e => rw [hy] at k4; exact k4
          | ok h'' =>
            rw [hy] at k4
            simp only at k4 ⊢
            obtain ⟨tail', a', k', n'', as', rfl, k5, k6⟩ := k4
            exact ⟨tail ++ tail', a', k', n'', as', by simp, k5, by simpa using k6⟩

theorem getAnyAllNode_builds (env : Env) (p : List Nat) (parent : Str) {xs : List (Str × Json × Build)} {ys : List (Str × Json × Go Node)} (hkeys : xs.map (·.1) = ys.map (·.1))
    (hk : List.Forall₂ SameKid (env.ord (0 :: p) xs) (env.ord (0 :: p) ys)) : Builds (getAnyAllNodeAt env p parent xs) (getAnyAllNode env p parent ys) := by
  intro h
  unfold getAnyAllNodeAt getAnyAllNode
  rw [hkeys]
  by_cases hv : isValidAnyAllNode (ys.map (·.1)) = true
  · rw [if_pos hv, if_pos hv]
    have key : ∀ (mk : AnyAll → NodeRef → Cell) (mk' : AnyAll → Node → Node) (hmk : mk = Cell.any ∧ mk' = Node.any ∨ mk = Cell.all ∧ mk' = Node.all),
        match (do
          let h' ← anyAllLoopAt env p h.length (env.ord (0 :: p) xs) (h ++ [mk {} none])
          if parentAt h' h.length = [] then throw (.err .badNode)
          pure (h', h.length) : Go (Cells × Nat)) with
        | .error e => (do
            let r ← anyAllLoop env p {} .nil (env.ord (0 :: p) ys)
            if r.1.parent = [] then throw (.err .badNode)
            pure (mk' r.1 r.2) : Go Node) = .error e
        | .ok (h', i) => ∃ tail n as, h' = h ++ tail ∧ (do
            let r ← anyAllLoop env p {} .nil (env.ord (0 :: p) ys)
            if r.1.parent = [] then throw (.err .badNode)
            pure (mk' r.1 r.2) : Go Node) = .ok n ∧ Fresh h' h.length (some i) n as := by
      intro mk mk' hmk
      have h1 := anyAllLoop_builds (h := h) env p (mk := mk) (hmk.imp And.left And.left) hk [] {} none .nil [] (fresh_nil _ _)
      cases hx : anyAllLoopAt env p h.length (env.ord (0 :: p) xs) (h ++ [mk {} none]) with
      | error e =>
        rw [hx] at h1
        simp only at h1
        rw [h1]
        rfl
      | ok h' =>
        rw [hx] at h1
        simp only [List.nil_append] at h1
        obtain ⟨tail, a', k', n', as', rfl, h2, h3⟩ := h1
        rw [h2]
        have hpa : parentAt (h ++ mk a' k' :: tail) h.length = a'.parent := by
          unfold parentAt
          rw [middle_here]
          rcases hmk with ⟨rfl, -⟩ | ⟨rfl, -⟩ <;> rfl
        simp only [Go.ok_bind, hpa]
        by_cases he : a'.parent = []
        · simp only [if_pos he]
          rfl
        · simp only [if_neg he]
          refine ⟨_, mk' a' n', h.length :: as', rfl, rfl, ?_, List.nodup_cons.2 ⟨fun hm => ?_, h3.once⟩, fun a ha => ?_⟩
          · rcases hmk with ⟨rfl, rfl⟩ | ⟨rfl, rfl⟩
            · exact .any (middle_here h tail _) h3.tree
            · exact .all (middle_here h tail _) h3.tree
          · have := (h3.new _ hm).1
            omega
          · rcases List.mem_cons.1 ha with rfl | ha
            · simp
            · have := h3.new a ha
              omega
    by_cases hp : parent = gs"ANY"
    · simp only [if_pos hp, Cells.make]
      exact key Cell.any Node.any (.inl ⟨rfl, rfl⟩)
    · simp only [if_neg hp, Cells.make]
      exact key Cell.all Node.all (.inr ⟨rfl, rfl⟩)
  · rw [if_neg hv, if_neg hv]

theorem singleKid_builds {xs : List (Str × Json × Build)} {ys : List (Str × Json × Go Node)} (hk : List.Forall₂ SameKid xs ys) : Builds (singleKidAt xs) (singleKid ys) := by
  intro h
  cases hk with
  | nil => rfl
  | @cons x y xs ys hx hk =>
    cases hk with
    | nil => exact hx.sub h
    | cons => rfl

theorem handleMap_builds (env : Env) (p : List Nat) (parent : Str) (kvs : List (Str × Json)) {xs : List (Str × Json × Build)} {ys : List (Str × Json × Go Node)}
    (hkeys : xs.map (·.1) = ys.map (·.1)) (hk : List.Forall₂ SameKid xs ys) (hko : List.Forall₂ SameKid (env.ord (0 :: p) xs) (env.ord (0 :: p) ys)) :
    Builds (handleMapAt env p parent kvs xs) (handleMap env p parent kvs ys) := by
  intro h
  unfold handleMapAt handleMap
  by_cases h1 : isConditionNode kvs = true
  · rw [if_pos h1, if_pos h1]
    exact getNodeCondition_builds env kvs parent h
  rw [if_neg h1, if_neg h1]
  by_cases h2 : parent = gs"ANY" ∨ parent = gs"ALL"
  · rw [if_pos h2, if_pos h2]
    exact getAnyAllNode_builds env p parent hkeys hko h
  rw [if_neg h2, if_neg h2]
  by_cases h3 : parent = gs"NOT"
  · rw [if_pos h3, if_pos h3]
    simp only [Cells.make]
    have h4 := singleKid_builds hk (h ++ [.not none])
    cases hx : singleKidAt xs (h ++ [.not none]) with
    | error e =>
      rw [hx] at h4
      simp only at h4
      rw [h4]
      rfl
    | ok y =>
      obtain ⟨h', i⟩ := y
      rw [hx] at h4
      simp only at h4
      obtain ⟨tail, n, cs, rfl, h5, hn⟩ := h4
      rw [h5]
      simp only [Go.ok_bind, Go.pure_eq]
      have e1 : (h ++ [Cell.not none]) ++ tail = h ++ .not none :: tail := by simp
      rw [e1] at hn ⊢
      have hn' : Fresh (h ++ .not none :: tail) (h.length + 1) (some i) n cs := ⟨hn.tree, hn.once, fun a ha => ⟨by have := (hn.new a ha).1; simp at this; omega, (hn.new a ha).2⟩⟩
      have k1 := hn'.later (.not (some i)) []
      rw [List.append_nil] at k1
      rw [Cells.append, update_middle]
      refine ⟨_, _, _, rfl, rfl, .not (middle_here h tail _) k1.tree, List.nodup_cons.2 ⟨fun hm => ?_, k1.once⟩, fun a ha => ?_⟩
      · have := (k1.new _ hm).1
        omega
      · rcases List.mem_cons.1 ha with rfl | ha
        · simp
        · have := k1.new a ha
          exact ⟨by omega, this.2⟩
  rw [if_neg h3, if_neg h3]
  by_cases h4 : parent = gs"OR" ∨ parent = gs"AND" ∨ parent = [] ∨ parent = gs"condition" ∨ parent = gs"conditions" ∨ parent = gs"conditionsTree"
  · rw [if_pos h4, if_pos h4]
    exact singleKid_builds hk h
  · rw [if_neg h4, if_neg h4]

/-- The entries of an object with their positions. -/
def kidPlaces : List (Str × Json) → List Nat → Nat → List (Str × Json × List Nat)
  | [], _, _ => []
  | (k, v) :: rest, p, i => (k, v, i :: p) :: kidPlaces rest p (i + 1)

theorem kids_places (env : Env) (kvs : List (Str × Json)) (p : List Nat) (i : Nat) :
    interpretKidsAt env kvs p i = (kidPlaces kvs p i).map (fun x => (x.1, x.2.1, interpretAt env x.2.1 x.1 x.2.2)) ∧
      interpretKids env kvs p i = (kidPlaces kvs p i).map (fun x => (x.1, x.2.1, interpret env x.2.1 x.1 x.2.2)) := by
  induction kvs generalizing i with
  | nil => simp [interpretKidsAt, interpretKids, kidPlaces]
  | cons kv kvs ih =>
    obtain ⟨k, v⟩ := kv
    simp [interpretKidsAt, interpretKids, kidPlaces, ih]

theorem places_mem {kvs : List (Str × Json)} {p : List Nat} {i : Nat} : ∀ x ∈ kidPlaces kvs p i, (x.1, x.2.1) ∈ kvs := by
  induction kvs generalizing i with
  | nil => simp [kidPlaces]
  | cons kv kvs ih =>
    intro x hx
    rcases List.mem_cons.1 hx with rfl | hx
    · simp
    · exact List.mem_cons_of_mem _ (ih x hx)

mutual
/-- The parser makes nodes that are in no other tree, and the tree is the one of `Model/Parse`. -/
theorem interpret_builds {env : Env} (ho : env.OrdOk) (hn : OrdNatural env) : ∀ (j : Json) (parent : Str) (p : List Nat), Builds (interpretAt env j parent p) (interpret env j parent p)
  | .obj kvs, parent, p => by
    rw [interpretAt, interpret]
    obtain ⟨e1, e2⟩ := kids_places env kvs p 2
    have kids := interpretKids_builds ho hn kvs
    have same : ∀ L : List (Str × Json × List Nat), (∀ x ∈ L, (x.1, x.2.1) ∈ kvs) →
        List.Forall₂ SameKid (L.map (fun x => (x.1, x.2.1, interpretAt env x.2.1 x.1 x.2.2))) (L.map (fun x => (x.1, x.2.1, interpret env x.2.1 x.1 x.2.2))) := by
      intro L hL
      rw [List.forall₂_map_left_iff, List.forall₂_map_right_iff, List.forall₂_same]
      exact fun x hx => ⟨rfl, rfl, kids _ (hL x hx) _ _⟩
    rw [e1, e2]
    refine handleMap_builds env p parent kvs (by simp) (same _ places_mem) ?_
    rw [hn, hn]
    exact same _ fun x hx => places_mem x ((ho _ _).mem_iff.1 hx)
  | .arr l, parent, p => by
    rw [interpretAt, interpret]
    exact handleArray_builds (interpretList_builds ho hn l p 2)
  | .null, _, _ => fun _ => by simp [interpretAt, interpret]
  | .bool _, _, _ => fun _ => by simp [interpretAt, interpret]
  | .num _, _, _ => fun _ => by simp [interpretAt, interpret]
  | .str _, _, _ => fun _ => by simp [interpretAt, interpret]

theorem interpretKids_builds {env : Env} (ho : env.OrdOk) (hn : OrdNatural env) : ∀ (kvs : List (Str × Json)), ∀ kv ∈ kvs, ∀ (parent : Str) (p : List Nat),
    Builds (interpretAt env kv.2 parent p) (interpret env kv.2 parent p)
  | [], _, h, _, _ => by cases h
  | (k, v) :: rest, kv, hm, parent, p => by
    rcases List.mem_cons.1 hm with rfl | hm
    · exact interpret_builds ho hn v parent p
    · exact interpretKids_builds ho hn rest kv hm parent p

theorem interpretList_builds {env : Env} (ho : env.OrdOk) (hn : OrdNatural env) : ∀ (l : List Json) (p : List Nat) (i : Nat), List.Forall₂ Builds (interpretListAt env l p i) (interpretList env l p i)
  | [], _, _ => by rw [interpretListAt, interpretList]; exact .nil
  | v :: rest, p, i => by
    rw [interpretListAt, interpretList]
    exact .cons (interpret_builds ho hn v [] (i :: p)) (interpretList_builds ho hn rest p (i + 1))
end

end Mapl

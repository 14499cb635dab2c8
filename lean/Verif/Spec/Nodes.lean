import Verif.Model.Nodes
import Verif.Spec.Tree

/-!
# Trees in memory

Which tree the pointers from an address make up.
-/

namespace Mapl.Spec

mutual
/-- The pointers from a value of type `Node` make up the tree `n`. The list has the addresses that are passed, in the order in which they are passed, as often as they are. -/
inductive TreeAt (h : Cells) : NodeRef → Node → List Nat → Prop
  | nil : TreeAt h none .nil []
  | and {i ks ns as} (hi : h[i]? = some (.and ks)) (hk : TreesAt h ks ns as) : TreeAt h (some i) (.and ns) (i :: as)
  | or {i ks ns as} (hi : h[i]? = some (.or ks)) (hk : TreesAt h ks ns as) : TreeAt h (some i) (.or ns) (i :: as)
  | not {i k n as} (hi : h[i]? = some (.not k)) (hk : TreeAt h k n as) : TreeAt h (some i) (.not n) (i :: as)
  | any {i a k n as} (hi : h[i]? = some (.any a k)) (hk : TreeAt h k n as) : TreeAt h (some i) (.any a n) (i :: as)
  | all {i a k n as} (hi : h[i]? = some (.all a k)) (hk : TreeAt h k n as) : TreeAt h (some i) (.all a n) (i :: as)
  | tt {i} (hi : h[i]? = some .tt) : TreeAt h (some i) .tt [i]
  | ff {i} (hi : h[i]? = some .ff) : TreeAt h (some i) .ff [i]
  | cond {i c} (hi : h[i]? = some (.cond c)) : TreeAt h (some i) (.cond c) [i]

inductive TreesAt (h : Cells) : List NodeRef → List Node → List Nat → Prop
  | nil : TreesAt h [] [] []
  | cons {k ks n ns as bs} (hk : TreeAt h k n as) (hks : TreesAt h ks ns bs) : TreesAt h (k :: ks) (n :: ns) (as ++ bs)
end

/-- The tree with one more child, or with another one. Conditions and constants have no children. -/
def withChild (m : Node) : Node → Node
  | .and ns => .and (ns ++ [m])
  | .or ns => .or (ns ++ [m])
  | .not _ => .not m
  | .any a _ => .any a m
  | .all a _ => .all a m
  | n => n

/-- Every node of the tree is passed once: no node is shared. -/
structure Alone (h : Cells) (r : NodeRef) (n : Node) (as : List Nat) : Prop where
  tree : TreeAt h r n as
  once : as.Nodup

/-- The order in which the entries of an object are visited does not depend on what is attached to them. -/
def OrdNatural (env : Env) : Prop := ∀ {α β : Type} (f : α → β) (p : List Nat) (l : List α), env.ord p (l.map f) = (env.ord p l).map f

mutual
/-- A program that makes the tree `n`: make the node, make its children one after the other, and append each of them. -/
def construct : Node → Cells → Cells × NodeRef
  | .nil, h => (h, none)
  | .and ns, h => let x := h.make (.and []); (constructEach x.2 ns x.1, some x.2)
  | .or ns, h => let x := h.make (.or []); (constructEach x.2 ns x.1, some x.2)
  | .not n, h => let x := h.make (.not none); let y := construct n x.1; (y.1.append x.2 y.2, some x.2)
  | .any a n, h => let x := h.make (.any a none); let y := construct n x.1; (y.1.append x.2 y.2, some x.2)
  | .all a n, h => let x := h.make (.all a none); let y := construct n x.1; (y.1.append x.2 y.2, some x.2)
  | .tt, h => let x := h.make .tt; (x.1, some x.2)
  | .ff, h => let x := h.make .ff; (x.1, some x.2)
  | .cond c, h => let x := h.make (.cond c); (x.1, some x.2)

def constructEach (i : Nat) : List Node → Cells → Cells
  | [], h => h
  | n :: ns, h => let y := construct n h; constructEach i ns (y.1.append i y.2)
end

end Mapl.Spec

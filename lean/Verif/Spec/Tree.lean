import Verif.Model.Eval

/-!
# Condition trees as logical formulas

Two readings. `Holds` follows one execution: it knows at which position of the execution a leaf or a path is looked at,
because map iteration order may differ from position to position. `Sat` does not mention positions at all; the two agree
when no leaf looks at "the" entry of an object with several entries (`KeySafe`).
-/

namespace Mapl.Spec

/-- The messages in whose scope the child of an ANY/ALL node is judged, in order: the given message with its relative
document replaced by one of the elements the parent path selects. `none`: the selection itself failed (JSON text only). -/
def scopes (env : Env) (p : List Nat) (a : AnyAll) (m : Msg) : Go (Option (List Msg)) :=
  if m.rawI.isSome ∧ a.queries ≠ [] then
    (getArrayOfInterfaces env p a m).map fun l => some (l.map fun v => { m with rawIRel := some v })
  else
    (getArrayOfJsons env p a m).map fun l? => l?.map fun l => l.map fun s => { m with jsonRawRel := some s }

mutual
/-- The formula of a tree in one execution. -/
def Holds (env : Env) : Node → List Nat → Msg → Prop
  | .nil, _, _ => False
  | .and ns, p, m => HoldsAll env ns p 1 m
  | .or ns, p, m => HoldsSome env ns p 1 m
  | .not n, p, m => ¬ Holds env n (1 :: p) m
  | .any a n, p, m => ∃ l, scopes env p a m = .ok (some l) ∧ ∃ i m', l[i]? = some m' ∧ Holds env n ((i + 1) :: p) m'
  | .all a n, p, m => ∃ l, scopes env p a m = .ok (some l) ∧ ∀ i m', l[i]? = some m' → Holds env n ((i + 1) :: p) m'
  | .tt, _, _ => True
  | .ff, _, _ => False
  | .cond c, p, m => ∃ e, testOneCondition env (0 :: 0 :: p) c m = .ok (true, e)

/-- All children hold; `i` numbers them. -/
def HoldsAll (env : Env) : List Node → List Nat → Nat → Msg → Prop
  | [], _, _, _ => True
  | n :: ns, p, i, m => Holds env n (i :: p) m ∧ HoldsAll env ns p (i + 1) m

/-- Some child holds. -/
def HoldsSome (env : Env) : List Node → List Nat → Nat → Msg → Prop
  | [], _, _, _ => False
  | n :: ns, p, i, m => Holds env n (i :: p) m ∨ HoldsSome env ns p (i + 1) m
end

/-- The execution that iterates over maps in the order of their lists. -/
def plain (env : Ext) : Env := { env with ord := fun _ l => l }

mutual
/-- The formula of a tree. -/
def Sat (env : Ext) : Node → Msg → Prop
  | .nil, _ => False
  | .and ns, m => SatAll env ns m
  | .or ns, m => SatSome env ns m
  | .not n, m => ¬ Sat env n m
  | .any a n, m => ∃ l, scopes (plain env) [] a m = .ok (some l) ∧ ∃ m' ∈ l, Sat env n m'
  | .all a n, m => ∃ l, scopes (plain env) [] a m = .ok (some l) ∧ ∀ m' ∈ l, Sat env n m'
  | .tt, _ => True
  | .ff, _ => False
  | .cond c, m => ∃ e, testOneCondition (plain env) [] c m = .ok (true, e)

def SatAll (env : Ext) : List Node → Msg → Prop
  | [], _ => True
  | n :: ns, m => Sat env n m ∧ SatAll env ns m

def SatSome (env : Ext) : List Node → Msg → Prop
  | [], _ => False
  | n :: ns, m => Sat env n m ∨ SatSome env ns m
end

/-- The condition asks for the key or the value of the entry in scope. -/
def Condition.asksEntry (c : Condition) : Bool :=
  c.attrIsJsonpathRelative && (c.jsonpathQuery == gs"$KEY" || hasPrefix c.jsonpathQuery gs"$VALUE")

/-- If the condition asks for the entry in scope, the parsed relative document has at most one entry. -/
def LeafSafe (c : Condition) (m : Msg) : Prop :=
  Condition.asksEntry c = true → ∀ kvs, m.rawIRel = some (.obj kvs) → kvs.length ≤ 1

mutual
/-- In every scope in which a leaf of the tree can be judged, it is safe. -/
def KeySafe (env : Ext) : Node → Msg → Prop
  | .nil, _ => True
  | .and ns, m => KeySafeAll env ns m
  | .or ns, m => KeySafeAll env ns m
  | .not n, m => KeySafe env n m
  | .any a n, m => ∀ l, scopes (plain env) [] a m = .ok (some l) → ∀ m' ∈ l, KeySafe env n m'
  | .all a n, m => ∀ l, scopes (plain env) [] a m = .ok (some l) → ∀ m' ∈ l, KeySafe env n m'
  | .tt, _ => True
  | .ff, _ => True
  | .cond c, m => LeafSafe c m

def KeySafeAll (env : Ext) : List Node → Msg → Prop
  | [], _ => True
  | n :: ns, m => KeySafe env n m ∧ KeySafeAll env ns m
end

mutual
/-- No leaf of the tree asks for the entry in scope. -/
def NoEntryLeaf : Node → Prop
  | .nil => True
  | .and ns => NoEntryLeaves ns
  | .or ns => NoEntryLeaves ns
  | .not n => NoEntryLeaf n
  | .any _ n => NoEntryLeaf n
  | .all _ n => NoEntryLeaf n
  | .tt => True
  | .ff => True
  | .cond c => Condition.asksEntry c = false

def NoEntryLeaves : List Node → Prop
  | [] => True
  | n :: ns => NoEntryLeaf n ∧ NoEntryLeaves ns
end

mutual
/-- Whether a tree has `$KEY`/`$VALUE` leaves can be decided. -/
def decNoEntryLeaf : (n : Node) → Decidable (NoEntryLeaf n)
  | .nil => .isTrue trivial
  | .and ns => decNoEntryLeaves ns
  | .or ns => decNoEntryLeaves ns
  | .not n => decNoEntryLeaf n
  | .any _ n => decNoEntryLeaf n
  | .all _ n => decNoEntryLeaf n
  | .tt => .isTrue trivial
  | .ff => .isTrue trivial
  | .cond c => inferInstanceAs (Decidable (Condition.asksEntry c = false))

def decNoEntryLeaves : (ns : List Node) → Decidable (NoEntryLeaves ns)
  | [] => .isTrue trivial
  | n :: ns => @instDecidableAnd _ _ (decNoEntryLeaf n) (decNoEntryLeaves ns)
end

instance (n : Node) : Decidable (NoEntryLeaf n) := decNoEntryLeaf n

end Mapl.Spec

namespace Mapl.Spec

/-! ## Elements a path selects in a parsed document -/

/-- The elements of a list of lists, `none` if something in it is not a list. -/
def concatLists : List Json → Option (List Json)
  | [] => some []
  | .arr l :: rest => (concatLists rest).map fun r => l ++ r
  | _ :: _ => none

/-- What ANY and ALL range over: the entries of an object (as one-entry objects), the elements of a list (of the inner
lists if all elements are lists), nothing for null. -/
def elementsOf : Json → List Json
  | .obj kvs => kvs.map fun kv => .obj [kv]
  | .arr l => match concatLists l with
    | some r => r
    | none => l
  | _ => []

/-- The document a parent path is applied to: the element in scope for a relative path, else the whole document. -/
def parentDoc (a : AnyAll) (m : Msg) : Option Json := if isRelativeParent a.parent then m.rawIRel else m.rawI

/-! ## Reordering and logical laws -/

/-- `n'` is `n` with the children of some AND/OR nodes, anywhere in the tree, reordered. -/
inductive Reordered : Node → Node → Prop
  | refl (n : Node) : Reordered n n
  | trans {n n' n'' : Node} : Reordered n n' → Reordered n' n'' → Reordered n n''
  | and_perm {l l' : List Node} : l.Perm l' → Reordered (.and l) (.and l')
  | or_perm {l l' : List Node} : l.Perm l' → Reordered (.or l) (.or l')
  | in_and {n n' : Node} (l1 l2 : List Node) : Reordered n n' → Reordered (.and (l1 ++ n :: l2)) (.and (l1 ++ n' :: l2))
  | in_or {n n' : Node} (l1 l2 : List Node) : Reordered n n' → Reordered (.or (l1 ++ n :: l2)) (.or (l1 ++ n' :: l2))
  | in_not {n n' : Node} : Reordered n n' → Reordered (.not n) (.not n')
  | in_any {n n' : Node} (a : AnyAll) : Reordered n n' → Reordered (.any a n) (.any a n')
  | in_all {n n' : Node} (a : AnyAll) : Reordered n n' → Reordered (.all a n) (.all a n')

/-- Trees equal by the laws of propositional logic, applied anywhere in the tree: De Morgan, double negation,
commutativity, associativity, one-child and empty connectives, constants. -/
inductive Laws : Node → Node → Prop
  | refl (n : Node) : Laws n n
  | symm {n n' : Node} : Laws n n' → Laws n' n
  | trans {n n' n'' : Node} : Laws n n' → Laws n' n'' → Laws n n''
  | not_and (l : List Node) : Laws (.not (.and l)) (.or (l.map .not))
  | not_or (l : List Node) : Laws (.not (.or l)) (.and (l.map .not))
  | not_not (n : Node) : Laws (.not (.not n)) n
  | not_tt : Laws (.not .tt) .ff
  | and_perm {l l' : List Node} : l.Perm l' → Laws (.and l) (.and l')
  | or_perm {l l' : List Node} : l.Perm l' → Laws (.or l) (.or l')
  | and_flat (l1 l2 l3 : List Node) : Laws (.and (l1 ++ .and l2 :: l3)) (.and (l1 ++ l2 ++ l3))
  | or_flat (l1 l2 l3 : List Node) : Laws (.or (l1 ++ .or l2 :: l3)) (.or (l1 ++ l2 ++ l3))
  | and_one (n : Node) : Laws (.and [n]) n
  | or_one (n : Node) : Laws (.or [n]) n
  | and_none : Laws (.and []) .tt
  | or_none : Laws (.or []) .ff
  | in_and {n n' : Node} (l1 l2 : List Node) : Laws n n' → Laws (.and (l1 ++ n :: l2)) (.and (l1 ++ n' :: l2))
  | in_or {n n' : Node} (l1 l2 : List Node) : Laws n n' → Laws (.or (l1 ++ n :: l2)) (.or (l1 ++ n' :: l2))
  | in_not {n n' : Node} : Laws n n' → Laws (.not n) (.not n')
  | in_any {n n' : Node} (a : AnyAll) : Laws n n' → Laws (.any a n) (.any a n')
  | in_all {n n' : Node} (a : AnyAll) : Laws n n' → Laws (.all a n) (.all a n')

/-! ## Returned values -/

/-- `es` lists, in order, one report for each message of the list for which `P` holds (positions from `i` on). -/
inductive Reports (P : Nat → Msg → Prop) (E : Msg → Extra → Prop) : Nat → List Msg → List Extra → Prop
  | nil (i : Nat) : Reports P E i [] []
  | yes {i : Nat} {m : Msg} {l : List Msg} {e : Extra} {es : List Extra} :
      P i m → E m e → Reports P E (i + 1) l es → Reports P E i (m :: l) (e :: es)
  | no {i : Nat} {m : Msg} {l : List Msg} {es : List Extra} : ¬ P i m → Reports P E (i + 1) l es → Reports P E i (m :: l) es

/-- The value reported under one name, on a parsed document: the query on the element in scope (relative paths) or on the
whole document. -/
def reportedValue (env : Ext) (m : Msg) (r : RetVal) : Option Json :=
  let d := if r.rel then m.rawIRel else m.rawI
  if r.query = gs"$*" then d
  else match r.prepared with
    | none => some .null
    | some q => d.bind (queryInterface env q)

/-- The value reported under one name, on JSON text. -/
def reportedText (env : Ext) (m : Msg) (r : RetVal) : Option Json :=
  (if r.rel then m.jsonRawRel else m.jsonRaw).bind fun raw => env.jsonUnmarshal (env.jsGet raw r.query).1

/-- The report on a message in scope: the values under their names, in either representation. -/
def reportOn (env : Ext) (parsed : Prop) [Decidable parsed] (ret : List RetVal) (m : Msg) : Extra :=
  ret.filterMap fun r => (if parsed then reportedValue env m r else reportedText env m r).map fun v => (r.name, v)

end Mapl.Spec

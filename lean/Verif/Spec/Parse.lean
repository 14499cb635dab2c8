import Verif.Spec.Leaf
import Verif.Spec.Validate
import Verif.Model.Parse

/-!
# The grammar of conditions documents

`Reads env lossy amb kw j n`: the document `j` below the keyword `kw` (empty at the top and for the elements of lists) is a way to
write the tree `n`. With `lossy` the grammar also has the documents of which the parser drops something, with `amb` also those
that have two trees.
-/

namespace Mapl.Spec

/-- The keys of a condition, in their two spellings. -/
def attrKeys : List Str := [gs"attribute", gs"Attribute"]
def methodKeys : List Str := [gs"method", gs"Method"]
def valueKeys : List Str := [gs"value", gs"Value"]
def returnKeys : List Str := [gs"returnValueJsonpath", gs"ReturnValueJsonpath"]
/-- Keys that may be there and are not read. -/
def intKeys : List Str := [gs"valueInt", gs"ValueInt"]
def floatKeys : List Str := [gs"valueFloat", gs"ValueFloat"]

/-- A map of texts. -/
def textMap (l : List (Str × Str)) : Json := .obj (l.map fun x => (x.1, .str x.2))

/-- The keys of a condition: attribute and method, and at most one of each other kind. -/
inductive CondKeys (lossy : Prop) : List Str → Prop
  | short {ka km : Str} {kr : List Str} (ha : ka ∈ attrKeys) (hm : km ∈ methodKeys) (hr : kr = [] ∨ ∃ k ∈ returnKeys, kr = [k]) :
      CondKeys lossy (ka :: km :: kr)
  | valued {ka km kv : Str} {kr : List Str} (ha : ka ∈ attrKeys) (hm : km ∈ methodKeys) (hv : kv ∈ valueKeys)
      (hr : kr = [] ∨ ∃ k ∈ returnKeys, kr = [k]) : CondKeys lossy (ka :: km :: kv :: kr)
  | numbers {ka km kv : Str} {kx kr : List Str} (hl : lossy) (ha : ka ∈ attrKeys) (hm : km ∈ methodKeys) (hv : kv ∈ valueKeys)
      (hx : (∃ k ∈ intKeys, kx = [k]) ∨ (∃ k ∈ floatKeys, kx = [k]) ∨ ∃ k ∈ intKeys, ∃ k' ∈ floatKeys, kx = [k, k'])
      (hr : kr = [] ∨ ∃ k ∈ returnKeys, kr = [k]) : CondKeys lossy (ka :: km :: kv :: (kx ++ kr))

/-- The text that a value has in a condition: scalars as they are, a missing value as `<nil>`, lists and maps as the library prints
them. -/
inductive ValueWritten (env : Ext) : Json → Str → Prop
  | scalar {x s} (h : ScalarText env x s) : ValueWritten env x s
  | null : ValueWritten env .null gs"<nil>"
  | list {l} : ValueWritten env (.arr l) (env.fmtComposite (.arr l))
  | map {kvs} : ValueWritten env (.obj kvs) (env.fmtComposite (.obj kvs))

/-- A map that is a condition: attribute and method are texts, the value is printed if it is not a text, and is empty if it is
missing. Without `lossy` nothing in the map is ignored. -/
structure CondMap (env : Ext) (lossy : Prop) (kvs : List (Str × Json)) (a m v : Str) (r : Option (List (Str × Str))) : Prop where
  distinct : (kvs.map (·.1)).Nodup
  keys : ∃ ks, CondKeys lossy ks ∧ (kvs.map (·.1)).Perm ks
  attr : ∀ k ∈ attrKeys, ∀ x, (k, x) ∈ kvs → x = .str a
  method : ∀ k ∈ methodKeys, ∀ x, (k, x) ∈ kvs → x = .str m
  value : ∀ k ∈ valueKeys, ∀ x, (k, x) ∈ kvs → ValueWritten env x v
  noValue : (∀ k ∈ valueKeys, k ∉ kvs.map (·.1)) → v = []
  ret : ∀ k ∈ returnKeys, ∀ x, (k, x) ∈ kvs → (∃ l, x = textMap l ∧ r = some l) ∨ lossy ∧ (∀ l, x ≠ .obj l) ∧ r = some []
  noRet : (∀ k ∈ returnKeys, k ∉ kvs.map (·.1)) → r = none

/-- The node of a condition. -/
def condNode (env : Ext) (a m v : Str) (r : Option (List (Str × Str))) : Node :=
  .cond (parsed env a m v (r.map (·.map (condRetVal env))))

/-- The keys of ANY and ALL that are not the child. -/
def parentKey : Str := gs"parentJsonpathAttribute"
def returnKey : Str := gs"returnValueJsonpath"

/-- The paths that ANY and ALL may have. -/
def ParentOk (s : Str) : Prop := (∃ r, s = gs"jsonpath:." ++ r) ∨ (∃ r, s = gs"jsonpath:$." ++ r) ∨ ∃ r, s = gs"jsonpath:$RELATIVE" ++ r

/-- The map of an ANY or ALL, apart from its child: a parent path, and possibly return values, all relative. -/
structure AnyMap (kvs : List (Str × Json)) (parent : Str) (ret : List (Str × Str)) : Prop where
  distinct : (kvs.map (·.1)).Nodup
  size : kvs.length = 2 ∨ kvs.length = 3
  hasParent : (parentKey, .str parent) ∈ kvs
  parentOk : ParentOk parent
  hasRet : ∀ x, (returnKey, x) ∈ kvs → x = textMap ret
  noRet : returnKey ∉ kvs.map (·.1) → ret = []
  retOk : ∀ x ∈ ret, ∃ q, x.2 = gs"jsonpath:$RELATIVE" ++ q

/-- The entry is a child of the ANY or ALL. -/
def Child (kvs : List (Str × Json)) (x : Str × Json) : Prop := x ∈ kvs ∧ x.1 ≠ parentKey ∧ x.1 ≠ returnKey

/-- The fields of an ANY or ALL. -/
def anyFields (env : Ext) (parent : Str) (ret : List (Str × Str)) : AnyAll :=
  { parentOrig := parent, parent := replaceAll parent gs"jsonpath:" [], ret := ret.map (anyRetVal env) }

/-- ANY or ALL. -/
def quantifier (kw : Str) (a : AnyAll) (n : Node) : Node := if kw = gs"ANY" then .any a n else .all a n

mutual
inductive Reads (env : Ext) (lossy amb : Prop) : Str → Json → Node → Prop
  /-- A condition. -/
  | cond {kw a m v : Str} {kvs : List (Str × Json)} {r : Option (List (Str × Str))} (hk : kw ∈ [[], gs"condition", gs"conditionsTree"])
      (h : CondMap env lossy kvs a m v r) (ok : Acceptable env a m v) : Reads env lossy amb kw (.obj kvs) (condNode env a m v r)
  /-- A connective with one condition instead of a list. -/
  | andCond {a m v : Str} {kvs : List (Str × Json)} {r : Option (List (Str × Str))} (h : CondMap env lossy kvs a m v r)
      (ok : Acceptable env a m v) : Reads env lossy amb gs"AND" (.obj kvs) (.and [condNode env a m v r])
  | orCond {a m v : Str} {kvs : List (Str × Json)} {r : Option (List (Str × Str))} (h : CondMap env lossy kvs a m v r)
      (ok : Acceptable env a m v) : Reads env lossy amb gs"OR" (.obj kvs) (.or [condNode env a m v r])
  | notCond {a m v : Str} {kvs : List (Str × Json)} {r : Option (List (Str × Str))} (h : CondMap env lossy kvs a m v r)
      (ok : Acceptable env a m v) : Reads env lossy amb gs"NOT" (.obj kvs) (.not (condNode env a m v r))
  /-- A map with one key: the key says what its value is. -/
  | key {kw k : Str} {v : Json} {n : Node} (hk : kw ∈ [[], gs"condition", gs"conditions", gs"conditionsTree"])
      (h : Reads env lossy amb k v n) : Reads env lossy amb kw (.obj [(k, v)]) n
  /-- A list of one node. -/
  | single {j : Json} {n : Node} (h : Reads env lossy amb [] j n) : Reads env lossy amb [] (.arr [j]) n
  | and {l : List Json} {ns : List Node} (h : ReadsAll env lossy amb l ns) : Reads env lossy amb gs"AND" (.arr l) (.and ns)
  | or {l : List Json} {ns : List Node} (h : ReadsAll env lossy amb l ns) : Reads env lossy amb gs"OR" (.arr l) (.or ns)
  | not {k : Str} {v : Json} {n : Node} (h : Reads env lossy amb k v n) : Reads env lossy amb gs"NOT" (.obj [(k, v)]) (.not n)
  | notSingle {j : Json} {n : Node} (h : Reads env lossy amb [] j n) : Reads env lossy amb gs"NOT" (.arr [j]) (.not n)
  | quantifier {kw k parent : Str} {v : Json} {kvs : List (Str × Json)} {ret : List (Str × Str)} {n : Node} (hk : kw = gs"ANY" ∨ kw = gs"ALL")
      (h : AnyMap kvs parent ret) (hc : Child kvs (k, v)) (hone : ∀ x, Child kvs x → x = (k, v)) (hn : Reads env lossy amb k v n) :
      Reads env lossy amb kw (.obj kvs) (quantifier kw (anyFields env parent ret) n)
  /-- Dropped: AND and OR above a map that is not a condition. -/
  | dropped {kw k : Str} {v : Json} {n : Node} (hl : lossy) (hk : kw = gs"AND" ∨ kw = gs"OR") (h : Reads env lossy amb k v n) :
      Reads env lossy amb kw (.obj [(k, v)]) n
  /-- Dropped: all but the last element of a list below NOT. -/
  | notLast {l : List Json} {ns : List Node} {n : Node} (hl : lossy) (h : ReadsAll env lossy amb l ns) (hn : ns.getLast? = some n) :
      Reads env lossy amb gs"NOT" (.arr l) (.not n)
  /-- Missing: nothing below NOT. -/
  | notNone (hl : lossy) : Reads env lossy amb gs"NOT" (.arr []) (.not .nil)
  /-- Missing: an ANY or ALL without a child. -/
  | noChild {kw parent : Str} {kvs : List (Str × Json)} {ret : List (Str × Str)} (hl : lossy) (hk : kw = gs"ANY" ∨ kw = gs"ALL")
      (h : AnyMap kvs parent ret) (hnone : ∀ x, ¬ Child kvs x) :
      Reads env lossy amb kw (.obj kvs) (quantifier kw (anyFields env parent ret) .nil)
  /-- Dropped: one of two children of an ANY or ALL; which one is not determined. -/
  | twoChildren {kw k k' parent : Str} {v v' : Json} {kvs : List (Str × Json)} {ret : List (Str × Str)} {n n' : Node} (ha : amb)
      (hk : kw = gs"ANY" ∨ kw = gs"ALL") (h : AnyMap kvs parent ret) (hc : Child kvs (k, v)) (hc' : Child kvs (k', v')) (hne : k ≠ k')
      (hn : Reads env lossy amb k v n) (hn' : Reads env lossy amb k' v' n') :
      Reads env lossy amb kw (.obj kvs) (quantifier kw (anyFields env parent ret) n)

/-- Element by element. -/
inductive ReadsAll (env : Ext) (lossy amb : Prop) : List Json → List Node → Prop
  | nil : ReadsAll env lossy amb [] []
  | cons {j : Json} {l : List Json} {n : Node} {ns : List Node} (h : Reads env lossy amb [] j n) (hs : ReadsAll env lossy amb l ns) :
      ReadsAll env lossy amb (j :: l) (n :: ns)
end

/-- The documents that write a tree, and lose nothing. -/
abbrev Writes (env : Ext) : Str → Json → Node → Prop := Reads env False False

/-- Objects are maps: all keys are distinct, at any depth. -/
inductive IsMap : Json → Prop
  | null : IsMap .null
  | bool (b) : IsMap (.bool b)
  | num (x) : IsMap (.num x)
  | str (s) : IsMap (.str s)
  | arr {l : List Json} (h : ∀ x ∈ l, IsMap x) : IsMap (.arr l)
  | obj {kvs : List (Str × Json)} (distinct : (kvs.map (·.1)).Nodup) (h : ∀ x ∈ kvs, IsMap x.2) : IsMap (.obj kvs)

/-- No map with a parent path has two children. -/
inductive OneChild : Json → Prop
  | null : OneChild .null
  | bool (b) : OneChild (.bool b)
  | num (x) : OneChild (.num x)
  | str (s) : OneChild (.str s)
  | arr {l : List Json} (h : ∀ x ∈ l, OneChild x) : OneChild (.arr l)
  | obj {kvs : List (Str × Json)} (one : parentKey ∈ kvs.map (·.1) → ∀ x y, Child kvs x → Child kvs y → x.1 = y.1)
      (h : ∀ x ∈ kvs, OneChild x.2) : OneChild (.obj kvs)

/-- The trees that can be written: acceptable conditions, combined by AND, OR, NOT, ANY and ALL. -/
inductive Writable (env : Ext) : Node → Prop
  | cond {a m v : Str} {r : Option (List (Str × Str))} (ok : Acceptable env a m v) (hr : ∀ l, r = some l → (l.map (·.1)).Nodup) :
      Writable env (condNode env a m v r)
  | and {ns : List Node} (h : ∀ n ∈ ns, Writable env n) : Writable env (.and ns)
  | or {ns : List Node} (h : ∀ n ∈ ns, Writable env n) : Writable env (.or ns)
  | not {n : Node} (h : Writable env n) : Writable env (.not n)
  | any {parent : Str} {ret : List (Str × Str)} {n : Node} (hp : ParentOk parent) (hd : (ret.map (·.1)).Nodup)
      (hr : ∀ x ∈ ret, ∃ q, x.2 = gs"jsonpath:$RELATIVE" ++ q) (h : Writable env n) : Writable env (.any (anyFields env parent ret) n)
  | all {parent : Str} {ret : List (Str × Str)} {n : Node} (hp : ParentOk parent) (hd : (ret.map (·.1)).Nodup)
      (hr : ∀ x ∈ ret, ∃ q, x.2 = gs"jsonpath:$RELATIVE" ++ q) (h : Writable env n) : Writable env (.all (anyFields env parent ret) n)

/-- The keywords. -/
def keywords : List Str := [[], gs"condition", gs"conditions", gs"conditionsTree", gs"AND", gs"OR", gs"NOT", gs"ANY", gs"ALL"]

end Mapl.Spec

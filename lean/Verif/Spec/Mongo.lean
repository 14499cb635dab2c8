import Verif.Model.Mongo
import Verif.Spec.Parse

/-!
# What queries mean, and what the translation of a tree should be
-/

namespace Mapl.Spec

/-! ## Servers -/

/-- A server: the test of one field of a document, the elements of the list in a field (the documents that `$elemMatch` tries), and
the effect of a step on a document. The theorems hold for every server. -/
structure Server (D : Type) where
  test : Str → MOp → D → Bool
  elems : Str → D → List D
  add : MStep → D → D

variable {D : Type}

mutual
/-- The query selects the document. -/
def selects (S : Server D) : MQuery → D → Bool
  | .empty, _ => true
  | .and l, d => selectsAll S l d
  | .or l, d => selectsSome S l d
  | .nor l, d => !selectsSome S l d
  | .field f op, d => S.test f op d
  | .elem f q, d => (S.elems f d).any fun e => selects S q e

def selectsAll (S : Server D) : List MQuery → D → Bool
  | [], _ => true
  | q :: l, d => selects S q d && selectsAll S l d

def selectsSome (S : Server D) : List MQuery → D → Bool
  | [], _ => false
  | q :: l, d => selects S q d || selectsSome S l d
end

/-- The document after all steps. -/
def added (S : Server D) (steps : List MStep) (d : D) : D := steps.foldl (fun d s => S.add s d) d

/-- The result of a translation selects the document. -/
def resultSelects (S : Server D) : MResult → D → Bool
  | .simple q, d => selects S q d
  | .aggregate steps q, d => selects S q (added S steps d)

/-! ## Paths -/

/-- The field `r` below the base field. -/
def below (base r : Str) : Str := if base = [] then r else base ++ gs"." ++ r

/-- A path from the top of the document, a path from the element in scope. -/
def Absolute (p : Str) : Prop := ∃ r, p = gs"jsonpath:$." ++ r
def Relative (p : Str) : Prop := ∃ r, p = gs"jsonpath:$RELATIVE." ++ r

/-- The path asks for the key or the value of the entry in scope. -/
def asksEntry (a : Str) : Bool := hasPrefix a gs"jsonpath:$KEY" || hasPrefix a gs"jsonpath:$VALUE"

/-- The marks of lists are dropped. -/
def unsliced (r : Str) : Str := replaceAll (replaceAll r gs"[:]" []) gs"[*]" []

/-- The field in which the elements of an ANY or ALL are. -/
def parentName (base p : Str) : Str :=
  if hasPrefix p gs"jsonpath:$." then below base (unsliced (p.drop 11)) else unsliced (p.drop 19)

/-- The base field is not written like a path. -/
def BaseOk (base : Str) : Prop := '[' ∉ base ∧ ':' ∉ base

/-- The parent path of an ANY or ALL, with nothing in it that is written like another path. A path from the top needs a base field. -/
def PlainParent (base p : Str) : Prop :=
  (∃ r, p = gs"jsonpath:$." ++ r ∧ base ≠ [] ∧ contains r gs"jsonpath:" = false) ∨
  ∃ r, p = gs"jsonpath:$RELATIVE." ++ r ∧ contains r gs"jsonpath:" = false

/-- All parent paths of the tree are plain. -/
def PlainParents (base : Str) : Node → Prop
  | .and ns => ∀ n ∈ ns, PlainParents base n
  | .or ns => ∀ n ∈ ns, PlainParents base n
  | .not n => PlainParents base n
  | .any a n => PlainParent base a.parentOrig ∧ PlainParents base n
  | .all a n => PlainParent base a.parentOrig ∧ PlainParents base n
  | _ => True

/-! ## The formula -/

/-- The node is a condition on the key or the value of the entry in scope. -/
def entryLeaf : Node → Bool
  | .cond c => asksEntry c.origAttr
  | _ => false

/-- The query of the condition alone, translated with the parent field `ps`, selects the document. -/
def Own (S : Server D) (env : Ext) (base ps : Str) (d : D) : Node → Prop
  | .cond c => ∃ x, c.toMongo env base ps 0 = .ok x ∧ selects S x.1 d = true
  | _ => False

open Classical in
mutual
/-- The formula of a tree, each condition replaced by its own query: a condition or a parent path from the top of the document is judged on
the whole document `root`, a relative one on the element in scope. An ANY with nothing but a condition on the key or the value of the
entry is judged on the document with the added fields. -/
noncomputable def Formula (S : Server D) (env : Ext) (base : Str) (root : D) : Node → D → Prop
  | .nil, _ => False
  | .and ns, d => FormulaAll S env base root ns d
  | .or ns, d => FormulaSome S env base root ns d
  | .not n, d => ¬ Formula S env base root n d
  | .any a n, d =>
    if entryLeaf n then Own S env base (parentName base a.parentOrig) root n
    else ∃ e ∈ S.elems (parentName base a.parentOrig) (if Absolute a.parentOrig then root else d), Formula S env base root n e
  | .all a n, d => ∀ e ∈ S.elems (parentName base a.parentOrig) (if Absolute a.parentOrig then root else d), Formula S env base root n e
  | .tt, _ => True
  | .ff, _ => False
  | .cond c, d => Own S env base [] (if Absolute c.origAttr then root else d) (.cond c)

noncomputable def FormulaAll (S : Server D) (env : Ext) (base : Str) (root : D) : List Node → D → Prop
  | [], _ => True
  | n :: ns, d => Formula S env base root n d ∧ FormulaAll S env base root ns d

noncomputable def FormulaSome (S : Server D) (env : Ext) (base : Str) (root : D) : List Node → D → Prop
  | [], _ => False
  | n :: ns, d => Formula S env base root n d ∨ FormulaSome S env base root ns d
end

/-- Every path stands where it can be translated: at the top, paths from the top of the document; inside of ANY and ALL, relative paths.
Conditions on keys and values stand directly below an ANY that is not inside of another ANY or ALL. -/
def Scoped (base : Str) : Bool → Node → Prop
  | i, .and ns => ∀ n ∈ ns, Scoped base i n
  | i, .or ns => ∀ n ∈ ns, Scoped base i n
  | i, .not n => Scoped base i n
  | i, .any a n => PlainParent base a.parentOrig ∧ (if i then Relative a.parentOrig else Absolute a.parentOrig) ∧
      (i = false ∧ entryLeaf n = true ∨ entryLeaf n = false ∧ Scoped base true n)
  | i, .all a n => PlainParent base a.parentOrig ∧ (if i then Relative a.parentOrig else Absolute a.parentOrig) ∧
      entryLeaf n = false ∧ Scoped base true n
  | i, .cond c => if i then Relative c.origAttr else Absolute c.origAttr
  | _, _ => True

/-! ## Added fields -/

mutual
/-- For every condition on a key or a value, in order, the field of the ANY directly above it (empty if there is none). -/
def entries (base : Str) : Str → Node → List Str
  | ps, .cond c => if asksEntry c.origAttr then [ps] else []
  | _, .and ns => entriesOf base ns
  | _, .or ns => entriesOf base ns
  | _, .not n => entries base [] n
  | _, .any a n => entries base (parentName base a.parentOrig) n
  | _, .all _ n => entries base [] n
  | _, _ => []

def entriesOf (base : Str) : List Node → List Str
  | [] => []
  | n :: ns => entries base [] n ++ entriesOf base ns
end

/-- The step that turns the object in the field `p` into the list of its entries. -/
def entryStep (p : Str) : MStep := { new := gs"addedField." ++ p, source := p }

/-! ## Which trees can be translated -/

/-- Quotes come in pairs, brackets as well. -/
def Balanced (s : Str) : Prop := s.count '"' % 2 = 0 ∧ s.count '\'' % 2 = 0 ∧ s.count '[' = s.count ']'

/-- Where a node stands: outside of all quantifiers, in one ANY that does not range over a list, or deeper. -/
inductive Place
  | top
  | inAny
  | deeper
  deriving DecidableEq

/-- Inside of an ANY with the path `p`. -/
def Place.enter (pl : Place) (p : Str) : Place :=
  if pl = .top ∧ ¬ (gs"[:]" <:+ p ∨ gs"[*]" <:+ p) then .inAny else .deeper

/-- The conditions that can be translated. -/
inductive LeafOk (base : Str) (pl : Place) (ps : Str) : Str → Prop
  | absolute {r : Str} (h : Balanced (base ++ r)) : LeafOk base pl ps (gs"jsonpath:$." ++ r)
  | relative {r : Str} (h : Balanced r) : LeafOk base pl ps (gs"jsonpath:$RELATIVE." ++ r)
  | scope : LeafOk base pl ps gs"jsonpath:$RELATIVE"
  | dot {r : Str} : LeafOk base pl ps (gs"jsonpath:." ++ r)
  | key {r : Str} (hp : pl ≠ .deeper) (h : Balanced ps) (hc : ¬ ∃ x y, r = x ++ gs"jsonpath:$KEY." ++ y) : LeafOk base pl ps (gs"jsonpath:$KEY" ++ r)
  | value {r : Str} (hp : pl ≠ .deeper) (h : Balanced (ps ++ r)) : LeafOk base pl ps (gs"jsonpath:$VALUE" ++ r)

/-- The written trees that can be translated. -/
def Translatable (base : Str) : Place → Str → Node → Prop
  | pl, _, .and ns => ∀ n ∈ ns, Translatable base pl [] n
  | pl, _, .or ns => ∀ n ∈ ns, Translatable base pl [] n
  | pl, _, .not n => Translatable base pl [] n
  | pl, _, .any a n => ¬ (∃ r, a.parentOrig = gs"jsonpath:$.." ++ r) ∧
      Translatable base (pl.enter a.parentOrig) (parentName base a.parentOrig) n
  | _, _, .all a n => ¬ (∃ r, a.parentOrig = gs"jsonpath:$.." ++ r) ∧ Translatable base .deeper [] n
  | pl, ps, .cond c => LeafOk base pl ps c.attr ∧ c.method ∉ [gs"in", gs"nin"]
  | _, _, _ => False

/-- `c` is a condition of the tree, below the ANY (`false`) and ALL (`true`) nodes `qs`, outermost first. -/
inductive Under : Node → List (Bool × AnyAll) → Condition → Prop
  | cond {c : Condition} : Under (.cond c) [] c
  | and {n : Node} {ns : List Node} {qs : List (Bool × AnyAll)} {c : Condition} (hn : n ∈ ns) (h : Under n qs c) : Under (.and ns) qs c
  | or {n : Node} {ns : List Node} {qs : List (Bool × AnyAll)} {c : Condition} (hn : n ∈ ns) (h : Under n qs c) : Under (.or ns) qs c
  | not {n : Node} {qs : List (Bool × AnyAll)} {c : Condition} (h : Under n qs c) : Under (.not n) qs c
  | any {a : AnyAll} {n : Node} {qs : List (Bool × AnyAll)} {c : Condition} (h : Under n qs c) : Under (.any a n) ((false, a) :: qs) c
  | all {a : AnyAll} {n : Node} {qs : List (Bool × AnyAll)} {c : Condition} (h : Under n qs c) : Under (.all a n) ((true, a) :: qs) c

/-! ## Operators -/

/-- A value that reads as a number is compared as a number. -/
inductive ComparedWith (env : Ext) (v : Str) : MVal → Prop
  | num {x : F64} (h : env.parseFloat v = some x) : ComparedWith env v (.num x)
  | str (h : env.parseFloat v = none) : ComparedWith env v (.str v)

/-- The query for a method with a value on a field. -/
inductive OperatorOf (env : Ext) (f v : Str) : Str → MQuery → Prop
  | eq {m x} (hm : m ∈ [gs"EQ", gs"eq"]) (h : ComparedWith env v x) : OperatorOf env f v m (.field f (.eq x))
  | ne {m x} (hm : m ∈ [gs"NEQ", gs"NE", gs"neq", gs"ne"]) (h : ComparedWith env v x) : OperatorOf env f v m (.field f (.ne x))
  | gt {m x} (hm : m ∈ [gs"GT", gs"gt"]) (h : ComparedWith env v x) : OperatorOf env f v m (.field f (.gt x))
  | ge {m x} (hm : m ∈ [gs"GE", gs"ge"]) (h : ComparedWith env v x) : OperatorOf env f v m (.field f (.gte x))
  | lt {m x} (hm : m ∈ [gs"LT", gs"lt"]) (h : ComparedWith env v x) : OperatorOf env f v m (.field f (.lt x))
  | le {m x} (hm : m ∈ [gs"LE", gs"le"]) (h : ComparedWith env v x) : OperatorOf env f v m (.field f (.lte x))
  | ex {m} (hm : m ∈ [gs"EX", gs"ex"]) : OperatorOf env f v m (.field f (.exist true))
  | nex {m} (hm : m ∈ [gs"NEX", gs"nex"]) : OperatorOf env f v m (.field f (.exist false))
  | re {m} (hm : m ∈ [gs"RE", gs"re"]) : OperatorOf env f v m (.field f (.regex v))
  | nre {m} (hm : m ∈ [gs"NRE", gs"nre"]) : OperatorOf env f v m (.and [.field f (.notRegex v), .field f (.exist true)])
  | list {m} (hm : m ∈ [gs"IN", gs"IS"]) : OperatorOf env f v m (.field f (.regex (listPattern v)))
  | notList {m} (hm : m = gs"NIN") : OperatorOf env f v m (.and [.field f (.notRegex (listPattern v)), .field f (.exist true)])

/-- The value is a text by itself, not the label or the field of the receiver. -/
def PlainText (v : Str) : Prop := (¬ ∃ r, v = gs"receiverLabel[" ++ r) ∧ ¬ ∃ r, v = gs"$receiver." ++ r

/-! ## Field names -/

/-- A part of a path after the first name. -/
inductive Seg
  /-- `.name` -/
  | dot (s : Str)
  /-- `["name"]` -/
  | quoted (s : Str)
  /-- `['name']` -/
  | single (s : Str)
  /-- `.["name"]` -/
  | dotQuoted (s : Str)
  /-- `[3]` -/
  | index (s : Str)

def Seg.name : Seg → Str
  | .dot s | .quoted s | .single s | .dotQuoted s | .index s => s

def Seg.text : Seg → Str
  | .dot s => gs"." ++ s
  | .quoted s => gs"[\"" ++ s ++ gs"\"]"
  | .single s => gs"['" ++ s ++ gs"']"
  | .dotQuoted s => gs".[\"" ++ s ++ gs"\"]"
  | .index s => gs"[" ++ s ++ gs"]"

/-- A name without the characters that structure a path. -/
def PathName (s : Str) : Prop := s ≠ [] ∧ ∀ c ∈ s, c ∉ ['.', '"', '\'', '[', ']']

/-- A path is written as a name and further parts. -/
def pathText (first : Str) (segs : List Seg) : Str := first ++ segs.flatMap Seg.text

/-- Its names, with dots between them. -/
def dotted (first : Str) (segs : List Seg) : Str := join gs"." (first :: segs.map Seg.name)

/-- A base field is empty or consists of names with dots between them. -/
def BaseNames (base : Str) : Prop := base = [] ∨ ∃ b bs, PathName b ∧ (∀ x ∈ bs, PathName x) ∧ base = join gs"." (b :: bs)

/-! ## A server for parsed documents -/

/-- The values that a dotted path reaches. Lists on the way are searched at the given index and in all elements that are objects. -/
def reach : List Str → Json → List Json
  | [], j => [j]
  | s :: ss, .obj kvs => match lookup s kvs with
    | some v => reach ss v
    | none => []
  | s :: ss, .arr l =>
    (match parseNat s with
      | some i => match l[i]? with
        | some v => reach ss v
        | none => []
      | none => []) ++
    l.flatMap fun e => match e with
      | .obj kvs => match lookup s kvs with
        | some v => reach ss v
        | none => []
      | _ => []
  | _ :: _, _ => []

/-- The elements of a list. -/
def items : Json → List Json
  | .arr l => l
  | _ => []

/-- The value reached, or an element of it if it is a list, satisfies the test. -/
def someValue (f : Str) (d : Json) (p : Json → Bool) : Bool := (reach (split '.' f) d).any fun v => p v || (items v).any p

/-- Numbers are compared with numbers, texts with texts. -/
def comparison (num : F64 → F64 → Bool) (str : Str → Str → Bool) (x : MVal) (v : Json) : Bool :=
  match v, x with
  | .num a, .num b => num a b
  | .str a, .str b => str a b
  | _, _ => false

/-- One test, as in the MongoDB manual (query operators). -/
def mongoTest (env : Ext) (f : Str) (op : MOp) (d : Json) : Bool :=
  match op with
  | .eq x => someValue f d (comparison (fun a b => a == b) (fun a b => a == b) x)
  | .ne x => !someValue f d (comparison (fun a b => a == b) (fun a b => a == b) x)
  | .gt x => someValue f d (comparison (fun a b => F64.lt b a) (fun a b => !strLe a b) x)
  | .gte x => someValue f d (comparison (fun a b => F64.le b a) (fun a b => strLe b a) x)
  | .lt x => someValue f d (comparison F64.lt (fun a b => !strLe b a) x)
  | .lte x => someValue f d (comparison F64.le strLe x)
  | .exist b => b == !(reach (split '.' f) d).isEmpty
  | .regex p => someValue f d fun v => match v with
    | .str s => env.reMatch p s
    | _ => false
  | .notRegex p => !someValue f d fun v => match v with
    | .str s => env.reMatch p s
    | _ => false

/-- Assign a key. -/
def setKey (k : Str) (v : Json) : List (Str × Json) → List (Str × Json)
  | [] => [(k, v)]
  | (k', v') :: rest => if k = k' then (k, v) :: rest else (k', v') :: setKey k v rest

/-- Assign a field given by a dotted path; missing objects are created. -/
def setField : List Str → Json → Json → Json
  | [], x, _ => x
  | s :: ss, x, .obj kvs => .obj (setKey s (setField ss x ((lookup s kvs).getD .null)) kvs)
  | s :: ss, x, .arr l => .arr (l.map fun e => match e with
    | .obj kvs => .obj (setKey s (setField ss x ((lookup s kvs).getD .null)) kvs)
    | _ => .obj [(s, setField ss x .null)])
  | s :: ss, x, _ => .obj [(s, setField ss x .null)]

/-- `$objectToArray`. -/
def objectToArray : Option Json → Json
  | some (.obj kvs) => .arr (kvs.map fun kv => .obj [(gs"k", .str kv.1), (gs"v", kv.2)])
  | _ => .null

/-- The server for parsed documents. -/
def mongoDB (env : Ext) : Server Json where
  test := mongoTest env
  elems f d := (reach (split '.' f) d).flatMap items
  add s d := setField (split '.' s.new) (objectToArray (reach (split '.' s.source) d).head?) d

end Mapl.Spec

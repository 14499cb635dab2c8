import Verif.Spec.Policy

/-!
# Rules that are more specific than others (C95)

Everything here is about rules as they are written.
-/

namespace Mapl.Spec

/-- A pattern with its stars and question marks filled in: for a star any pattern, for a question mark any character but a star. -/
inductive FilledIn : Str → Str → Prop
  | nil : FilledIn [] []
  | same {c : Char} {p p' : Str} (h : FilledIn p p') : FilledIn (c :: p) (c :: p')
  | star (x : Str) {p p' : Str} (h : FilledIn p p') : FilledIn ('*' :: p) (x ++ p')
  | one {c : Char} {p p' : Str} (hc : c ≠ '*') (h : FilledIn p p') : FilledIn ('?' :: p) (c :: p')

/-- Every name of the first list is a name of the second, filled in. -/
def NamesWithin (names' names : Str) : Prop := ∀ q, Listed names' q → ∃ p, Listed names p ∧ FilledIn (noBlanks p) (noBlanks q)

/-- Every text of the first list is a text of the second, filled in. -/
def TextsWithin (texts' texts : Str) : Prop := ∀ e q, Listed texts' e → Trimmed e q → ∃ d p, Listed texts d ∧ Trimmed d p ∧ FilledIn p q

/-- The first entry of a list of subnets is the second, a smaller subnet, or an address of the subnet. Only subnets of IPv4 addresses have IPv4 addresses in them. -/
inductive EntryWithin : Str → Str → Prop
  | same (e : Str) : EntryWithin e e
  | net {e' e : Str} {x' n' x n : Nat} (h' : NetText e' x' n') (h : NetText e x n) (hn : n ≤ n') (hx : x' / 2 ^ (128 - n) = x / 2 ^ (128 - n)) (hv : IsV4 x' → 96 ≤ n) : EntryWithin e' e
  | address {e' e : Str} {y x n : Nat} (h' : AddressText e' y) (h : NetText e x n) (hx : y / 2 ^ (128 - n) = x / 2 ^ (128 - n)) (hv : IsV4 y → 96 ≤ n) : EntryWithin e' e

/-- Every entry of the first list of subnets lies in one of the second. -/
def SubnetsWithin (l' l : Str) : Prop := ∀ e', Listed l' e' → ∃ e, Listed l e ∧ EntryWithin e' e

/-- Senders of the first kind are senders of the second; for receivers as well. `*` and `workload` are names of services. -/
inductive PartyWithin : Str → Str → Str → Str → Prop
  | subnet {s' s : Str} (h : SubnetsWithin s' s) : PartyWithin gs"subnet" s' gs"subnet" s
  | service {t' t s' s : Str} (ht' : t' = gs"*" ∨ t' = gs"workload") (ht : t = gs"*" ∨ t = gs"workload") (h : NamesWithin s' s) : PartyWithin t' s' t s
  | host {s' s : Str} (h : NamesWithin s' s) : PartyWithin gs"hostname" s' gs"hostname" s

def reading : List Str := [gs"GET", gs"HEAD", gs"OPTIONS", gs"TRACE"]

def writing : List Str := [gs"POST", gs"PUT", gs"DELETE"]

def operationKeywords : List Str := [gs"*", gs"read", gs"READ", gs"write", gs"WRITE"]

/-- The first operation is one of the second. -/
inductive OperationWithin : Str → Str → Prop
  | all (o : Str) : OperationWithin o gs"*"
  | same (o : Str) : OperationWithin o o
  | read {o' o : Str} (h' : o' ∈ reading) (h : o = gs"read" ∨ o = gs"READ") : OperationWithin o' o
  | write {o' o : Str} (h' : o' ∈ writing) (h : o = gs"write" ∨ o = gs"WRITE") : OperationWithin o' o
  | listed {o' o : Str} (h' : o' ∉ operationKeywords) (ho : o ∉ operationKeywords) (h : TextsWithin o' o) : OperationWithin o' o

/-- The first resource is one of the second. -/
inductive ResourceWithin (r' r : Rule) : Prop
  | all (h : r.protocol = gs"*")
  | port (h' : r'.protocol = gs"tcp") (h : r.protocol = gs"tcp") (hn : TextsWithin r'.resourceName r.resourceName)
  | path (h : r'.protocol = r.protocol) (ht : r.protocol ≠ gs"tcp") (hs : r.resourceType = gs"*" ∨ r.resourceType = r'.resourceType) (hn : TextsWithin r'.resourceName r.resourceName)

/-- The one statement follows from the other. -/
inductive Implies (env : Ext) (t : Predef) : Statement → Statement → Prop
  | refl (f : Statement) : Implies env t f f
  | trans {f g h : Statement} (h1 : Implies env t f g) (h2 : Implies env t g h) : Implies env t f h
  /-- One of the parts of an AND. -/
  | part {fs : List Statement} {f : Statement} (h : f ∈ fs) : Implies env t (.and fs) f
  | parts {f : Statement} {ks : List Statement} (h : ∀ g ∈ ks, Implies env t f g) : Implies env t f (.and ks)
  /-- One of the cases of an OR. -/
  | case {fs : List Statement} {f : Statement} (h : f ∈ fs) : Implies env t f (.or fs)
  | cases {fs : List Statement} {g : Statement} (h : ∀ f ∈ fs, Implies env t f g) : Implies env t (.or fs) g
  | not {f g : Statement} (h : Implies env t f g) : Implies env t (.not g) (.not f)
  | any (q : Parent) {f g : Statement} (h : Implies env t f g) : Implies env t (.any q f) (.any q g)
  | all (q : Parent) {f g : Statement} (h : Implies env t f g) : Implies env t (.all q f) (.all q g)
  /-- Bounds of the size of a request. -/
  | size {k' k : NumMethod} {m' v' w' m v w : Str} {x' x : Int} (hok : Sound env t (.cond gs"payloadSize" m' v')) (hm' : m' ∈ k'.spellings) (hv' : ValueResolves env t m' v' w') (hw' : IntText w' x')
      (hm : m ∈ k.spellings) (hv : ValueResolves env t m v w) (hw : IntText w x) (h : ∀ n : Int, k'.holds n x' → k.holds n x) :
      Implies env t (.cond gs"payloadSize" m' v') (.cond gs"payloadSize" m v)
  /-- Bounds of a number in the document. -/
  | number {k' k : NumMethod} {q m' v' w' m v w : Str} {x' x : F64} (hm' : m' ∈ k'.spellings) (hk : k' ≠ .ne) (hv' : ValueResolves env t m' v' w')
      (hw' : parseNumber env w' = some x') (hm : m ∈ k.spellings) (hv : ValueResolves env t m v w) (hw : parseNumber env w = some x) (h : ∀ y, k'.holdsF y x' → k.holdsF y x) :
      Implies env t (.cond (gs"jsonpath:" ++ q) m' v') (.cond (gs"jsonpath:" ++ q) m v)
  /-- Texts: what the first method says of a text, the second says as well. -/
  | text {a m' v' w' m v w : Str} {f : Msg → Str} {P' P : Str → Prop} (ha : TextAttr a f) (hok : Sound env t (.cond a m' v')) (hv' : ValueResolves env t m' v' w') (hP' : TextMeans m' w' P')
      (hn' : (∃ x, a = gs"$sender." ++ x) → ¬ ∃ y, w' = gs"$receiver." ++ y) (hv : ValueResolves env t m v w) (hP : TextMeans m w P)
      (hn : (∃ x, a = gs"$sender." ++ x) → ¬ ∃ y, w = gs"$receiver." ++ y) (h : ∀ s, P' s → P s) : Implies env t (.cond a m' v') (.cond a m v)

/-- A rule as it is written: its conditions, and what its sender and receiver stand for. -/
structure Wording where
  body : Rule
  conditions : Option Statement
  sender : Str
  receiver : Str

/-- With the tables `t` the engine accepts the rule. -/
structure Wording.Ok (env : Env) (t : Predef) (x : Wording) : Prop where
  conditions : x.body.conditions = x.conditions.map (Statement.tree env)
  sender : Resolves t x.body.senderName x.sender
  receiver : Resolves t x.body.receiverName x.receiver
  texts : TextsOk x.body x.sender x.receiver
  sound : ∀ f ∈ x.conditions, Sound env t f

/-- What the rule says of a message. -/
def Wording.Holds (env : Env) (t : Predef) (x : Wording) (msg : Msg) : Prop :=
  WrittenParts x.body x.sender x.receiver msg ∧ ∀ f ∈ x.conditions, Meaning env t f msg

/-- The first rule is more specific than the second, in every part. -/
structure Wording.Within (env : Env) (t : Predef) (x' x : Wording) : Prop where
  sender : PartyWithin x'.body.senderType x'.sender x.body.senderType x.sender
  receiver : PartyWithin x'.body.receiverType x'.receiver x.body.receiverType x.receiver
  operation : OperationWithin x'.body.operation x.body.operation
  resource : ResourceWithin x'.body x.body
  conditions : ∀ f ∈ x.conditions, ∃ f' ∈ x'.conditions, Implies env t f' f

/-- The rule object stands for the rule that was written, with the tables `t`, and its conditions say something of the message. -/
structure StandsFor (env : Env) (g t : Predef) (msg : Msg) (r : RuleObj) (x : Wording) : Prop where
  loaded : Loaded env g r x.body t
  ok : x.Ok env t
  defined : ∀ f ∈ x.conditions, Defined env t f msg

/-- The decision of the rule. -/
def Wording.decision (x : Wording) : Decision := decisionOf x.body.decision

end Mapl.Spec

import Verif.Model.Validate
import Verif.Spec.Ints

/-!
# Which conditions are acceptable

The grammar of attributes, methods and values, independent of the order of the checks in the code.
-/

namespace Mapl.Spec

/-- The attributes written as one word. -/
def simpleAttributes : List Str :=
  [gs"true", gs"TRUE", gs"false", gs"FALSE", gs"payloadSize", gs"requestUseragent", gs"utcHoursFromMidnight",
   gs"encryptionType", gs"encryptionVersion", gs"domain"]

/-- Order comparisons. -/
def orderMethods : List Str := [gs"LT", gs"LE", gs"GT", gs"GE", gs"lt", gs"le", gs"gt", gs"ge"]

/-- Methods whose value is a regular expression. -/
def patternMethods : List Str := [gs"RE", gs"NRE", gs"re", gs"nre"]

/-- The methods. -/
def allMethods : List Str :=
  orderMethods ++ patternMethods ++
  [gs"EQ", gs"NEQ", gs"NE", gs"EX", gs"NEX", gs"IN", gs"NIN", gs"eq", gs"neq", gs"ne", gs"ex", gs"nex", gs"in", gs"nin", gs"IS"]

/-- `word[key]`, where the first closing bracket is the last character. -/
def Bracketed (word x : Str) : Prop := ∃ k, ']' ∉ k ∧ x = word ++ gs"[" ++ k ++ gs"]"

/-- What may stand between brackets: a text that starts and ends with the same kind of quote, or a natural number. -/
def IndexOk (x : Str) : Prop :=
  (x.head? = some '"' ∧ x.getLast? = some '"') ∨ (x.head? = some '\'' ∧ x.getLast? = some '\'') ∨
  ∃ n : Int, 0 ≤ n ∧ IntText x n

/-- Before every closing bracket there is an opening one, and the text since the last opening one may stand between
brackets. -/
def BracketsOk (q : Str) : Prop :=
  ∀ pre post, q = pre ++ gs"]" ++ post → ∃ pre' x, pre = pre' ++ gs"[" ++ x ∧ '[' ∉ x ∧ IndexOk x

/-- The paths that may follow `jsonpath:`. -/
structure PathOk (q : Str) : Prop where
  start : (∃ r, q = gs"." ++ r) ∨ (∃ r, q = gs"$." ++ r) ∨ (∃ r, q = gs"$RELATIVE." ++ r) ∨ (∃ r, q = gs"$KEY" ++ r) ∨
    (∃ r, q = gs"$VALUE" ++ r) ∨ q = gs"$RELATIVE"
  key : ¬ ∃ r, q = gs"$KEY." ++ r
  noSlice : ¬ ∃ a b, q = a ++ gs"[:]" ++ b
  noEmpty : ¬ ∃ a b, q = a ++ gs"[]" ++ b
  brackets : BracketsOk q

/-- Attributes and the methods allowed with them. -/
inductive AttributeOk : Str → Str → Prop
  | simple {a m} (h : a ∈ simpleAttributes) (hv : a ≠ gs"encryptionVersion") : AttributeOk a m
  | version {m} (h : m ∈ orderMethods ∨ m = gs"EQ" ∨ m = gs"eq") : AttributeOk gs"encryptionVersion" m
  | senderField {x m} (h : m ∉ orderMethods) : AttributeOk (gs"$sender." ++ x) m
  | receiverField {x m} (h : m ∉ orderMethods) : AttributeOk (gs"$receiver." ++ x) m
  | senderLabel {a m} (ha : Bracketed gs"senderLabel" a) (h : m ∉ orderMethods) : AttributeOk a m
  | receiverLabel {a m} (ha : Bracketed gs"receiverLabel" a) (h : m ∉ orderMethods) : AttributeOk a m
  | path {q m} (h : PathOk q) : AttributeOk (gs"jsonpath:" ++ q) m

/-- A list `a,b,c` as alternatives of whole words; brackets are dropped. -/
def listPattern (v : Str) : Str := gs"^" ++ (v.filter fun c => c ≠ '[' ∧ c ≠ ']').flatMap (fun c => if c = ',' then gs"$|^" else [c]) ++ gs"$"

/-- Values and the methods they go with. -/
structure ValueOk (env : Ext) (m v : Str) : Prop where
  number : m ∈ orderMethods → (∃ x, parseNumber env v = some x) ∨ ∃ n, IntText v n
  pattern : m ∈ patternMethods → env.reOk v = true
  list : m = gs"IN" ∨ m = gs"NIN" → v ≠ [] ∧ env.reOk (listPattern v) = true
  label : (∃ r, v = gs"receiverLabel[" ++ r) → Bracketed gs"receiverLabel" v

/-- The conditions that validation accepts. -/
structure Acceptable (env : Ext) (a m v : Str) : Prop where
  attr : AttributeOk a m
  method : m ∈ allMethods
  value : ValueOk env m v

/-- No branch of the tree is missing. -/
def Complete : Node → Prop
  | .nil => False
  | .and ns => ∀ n ∈ ns, Complete n
  | .or ns => ∀ n ∈ ns, Complete n
  | .not n => Complete n
  | .any _ n => Complete n
  | .all _ n => Complete n
  | .tt => True
  | .ff => True
  | .cond _ => True

end Mapl.Spec

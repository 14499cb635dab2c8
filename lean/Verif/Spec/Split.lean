import Verif.Model.Eval
import Verif.Spec.JsonGrammar

/-! # Specification vocabulary: texts of JSON values -/

namespace Mapl.Spec

/-- The braces in the text are nested properly. -/
inductive Nested : Str → Prop
  | nil : Nested []
  | char {c : Char} {s : Str} (h1 : c ≠ '{') (h2 : c ≠ '}') (h : Nested s) : Nested (c :: s)
  | braces {a b : Str} (ha : Nested a) (hb : Nested b) : Nested ('{' :: (a ++ '}' :: b))

/-- What stands between the quotes of a string. -/
inductive Quoted : Str → Prop
  | nil : Quoted []
  | char {c : Char} {s : Str} (h1 : c ≠ '"') (h2 : c ≠ '\\') (h : Quoted s) : Quoted (c :: s)
  | escape {c : Char} {s : Str} (h : Quoted s) : Quoted ('\\' :: c :: s)

/-- A key with its quotes, and white space around it. `P` restricts what stands between the quotes. -/
inductive KeyText (P : Str → Prop) : Str → Prop
  | mk {a k b : Str} (ha : Blank a) (hk : Quoted k) (hp : P k) (hb : Blank b) : KeyText P (a ++ '"' :: (k ++ '"' :: b))

/-- The text of a JSON value, with white space. The strings in it satisfy `P`. -/
inductive JsonText (P : Str → Prop) : Str → Prop
  /-- numbers, `true`, `false`, `null` -/
  | atom {s : Str} (h : ∀ c ∈ s, c ∉ gs"{}[],:\"\\") : JsonText P s
  | str {s : Str} (hs : Quoted s) (hp : P s) : JsonText P ('"' :: (s ++ gs"\""))
  | arr {l : List Str} (h : ∀ x ∈ l, JsonText P x) : JsonText P ('[' :: (join gs"," l ++ gs"]"))
  | obj {l : List (Str × Str)} (hk : ∀ x ∈ l, KeyText P x.1) (h : ∀ x ∈ l, JsonText P x.2) :
      JsonText P ('{' :: (join gs"," (l.map fun x => x.1 ++ ':' :: x.2) ++ gs"}"))
  | space {a s b : Str} (ha : Blank a) (hb : Blank b) (h : JsonText P s) : JsonText P (a ++ (s ++ b))

/-- The text of an object. -/
def ObjectText (P : Str → Prop) (s : Str) : Prop := ∃ l : List (Str × Str), (∀ x ∈ l, KeyText P x.1) ∧ (∀ x ∈ l, JsonText P x.2) ∧
  s = '{' :: (join gs"," (l.map fun x => x.1 ++ ':' :: x.2) ++ gs"}")

/-- An element of a list as it is written: an object or another value, with white space around it. -/
structure Item where
  before : Str := []
  isObject : Bool
  text : Str
  after : Str := []

/-- The text of a list of items. -/
def listText (l : List Item) : Str := '[' :: (join gs"," (l.map fun i => i.before ++ (i.text ++ i.after)) ++ gs"]")

/-- The item is written correctly. -/
def Item.Ok (P : Str → Prop) (i : Item) : Prop := Blank i.before ∧ Blank i.after ∧
  if i.isObject then ObjectText P i.text else JsonText P i.text ∧ i.text.head? ≠ some '{'

/-- The texts of the objects among the items. -/
def objects (l : List Item) : List Str := (l.filter fun i => i.isObject).map fun i => i.text

end Mapl.Spec

namespace Mapl.Spec

/-- The text of a list of lists, given the texts of the elements, without white space. -/
def listsText (ll : List (List Str)) : Str := '[' :: (join gs"," (ll.map fun l => '[' :: (join gs"," l ++ gs"]")) ++ gs"]")

/-- No brackets that close or open directly after one another: no list of lists inside, and nothing that looks like one in a string. -/
def NoListOfLists (s : Str) : Prop := ∀ a b, s ≠ a ++ gs"[[" ++ b ∧ s ≠ a ++ gs"]]" ++ b ∧ s ≠ a ++ gs"],[" ++ b

/-- The ANY/ALL has one parent path, and looking it up in the text of the document (or of the element in scope, if it is a relative path) gives
`data`. -/
def SelectedPart (env : Ext) (a : AnyAll) (m : Msg) (data : Str) : Prop := ∃ q raw, a.parentArr = [q] ∧
  if isRelativeParent q then m.jsonRawRel = some raw ∧ env.jsGet raw (bytesParentQuery q) = (data, false)
  else m.jsonRaw = some raw ∧ env.jsGet raw q = (data, false)

end Mapl.Spec

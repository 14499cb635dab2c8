import Verif.Spec.Tree
import Verif.Spec.Parse

/-!
# The values a rule asks to be returned

A return value is written as a name and a path: `jsonpath:$.x` is a path in the whole document, `jsonpath:$RELATIVE.x` a path in
the element in scope.
-/

namespace Mapl.Spec

/-- What a written return path means: whether it starts at the element in scope, and the query on the document it starts at. -/
inductive ReturnPath : Str → Bool → Str → Prop
  | absolute {r : Str} (h : ∀ x, r ≠ gs"RELATIVE" ++ x) : ReturnPath (gs"jsonpath:$" ++ r) false ('$' :: r)
  | relative (r : Str) : ReturnPath (gs"jsonpath:$RELATIVE" ++ r) true ('$' :: r)

/-- What a query gives on a parsed document: `$*` the document itself, null if the library does not understand the query. -/
inductive ValueAt (env : Ext) (d : Json) : Str → Option Json → Prop
  | document : ValueAt env d gs"$*" (some d)
  | unknown {query : Str} (hs : query ≠ gs"$*") (h : env.jpOk query = false) : ValueAt env d query (some .null)
  | selected {query : Str} {x : Option Json} (hs : query ≠ gs"$*") (h : env.jpOk query = true) (hx : Selected env query d x) :
      ValueAt env d query x

/-- What a query gives on a message: the value in the parsed document, if there is one, and else the part of the text that the
query selects, if it is a JSON text. `rel`: the document is the element in scope. -/
inductive ReturnedAt (env : Ext) (m : Msg) (rel : Bool) (query : Str) : Option Json → Prop
  | parsed {d : Json} {x : Option Json} (hI : m.rawI.isSome) (hd : (if rel then m.rawIRel else m.rawI) = some d)
      (h : ValueAt env d query x) : ReturnedAt env m rel query x
  | text {d : Str} (hI : m.rawI = none) (hd : (if rel then m.jsonRawRel else m.jsonRaw) = some d) :
      ReturnedAt env m rel query (env.jsonUnmarshal (env.jsGet d query).1)

/-- One entry for each written name whose path gives a value. -/
inductive Collected (env : Ext) (m : Msg) : List (Str × Str) → Extra → Prop
  | nil : Collected env m [] []
  | value {name path query : Str} {rel : Bool} {v : Json} {l : List (Str × Str)} {e : Extra} (hp : ReturnPath path rel query)
      (h : ReturnedAt env m rel query (some v)) : Collected env m l e → Collected env m ((name, path) :: l) ((name, v) :: e)
  | none {name path query : Str} {rel : Bool} {l : List (Str × Str)} {e : Extra} (hp : ReturnPath path rel query)
      (h : ReturnedAt env m rel query Option.none) : Collected env m l e → Collected env m ((name, path) :: l) e

/-- A path in the whole document. -/
def WholePath (path : Str) : Prop := ∃ query, ReturnPath path false query

end Mapl.Spec

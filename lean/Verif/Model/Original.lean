import Verif.Model.JsonText

/-!
# The splitter that was replaced: check.go:1020-1034
-/

namespace Mapl

/-- check.go:1020-1034, which the code no longer calls (`getArrayOfJsonsFromInterfaceArray` is the faster replacement, see the comment at lines 1038-1039).
`none` is the error. The values are written with `json.Marshal`. -/
def getArrayOfJsonsFromInterfaceArrayOriginal (env : Ext) (s : Str) : Option (List Str) :=
  match jsonParse env s with
  | some (.arr l) => some (l.map env.jsonMarshal)
  | some .null => some []
  | _ => none

end Mapl

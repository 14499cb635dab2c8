import Verif.Model.Types

/-!
# /repo/MAPL_engine/string_utils.go
-/

namespace Mapl

/-- Loop of `RemoveDotQuotes` (string_utils.go:16-41): the two flags, the previous character, the rest of the input. -/
def removeDotQuotesAux (rq rdq : Bool) (prev : Char) : Str → Str
  | [] => []
  | ch :: cs =>
    if prev = '.' ∧ ch = '\'' then removeDotQuotesAux true rdq ch cs
    else if prev = '.' ∧ ch = '"' then removeDotQuotesAux rq true ch cs
    else if rq ∧ ch = '\'' then removeDotQuotesAux false rdq ch cs
    else if rdq ∧ ch = '"' then removeDotQuotesAux rq false ch cs
    else ch :: removeDotQuotesAux rq rdq ch cs

/-- string_utils.go:11-43. -/
def removeDotQuotes (s : Str) : Str := removeDotQuotesAux false false '!' s

/-- The chain of substitutions of string_utils.go:58-63 and :94-99 (same text in both places). -/
def escapeWild (s : Str) : Str :=
  let s := replaceAll s gs"." gs"[.]"
  let s := replaceAll s gs"$" gs"\\$"
  let s := replaceAll s gs"^" gs"\\^"
  let s := replaceAll s gs"*" gs".*"
  let s := replaceAll s gs"?" gs"."
  replaceAll s gs"/" gs"\\/"

/-- Loop of `ConvertStringToRegex` (string_utils.go:56-69): every element but the last is followed by a bar. -/
def wildAlternatives : List Str → Str
  | [] => []
  | [x] => gs"^" ++ escapeWild (trimSpace x) ++ gs"$"
  | x :: y :: ys => gs"^" ++ escapeWild (trimSpace x) ++ gs"$" ++ gs"|" ++ wildAlternatives (y :: ys)

/-- string_utils.go:46-73. -/
def convertStringToRegex (s method : Str) : Str :=
  if method = gs"IN" ∨ method = gs"NIN" ∨ method = gs"WithWildcards" then
    gs"(" ++ wildAlternatives (split ',' s) ++ gs")"
  else gs"^" ++ s ++ gs"$"

/-- string_utils.go:114-128. -/
def convertOperationStringToRegex (s : Str) : Str :=
  if s = gs"*" then gs".*"
  else if s = gs"write" ∨ s = gs"WRITE" then gs"(^POST$|^PUT$|^DELETE$)"
  else if s = gs"read" ∨ s = gs"READ" then gs"(^GET$|^HEAD$|^OPTIONS$|^TRACE$|^read$|^READ$)"
  else convertStringToRegex s gs"WithWildcards"

/-- string_utils.go:130-137. -/
def sliceHasPrefix (sl : List Str) (v : Str) : Bool := sl.any (fun p => hasPrefix v p)

/-- Table of units, string_utils.go:143-144: `strVec` with the corresponding `factorVec` entry as exact rational
(rounded by `Ext.rnd` where it is used; `1e-2` and `0.001` are not exactly representable). -/
def unitTable : List (Str × Rat) :=
  [(gs"%", 1/100), (gs"e3", 10^3), (gs"e6", 10^6), (gs"e9", 10^9), (gs"e12", 10^12), (gs"e15", 10^15), (gs"e18", 10^18),
   (gs"Ki", 1024), (gs"Mi", 1024^2), (gs"Gi", 1024^3), (gs"Ti", 1024^4), (gs"Pi", 1024^5), (gs"Ei", 1024^6),
   (gs"K", 10^3), (gs"M", 10^6), (gs"G", 10^9), (gs"T", 10^12), (gs"P", 10^15), (gs"E", 10^18), (gs"m", 1/1000)]

/-- Loop of `convertStringWithUnits` (string_utils.go:146-156). -/
def convertUnitsIn (s : Str) : List (Str × Rat) → Str × Rat
  | [] => (s, 1)
  | (unit, factor) :: rest =>
    if hasSuffix s unit ∧ countSub s unit = 1 then (replaceAll s unit [], factor)
    else convertUnitsIn s rest

/-- string_utils.go:139-159. -/
def convertStringWithUnits (s : Str) : Str × Rat := convertUnitsIn s unitTable

/-- `valFloat, err := strconv.ParseFloat(tempString, 64); valFloat = valFloat * factor` after `convertStringWithUnits`:
validate_conditions.go:152-155, rules_load.go:348-350, check.go:565-567, 660-669. `none` is a parse error. -/
def parseNumber (env : Ext) (s : Str) : Option F64 :=
  let (t, factor) := convertStringWithUnits s
  (env.parseFloat t).map fun x => fmul env x (env.rnd factor)

/-- string_utils.go:161-175. -/
def removeQuotesAndBrackets (s : Str) : Str :=
  let s := replaceAll s gs"[[" gs"["
  let s := replaceAll s gs"]]" gs"]"
  let s := replaceAll s gs"[\"" gs"\""
  let s := replaceAll s gs"\"]" gs"\""
  let s := if s = gs"[]" then [] else s
  if 2 ≤ s.length ∧ s.head? = some '"' ∧ s.getLast? = some '"' then (s.drop 1).dropLast else s

/-- string_utils.go:177-191; `none` is the result with flag false ("quotation marks not aligned"). The byte length of
the text is at least 2 whenever the character length is; a single non-ASCII character has more bytes but no quotes. -/
def removeQuotesFromResult (s : Str) : Option Str :=
  if 1 < s.length then
    let q0 := s.head? = some '"'
    let qL := s.getLast? = some '"'
    if (q0 ∧ ¬ qL) ∨ (qL ∧ ¬ q0) then none
    else if qL ∧ q0 then some ((s.drop 1).dropLast)
    else some s
  else some s

end Mapl

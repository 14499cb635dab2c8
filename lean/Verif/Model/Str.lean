/-!
# Go strings

Model of the functions of Go's `strings` and `strconv` packages that /repo/MAPL_engine uses.
A Go string is modelled by the list of its characters (valid UTF-8 only, see DESIGN.md).
-/

namespace Mapl

/-- A Go `string`. -/
abbrev Str := List Char

/-- `gs"abc"` is the list of characters of the literal, built at elaboration time so that the kernel
computes with plain lists. -/
macro:max "gs" s:str : term => do
  let cs := (s.getString.toList.map (fun c => Lean.Syntax.mkCharLit c)).toArray
  `(([$cs,*] : List Char))

/-- `strings.HasPrefix(s, p)`. -/
def hasPrefix (s p : Str) : Bool := p.isPrefixOf s

/-- `strings.HasSuffix(s, p)`. -/
def hasSuffix (s p : Str) : Bool := p.isSuffixOf s

/-- `strings.Index(s, sub)`: position of the first occurrence; `none` is Go's -1. -/
def index (sub : Str) : Str → Option Nat
  | [] => if sub.isPrefixOf [] then some 0 else none
  | c :: cs => if sub.isPrefixOf (c :: cs) then some 0 else (index sub cs).map (· + 1)

/-- `strings.Contains(s, sub)`. -/
def contains (s sub : Str) : Bool := (index sub s).isSome

/-- Worker of `countSub`; the number says how many characters of a counted occurrence are still to be skipped. -/
def countAux (sub : Str) : Str → Nat → Nat
  | [], _ => 0
  | _ :: cs, k + 1 => countAux sub cs k
  | c :: cs, 0 => if sub.isPrefixOf (c :: cs) then 1 + countAux sub cs (sub.length - 1) else countAux sub cs 0

/-- `strings.Count(s, sub)` for a non-empty `sub`: non-overlapping occurrences from the left. -/
def countSub (s sub : Str) : Nat := countAux sub s 0

/-- Worker of `replaceAll`; the number says how many characters of a replaced occurrence are still to be skipped. -/
def replaceAux (old new : Str) : Str → Nat → Str
  | [], _ => []
  | _ :: cs, k + 1 => replaceAux old new cs k
  | c :: cs, 0 =>
    if old.isPrefixOf (c :: cs) then new ++ replaceAux old new cs (old.length - 1)
    else c :: replaceAux old new cs 0

/-- `strings.Replace(s, old, new, -1)` for a non-empty `old`. -/
def replaceAll (s old new : Str) : Str := replaceAux old new s 0

/-- `strings.Replace(s, old, new, 1)` for a non-empty `old`. -/
def replaceFirst (old new : Str) : Str → Str
  | [] => []
  | c :: cs => if old.isPrefixOf (c :: cs) then new ++ (c :: cs).drop old.length else c :: replaceFirst old new cs

/-- `strings.Split(s, sep)` for a separator of one character. Never empty: `Split("", ",")` is `[""]`. -/
def split (sep : Char) : Str → List Str
  | [] => [[]]
  | c :: cs =>
    if c = sep then [] :: split sep cs
    else match split sep cs with
      | [] => [[c]]
      | x :: xs => (c :: x) :: xs

/-- `strings.Join(list, sep)`. -/
def join (sep : Str) : List Str → Str
  | [] => []
  | [x] => x
  | x :: y :: ys => x ++ sep ++ join sep (y :: ys)

/-- `unicode.IsSpace`. -/
def isSpace (c : Char) : Bool :=
  let n := c.toNat
  (9 ≤ n && n ≤ 13) || n == 0x20 || n == 0x85 || n == 0xA0 || n == 0x1680 || (0x2000 ≤ n && n ≤ 0x200a)
    || n == 0x2028 || n == 0x2029 || n == 0x202f || n == 0x205f || n == 0x3000

/-- `strings.TrimSpace`. -/
def trimSpace (s : Str) : Str := ((s.dropWhile isSpace).reverse.dropWhile isSpace).reverse

/-- `strings.ToUpper`, on ASCII letters (simplification: other letters are left alone). -/
def toUpper (s : Str) : Str := s.map Char.toUpper

/-- `strings.ToLower`, on ASCII letters (simplification: other letters are left alone). -/
def toLower (s : Str) : Str := s.map Char.toLower

/-- `strings.EqualFold`, on ASCII letters (simplification: no other case folding). -/
def equalFold (s t : Str) : Bool := toLower s == toLower t

/-- Value of a decimal digit. -/
def digitVal (c : Char) : Option Nat :=
  if '0' ≤ c ∧ c ≤ '9' then some (c.toNat - '0'.toNat) else none

/-- Value of a non-empty sequence of decimal digits, most significant first; `none` on any other text. -/
def digitsVal (acc : Nat) : Str → Option Nat
  | [] => some acc
  | c :: cs => match digitVal c with
    | some d => digitsVal (acc * 10 + d) cs
    | none => none

/-- `strconv.ParseUint(s, 10, 64)` without the range check. -/
def parseNat : Str → Option Nat
  | [] => none
  | s => digitsVal 0 s

/-- `strconv.ParseInt(s, 10, 64)`, and `strconv.Atoi` on a 64-bit platform: optional sign, decimal digits, int64 range.
`none` is any error (syntax or range). -/
def parseInt (s : Str) : Option Int :=
  match s with
  | '+' :: t => (parseNat t).bind fun n => if n < 2 ^ 63 then some (n : Int) else none
  | '-' :: t => (parseNat t).bind fun n => if n ≤ 2 ^ 63 then some (-(n : Int)) else none
  | t => (parseNat t).bind fun n => if n < 2 ^ 63 then some (n : Int) else none

/-- Byte-wise string order used by `sort.Strings`. On valid UTF-8 it is the order by code points. -/
def strLe : Str → Str → Bool
  | [], _ => true
  | _ :: _, [] => false
  | a :: as, b :: bs => a < b || (a == b && strLe as bs)

/-- Insertion into a sorted list. -/
def insertBy {α : Type} (le : α → α → Bool) (x : α) : List α → List α
  | [] => [x]
  | y :: ys => if le x y then x :: y :: ys else y :: insertBy le x ys

/-- Sorting by insertion. -/
def sortBy {α : Type} (le : α → α → Bool) (l : List α) : List α := l.foldr (insertBy le) []

/-- `sort.Strings`. The result of sorting by a total order does not depend on the algorithm. -/
def sortStrings (l : List Str) : List Str := sortBy strLe l

/-- Lookup in a Go map modelled as association list. -/
def lookup {α : Type} (k : Str) : List (Str × α) → Option α
  | [] => none
  | (k', v) :: rest => if k = k' then some v else lookup k rest

end Mapl

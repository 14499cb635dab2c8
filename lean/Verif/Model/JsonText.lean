import Verif.Model.Base

/-!
# JSON text

`encoding/json` (outside /repo): the decoder into `interface{}` and the encoder of `map[string]string`, as far as
/repo/MAPL_engine's hand-written `MarshalJSON` methods depend on them.
-/

namespace Mapl

/-- JSON white space. -/
def isJsonWs (c : Char) : Bool := c = ' ' || c = '\n' || c = '\t' || c = '\r'

/-- Skip white space. -/
def skipWs : Str → Str
  | [] => []
  | c :: cs => if isJsonWs c then skipWs cs else c :: cs

/-- Value of a hexadecimal digit. -/
def hexVal (c : Char) : Option Nat :=
  if '0' ≤ c ∧ c ≤ '9' then some (c.toNat - '0'.toNat)
  else if 'a' ≤ c ∧ c ≤ 'f' then some (c.toNat - 'a'.toNat + 10)
  else if 'A' ≤ c ∧ c ≤ 'F' then some (c.toNat - 'A'.toNat + 10)
  else none

/-- Value of the four hexadecimal digits of a `\u` escape. -/
def hex4 (a b c d : Char) : Option Nat := do
  let a ← hexVal a
  let b ← hexVal b
  let c ← hexVal c
  let d ← hexVal d
  pure (((a * 16 + b) * 16 + c) * 16 + d)

/-- The character of a `\u` escape that is not part of a surrogate pair; a lone surrogate becomes U+FFFD. -/
def charOfU (n : Nat) : Char := if 0xD800 ≤ n ∧ n ≤ 0xDFFF then Char.ofNat 0xFFFD else Char.ofNat n

/-- The character a one-letter escape stands for. -/
def simpleEscape (e : Char) : Option Char :=
  if e = '"' then some '"'
  else if e = '\\' then some '\\'
  else if e = '/' then some '/'
  else if e = 'b' then some (Char.ofNat 8)
  else if e = 'f' then some (Char.ofNat 12)
  else if e = 'n' then some '\n'
  else if e = 'r' then some '\r'
  else if e = 't' then some '\t'
  else none

/-- Rest of a string literal after the opening quote: decoded text and what follows the closing quote. `hi` is a pending
high surrogate of a preceding `\u` escape. -/
def parseStrTail (hi : Option Nat) : Str → Option (Str × Str)
  | [] => none
  | '\\' :: 'u' :: a :: b :: c :: d :: cs =>
    match hex4 a b c d with
    | none => none
    | some n =>
      match hi with
      | some h =>
        if 0xDC00 ≤ n ∧ n ≤ 0xDFFF then
          (parseStrTail none cs).map fun r => (Char.ofNat (0x10000 + (h - 0xD800) * 0x400 + (n - 0xDC00)) :: r.1, r.2)
        else if 0xD800 ≤ n ∧ n ≤ 0xDBFF then (parseStrTail (some n) cs).map fun r => (charOfU h :: r.1, r.2)
        else (parseStrTail none cs).map fun r => (charOfU h :: charOfU n :: r.1, r.2)
      | none =>
        if 0xD800 ≤ n ∧ n ≤ 0xDBFF then parseStrTail (some n) cs
        else (parseStrTail none cs).map fun r => (charOfU n :: r.1, r.2)
  | '\\' :: e :: cs =>
    match simpleEscape e with
    | none => none
    | some ch =>
      (parseStrTail none cs).map fun r =>
        (match hi with | some h => charOfU h :: ch :: r.1 | none => ch :: r.1, r.2)
  | c :: cs =>
    if c = '"' then some (match hi with | some h => [charOfU h] | none => [], cs)
    else if c = '\\' then none
    else if c.toNat < 0x20 then none
    else (parseStrTail none cs).map fun r => (match hi with | some h => charOfU h :: c :: r.1 | none => c :: r.1, r.2)

/-- Characters of number tokens. -/
def isNumChar (c : Char) : Bool :=
  (digitVal c).isSome || c = '-' || c = '+' || c = '.' || c = 'e' || c = 'E'

/-- Drop a non-empty run of digits. -/
def digits1 (s : Str) : Option Str :=
  match s.dropWhile (fun c => (digitVal c).isSome) with
  | t => if t.length < s.length then some t else none

/-- JSON's number grammar. -/
def isJsonNumber (s : Str) : Bool :=
  let s := match s with | '-' :: t => t | t => t
  let afterInt : Option Str := match s with
    | '0' :: t => some t
    | t => digits1 t
  match afterInt with
  | none => false
  | some t =>
    let afterFrac : Option Str := match t with
      | '.' :: u => digits1 u
      | u => some u
    match afterFrac with
    | none => false
    | some u =>
      match u with
      | [] => true
      | e :: v =>
        if e = 'e' ∨ e = 'E' then
          let v := match v with | '+' :: w => w | '-' :: w => w | w => w
          digits1 v = some []
        else false

/-- Assignment in a Go map: the last value of a repeated key counts. -/
def setKey {α : Type} (k : Str) (v : α) : List (Str × α) → List (Str × α)
  | [] => [(k, v)]
  | (k', v') :: rest => if k = k' then (k, v) :: rest else (k', v') :: setKey k v rest

mutual
/-- A value at the start of the text and the text after it. The first argument bounds the recursion. -/
def parseValue (env : Ext) : Nat → Str → Option (Json × Str)
  | 0, _ => none
  | f + 1, s =>
    match skipWs s with
    | [] => none
    | c :: cs =>
      if c = '{' then
        match skipWs cs with
        | '}' :: r => some (.obj [], r)
        | t => (parseMembers env f [] t).map fun r => (.obj r.1, r.2)
      else if c = '[' then
        match skipWs cs with
        | ']' :: r => some (.arr [], r)
        | t => (parseElems env f t).map fun r => (.arr r.1, r.2)
      else if c = '"' then (parseStrTail none cs).map fun r => (.str r.1, r.2)
      else if c = 't' then (match cs with | 'r' :: 'u' :: 'e' :: r => some (.bool true, r) | _ => none)
      else if c = 'f' then (match cs with | 'a' :: 'l' :: 's' :: 'e' :: r => some (.bool false, r) | _ => none)
      else if c = 'n' then (match cs with | 'u' :: 'l' :: 'l' :: r => some (.null, r) | _ => none)
      else
        let tok := (c :: cs).takeWhile isNumChar
        if isJsonNumber tok then
          (env.parseFloat tok).map fun x => (.num x, (c :: cs).dropWhile isNumChar)
        else none

/-- Members of an object after the opening brace: at least one. `acc` are the members so far. -/
def parseMembers (env : Ext) : Nat → List (Str × Json) → Str → Option (List (Str × Json) × Str)
  | 0, _, _ => none
  | f + 1, acc, s =>
    match skipWs s with
    | '"' :: cs =>
      match parseStrTail none cs with
      | none => none
      | some (k, r1) =>
        match skipWs r1 with
        | ':' :: r2 =>
          match parseValue env f r2 with
          | none => none
          | some (v, r3) =>
            match skipWs r3 with
            | ',' :: r4 => parseMembers env f (acc ++ [(k, v)]) r4
            | '}' :: r4 => some (acc ++ [(k, v)], r4)
            | _ => none
        | _ => none
    | _ => none

/-- Elements of an array after the opening bracket: at least one. -/
def parseElems (env : Ext) : Nat → Str → Option (List Json × Str)
  | 0, _ => none
  | f + 1, s =>
    match parseValue env f s with
    | none => none
    | some (v, r1) =>
      match skipWs r1 with
      | ',' :: r2 => (parseElems env f r2).map fun r => (v :: r.1, r.2)
      | ']' :: r2 => some ([v], r2)
      | _ => none
end

mutual
/-- A value as a decoder into `interface{}` sees it: of several members of an object with the same name, the last one counts. -/
def Json.once : Json → Json
  | .arr l => .arr (onceElements l)
  | .obj l => .obj ((onceMembers l).foldl (fun a x => setKey x.1 x.2 a) [])
  | j => j

def onceElements : List Json → List Json
  | [] => []
  | j :: l => j.once :: onceElements l

def onceMembers : List (Str × Json) → List (Str × Json)
  | [] => []
  | (k, j) :: l => (k, j.once) :: onceMembers l
end

/-- What a decoder goes through: exactly one value with white space around, with all members of objects in order, also if names are
repeated. The bound on the recursion is more than any text needs. -/
def jsonScan (env : Ext) (s : Str) : Option Json :=
  match parseValue env (2 * s.length + 2) s with
  | some (j, r) => if skipWs r = [] then some j else none
  | none => none

/-- `json.Unmarshal` into `interface{}`. -/
def jsonParse (env : Ext) (s : Str) : Option Json := (jsonScan env s).map Json.once

/-- A hexadecimal digit. -/
def hexDigit (n : Nat) : Char := if n < 10 then Char.ofNat (48 + n) else Char.ofNat (87 + n)

/-- How `encoding/json` writes one character of a string. -/
def quoteChar (c : Char) : Str :=
  if c = '"' then gs"\\\""
  else if c = '\\' then gs"\\\\"
  else if c = '\n' then gs"\\n"
  else if c = '\r' then gs"\\r"
  else if c = '\t' then gs"\\t"
  else if c.toNat < 0x20 ∨ c = '<' ∨ c = '>' ∨ c = '&' then
    ['\\', 'u', '0', '0', hexDigit (c.toNat / 16), hexDigit (c.toNat % 16)]
  else if c.toNat = 0x2028 then gs"\\u2028"
  else if c.toNat = 0x2029 then gs"\\u2029"
  else [c]

/-- How `encoding/json` writes a string. -/
def quoteJson (s : Str) : Str := gs"\"" ++ s.flatMap quoteChar ++ gs"\""

/-- Members of a `map[string]string`. Simplification: the encoder sorts the keys; the order of a map's entries is not
observable after decoding, so the model keeps the order of its list. -/
def renderStringMembers : List (Str × Str) → Str
  | [] => []
  | [(k, v)] => quoteJson k ++ gs":" ++ quoteJson v
  | (k, v) :: kv :: rest => quoteJson k ++ gs":" ++ quoteJson v ++ gs"," ++ renderStringMembers (kv :: rest)

/-- `json.Marshal` of a `map[string]string`. -/
def renderStringMap (l : List (Str × Str)) : Str := gs"{" ++ renderStringMembers l ++ gs"}"

end Mapl

import Verif.Model.StringUtils

/-!
# IP addresses

`net.ParseIP`, `net.ParseCIDR`, `IPNet.Contains` of Go 1.18 (outside /repo, recorded in DESIGN.md), used by
/repo/MAPL_engine/tools.go:103-122 (`isIpCIDR`), messages_load.go:135-138 (`AddNetIpToMessage`),
check.go:194, 226 and string_utils.go:75-110.
-/

namespace Mapl

/-- `net.dtoi`: the decimal number at the start of the text, with the number of characters read; fails on no digit
or on a value of at least 0xFFFFFF. -/
def dtoiAux (n i : Nat) : Str → Option (Nat × Nat)
  | [] => if i = 0 then none else some (n, i)
  | c :: cs => match digitVal c with
    | none => if i = 0 then none else some (n, i)
    | some d => if n * 10 + d ≥ 0xFFFFFF then none else dtoiAux (n * 10 + d) (i + 1) cs

/-- `net.dtoi`. -/
def dtoi (s : Str) : Option (Nat × Nat) := dtoiAux 0 0 s

/-- One decimal byte at the start of the text; leading zeros are rejected (`net.parseIPv4`). -/
def parseOctet (s : Str) : Option (Nat × Str) :=
  match dtoi s with
  | none => none
  | some (n, c) =>
    if n > 0xFF then none
    else if c > 1 ∧ s.head? = some '0' then none
    else some (n, s.drop c)

/-- `net.parseIPv4`: the four bytes. -/
def parseIPv4 (s : Str) : Option (List Nat) := do
  let (a, s) ← parseOctet s
  let s ← match s with | '.' :: t => some t | _ => none
  let (b, s) ← parseOctet s
  let s ← match s with | '.' :: t => some t | _ => none
  let (c, s) ← parseOctet s
  let s ← match s with | '.' :: t => some t | _ => none
  let (d, s) ← parseOctet s
  if s = [] then some [a, b, c, d] else none

/-- First twelve bytes of the 16-byte form of an IPv4 address. -/
def v4Prefix : List Nat := [0, 0, 0, 0, 0, 0, 0, 0, 0, 0, 255, 255]

/-- Value of a hexadecimal digit in `net.xtoi`. -/
def xDigit (c : Char) : Option Nat :=
  if '0' ≤ c ∧ c ≤ '9' then some (c.toNat - '0'.toNat)
  else if 'a' ≤ c ∧ c ≤ 'f' then some (c.toNat - 'a'.toNat + 10)
  else if 'A' ≤ c ∧ c ≤ 'F' then some (c.toNat - 'A'.toNat + 10)
  else none

/-- `net.xtoi`: the hexadecimal number at the start of the text, see `dtoi`. -/
def xtoiAux (n i : Nat) : Str → Option (Nat × Nat)
  | [] => if i = 0 then none else some (n, i)
  | c :: cs => match xDigit c with
    | none => if i = 0 then none else some (n, i)
    | some d => if n * 16 + d ≥ 0xFFFFFF then none else xtoiAux (n * 16 + d) (i + 1) cs

/-- `net.xtoi`. -/
def xtoi (s : Str) : Option (Nat × Nat) := xtoiAux 0 0 s

/-- The loop of `net.parseIPv6`, for `room` more groups: the bytes read so far, the position of `::` among them, and the rest of the text. The result is `none`
if the loop fails or ends before the text. -/
def parseGroups : Nat → List Nat → Option Nat → Str → Option (List Nat × Option Nat)
  | 0, acc, ell, s => if s = [] then some (acc, ell) else none
  | room + 1, acc, ell, s =>
    match xtoi s with
    | none => none
    | some (n, c) =>
      if n > 0xFFFF then none
      else match s.drop c with
        | [] => some (acc ++ [n / 256, n % 256], ell)
        | '.' :: _ =>
          if ell = none ∧ acc.length ≠ 12 then none
          else if acc.length + 4 > 16 then none
          else (parseIPv4 s).map fun b => (acc ++ b, ell)
        | ':' :: ':' :: rest =>
          if ell ≠ none then none
          else if rest = [] then some (acc ++ [n / 256, n % 256], some (acc.length + 2))
          else parseGroups room (acc ++ [n / 256, n % 256]) (some (acc.length + 2)) rest
        | ':' :: [] => none
        | ':' :: rest => parseGroups room (acc ++ [n / 256, n % 256]) ell rest
        | _ => none

/-- The end of `net.parseIPv6`: zeros for `::`, which must stand for at least one group. -/
def expandGroups (acc : List Nat) : Option Nat → Option (List Nat)
  | none => if acc.length < 16 then none else some acc
  | some e => if acc.length < 16 then some (acc.take e ++ List.replicate (16 - acc.length) 0 ++ acc.drop e) else none

/-- `net.parseIPv6`: the sixteen bytes. -/
def parseIPv6 (s : Str) : Option (List Nat) :=
  match s with
  | ':' :: ':' :: rest => if rest = [] then some (List.replicate 16 0) else (parseGroups 8 [] (some 0) rest).bind fun x => expandGroups x.1 x.2
  | s => (parseGroups 8 [] none s).bind fun x => expandGroups x.1 x.2

/-- `net.ParseIP`: the first '.' or ':' decides between IPv4 and IPv6. An IPv4 address is returned in 16-byte form;
the empty list is nil. (The parameter is not used.) -/
def parseIP (_env : Ext) (s : Str) : IP :=
  match s.find? (fun c => c = '.' ∨ c = ':') with
  | some '.' => match parseIPv4 s with
    | some b => v4Prefix ++ b
    | none => []
  | some ':' => (parseIPv6 s).getD []
  | _ => []

/-- `net.CIDRMask(n, 8 * len)`: `n` one bits followed by zeros. -/
def cidrMask (n : Nat) : Nat → List Nat
  | 0 => []
  | len + 1 => if 8 ≤ n then 255 :: cidrMask (n - 8) len else (255 - (2 ^ (8 - n) - 1)) :: cidrMask 0 len

/-- Byte-wise conjunction of two byte lists. -/
def andBytes : List Nat → List Nat → List Nat
  | a :: as, b :: bs => (a &&& b) :: andBytes as bs
  | _, _ => []

/-- `net.ParseCIDR`, network part. (The parameter is not used.) -/
def parseCIDR (_env : Ext) (s : Str) : Option IPNet :=
  match index gs"/" s with
  | none => none
  | some i =>
    let addr := s.take i
    let mask := s.drop (i + 1)
    match parseIPv4 addr with
    | some b => match dtoi mask with
      | some (n, k) => if k = mask.length ∧ n ≤ 32 then some ⟨andBytes b (cidrMask n 4), cidrMask n 4⟩ else none
      | none => none
    | none => match parseIPv6 addr with
      | some b => match dtoi mask with
        | some (n, k) => if k = mask.length ∧ n ≤ 128 then some ⟨andBytes b (cidrMask n 16), cidrMask n 16⟩ else none
        | none => none
      | none => none

/-- `IP.To4`. -/
def to4 (ip : IP) : Option (List Nat) :=
  if ip.length = 4 then some ip
  else if ip.length = 16 ∧ ip.take 12 = v4Prefix then some (ip.drop 12)
  else none

/-- `net.networkNumberAndMask`. -/
def networkNumberAndMask (n : IPNet) : Option (List Nat × List Nat) :=
  let ip? := match to4 n.ip with
    | some b => some b
    | none => if n.ip.length = 16 then some n.ip else none
  match ip? with
  | none => none
  | some ip =>
    if n.mask.length = 4 then (if ip.length = 4 then some (ip, n.mask) else none)
    else if n.mask.length = 16 then (if ip.length = 4 then some (ip, n.mask.drop 12) else some (ip, n.mask))
    else none

/-- `IPNet.Contains`. -/
def IPNet.contains (n : IPNet) (ip : IP) : Bool :=
  match networkNumberAndMask n with
  | none => ip.length = 0 -- nil network number: equal lengths only for a nil address, and then no byte is compared
  | some (nn, m) =>
    let ip := (to4 ip).getD ip
    if ip.length ≠ nn.length then false
    else andBytes nn m = andBytes ip m

/-- tools.go:103-122: (isIP, isCIDR, IP, IPNet). -/
def isIpCIDR (env : Ext) (s : Str) : Bool × Bool × IP × IPNet :=
  match parseCIDR env s with
  | some n => (false, true, [], n)
  | none =>
    let ip := parseIP env s
    if ip ≠ [] then (true, false, ip, {}) else (false, false, [], {})

/-- One iteration of string_utils.go:79-108. -/
def expandOne (env : Ext) (type s0 : Str) : Go ExpandedSR :=
  let s := if type = gs"subnet" ∧ s0 = gs"*" then gs"0.0.0.0/0" else s0
  let ipInfo := if type = gs"subnet" then isIpCIDR env s else (false, false, [], {})
  if type = gs"subnet" ∧ ¬ ipInfo.1 ∧ ¬ ipInfo.2.1 then .error (.err .badSubnet)
  else
    let pat := gs"^" ++ escapeWild (replaceAll s gs" " []) ++ gs"$"
    match compile env pat with
    | none => .error (.err .badRegex)
    | some re => .ok { name := s0, type := type, regexp := some re,
                       isIP := ipInfo.1, isCIDR := ipInfo.2.1, ip := ipInfo.2.2.1, cidr := ipInfo.2.2.2 }

/-- string_utils.go:75-110. -/
def convertStringToExpandedSenderReceiver (env : Ext) (name type : Str) : Go (List ExpandedSR) :=
  (split ',' name).mapM (expandOne env type)

end Mapl

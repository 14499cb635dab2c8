import Verif.Spec.Regex
import Verif.Spec.Match
import Verif.Spec.Address

/-!
# What the texts in a rule mean

Names as globs, operation keywords, subnets; in terms of the texts written in the rule, not of compiled patterns.
-/

namespace Mapl.Spec

/-- The text without its blanks. -/
def noBlanks (s : Str) : Str := s.filter (· ≠ ' ')

/-- One of the comma separated parts of a text: it has no comma, and stands between commas or the ends of the text. -/
def Listed (s p : Str) : Prop :=
  ',' ∉ p ∧ ∃ before after, s = before ++ p ++ after ∧ (before = [] ∨ ∃ x, before = x ++ gs",") ∧
    (after = [] ∨ ∃ x, after = ',' :: x)

/-- White space as Unicode defines it. -/
def white : List Nat :=
  [0x09, 0x0A, 0x0B, 0x0C, 0x0D, 0x20, 0x85, 0xA0, 0x1680, 0x2000, 0x2001, 0x2002, 0x2003, 0x2004, 0x2005, 0x2006, 0x2007,
    0x2008, 0x2009, 0x200A, 0x2028, 0x2029, 0x202F, 0x205F, 0x3000]

/-- The text without the white space around it. -/
def Trimmed (s t : Str) : Prop :=
  (∃ before after, s = before ++ t ++ after ∧ (∀ c ∈ before, c.toNat ∈ white) ∧ ∀ c ∈ after, c.toNat ∈ white) ∧
    (∀ c x, t = c :: x → c.toNat ∉ white) ∧ ∀ c x, t = x ++ [c] → c.toNat ∉ white

/-- One of the comma separated patterns, with blanks removed, is a glob for the name. -/
def NameMatches (patterns name : Str) : Prop := ∃ p, Listed patterns p ∧ Glob (noBlanks p) name

/-- One of the comma separated patterns, trimmed, is a glob for the text. -/
def TextMatches (patterns text : Str) : Prop := ∃ p q, Listed patterns p ∧ Trimmed p q ∧ Glob q text

/-- What the operation of a rule accepts. -/
def OperationMatches (operation method : Str) : Prop :=
  if operation = gs"*" then True
  else if operation = gs"read" ∨ operation = gs"READ" then
    method ∈ [gs"GET", gs"HEAD", gs"OPTIONS", gs"TRACE", gs"read", gs"READ"]
  else if operation = gs"write" ∨ operation = gs"WRITE" then method ∈ [gs"POST", gs"PUT", gs"DELETE"]
  else TextMatches operation method

end Mapl.Spec

namespace Mapl.Spec

/-- The written sender agrees with the message. -/
def SenderText (type name : Str) (m : Msg) : Prop :=
  if type = gs"subnet" then ∃ e, Listed name e ∧ Covers e m.sourceIp
  else (type = gs"*" ∨ type = gs"workload") ∧ NameMatches name m.sourceService

/-- The written receiver agrees with the message. -/
def ReceiverText (type name : Str) (m : Msg) : Prop :=
  if type = gs"subnet" then ∃ e, Listed name e ∧ Covers e m.destinationIp
  else if type = gs"hostname" then NameMatches name m.requestHost
  else (type = gs"*" ∨ type = gs"workload") ∧ NameMatches name m.destinationService

/-- The written protocol and resource agree with the message. -/
def ResourceText (r : Rule) (m : Msg) : Prop :=
  if r.protocol = gs"tcp" then TextMatches r.resourceName m.destinationPort
  else if r.protocol = gs"*" then True
  else SameUpToCase m.contextProtocol r.protocol ∧ (r.resourceType = gs"*" ∨ r.resourceType = m.contextType) ∧
    TextMatches r.resourceName m.requestPath

/-- A name list over the alphabet for which patterns are globs; subnet lists consist of subnets, addresses and `*`. -/
def NameOk (type name : Str) : Prop :=
  if type = gs"subnet" then ∀ e, Listed name e → SubnetEntry e else PlainPattern name

/-- A text without a line break. -/
def OneLine (s : Str) : Prop := '\n' ∉ s

/-- A message as `AddNetIpToMessage` leaves it, with texts without line breaks. -/
structure MsgOk (env : Ext) (m : Msg) : Prop where
  sourceNet : m.sourceNetIp = parseIP env m.sourceIp
  destinationNet : m.destinationNetIp = parseIP env m.destinationIp
  sourceService : OneLine m.sourceService
  destinationService : OneLine m.destinationService
  host : OneLine m.requestHost
  method : OneLine m.requestMethod
  path : OneLine m.requestPath
  port : OneLine m.destinationPort

end Mapl.Spec

namespace Mapl.Spec

/-- What a name stands for: `#key` is the predefined list of that name joined by commas, else the predefined string of
that name; every other text is itself. -/
inductive Resolves (t : Predef) : Str → Str → Prop
  | plain {x : Str} (h : ∀ k, x ≠ '#' :: k) : Resolves t x x
  | list {k : Str} {l : List Str} (h : lookup k t.listsNoRefs = some l) : Resolves t ('#' :: k) (join gs"," l)
  | string {k v : Str} (h : lookup k t.listsNoRefs = none) (hs : lookup k t.strings = some v) : Resolves t ('#' :: k) v

/-- Every part of the rule but its conditions agrees with the message; `sender` and `receiver` are the resolved names. -/
structure WrittenParts (r : Rule) (sender receiver : Str) (m : Msg) : Prop where
  sender : SenderText r.senderType sender m
  receiver : ReceiverText r.receiverType receiver m
  operation : OperationMatches r.operation m.requestMethod
  resource : ResourceText r m

/-- The texts of a rule are over the alphabet for which patterns are globs. -/
structure TextsOk (r : Rule) (sender receiver : Str) : Prop where
  sender : NameOk r.senderType sender
  receiver : NameOk r.receiverType receiver
  operation : PlainPattern r.operation
  resource : PlainPattern r.resourceName

end Mapl.Spec

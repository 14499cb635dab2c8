import Verif.Model.Net

/-! # Addresses and subnets as they are written -/

namespace Mapl.Spec

/-- An IPv4 address. -/
structure V4 where
  a : Fin 256
  b : Fin 256
  c : Fin 256
  d : Fin 256

/-- The digits of a number. -/
def decimal (n : Nat) : Str := Nat.toDigits 10 n

/-- The usual notation. -/
def V4.text (x : V4) : Str := decimal x.a ++ gs"." ++ decimal x.b ++ gs"." ++ decimal x.c ++ gs"." ++ decimal x.d

/-- The address as a number of 32 bits. -/
def V4.val (x : V4) : Nat := ((x.a * 256 + x.b) * 256 + x.c) * 256 + x.d

/-- An entry of a subnet list. -/
inductive Subnet
  | net (x : V4) (bits : Fin 33)
  | addr (x : V4)
  | all

/-- How it is written. -/
def Subnet.text : Subnet → Str
  | .net x n => x.text ++ gs"/" ++ decimal n
  | .addr x => x.text
  | .all => gs"*"

/-- The addresses it stands for: those with the same leading bits, one address, or all. -/
def Subnet.Covers : Subnet → V4 → Prop
  | .net x n, y => x.val / 2 ^ (32 - n.val) = y.val / 2 ^ (32 - n.val)
  | .addr x, y => x = y
  | .all, _ => True

/-! ## IPv6 -/

def Digit10 (c : Char) (d : Nat) : Prop := gs"0123456789"[d]? = some c

def Digit16 (c : Char) (d : Nat) : Prop := gs"0123456789abcdef"[d]? = some c ∨ gs"0123456789ABCDEF"[d]? = some c

/-- A number written in a base. Zeros may lead. -/
inductive WrittenIn (base : Nat) (digit : Char → Nat → Prop) : Str → Nat → Prop
  | one {c : Char} {d : Nat} (h : digit c d) : WrittenIn base digit [c] d
  | more {s : Str} {n : Nat} {c : Char} {d : Nat} (h : WrittenIn base digit s n) (hd : digit c d) : WrittenIn base digit (s ++ [c]) (n * base + d)

/-- A group: a number of 16 bits in hexadecimal. -/
def Group (s : Str) (n : Nat) : Prop := WrittenIn 16 Digit16 s n ∧ n < 65536

/-- Groups with colons between them. -/
inductive Groups : Str → List Nat → Prop
  | one {s : Str} {n : Nat} (h : Group s n) : Groups s [n]
  | more {s t : Str} {n : Nat} {ns : List Nat} (h : Group s n) (ht : Groups t ns) : Groups (s ++ ':' :: t) (n :: ns)

/-- The same, but the last two groups may be written as an IPv4 address. -/
inductive Ending : Str → List Nat → Prop
  | one {s : Str} {n : Nat} (h : Group s n) : Ending s [n]
  | dotted (y : V4) : Ending y.text [y.a * 256 + y.b, y.c * 256 + y.d]
  | more {s t : Str} {n : Nat} {ns : List Nat} (h : Group s n) (ht : Ending t ns) : Ending (s ++ ':' :: t) (n :: ns)

/-- An IPv6 address and its eight groups: all of them, or `::` for one or more groups that are zero. -/
inductive V6Text : Str → List Nat → Prop
  | full {s : Str} {ns : List Nat} (h : Ending s ns) (hl : ns.length = 8) : V6Text s ns
  | short {s t : Str} {a b : List Nat} (ha : s = [] ∧ a = [] ∨ Groups s a) (hb : t = [] ∧ b = [] ∨ Ending t b) (hl : a.length + b.length < 8) :
      V6Text (s ++ gs"::" ++ t) (a ++ List.replicate (8 - (a.length + b.length)) 0 ++ b)

/-- Eight groups as a number of 128 bits. -/
def groupsVal (ns : List Nat) : Nat := ns.foldl (fun x n => x * 65536 + n) 0

/-- An IPv4 address as a number of 128 bits: `::ffff:a.b.c.d`. -/
def V4.wide (y : V4) : Nat := 65535 * 2 ^ 32 + y.val

/-- An address as it is written, and its number. -/
inductive AddressText : Str → Nat → Prop
  | v4 (y : V4) : AddressText y.text y.wide
  | v6 {s : Str} {ns : List Nat} (h : V6Text s ns) : AddressText s (groupsVal ns)

/-- A subnet as it is written: an address in it, and the number of leading bits that its addresses have in common. -/
inductive NetText : Str → Nat → Nat → Prop
  | v4 {t : Str} {n : Nat} (y : V4) (h : WrittenIn 10 Digit10 t n) (hn : n ≤ 32) : NetText (y.text ++ gs"/" ++ t) y.wide (96 + n)
  | v6 {s t : Str} {ns : List Nat} {n : Nat} (hs : V6Text s ns) (h : WrittenIn 10 Digit10 t n) (hn : n ≤ 128) : NetText (s ++ gs"/" ++ t) (groupsVal ns) n
  | all : NetText gs"*" (V4.wide ⟨0, 0, 0, 0⟩) 96

/-- The numbers of IPv4 addresses. -/
def IsV4 (y : Nat) : Prop := y / 2 ^ 32 = 65535

/-- An entry of a list of subnets covers an address: a subnet covers the addresses with its leading bits, an address covers itself, as it is written. IPv4 addresses are
covered by subnets of IPv4 addresses only. -/
def Covers (entry address : Str) : Prop :=
  (∃ x n y, NetText entry x n ∧ AddressText address y ∧ x / 2 ^ (128 - n) = y / 2 ^ (128 - n) ∧ (IsV4 y → 96 ≤ n)) ∨
  entry = address ∧ ∃ y, AddressText entry y

/-- Entries of lists of subnets. -/
def SubnetEntry (s : Str) : Prop := (∃ x n, NetText s x n) ∨ ∃ y, AddressText s y

/-- What an entry is meant to stand for: the addresses that agree with one in their leading bits. An address stands for itself, `*` for every address. -/
inductive EntryMeans : Str → Nat → Nat → Prop
  | net {s : Str} {x n : Nat} (h : NetText s x n) (hs : s ≠ gs"*") : EntryMeans s x n
  | address {s : Str} {y : Nat} (h : AddressText s y) : EntryMeans s y 128
  | all : EntryMeans gs"*" 0 0

/-- An entry of a list of subnets is meant to cover an address, however both are written. -/
def MeantToCover (entry address : Str) : Prop :=
  ∃ x n y, EntryMeans entry x n ∧ AddressText address y ∧ x / 2 ^ (128 - n) = y / 2 ^ (128 - n)

end Mapl.Spec

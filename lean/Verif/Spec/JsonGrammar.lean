import Verif.Model.JsonText

/-!
# The grammar of JSON

RFC 8259, with the meaning that the decoder of Go gives to texts: halves of surrogate pairs that stand alone are U+FFFD. The members of an object are all there, in
order, also if names are repeated.
-/

namespace Mapl.Spec

/-- Only white space. -/
def Blank (s : Str) : Prop := ∀ c ∈ s, c ∈ [' ', '\n', '\t', '\r']

/-- The hexadecimal digits and their values. -/
def hexDigits : List (Char × Nat) :=
  [('0', 0), ('1', 1), ('2', 2), ('3', 3), ('4', 4), ('5', 5), ('6', 6), ('7', 7), ('8', 8), ('9', 9),
   ('a', 10), ('b', 11), ('c', 12), ('d', 13), ('e', 14), ('f', 15), ('A', 10), ('B', 11), ('C', 12), ('D', 13), ('E', 14), ('F', 15)]

/-- The escapes of one letter and what they stand for. -/
def escapes : List (Char × Char) :=
  [('"', '"'), ('\\', '\\'), ('/', '/'), ('b', Char.ofNat 8), ('f', Char.ofNat 12), ('n', '\n'), ('r', '\r'), ('t', '\t')]

/-- What a piece of a string literal gives: a character, or a code unit of UTF-16. -/
inductive Piece
  | char (c : Char)
  | unit (n : Nat)

/-- The text between the quotes and its pieces. -/
inductive Pieces : Str → List Piece → Prop
  | nil : Pieces [] []
  | plain {c s l} (h1 : c ≠ '"') (h2 : c ≠ '\\') (h3 : 0x20 ≤ c.toNat) (h : Pieces s l) : Pieces (c :: s) (.char c :: l)
  | escape {e c s l} (he : (e, c) ∈ escapes) (h : Pieces s l) : Pieces ('\\' :: e :: s) (.char c :: l)
  | unit {a b c d x y z w s l} (ha : (a, x) ∈ hexDigits) (hb : (b, y) ∈ hexDigits) (hc : (c, z) ∈ hexDigits) (hd : (d, w) ∈ hexDigits) (h : Pieces s l) :
      Pieces ('\\' :: 'u' :: a :: b :: c :: d :: s) (.unit (x * 4096 + y * 256 + z * 16 + w) :: l)

/-- First halves of surrogate pairs. -/
def High (n : Nat) : Prop := 0xD800 ≤ n ∧ n < 0xDC00

/-- Second halves of surrogate pairs. -/
def Low (n : Nat) : Prop := 0xDC00 ≤ n ∧ n < 0xE000

/-- The text that pieces stand for. -/
inductive Decoded : List Piece → Str → Prop
  | nil : Decoded [] []
  | char {c l s} (h : Decoded l s) : Decoded (.char c :: l) (c :: s)
  | unit {n l s} (h1 : ¬ High n) (h2 : ¬ Low n) (h : Decoded l s) : Decoded (.unit n :: l) (Char.ofNat n :: s)
  | pair {a b l s} (h1 : High a) (h2 : Low b) (h : Decoded l s) :
      Decoded (.unit a :: .unit b :: l) (Char.ofNat (0x10000 + (a - 0xD800) * 0x400 + (b - 0xDC00)) :: s)
  | high {a l s} (h1 : High a) (h2 : ∀ b l', l = .unit b :: l' → ¬ Low b) (h : Decoded l s) : Decoded (.unit a :: l) (Char.ofNat 0xFFFD :: s)
  | low {b l s} (h1 : Low b) (h : Decoded l s) : Decoded (.unit b :: l) (Char.ofNat 0xFFFD :: s)

/-- The text between quotes stands for the other text. -/
def Literal (s x : Str) : Prop := ∃ l, Pieces s l ∧ Decoded l x

/-- One or more decimal digits. -/
def DigitText (s : Str) : Prop := s ≠ [] ∧ ∀ c ∈ s, c ∈ gs"0123456789"

/-- The texts of numbers: a sign, digits without leading zeros, a fraction, an exponent. -/
def NumberText (s : Str) : Prop := ∃ sign int frac ex, s = sign ++ int ++ frac ++ ex ∧
  (sign = [] ∨ sign = gs"-") ∧ (int = gs"0" ∨ (DigitText int ∧ int.head? ≠ some '0')) ∧ (frac = [] ∨ ∃ t, frac = '.' :: t ∧ DigitText t) ∧
  (ex = [] ∨ ∃ e sg t, ex = e :: (sg ++ t) ∧ e ∈ ['e', 'E'] ∧ sg ∈ [[], gs"+", gs"-"] ∧ DigitText t)

mutual
/-- The text of a value, without white space around it. -/
inductive ValueOf (env : Ext) : Str → Json → Prop
  | null : ValueOf env gs"null" .null
  | true : ValueOf env gs"true" (.bool true)
  | false : ValueOf env gs"false" (.bool false)
  | num {s x} (h : NumberText s) (hx : env.parseFloat s = some x) : ValueOf env s (.num x)
  | str {s x} (h : Literal s x) : ValueOf env ('"' :: (s ++ gs"\"")) (.str x)
  | noElements {w} (h : Blank w) : ValueOf env ('[' :: (w ++ gs"]")) (.arr [])
  | arr {s l} (h : ElementsOf env s l) : ValueOf env ('[' :: (s ++ gs"]")) (.arr l)
  | noMembers {w} (h : Blank w) : ValueOf env ('{' :: (w ++ gs"}")) (.obj [])
  | obj {s l} (h : MembersOf env s l) : ValueOf env ('{' :: (s ++ gs"}")) (.obj l)

/-- One or more values with commas between them. -/
inductive ElementsOf (env : Ext) : Str → List Json → Prop
  | one {w s w' v} (h1 : Blank w) (hv : ValueOf env s v) (h2 : Blank w') : ElementsOf env (w ++ (s ++ w')) [v]
  | more {w s w' v t l} (h1 : Blank w) (hv : ValueOf env s v) (h2 : Blank w') (h : ElementsOf env t l) :
      ElementsOf env (w ++ (s ++ (w' ++ ',' :: t))) (v :: l)

/-- One or more members with commas between them. -/
inductive MembersOf (env : Ext) : Str → List (Str × Json) → Prop
  | oneMember {w0 ks k w1 w2 s v w3} (h0 : Blank w0) (hk : Literal ks k) (h1 : Blank w1) (h2 : Blank w2) (hv : ValueOf env s v) (h3 : Blank w3) :
      MembersOf env (w0 ++ '"' :: (ks ++ '"' :: (w1 ++ ':' :: (w2 ++ (s ++ w3))))) [(k, v)]
  | moreMembers {w0 ks k w1 w2 s v w3 t l} (h0 : Blank w0) (hk : Literal ks k) (h1 : Blank w1) (h2 : Blank w2) (hv : ValueOf env s v) (h3 : Blank w3)
      (h : MembersOf env t l) : MembersOf env (w0 ++ '"' :: (ks ++ '"' :: (w1 ++ ':' :: (w2 ++ (s ++ (w3 ++ ',' :: t)))))) ((k, v) :: l)
end

/-- The text is a JSON document with this value. `env.parseFloat` gives the numbers. -/
def JsonDoc (env : Ext) (s : Str) (j : Json) : Prop := ∃ w t w', Blank w ∧ ValueOf env t j ∧ Blank w' ∧ s = w ++ (t ++ w')

/-! ## Repeated names -/

/-- The names of the members in the order in which they occur first. -/
def firsts : List Str → List Str
  | [] => []
  | k :: ks => k :: (firsts ks).filter (fun k' => k' ≠ k)

/-- The map of a list of members: each name once, with the last value it was given. -/
def LastWins (l m : List (Str × Json)) : Prop :=
  m.map (·.1) = firsts (l.map (·.1)) ∧ ∀ x ∈ m, ∃ a b, l = a ++ x :: b ∧ x.1 ∉ b.map (·.1)

mutual
/-- The second document is the first one without the members that are given again later. -/
inductive Reduced : Json → Json → Prop
  | null : Reduced .null .null
  | bool (b) : Reduced (.bool b) (.bool b)
  | num (x) : Reduced (.num x) (.num x)
  | str (s) : Reduced (.str s) (.str s)
  | arr {l l'} (h : ReducedAll l l') : Reduced (.arr l) (.arr l')
  | obj {l l' m} (h : ReducedKeys l l') (hm : LastWins l' m) : Reduced (.obj l) (.obj m)

inductive ReducedAll : List Json → List Json → Prop
  | nil : ReducedAll [] []
  | cons {j j' l l'} (h : Reduced j j') (hs : ReducedAll l l') : ReducedAll (j :: l) (j' :: l')

inductive ReducedKeys : List (Str × Json) → List (Str × Json) → Prop
  | nil : ReducedKeys [] []
  | cons {k j j' l l'} (h : Reduced j j') (hs : ReducedKeys l l') : ReducedKeys ((k, j) :: l) ((k, j') :: l')
end

end Mapl.Spec

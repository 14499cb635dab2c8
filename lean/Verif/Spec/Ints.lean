import Verif.Model.Str

/-! # Texts of integers -/

namespace Mapl.Spec

/-- A number written with decimal digits, possibly with leading zeros. -/
inductive Numeral : Str → Nat → Prop
  | digit {c d} (h : gs"0123456789"[d]? = some c) : Numeral [c] d
  | more {s n c d} (hs : Numeral s n) (h : gs"0123456789"[d]? = some c) : Numeral (s ++ [c]) (10 * n + d)

/-- An integer between -2^63 and 2^63-1, written with decimal digits and possibly a sign. -/
inductive IntText : Str → Int → Prop
  | plain {s n} (h : Numeral s n) (hn : n < 2 ^ 63) : IntText s n
  | plus {s n} (h : Numeral s n) (hn : n < 2 ^ 63) : IntText ('+' :: s) n
  | minus {s n} (h : Numeral s n) (hn : n ≤ 2 ^ 63) : IntText ('-' :: s) (-n)

end Mapl.Spec

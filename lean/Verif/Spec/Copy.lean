import Verif.Spec.Parse

/-!
# Trees whose copy is the tree itself
-/

namespace Mapl.Spec

/-- No control characters. -/
def NoControl (s : Str) : Prop := ∀ c ∈ s, 0x20 ≤ c.toNat

/-- No character that JSON texts must escape. -/
def Verbatim (s : Str) : Prop := ∀ c ∈ s, c ≠ '"' ∧ c ≠ '\\' ∧ 0x20 ≤ c.toNat

/-- Trees of acceptable conditions without control characters, in which no AND and OR is empty and the paths of ANY and ALL need no escaping. -/
inductive Copyable (env : Ext) : Node → Prop
  | cond {a m v : Str} {r : Option (List (Str × Str))} (ok : Acceptable env a m v) (ha : NoControl a) (hv : NoControl v)
      (hr : ∀ l, r = some l → (l.map (·.1)).Nodup) : Copyable env (condNode env a m v r)
  | and {ns : List Node} (hne : ns ≠ []) (h : ∀ n ∈ ns, Copyable env n) : Copyable env (.and ns)
  | or {ns : List Node} (hne : ns ≠ []) (h : ∀ n ∈ ns, Copyable env n) : Copyable env (.or ns)
  | not {n : Node} (h : Copyable env n) : Copyable env (.not n)
  | any {parent : Str} {ret : List (Str × Str)} {n : Node} (hp : ParentOk parent) (hv : Verbatim parent) (hd : (ret.map (·.1)).Nodup)
      (hr : ∀ x ∈ ret, ∃ q, x.2 = gs"jsonpath:$RELATIVE" ++ q) (h : Copyable env n) : Copyable env (.any (anyFields env parent ret) n)
  | all {parent : Str} {ret : List (Str × Str)} {n : Node} (hp : ParentOk parent) (hv : Verbatim parent) (hd : (ret.map (·.1)).Nodup)
      (hr : ∀ x ∈ ret, ∃ q, x.2 = gs"jsonpath:$RELATIVE" ++ q) (h : Copyable env n) : Copyable env (.all (anyFields env parent ret) n)

end Mapl.Spec

import Verif.Model.Keys

/-! # Documents whose keys need not be texts -/

namespace Mapl.Spec

/-- Every key in the document is a text. -/
inductive TextKeys : KYaml → Prop
  | scalar (t : Str) (v : Scalar) : TextKeys (.scalar t v)
  | seq {l : List KYaml} (h : ∀ y ∈ l, TextKeys y) : TextKeys (.seq l)
  | map {kvs : List (Key × KYaml)} (hk : ∀ x ∈ kvs, x.1.val = .str) (h : ∀ x ∈ kvs, TextKeys x.2) : TextKeys (.map kvs)

/-- Two keys that stand for the same value: the same text, or the same number, truth value or null however it is written. -/
def SameKey (a b : Key) : Prop := a.val = b.val ∧ (a.val = .str → a.text = b.text)

/-- No mapping in the document has a key twice. -/
inductive NoRepeats : KYaml → Prop
  | scalar (t : Str) (v : Scalar) : NoRepeats (.scalar t v)
  | seq {l : List KYaml} (h : ∀ y ∈ l, NoRepeats y) : NoRepeats (.seq l)
  | map {kvs : List (Key × KYaml)} (hk : kvs.Pairwise fun a b => ¬ SameKey a.1 b.1) (h : ∀ x ∈ kvs, NoRepeats x.2) : NoRepeats (.map kvs)

/-- A text as a key. -/
def textKey (s : Str) : Key := ⟨s, .str⟩

/-- In a document of conditions there is a key that is not a text where the names of fields, connectives or return values stand. The fields of a
condition (a mapping with the key `attribute`) may have such keys inside, the entries of `returnValueJsonpath` may not. -/
inductive Misplaced : KYaml → Prop
  | here {kvs : List (Key × KYaml)} {k : Key} {v : KYaml} (h : (k, v) ∈ kvs) (hk : k.val ≠ .str) : Misplaced (.map kvs)
  | element {l : List KYaml} {y : KYaml} (h : y ∈ l) (hy : Misplaced y) : Misplaced (.seq l)
  | under {kvs : List (Key × KYaml)} {k : Key} {v : KYaml} (hc : ∀ w, (textKey gs"attribute", w) ∉ kvs ∧ (textKey gs"Attribute", w) ∉ kvs)
      (h : (k, v) ∈ kvs) (hv : Misplaced v) : Misplaced (.map kvs)
  | returned {kvs rs : List (Key × KYaml)} {k : Key} {v : KYaml} (h : (textKey gs"returnValueJsonpath", .map rs) ∈ kvs) (hr : (k, v) ∈ rs)
      (hk : k.val ≠ .str) : Misplaced (.map kvs)

/-- A key that is decoded into the text `s`. -/
def Names (k : Key) (s : Str) : Prop := k.val ≠ .null ∧ k.text = s

/-- `c` stands under the key `conditions` of one of the rules of a document. -/
def ConditionsOf (y c : KYaml) : Prop :=
  ∃ kvs k l rule k', y = .map kvs ∧ Names k gs"rules" ∧ (k, .seq l) ∈ kvs ∧ .map rule ∈ l ∧ Names k' gs"conditions" ∧ (k', c) ∈ rule

end Mapl.Spec

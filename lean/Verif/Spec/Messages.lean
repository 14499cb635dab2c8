import Verif.Model.Messages
import Mathlib.Algebra.Order.Ring.Rat

/-! # Specification vocabulary for messages -/

namespace Mapl.Spec

/-- What is assumed of rounding to float64: whole numbers up to 2^53 are exact, and numbers of ordinary size have a relative error of
at most 2^-53. -/
structure RoundOk (env : Ext) : Prop where
  whole : ∀ n : Int, |n| ≤ 2 ^ 53 → env.rnd n = .fin n
  near : ∀ q : Rat, 1 / 2 ^ 1022 ≤ q → q ≤ 2 ^ 1023 → ∃ x, env.rnd q = .fin x ∧ |x - q| ≤ q / 2 ^ 53

/-- Seconds since midnight on the clock of the time stamp's zone. -/
def _root_.Mapl.Clock.seconds (c : Clock) : Rat := 3600 * c.hour.val + 60 * c.minute.val + c.second.val + (c.nano.val : Rat) / 10 ^ 9

/-- Seconds since midnight in UTC, for time stamps with whole seconds. -/
def _root_.Mapl.Clock.utc (c : Clock) : Int := (3600 * c.hour.val + 60 * c.minute.val + c.second.val - c.zone) % 86400

/-- A character that has no meaning in the text of labels nor in a JSON string. -/
def LabelChar (c : Char) : Prop := c ∉ gs" {},:\"\\" ∧ ¬ c.toNat < 0x20

/-- The text of labels as it is documented: `{key1:ABbC,key2:DEF}`. -/
def labelText (l : List (Str × Str)) : Str := gs"{" ++ join gs"," (l.map fun x => x.1 ++ gs":" ++ x.2) ++ gs"}"

/-- The labels can be written. -/
def LabelsOk (l : List (Str × Str)) : Prop := (l.map (·.1)).Nodup ∧ ∀ x ∈ l, (∀ c ∈ x.1, LabelChar c) ∧ ∀ c ∈ x.2, LabelChar c

end Mapl.Spec

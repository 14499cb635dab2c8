import Verif.Spec.Policy
import Verif.Spec.Messages

/-!
# Conditions on the time of day and the size

Formulas that compare the time on a clock with whole minutes, and a size with whole numbers.
-/

namespace Mapl.Spec

/-- Formulas. A time has a method, a text and the minutes since midnight that the text writes (in hours); a size has a method, a text and a number. -/
inductive ClockClaim
  | time (k : NumMethod) (m v : Str) (minutes : Nat)
  | size (k : NumMethod) (m v : Str) (n : Int)
  | and (l : List ClockClaim)
  | or (l : List ClockClaim)
  | not (f : ClockClaim)

mutual
/-- How a formula is written as conditions. -/
def ClockClaim.statement : ClockClaim → Statement
  | .time _ m v _ => .cond gs"utcHoursFromMidnight" m v
  | .size _ m v _ => .cond gs"payloadSize" m v
  | .and l => .and (ClockClaim.statements l)
  | .or l => .or (ClockClaim.statements l)
  | .not f => .not f.statement

def ClockClaim.statements : List ClockClaim → List Statement
  | [] => []
  | f :: l => f.statement :: ClockClaim.statements l
end

mutual
/-- What a formula says of a clock (in seconds since midnight) and a size. -/
def ClockClaim.holds (seconds : Rat) (bytes : Int) : ClockClaim → Prop
  | .time k _ _ n => k.holds seconds (60 * n)
  | .size k _ _ n => k.holds bytes n
  | .and l => ClockClaim.allHold seconds bytes l
  | .or l => ClockClaim.someHolds seconds bytes l
  | .not f => ¬ f.holds seconds bytes

def ClockClaim.allHold (seconds : Rat) (bytes : Int) : List ClockClaim → Prop
  | [] => True
  | f :: l => f.holds seconds bytes ∧ ClockClaim.allHold seconds bytes l

def ClockClaim.someHolds (seconds : Rat) (bytes : Int) : List ClockClaim → Prop
  | [] => False
  | f :: l => f.holds seconds bytes ∨ ClockClaim.someHolds seconds bytes l
end

/-- A text of digits, with a point or a sign, which is compiled as a pattern when a condition is prepared. -/
structure NumeralText (env : Ext) (v : Str) : Prop where
  chars : ∀ c ∈ v, c ∈ gs"0123456789.-"
  pattern : env.reOk (gs"^" ++ v ++ gs"$") = true

/-- The text writes that many minutes, in hours: it is read as the float64 that is closest. -/
structure WritesMinutes (env : Ext) (v : Str) (n : Nat) : Prop where
  text : NumeralText env v
  day : n ≤ 1440
  value : ∃ x, env.parseFloat v = some (.fin x) ∧ env.rnd ((n : Rat) / 60) = .fin x ∧ env.rnd x = .fin x

mutual
/-- The texts are those of the numbers, the methods those of the comparisons; connectives are not empty. -/
def ClockClaim.Ok (env : Ext) : ClockClaim → Prop
  | .time k m v n => m ∈ k.spellings ∧ WritesMinutes env v n
  | .size k m v n => m ∈ k.spellings ∧ NumeralText env v ∧ IntText v n
  | .and l => l ≠ [] ∧ ClockClaim.AllOk env l
  | .or l => l ≠ [] ∧ ClockClaim.AllOk env l
  | .not f => f.Ok env

def ClockClaim.AllOk (env : Ext) : List ClockClaim → Prop
  | [] => True
  | f :: l => f.Ok env ∧ ClockClaim.AllOk env l
end

end Mapl.Spec

import Verif.Lemmas.Parse
import Verif.Props.Leaf
import Verif.Props.Crash

/-!
# C69: numbers as values of conditions

A rule document may write the value of a condition as a number instead of a text. The number is printed (`fmt.Sprintf("%v")`,
definitions_rule.go:179) before it is read again. From JSON every number is a float64, and large floats are printed with an exponent
(1000000 as `1e+06`), which is not the text of an integer.
-/

namespace Mapl.Props
open Spec

/-- A condition document whose value is a number. -/
def numberCond (attr method : Str) (x : F64) : Json :=
  .obj [(gs"attribute", .str attr), (gs"method", .str method), (gs"value", .num x)]

/-- A condition document whose value is a text. -/
def textCond (attr method value : Str) : Json :=
  .obj [(gs"attribute", .str attr), (gs"method", .str method), (gs"value", .str value)]

/-- The environment of the examples, with a million printed as Go does. -/
def expEnv : Env :=
  { Demo.env with
    fmtFloat := fun x => if x = .fin 1000000 then gs"1e+06" else Demo.env.fmtFloat x
    parseFloat := fun s => if s = gs"1e+06" then some (.fin 1000000) else Demo.env.parseFloat s }

variable {env : Env} {p q : List Nat} {msg : Msg} {t : Predef}

theorem number_parsed {a m : Str} {x : F64} {n : Node} (h : parseConditionsTree env p (numberCond a m x) = .ok n) :
    n = condNode env a m (env.fmtFloat x) none := by
  have h1 : getNodeCondition env [(gs"attribute", .str a), (gs"method", .str m), (gs"value", .num x)] [] = .ok n := h
  simp only [getNodeCondition, Go.bind_eq_ok] at h1
  obtain ⟨cn, h2, k, h3, h1⟩ := h1
  obtain ⟨-, rfl⟩ := prepareOneConditionNode_iff.1 h3
  have : cn = { attr := a, method := m, value := env.fmtFloat x, ret := none } := by
    cases h2; rfl
  subst this
  simp at h1
  exact h1.symm

theorem text_parsed {a m v : Str} {n : Node} (h : parseConditionsTree env p (textCond a m v) = .ok n) :
    n = condNode env a m v none := by
  have h1 : getNodeCondition env [(gs"attribute", .str a), (gs"method", .str m), (gs"value", .str v)] [] = .ok n := h
  simp only [getNodeCondition, Go.bind_eq_ok] at h1
  obtain ⟨cn, h2, k, h3, h1⟩ := h1
  obtain ⟨-, rfl⟩ := prepareOneConditionNode_iff.1 h3
  have : cn = { attr := a, method := m, value := v, ret := none } := by
    cases h2; rfl
  subst this
  simp at h1
  exact h1.symm

theorem condNode_prepared {a m v : Str} {n : Node} (h : (condNode env a m v none).prepare env t = .ok n) :
    ∃ c, n = .cond c ∧ (parsed env a m v none).prepare env t = .ok c := by
  simp only [condNode, Node.prepare, Go.bind_eq_ok, Go.pure_eq, Except.ok.injEq] at h
  obtain ⟨c, hc, rfl⟩ := h
  exact ⟨c, rfl, hc⟩

theorem parseInt_not_reference {s : Str} {x : Int} (h : IntText s x) : ∀ k, s ≠ '#' :: k := by
  rw [intText_iff] at h
  rintro k rfl
  cases h

/-- **C69** (partial: numbers that are printed as the text of an integer; see `C69_violated`). A size written as a number is compared
as that number. -/
theorem C69_size_partial {k : NumMethod} {s : Str} {x : F64} {i : Int} {n n' : Node} (hs : s ∈ k.spellings)
    (hx : IntText (env.fmtFloat x) i) (h : parseConditionsTree env p (numberCond gs"payloadSize" s x) = .ok n)
    (hp : n.prepare env t = .ok n') : eval env n' q msg = .ok ⟨decide (k.holds msg.requestSize i), [], msg⟩ := by
  rw [number_parsed h] at hp
  obtain ⟨c, rfl, hc⟩ := condNode_prepared hp
  rw [eval, C25_payload hs hc (.plain (parseInt_not_reference hx)) hx]
  rfl

/-- **C69.** A json value is compared with a number written as a number as with that number, if printing a number and reading it
again gives the number. -/
theorem C69_json {k : NumMethod} {s path text : Str} {x y : F64} {n n' : Node} (hord : env.OrdOk) (hs : s ∈ k.spellings)
    (hx : parseNumber env (env.fmtFloat x) = some x) (hr : ∀ k, env.fmtFloat x ≠ '#' :: k)
    (h : parseConditionsTree env p (numberCond (gs"jsonpath:" ++ path) s x) = .ok n) (hp : n.prepare env t = .ok n')
    (hsel : SelectsText env msg path text) (hy : parseNumber env text = some y) :
    eval env n' q msg = .ok ⟨decide (k.holdsF y x), [], msg⟩ := by
  rw [number_parsed h] at hp
  obtain ⟨c, rfl, hc⟩ := condNode_prepared hp
  rw [eval, C25_json hord hs hc (.plain hr) hx hsel hy]
  rfl

/-- **C69 is violated** by sizes that are printed with an exponent: the rule is accepted, and its check crashes on every message. -/
theorem C69_violated {m : Str} {x : F64} {n n' : Node} (hm : Compares m) (hx : ∀ i, ¬ IntText (env.fmtFloat x) i)
    (hr : ∀ k, env.fmtFloat x ≠ '#' :: k) (h : parseConditionsTree env p (numberCond gs"payloadSize" m x) = .ok n)
    (hp : n.prepare env t = .ok n') : eval env n' q msg = .error (.panic .nilDeref) := by
  rw [number_parsed h] at hp
  obtain ⟨c, rfl, hc⟩ := condNode_prepared hp
  rw [eval, C32_size_crashes hc (.plain hr) hm hx]
  rfl

/-- The same size written as a text is compared. -/
theorem C69_text {k : NumMethod} {s v : Str} {i : Int} {n n' : Node} (hs : s ∈ k.spellings)
    (hx : IntText v i) (h : parseConditionsTree env p (textCond gs"payloadSize" s v) = .ok n)
    (hp : n.prepare env t = .ok n') : eval env n' q msg = .ok ⟨decide (k.holds msg.requestSize i), [], msg⟩ := by
  rw [text_parsed h] at hp
  obtain ⟨c, rfl, hc⟩ := condNode_prepared hp
  rw [eval, C25_payload hs hc (.plain (parseInt_not_reference hx)) hx]
  rfl

/-- Parse and prepare: is it accepted? -/
def accepted (env : Env) (j : Json) : Bool :=
  match parseConditionsTree env [] j with
  | .ok n => (match n.prepare env {} with | .ok _ => true | .error _ => false)
  | .error _ => false

example : accepted expEnv (numberCond gs"payloadSize" gs"GT" (.fin 1000000)) = true ∧
    (∀ i, ¬ IntText (expEnv.fmtFloat (.fin 1000000)) i) ∧ Compares gs"GT" :=
  ⟨by decide +kernel, intText_none.2 (by decide +kernel), .gt, by decide⟩

example : accepted expEnv (textCond gs"payloadSize" gs"GT" gs"1000000") = true ∧ IntText gs"1000000" 1000000 ∧
    accepted expEnv (numberCond gs"payloadSize" gs"GT" (.fin 1000)) = true ∧ IntText (expEnv.fmtFloat (.fin 1000)) 1000 :=
  ⟨by decide +kernel, intText_iff.2 (by decide +kernel), by decide +kernel, intText_iff.2 (by decide +kernel)⟩

example : accepted expEnv (numberCond gs"jsonpath:$.replicas" gs"GT" (.fin 1000000)) = true ∧
    parseNumber expEnv (expEnv.fmtFloat (.fin 1000000)) = some (.fin 1000000) ∧ expEnv.fmtFloat (.fin 1000000) = gs"1e+06" := by
  refine ⟨by decide +kernel, by decide +kernel, by decide +kernel⟩

end Mapl.Props

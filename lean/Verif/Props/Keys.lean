import Verif.Lemmas.Keys
import Verif.Props.Loads

/-!
# C91: keys that are not texts

In YAML the keys `1`, `yes`, `on` and `~` are a number, truth values and null. The full statement, that the readers refuse a document with such a key among
the names of fields, connectives and return values of a condition with an error, is false: they crash, see `C91_crash` and `C91_violated`. Proved is that they
do not accept it, and that such keys elsewhere change nothing.
-/

namespace Mapl.Props

open Spec

variable {env : Env} {printed : KJson → Str}

/-- **C91**, partial: a document with a key that is not a text in the conditions of a rule is not read as rules, neither from a string nor from a file. (The full
statement says in addition that the readers return an error.) -/
theorem C91_partial (ho : env.OrdOk) {y c : KYaml} (hc : ConditionsOf y c) (h : Misplaced c) (hn : NoRepeats c) (rs : List Rule) :
    readRulesK env printed y ≠ .ok (rs, none) ∧ readRulesFileK env printed y ≠ .ok (rs, none) := by
  refine ⟨readRulesK_misplaced ho hc h hn rs, ?_⟩
  unfold readRulesFileK
  split
  · exact readRulesK_misplaced ho hc h hn rs
  · intro e; cases e

/-- **C91.** If the keys in the conditions of a document are texts, then the readers do with it what they do with the document in which all other keys are texts,
too: what the properties on reading say of those (C46, C47, C77, C78) holds for it. -/
theorem C91_texts {y : KYaml} (h : ∀ c, ConditionsOf y c → TextKeys c) : readRulesK env printed y = readRules env y.named := by
  refine readRulesK_texts fun kvs e x hx hk l hl rule hr z hz hk' => ?_
  obtain ⟨k, v⟩ := x
  obtain ⟨k', c⟩ := z
  cases hl
  exact h c ⟨kvs, k, l, rule, k', e, name_names (by decide) hk, hx, hr, name_names (by decide) hk', hz⟩

/-- **C91.** From a file, a document in which no key is repeated is read as from a string; keys are compared by what they stand for. -/
theorem C91_file {y : KYaml} : (NoRepeats y → readRulesFileK env printed y = readRulesK env printed y) ∧ (¬ NoRepeats y → ∃ e, readRulesFileK env printed y = .ok ([], some e)) := by
  unfold readRulesFileK
  constructor
  · intro h; rw [if_pos ((testYamlK_iff y).2 h)]
  · intro h; rw [if_neg fun c => h ((testYamlK_iff y).1 c)]; exact ⟨_, rfl⟩

/-- **C91 fails**, in general: if the conditions of a rule are a mapping with a key that is not a text, the readers crash, whatever else is in it, if the rules before it
are read. -/
theorem C91_crash {a b : List KYaml} {rule rule' c : List (Key × KYaml)} {k k' : Key} {v : KYaml} (hk : Names k' gs"conditions")
    (hr : ∀ x ∈ rule, ¬ Names x.1 gs"conditions") (hv : (k, v) ∈ c) (ht : k.val ≠ .str) {rs : List Rule}
    (ha : readRulesK env printed (.map [(textKey gs"rules", .seq a)]) = .ok (rs, none)) :
    readRulesK env printed (.map [(textKey gs"rules", .seq (a ++ .map (rule ++ (k', .map c) :: rule') :: b))]) = .error (.panic .typeAssertion) := by
  have hn : (textKey gs"rules").name = gs"rules" := rfl
  have hd : ∃ z, decodeRuleListK env printed [0] 0 a = .ok z := by
    unfold readRulesK at ha
    split at ha
    · rename_i hd
      rw [decodeRulesK, decodeRulesEntriesK, if_pos hn, Go.bind_eq_ok] at hd
      obtain ⟨z, hz, -⟩ := hd
      exact ⟨z, hz⟩
    · cases ha
    · cases ha
    · cases ha
  obtain ⟨z, hz⟩ := hd
  have hrule : ∀ i, decodeRuleK env printed (i :: [0]) (.map (rule ++ (k', .map c) :: rule')) = .error (.panic .typeAssertion) := by
    intro i
    refine decodeRuleEntriesK_crash (names_name hk) (fun old => decodeConditionsK_crash hv ht) fun x hx e => ?_
    exact hr x hx (name_names (by decide) e)
  unfold readRulesK
  rw [decodeRulesK, decodeRulesEntriesK, if_pos hn, decodeRulesKeyK, decodeRuleListK_crash hrule hz]
  rfl

/-- A text, and an entry under a text. -/
def textK (s : Str) : KYaml := .scalar s .str
def entryK (k : Str) (v : KYaml) : Key × KYaml := (textKey k, v)

/-- The key `on`, which is a truth value. -/
def onKey : Key := ⟨gs"on", .bool true⟩

/-- Conditions in which `on` was written for `AND`, and in which it stands below `AND`. -/
def onRoot : KYaml := .map [(onKey, .seq [.map [entryK gs"attribute" (textK gs"payloadSize"), entryK gs"method" (textK gs"GE"), entryK gs"value" (.scalar gs"10" (.int 10))]])]
def onBelow : KYaml := .map [entryK gs"AND" (.seq [.map [entryK gs"attribute" (textK gs"payloadSize"), entryK gs"method" (textK gs"GE"),
  entryK gs"value" (.scalar gs"10" (.int 10))], .map [(onKey, .seq [])]])]
/-- Return values under a number. -/
def oneReturned : KYaml := .map [entryK gs"attribute" (textK gs"payloadSize"), entryK gs"method" (textK gs"GE"), entryK gs"value" (.scalar gs"10" (.int 10)),
  entryK gs"returnValueJsonpath" (.map [(⟨gs"1", .int 1⟩, textK gs"jsonpath:$.a")])]

/-- A document with one rule. -/
def docK (c : KYaml) : KYaml := .map [entryK gs"rules" (.seq [.map [entryK gs"ruleID" (textK gs"7"), entryK gs"conditions" c]])]

/-- **C91 fails**: such documents crash the readers. -/
theorem C91_violated : ∃ (env : Env) (printed : KJson → Str) (cs : List KYaml), env.OrdOk ∧ cs = [onRoot, onBelow, oneReturned] ∧ ∀ c ∈ cs,
    Misplaced c ∧ NoRepeats (docK c) ∧ readRulesK env printed (docK c) = .error (.panic .typeAssertion) ∧
    readRulesFileK env printed (docK c) = .error (.panic .typeAssertion) := by
  refine ⟨Demo.env, fun _ => [], _, Demo.env_ordOk, rfl, ?_⟩
  intro c hc
  simp only [List.mem_cons, List.not_mem_nil, or_false] at hc
  rcases hc with rfl | rfl | rfl
  · exact ⟨.here List.mem_cons_self (by decide), (testYamlK_iff _).1 (by decide +kernel), rfl, rfl⟩
  · refine ⟨.under (fun w => ?_) List.mem_cons_self (.element (List.mem_cons_of_mem _ List.mem_cons_self) (.here List.mem_cons_self (by decide))),
      (testYamlK_iff _).1 (by decide +kernel), rfl, rfl⟩
    constructor <;> (intro h; rw [List.mem_singleton, entryK, Prod.mk.injEq] at h; exact absurd h.1 (by decide))
  · exact ⟨.returned (k := ⟨gs"1", .int 1⟩) (List.mem_cons_of_mem _ (List.mem_cons_of_mem _ (List.mem_cons_of_mem _ List.mem_cons_self))) List.mem_cons_self (by decide),
      (testYamlK_iff _).1 (by decide +kernel), rfl, rfl⟩

theorem docK_conditions (c : KYaml) : ConditionsOf (docK c) c :=
  ⟨_, _, _, _, _, rfl, ⟨by decide, rfl⟩, List.mem_cons_self, List.mem_cons_self, ⟨by decide, rfl⟩, List.mem_cons_of_mem _ List.mem_cons_self⟩

/-- The hypotheses of `C91_partial` hold of the documents of `C91_violated`. -/
example (rs : List Rule) : readRulesK Demo.env (fun _ => []) (docK onBelow) ≠ .ok (rs, none) := by
  obtain ⟨env, printed, cs, -, rfl, h⟩ := C91_violated
  obtain ⟨h1, h2, -, -⟩ := h onBelow (by simp)
  refine (C91_partial Demo.env_ordOk (docK_conditions _) h1 ?_ rs).1
  cases h2 with | map _ h2 =>
    cases h2 _ List.mem_cons_self with | seq h2 =>
      cases h2 _ List.mem_cons_self with | map _ h2 => exact h2 _ (List.mem_cons_of_mem _ List.mem_cons_self)

/-- A number as a key of the metadata, and as an unknown key of a rule. -/
def oneMetadata : KYaml := .map [entryK gs"rules" (.seq [.map [entryK gs"metadata" (.map [(⟨gs"1", .int 1⟩, textK gs"a")]), (⟨gs"2", .int 2⟩, textK gs"b"),
  entryK gs"conditions" (.map [entryK gs"attribute" (textK gs"payloadSize"), entryK gs"method" (textK gs"GE"), entryK gs"value" (.scalar gs"10" (.int 10))])]])]

/-- The hypothesis of `C91_texts`: numbers as keys outside of the conditions do no harm. -/
example : readRulesK Demo.env printed oneMetadata = readRules Demo.env oneMetadata.named ∧ ∃ r, readRules Demo.env oneMetadata.named = .ok ([r], none) ∧
    r.metadata = [(gs"1", gs"a")] := by
  refine ⟨C91_texts ?_, _, rfl, rfl⟩
  rintro c ⟨kvs, k, l, rule, k', e, hk, hl, hr, hk', hc⟩
  cases e
  simp only [entryK, List.mem_singleton, Prod.mk.injEq, KYaml.seq.injEq] at hl
  obtain ⟨rfl, rfl⟩ := hl
  simp only [List.mem_singleton, KYaml.map.injEq] at hr
  subst hr
  simp only [List.mem_cons, Prod.mk.injEq, List.not_mem_nil, or_false] at hc
  rcases hc with ⟨rfl, rfl⟩ | ⟨rfl, rfl⟩ | ⟨rfl, rfl⟩
  · exact absurd hk'.2 (by decide)
  · exact absurd hk'.2 (by decide)
  · refine .map ?_ ?_
    · intro x hx
      simp only [List.mem_cons, List.not_mem_nil, or_false] at hx
      rcases hx with rfl | rfl | rfl <;> rfl
    · intro x hx
      simp only [List.mem_cons, List.not_mem_nil, or_false] at hx
      rcases hx with rfl | rfl | rfl <;> exact .scalar _ _

/-- The hypotheses of `C91_crash`: the rule before it is read. -/
example : readRulesK Demo.env printed (.map [(textKey gs"rules", .seq ([.map []] ++ .map ([] ++ (textKey gs"conditions", onRoot) :: []) :: [.map []]))]) =
    .error (.panic .typeAssertion) :=
  C91_crash (rs := [{}]) ⟨by decide, rfl⟩ (by simp) List.mem_cons_self (by decide) rfl

/-- Inside the value of a condition such a key is accepted; the value is its text. -/
example : ∃ r c, readRulesK Demo.env (fun _ => gs"map[1:a]") (docK (.map [entryK gs"attribute" (textK gs"senderLabel[a]"), entryK gs"method" (textK gs"EQ"),
    entryK gs"value" (.map [(⟨gs"1", .int 1⟩, textK gs"a")])])) = .ok ([r], none) ∧ r.conditions = some (.cond c) ∧ c.value = gs"map[1:a]" :=
  ⟨_, _, rfl, rfl, rfl⟩

end Mapl.Props

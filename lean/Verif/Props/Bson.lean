import Verif.Lemmas.Bson
import Verif.Props.JsonRule

/-!
# Rules in a database

C85: a rule that is stored in a database and read back is the same rule: it has the same hash and decides as before.
-/

namespace Mapl.Props
open Spec

variable {env : Env} {rs rs' : List Rule} {r r' : Rule}

/-- **C85**, partial: conditions that can be copied are stored, and are read back as the same conditions. Missing: other conditions, see `C85_violated`. -/
theorem C85_tree_partial (ho : env.OrdOk) {n : Node} (hc : Copyable env n) (hn : NamesOk n) :
    ∃ doc, marshalBson env (some n) = .ok doc ∧ ∀ p, ∃ n', unmarshalBson env p doc = .ok (some n') ∧ SameTree n n' := by
  obtain ⟨kvs, h1, -, h2⟩ := bson_tree ho hc hn
  exact ⟨_, h1, h2⟩

/-- **C85**: no conditions are read back as no conditions. -/
theorem C85_noConditions : ∃ doc, marshalBson env none = .ok doc ∧ ∀ p, unmarshalBson env p doc = .ok none :=
  ⟨_, bson_noTree.1, bson_noTree.2⟩

/-- **C85**, partial: a rule is stored, and read back as the same rule. Missing: conditions that cannot be copied, rules that have been prepared. -/
theorem C85_partial (ho : env.OrdOk) (h : BsonStorable env r) (p : List Nat) :
    ∃ doc, bsonMarshalRule env p r = .ok doc ∧ ∀ q, ∃ r', bsonUnmarshalRule env q doc = .ok r' ∧ StoredAs r r' := bson_rule ho h p

/-- The rule `r'` is what is read from where `r` was stored. -/
def Reread (env : Env) (r r' : Rule) : Prop := ∃ p q doc, bsonMarshalRule env p r = .ok doc ∧ bsonUnmarshalRule env q doc = .ok r'

theorem reread_stored (ho : env.OrdOk) (h : BsonStorable env r) (hr : Reread env r r') : StoredAs r r' := by
  obtain ⟨p, q, doc, h1, h2⟩ := hr
  obtain ⟨doc', g1, g2⟩ := bson_rule ho h p
  rw [h1] at g1; cases g1
  obtain ⟨r2, g3, g4⟩ := g2 q
  rw [h2] at g3; cases g3
  exact g4

/-- **C85**, partial: the rule that is read back has the same text and the same hash. -/
theorem C85_hash_partial (ho : env.OrdOk) (h : BsonStorable env r) (hr : Reread env r r') : ruleToString r' = ruleToString r ∧ ruleMD5Hash env r' = ruleMD5Hash env r := by
  have := storedAs_string (e := env.toExt) h.conditions (reread_stored ho h hr)
  exact ⟨this, by rw [ruleMD5Hash, ruleMD5Hash, this]⟩

/-- **C85**, partial: the rules that are read back decide as the rules that were stored: with all tables and for all messages both checks fail in the same way, or both give
the same answer. -/
theorem C85_decisions_partial (ho : env.OrdOk) (h : ∀ r ∈ rs, BsonStorable env r) (hr : List.Forall₂ (Reread env) rs rs') (t : Predef) (msg : Msg) :
    Outcomes AnswersAlike (check env t msg (rs.map parsedRule)) (check env t msg (rs'.map parsedRule)) := by
  refine storedAs_policy ho (fun r hr => (h r hr).toStorable) ?_
  induction hr with
  | nil => exact .nil
  | cons hr _ ih => exact .cons (reread_stored ho (h _ (List.mem_cons_self ..)) hr) (ih fun r hr => h r (List.mem_cons_of_mem _ hr))

namespace BsonDemo

/-- A rule with two return values and two entries of metadata, not in the order of their names. -/
def stored : Rule :=
  { blockRule with
    conditions := some (.and [.any (anyFields Demo.env gs"jsonpath:$.b" [(gs"y", gs"jsonpath:$RELATIVE.y"), (gs"x", gs"jsonpath:$RELATIVE.x")])
      (condNode Demo.env gs"jsonpath:$RELATIVE.x" gs"EX" [] none), condNode Demo.env gs"domain" gs"EQ" gs"a\"b" none])
    metadata := [(gs"name", gs"n"), (gs"description", gs"d")], decision := gs"block" }

/-- What is read. -/
def reread : Rule :=
  { stored with
    conditions := some (.and [.any (anyFields Demo.env gs"jsonpath:$.b" [(gs"x", gs"jsonpath:$RELATIVE.x"), (gs"y", gs"jsonpath:$RELATIVE.y")])
      (condNode Demo.env gs"jsonpath:$RELATIVE.x" gs"EX" [] none), condNode Demo.env gs"domain" gs"EQ" gs"a\"b" none]) }

theorem storable : BsonStorable Demo.env stored := by
  have a1 : ∃ c', validateOneCondition Demo.env { attr := gs"jsonpath:$RELATIVE.x", method := gs"EX", value := [] } = .ok c' := ⟨_, rfl⟩
  have a2 : ∃ c', validateOneCondition Demo.env { attr := gs"domain", method := gs"EQ", value := gs"a\"b" } = .ok c' := ⟨_, rfl⟩
  obtain ⟨_, a1⟩ := a1
  obtain ⟨_, a2⟩ := a2
  refine ⟨⟨⟨rfl, rfl, rfl, rfl⟩, by simp [stored], fun n hn => ?_⟩, rfl, ?_, fun n hn => ?_⟩
  · cases hn
    refine .and (by simp) ?_
    simp only [List.mem_cons, List.not_mem_nil, or_false]
    rintro n (rfl | rfl)
    · refine .any (.inr (.inl ⟨_, rfl⟩)) (by unfold Verbatim; decide) (by simp) ?_
        (.cond (validateOneCondition_iff.1 a1).1 (by unfold NoControl; decide) (by unfold NoControl; decide) (by simp))
      simp only [List.mem_cons, List.not_mem_nil, or_false]
      rintro x (rfl | rfl) <;> exact ⟨_, rfl⟩
    · exact .cond (validateOneCondition_iff.1 a2).1 (by unfold NoControl; decide) (by unfold NoControl; decide) (by simp)
  · have : ∀ x ∈ stored.metadata, badKey x.1 = false := by decide
    exact fun x hx => badKey_iff.1 (this x hx)
  · cases hn
    have k : ∀ k ∈ [gs"x", gs"y"], NoNul k := fun k hk => badKey_iff.1 ((by decide : ∀ k ∈ [gs"x", gs"y"], badKey k = false) k hk)
    simp only [NamesOk, NamesOkAll, condNode, and_true]
    refine ⟨⟨?_, by simp [parsed_texts.2.2.2.1]⟩, by simp [parsed_texts.2.2.2.1]⟩
    simp only [anyFields, List.map_cons, List.map_nil, List.mem_cons, List.not_mem_nil, or_false]
    rintro x (rfl | rfl)
    · exact k _ (by simp [anyRetVal])
    · exact k _ (by simp [anyRetVal])

set_option maxRecDepth 20000 in
theorem rereads : Reread Demo.env stored reread := ⟨[], [], _, by with_unfolding_all rfl, by with_unfolding_all rfl⟩

end BsonDemo

/-- The hypotheses of the theorems are met, and the rule is not read back literally. -/
example : BsonStorable Demo.env BsonDemo.stored ∧ List.Forall₂ (Reread Demo.env) [BsonDemo.stored] [BsonDemo.reread] ∧ BsonDemo.reread ≠ BsonDemo.stored :=
  ⟨BsonDemo.storable, .cons BsonDemo.rereads .nil, by
    intro h
    have : BsonDemo.reread.conditions = BsonDemo.stored.conditions := by rw [h]
    simp [BsonDemo.reread, BsonDemo.stored, anyFields, anyRetVal] at this⟩

set_option maxRecDepth 20000 in
/-- **C85 fails**: of two rules that the parser accepts one is read back with a condition on another path, and one cannot be stored at all: it is a `Storable` rule whose
metadata has a name with the character NUL. -/
theorem C85_violated : ∃ (env : Env) (c : Node) (r r' : Rule), env.OrdOk ∧ Plain env r ∧ Plain env r' ∧
    r = { blockRule with conditions := some (.any (anyFields env sneaky []) c) } ∧
    (do let d ← bsonMarshalRule env [] r; bsonUnmarshalRule env [] d) = .ok { blockRule with conditions := some (.any (anyFields env gs"jsonpath:$.b" []) c) } ∧
    r' = { blockRule with metadata := [([Char.ofNat 0], gs"v")] } ∧ Storable env r' ∧ ∃ e, bsonMarshalRule env [] r' = .error (.err e) := by
  have hc : Writable Demo.env (condNode Demo.env gs"jsonpath:$RELATIVE.x" gs"EX" [] none) := by
    refine .cond ?_ (by simp)
    have : ∃ c', validateOneCondition Demo.env { attr := gs"jsonpath:$RELATIVE.x", method := gs"EX", value := [] } = .ok c' := ⟨_, rfl⟩
    obtain ⟨c', h⟩ := this
    exact (validateOneCondition_iff.1 h).1
  refine ⟨Demo.env, condNode Demo.env gs"jsonpath:$RELATIVE.x" gs"EX" [] none, _, _, Demo.env_ordOk, ?_, ?_, rfl, ?_, rfl, ?_, ?_⟩
  · exact ⟨⟨rfl, rfl, rfl, rfl, rfl⟩, by simp [blockRule], fun n hn => by cases hn; exact .any (.inr (.inl ⟨_, rfl⟩)) (by simp) (by simp) hc⟩
  · exact ⟨⟨rfl, rfl, rfl, rfl, rfl⟩, by simp [blockRule], fun n hn => by cases hn⟩
  · with_unfolding_all rfl
  · exact ⟨⟨rfl, rfl, rfl, rfl⟩, by simp, fun n hn => by cases hn⟩
  · exact ⟨_, by with_unfolding_all rfl⟩

end Mapl.Props

import Verif.Model.Loading
import Verif.Props.State
import Verif.Lemmas.Match
import Verif.Lemmas.Names

/-!
# C68: rules loaded with a table; C71: where a table is set
-/

namespace Mapl.Props
open Spec

variable {env : Env}

/-- What the loop gives when it ends without an error. -/
theorem loadLoop_ok {t : Predef} : ∀ {bs : List Rule} {i : Nat} {done rs : List RuleObj}, loadLoop env t i bs done = .ok (rs, none) →
    ∃ new, rs = done ++ new ∧ new.length = bs.length ∧
      ∀ (j : Nat) (b : Rule), bs[j]? = some b → ∃ r, new[j]? = some r ∧ (parsedRule b).setPredefined env [i + j] t = .ok (r, none)
  | [], i, done, rs, h => by
    simp [loadLoop] at h
    exact ⟨[], by simp [h], rfl, by simp⟩
  | b :: bs, i, done, rs, h => by
    rw [loadLoop] at h
    split at h
    · cases h
    · cases h
    · next r hr =>
      obtain ⟨new, e, hlen, hnew⟩ := loadLoop_ok h
      refine ⟨r :: new, by rw [e]; simp, by simp [hlen], ?_⟩
      intro j c hj
      cases j with
      | zero => simp at hj; subst hj; exact ⟨r, rfl, hr⟩
      | succ j =>
        obtain ⟨r', h1, h2⟩ := hnew j c (by simpa using hj)
        refine ⟨r', by simpa using h1, ?_⟩
        rw [show i + (j + 1) = i + 1 + j by omega]
        exact h2

/-- What it gives when it ends with one. -/
theorem loadLoop_failed {t : Predef} {e : Err} : ∀ {bs : List Rule} {i : Nat} {done rs : List RuleObj}, loadLoop env t i bs done = .ok (rs, some e) →
    rs = [] ∧ ∃ (j : Nat) (b : Rule), bs[j]? = some b ∧ (∃ r, (parsedRule b).setPredefined env [i + j] t = .ok (r, some e)) ∧
      ∀ (j' : Nat) (b' : Rule), j' < j → bs[j']? = some b' → ∃ r, (parsedRule b').setPredefined env [i + j'] t = .ok (r, none)
  | [], i, done, rs, h => by simp [loadLoop] at h
  | b :: bs, i, done, rs, h => by
    rw [loadLoop] at h
    split at h
    · cases h
    · next r e' hr =>
      cases h
      exact ⟨rfl, 0, b, rfl, ⟨r, hr⟩, by simp⟩
    · next r hr =>
      obtain ⟨h1, j, c, hj, ⟨r', hr'⟩, hb⟩ := loadLoop_failed h
      refine ⟨h1, j + 1, c, by simpa using hj, ⟨r', ?_⟩, ?_⟩
      · rw [show i + (j + 1) = i + 1 + j by omega]; exact hr'
      · intro j' b' hj' hb'
        cases j' with
        | zero => simp at hb'; subst hb'; exact ⟨r, hr⟩
        | succ j' =>
          obtain ⟨r2, h2⟩ := hb j' b' (by omega) (by simpa using hb')
          refine ⟨r2, ?_⟩
          rw [show i + (j' + 1) = i + 1 + j' by omega]
          exact h2

theorem loadLoop_total {t : Predef} : ∀ {bs : List Rule} {i : Nat} {done : List RuleObj},
    (∀ (j : Nat) (b : Rule), bs[j]? = some b → ∃ r, (parsedRule b).setPredefined env [i + j] t = .ok (r, none)) →
    ∃ rs, loadLoop env t i bs done = .ok (rs, none)
  | [], i, done, _ => ⟨done, rfl⟩
  | b :: bs, i, done, h => by
    obtain ⟨r, hr⟩ := h 0 b rfl
    rw [loadLoop, show (({ body := b } : RuleObj).setPredefined env [i] t) = .ok (r, none) from hr]
    refine loadLoop_total fun j c hj => ?_
    rw [show i + 1 + j = i + (j + 1) by omega]
    exact h (j + 1) c (by simpa using hj)

/-- **C68.** When rules are loaded with a table, all of them are there, in the order of the document and as written; and in any
history that begins with them every answer about a rule is the one that the rule as written gives with this table, until
the rule is given another one, whatever the global table is or becomes. -/
theorem C68_loaded (ho : env.OrdOk) {t : Predef} {bodies : List Rule} {rs : List RuleObj}
    (h : loadWithTables env t bodies = .ok (rs, none)) :
    rs.map (·.body) = bodies ∧
    ∀ (i : Nat) (b : Rule) (g : Predef) (k : Nat) (ops : List Op) (as : List Answer) (w' : World), bodies[i]? = some b →
      run env k { global := g, rules := rs } ops = .ok (w', as) → (∀ t', Op.setRule i t' ∉ ops) →
      List.Forall₂ (SpeaksFor env i b t) ops as := by
  obtain ⟨new, e, hlen, hnew⟩ := loadLoop_ok h
  simp at e
  subst e
  have hrun : Run env env := ⟨rfl, ho⟩
  refine ⟨?_, ?_⟩
  · refine List.ext_getElem? fun j => ?_
    rw [List.getElem?_map]
    cases hb : bodies[j]? with
    | none =>
      have := List.getElem?_eq_none_iff.1 hb
      rw [List.getElem?_eq_none_iff.2 (by omega)]
      rfl
    | some b =>
      obtain ⟨r, h1, h2⟩ := hnew j b hb
      obtain ⟨rule, -, rfl⟩ := setPredefined_made hrun h2
      rw [h1]
      rfl
  · intro i b g k ops as w' hb hr hn
    obtain ⟨r, h1, h2⟩ := hnew i b hb
    obtain ⟨rule, hm, rfl⟩ := setPredefined_made hrun h2
    exact run_frozen ho hr h1 ⟨rfl, rfl, rule, rfl, hm⟩ hn

/-- **C68.** Loading fails as a whole: with the error there are no rules, and the error is that of the first rule that cannot be
prepared. -/
theorem C68_failed {t : Predef} {bodies : List Rule} {rs : List RuleObj} {e : Err} (h : loadWithTables env t bodies = .ok (rs, some e)) :
    rs = [] ∧ ∃ (j : Nat) (b : Rule), bodies[j]? = some b ∧ (∃ r, (parsedRule b).setPredefined env [j] t = .ok (r, some e)) ∧
      ∀ (j' : Nat) (b' : Rule), j' < j → bodies[j']? = some b' → ∃ r, (parsedRule b').setPredefined env [j'] t = .ok (r, none) := by
  simpa using loadLoop_failed h

/-- **C68.** Loading succeeds exactly if every rule can be prepared with the table. -/
theorem C68_succeeds {t : Predef} {bodies : List Rule} : (∃ rs, loadWithTables env t bodies = .ok (rs, none)) ↔
    ∀ (j : Nat) (b : Rule), bodies[j]? = some b → ∃ r, (parsedRule b).setPredefined env [j] t = .ok (r, none) := by
  constructor
  · rintro ⟨rs, h⟩ j b hb
    obtain ⟨new, -, -, hnew⟩ := loadLoop_ok h
    obtain ⟨r, -, hr⟩ := hnew j b hb
    exact ⟨r, by simpa using hr⟩
  · intro h
    exact loadLoop_total (by simpa using h)

/-- Non-vacuity: two rules are loaded with a table; one of them refers to a string of the table, and allows the message. -/
def loadBodies : List Rule := [teamRule, (Demo.rule gs"block").body]

example : ∃ rs w' as, loadWithTables Demo.env teamTable loadBodies = .ok (rs, none) ∧
    run Demo.env 0 { global := otherTable, rules := rs } [.checkRule 0 Demo.msgI, .checkAll Demo.msgI] = .ok (w', as) ∧
    as[0]? = some (.verdict 1 []) := ⟨_, _, _, rfl, rfl, rfl⟩

/-- Without the string nothing is loaded. -/
example : ∃ e, loadWithTables Demo.env {} loadBodies = .ok ([], some e) := ⟨_, rfl⟩

/-! ## C71 -/

/-- Validating a validated table changes nothing. -/
theorem validated_again {t t' : Predef} (h : Validated t t') : Validated t' t' := by
  refine ⟨rfl, rfl, ?_⟩
  rw [h.strings, h.lists]
  exact h.resolved

/-- **C71** (partial: tables that were validated when they were read; see `C71_violated`). Let `t'` be the table `t` as it is read from
a document. Whether the global table is set to it and a rule that has no table is then checked, or whether the rule
is given the table, the answer is the one that the table `t'` gives. -/
theorem C71_partial (ho : env.OrdOk) {t t' : Predef} (ht : Validated t t') {w w1 w2 : World} {i k k' : Nat} {b : Rule} {m : Msg}
    {a a1 a2 : Answer} (hw : w.rules[i]? = some (parsedRule b))
    (h1 : run env k w [.setGlobal t', .checkRule i m] = .ok (w1, [a, a1]))
    (h2 : run env k' w [.setRule i t', .checkRule i m] = .ok (w2, [.status true, a2])) :
    a = .status true ∧ SpeaksFor env i b t' (.checkRule i m) a1 ∧ SpeaksFor env i b t' (.checkRule i m) a2 := by
  have hg : ∀ g, setGlobal g t' = (t', none) := by
    intro g
    rcases C37_atomic g t' with ⟨t2, h, e⟩ | ⟨h, -⟩
    · rw [e, C36_unique h (validated_again ht)]
    · exact absurd ⟨t', validated_again ht⟩ h
  have h3 := C38_frozen ho hw h2 (by simp)
  cases h3 with
  | cons h3 _ =>
    rw [run, step] at h1
    simp only [hg, Go.ok_bind, Go.bind_eq_ok] at h1
    obtain ⟨⟨w3, as⟩, h4, h1⟩ := h1
    simp at h1
    obtain ⟨rfl, rfl, rfl⟩ := h1
    have h5 := C39_first_use (w := { w with global := t' }) ho hw (op := .checkRule i m) rfl (by simp) h4 (by simp)
    cases h5 with
    | cons h5 _ => exact ⟨rfl, h5, h3⟩

/-- **C71 is violated** by tables built in the program: a list is known once the table is set globally, and unknown, for every rule that
names it as its sender, when the table is given to the rule. -/
theorem C71_violated {t : Predef} (hl : t.listsNoRefs = []) {name : Str} (hs : lookup name t.strings = none) {r : RuleObj}
    (hr : r.body.senderName = '#' :: name) {p : List Nat} : ¬ ∃ r', r.setPredefined env p t = .ok (r', none) := by
  rintro ⟨r', h⟩
  obtain ⟨copy, rule, hc, hp, -⟩ := setPredefined_ok h
  obtain ⟨c, -, rfl⟩ := copyRule_ok hc
  simp only [prepareOneRule, Go.bind_eq_ok] at hp
  obtain ⟨r1, h1, r2, h2, -⟩ := hp
  obtain ⟨s, v, hname, -, -⟩ := replaceStrings_ok h2
  have e : r1.senderName = '#' :: name := by
    rcases prepareConditions_ok h1 with ⟨-, rfl⟩ | ⟨n, n', -, -, rfl⟩ <;> exact hr
  rw [e] at hname
  have := replaceName_iff.1 hname
  generalize hx : '#' :: name = x at this
  cases this with
  | plain h => exact h _ hx.symm
  | list h => cases hx; rw [hl] at h; cases h
  | string _ h => cases hx; rw [hs] at h; cases h

/-- A table with a list, as a program builds it. -/
def listTable : Predef := { lists := [(gs"team", [gs"a", gs"c"])] }

/-- The rule allows the message when the table is set globally; given to the rule, it is refused, and so is the check. -/
theorem C71_violated_check : ∃ (w1 w2 : World) (t' : Predef) (e : Fail), Validated listTable t' ∧
    run Demo.env 0 { rules := [parsedRule teamRule] } [.setGlobal listTable, .checkRule 0 Demo.msgI] =
      .ok (w1, [.status true, .verdict 1 []]) ∧
    run Demo.env 0 { rules := [parsedRule teamRule] } [.setRule 0 listTable] = .ok (w2, [.status false]) ∧
    run Demo.env 0 { rules := [parsedRule teamRule] } [.setRule 0 listTable, .checkRule 0 Demo.msgI] = .error e := by
  refine ⟨_, _, _, _, (C36_accepted listTable { listTable with listsNoRefs := [(gs"team", [gs"a", gs"c"])] }).1 rfl, rfl, rfl, rfl⟩

example : listTable.listsNoRefs = [] ∧ lookup gs"team" listTable.strings = none ∧ (parsedRule teamRule).body.senderName = '#' :: gs"team" := by
  refine ⟨rfl, rfl, rfl⟩

/-- Read from a document, the same table has the same effect either way. -/
example : ∃ (w1 w2 : World) (t' : Predef), Validated listTable t' ∧
    run Demo.env 0 { rules := [parsedRule teamRule] } [.setGlobal t', .checkRule 0 Demo.msgI] = .ok (w1, [.status true, .verdict 1 []]) ∧
    run Demo.env 0 { rules := [parsedRule teamRule] } [.setRule 0 t', .checkRule 0 Demo.msgI] = .ok (w2, [.status true, .verdict 1 []]) := by
  refine ⟨_, _, { listTable with listsNoRefs := [(gs"team", [gs"a", gs"c"])] }, (C36_accepted listTable _).1 rfl, rfl, rfl⟩

end Mapl.Props

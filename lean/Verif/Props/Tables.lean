import Verif.Lemmas.Tables
import Verif.Props.Decode

/-!
# C79: a document of tables gives the tables that are written in it

`TablesOf` says which strings and lists a YAML document writes. The full statement, without `Distinct`, is false: see `C79_violated`.
-/

namespace Mapl.Props

open Spec

variable {env : Env} {y : Yaml} {t t' : Predef}

theorem readTables_iff (hd : Distinct y) : (∃ d, decodeStruct tableField {} {} y = (d, false) ∧ d.strings = t.strings ∧ d.lists = t.lists) ↔ TablesOf y t := by
  cases y with
  | scalar s v =>
    constructor
    · rintro ⟨d, h, h1, h2⟩
      cases v with
      | null =>
        simp only [decodeStruct, Prod.mk.injEq, and_true] at h
        subst h
        obtain ⟨a, b, c⟩ := t
        cases h1; cases h2
        exact .null _ _
      | _ => simp [decodeStruct] at h
    · intro h
      cases h
      exact ⟨{}, rfl, rfl, rfl⟩
  | seq l =>
    constructor
    · rintro ⟨d, h, -⟩
      simp [decodeStruct] at h
    · intro h; cases h
  | map kvs =>
    obtain ⟨h1, h2⟩ := distinct_keys hd
    have key := tables_iff h1 (fun k l hl => (distinct_keys (h2 _ hl)).1) t
    constructor
    · rintro ⟨d, h, hs, hl⟩
      simp only [decodeStruct] at h
      refine .tables (key.1 ?_)
      rw [h]
      exact ⟨rfl, hs, hl⟩
    · rintro h
      cases h with
      | tables h =>
        obtain ⟨a, b, c⟩ := key.2 h
        exact ⟨_, Prod.ext rfl a, b, c⟩

theorem validated_congr {d : Predef} (h1 : d.strings = t.strings) (h2 : d.lists = t.lists) : Validated d t' ↔ Validated t t' := by
  constructor
  · rintro ⟨a, b, c⟩; rw [h1] at a c; rw [h2] at b c; exact ⟨a, b, c⟩
  · rintro ⟨a, b, c⟩; rw [← h1] at a c; rw [← h2] at b c; exact ⟨a, b, c⟩

/-- **C79**, partial: a document without repeated keys is read as the tables that it writes, with the references in the lists resolved. -/
theorem C79_tables_partial (hd : Distinct y) : readTables y = .ok t' ↔ ∃ t, TablesOf y t ∧ Validated t t' := by
  constructor
  · intro h
    unfold readTables at h
    split at h
    · rename_i d hdec
      exact ⟨d, (readTables_iff hd).1 ⟨d, hdec, rfl, rfl⟩, (C36_accepted _ _).1 h⟩
    · cases h
  · rintro ⟨t, h, hv⟩
    obtain ⟨d, hdec, h1, h2⟩ := (readTables_iff hd).2 h
    rw [readTables, hdec]
    exact (C36_accepted _ _).2 ((validated_congr h1 h2).2 hv)

/-- **C79.** The strings and lists that a document writes are determined by it. -/
theorem C79_unique (hd : Distinct y) (h : TablesOf y t) (h' : TablesOf y t') : t.strings = t'.strings ∧ t.lists = t'.lists := by
  obtain ⟨d, e, h1, h2⟩ := (readTables_iff hd).2 h
  obtain ⟨d', e', h3, h4⟩ := (readTables_iff hd).2 h'
  rw [e] at e'
  cases e'
  exact ⟨h1.symm.trans h3, h2.symm.trans h4⟩

/-- **C79.** Otherwise there is an error: reading tables never crashes. -/
theorem C79_refused (hd : Distinct y) : (∃ e, readTables y = .error (.err e)) ↔ ¬ ∃ t t', TablesOf y t ∧ Validated t t' := by
  have hnp : ∀ x, readTables y ≠ .error (.panic x) := by
    intro x h
    unfold readTables at h
    split at h
    · obtain ⟨⟨e, he⟩, -⟩ := validatePredefined_error h
      cases he
    · cases h
  constructor
  · rintro ⟨e, h⟩ ⟨t, t', h1, h2⟩
    rw [(C79_tables_partial hd).2 ⟨t, h1, h2⟩] at h
    cases h
  · intro h
    cases hr : readTables y with
    | ok t' =>
      obtain ⟨t, h1⟩ := (C79_tables_partial hd).1 hr
      exact absurd ⟨t, t', h1⟩ h
    | error e => cases e with
      | err e => exact ⟨e, rfl⟩
      | panic x => exact absurd hr (hnp x)

/-- A document for tables. -/
def tablesYaml (t : Predef) : Yaml :=
  .map [(gs"predefinedStrings", .map (t.strings.map fun x => (x.1, textYaml x.2))),
    (gs"predefinedLists", .map (t.lists.map fun x => (x.1, .seq (x.2.map textYaml))))]

/-- **C79.** All tables can be written. -/
theorem C79_every (hs : (t.strings.map (·.1)).Nodup) (hl : (t.lists.map (·.1)).Nodup) : Distinct (tablesYaml t) ∧ TablesOf (tablesYaml t) t := by
  constructor
  · refine .map (by simp) ?_
    simp only [List.mem_cons, List.not_mem_nil, or_false]
    rintro x (rfl | rfl)
    · refine .map (by rw [List.map_map]; exact hs) ?_
      intro x hx
      obtain ⟨z, -, rfl⟩ := List.mem_map.1 hx
      exact .scalar _ _
    · refine .map (by rw [List.map_map]; exact hl) ?_
      intro x hx
      obtain ⟨z, -, rfl⟩ := List.mem_map.1 hx
      refine .seq fun y hy => ?_
      obtain ⟨z, -, rfl⟩ := List.mem_map.1 hy
      exact .scalar _ _
  · refine .tables ⟨⟨_, .mapping (.head _), ?_⟩, ⟨_, .mapping (.tail _ (.head _)), ?_⟩, [], [], .missing ?_, .nil⟩
    · rw [List.forall₂_map_left_iff, List.forall₂_same]
      exact fun x _ => ⟨rfl, textYaml_writes _⟩
    · rw [List.forall₂_map_left_iff, List.forall₂_same]
      refine fun x _ => ⟨rfl, .texts ?_⟩
      rw [List.forall₂_map_left_iff, List.forall₂_same]
      exact fun x _ => textYaml_writes _
    · rintro ⟨y, hy⟩
      simp at hy

/-- **C79.** Other keys are ignored. -/
theorem C79_unknown {k : Str} (hk : k ∉ [gs"predefinedStrings", gs"predefinedLists", gs"-"]) (v : Yaml) (kvs kvs' : List (Str × Yaml)) :
    readTables (.map (kvs ++ (k, v) :: kvs')) = readTables (.map (kvs ++ kvs')) := by
  simp only [List.mem_cons, List.not_mem_nil, or_false, not_or] at hk
  obtain ⟨h1, h2, h3⟩ := hk
  have fields : ∀ (kvs : List (Str × Yaml)) (t : Predef), decodeFields tableField t (kvs ++ (k, v) :: kvs') = decodeFields tableField t (kvs ++ kvs') := by
    intro kvs
    induction kvs with
    | nil =>
      intro t
      simp [decodeFields, tableField, h1, h2, h3]
    | cons x xs ih =>
      intro t
      obtain ⟨k', v'⟩ := x
      simp only [List.cons_append, decodeFields, ih]
  simp only [readTables, decodeStruct, fields]

/-- **C79.** A policy in two documents, one for the tables and one for the rules: both are read, and any check decides by the written meaning of
the rules with the written tables. -/
theorem C79_policy (he : Assumed env) {z : Yaml} (hz : Distinct z) (ht : TablesOf z t) (hv : Validated t t') (hd : Distinct y) (hx : NoDash y) {bodies : List Rule}
    (h : RulesDoc (WritesTree env) y bodies) {msg : Msg} {xs : List (Prop × Decision)}
    (hs : List.Forall₂ (fun b x => WrittenSays env t' msg b x.1 x.2) bodies xs) :
    ∃ rules, readTables z = .ok t' ∧ readRulesFileWithTables env t' y = .ok (rules, none) ∧ rules.map (·.body) = bodies ∧
      (MsgOk env msg → ∀ g, ∃ out, check env g msg rules = .ok out ∧ Decides xs out) := by
  obtain ⟨rules, -, h2, h3, h4⟩ := C77_policy he hd hx h hs
  exact ⟨rules, (C79_tables_partial hz).2 ⟨t, ht, hv⟩, h2, h3, h4⟩

/-! ## Documents -/

/-- A list with a number and a reference. -/
def portsDoc : Yaml :=
  .map [(gs"version", .scalar gs"2" (.int 2)),
    (gs"predefinedLists", .map [(gs"ports", .seq [.scalar gs"0443" (.int 291), textYaml gs"#admin"]), (gs"none", .scalar gs"~" .null)]),
    (gs"predefinedStrings", .map [(gs"admin", .scalar gs"8443" (.int 8443))])]

def portsTable : Predef := { strings := [(gs"admin", gs"8443")], lists := [(gs"ports", [gs"0443", gs"#admin"]), (gs"none", [])] }

theorem portsDoc_distinct : Distinct portsDoc := (testYaml_iff _).1 (by decide +kernel)

theorem portsDoc_writes : TablesOf portsDoc portsTable := by
  refine .tables ⟨⟨_, .mapping (.tail _ (.tail _ (.head _))), .cons ⟨rfl, .text (by simp)⟩ .nil⟩,
    ⟨_, .mapping (.tail _ (.head _)), .cons ⟨rfl, .texts (.cons (.text (by simp)) (.cons (.text (by simp)) .nil))⟩ (.cons ⟨rfl, .null _⟩ .nil)⟩, [], [], .missing ?_, .nil⟩
  rintro ⟨y, hy⟩
  simp at hy

/-- Numbers stay as they are written, the reference is resolved. -/
example : readTables portsDoc = .ok { portsTable with listsNoRefs := [(gs"ports", [gs"0443", gs"8443"]), (gs"none", [])] } :=
  (C79_tables_partial portsDoc_distinct).2 ⟨portsTable, portsDoc_writes, (C36_accepted _ _).1 rfl⟩

/-- A reference to nothing is an error, as is a text in the place of a list. -/
example : (∃ e, readTables (tablesYaml { lists := [(gs"l", [gs"#x"])] }) = .error (.err e)) ∧
    ∃ e, readTables (.map [(gs"predefinedLists", .map [(gs"l", textYaml gs"x")])]) = .error (.err e) := ⟨⟨_, rfl⟩, _, rfl⟩

/-- The policy of C74 in two documents. -/
example : ∃ z y rules, readTables z = .ok policyTables ∧ readRulesFileWithTables policyEnv policyTables y = .ok (rules, none) ∧
    rules.map (·.body) = policyRules ∧ ∀ g, ∃ out, check policyEnv g policyMsg rules = .ok out := by
  have hp : ∀ r ∈ policyRules, Plain policyEnv.toExt r := by
    intro r hr
    simp only [policyRules, List.mem_cons, List.not_mem_nil, or_false] at hr
    rcases hr with rfl | rfl
    · refine ⟨⟨rfl, rfl, rfl, rfl, rfl⟩, by simp [Demo.rule], fun n hn => ?_⟩
      cases hn
      exact statement_writable _ policy_sound
    · exact ⟨⟨rfl, rfl, rfl, rfl, rfl⟩, by simp [Demo.rule], fun n hn => by simp [Demo.rule] at hn⟩
  obtain ⟨y, h1, h2, h3, -⟩ := C77_every policyEnv_ok.order hp
  obtain ⟨k1, k2⟩ := C79_every (t := policyTables) (by decide) (by decide)
  obtain ⟨rules, e0, e1, e2, e3⟩ := C79_policy (t' := policyTables) policyEnv_ok k1 k2 ((C36_accepted _ _).1 rfl) h1 h2 h3 policy_says
  refine ⟨_, y, rules, e0, e1, e2, fun g => ?_⟩
  obtain ⟨out, ho, -⟩ := e3 policyMsg_ok g
  exact ⟨out, ho⟩

/-! ## Where the code differs -/

/-- **C79 fails** for a list that is there twice: the first one is dropped without an error. The readers of files do not check tables for repeated
keys, as they do for rules. -/
theorem C79_violated : ∃ (y : Yaml) (t' : Predef), readTables y = .ok t' ∧ (¬ ∃ t, TablesOf y t ∧ Validated t t') ∧
    y = .map [(gs"predefinedLists", .map [(gs"admins", .seq [textYaml gs"a"]), (gs"admins", .seq [textYaml gs"b"])])] ∧ t'.lists = [(gs"admins", [gs"b"])] := by
  refine ⟨_, _, rfl, ?_, rfl, rfl⟩
  rintro ⟨t, h, hv⟩
  cases h with
  | tables h =>
    obtain ⟨l, hp, hl⟩ := h.lists
    rw [← hv.lists] at hl
    cases hp with
    | missing h => exact h ⟨_, .head _⟩
    | null h => simp at h
    | mapping h =>
      simp at h
      subst h
      exact absurd hl.length_eq (by decide)

end Mapl.Props

import Verif.Lemmas.Find

/-!
# Searching documents

C96: the query of a rule finds the documents to which the rule applies. `ToMongoQuery` and `Check` are two readings of the same conditions; the theorems compare both with what the
conditions say of the document (`Spec/Place.lean`). The documents are those of which MongoDB and the engine can say the same (`Spec/Find.lean`); the violations are about others.
-/

namespace Mapl.Props

open Spec

variable {env : Env} {g t : Predef} {names : List Str} {r : RuleObj} {body : Rule} {s v : Str} {f : Claim} {p : List Nat}

theorem loaded_query (he : Assumed env) (hl : Loaded env g r body t) (hf : Searchable env t body s v f) :
    ∃ r' rule n, r.ensure env p g = .ok r' ∧ r'.prepared = some rule ∧ rule.conditions = some n ∧ (f.statement.tree env).prepare env t = .ok n := by
  have key : ∀ {r r' : RuleObj} {p : List Nat}, r.body = body → Fresh r → r.setPredefined env p t = .ok (r', none) →
      ∃ rule n, r'.prepared = some rule ∧ rule.conditions = some n ∧ (f.statement.tree env).prepare env t = .ok n := by
    intro r r' p hb hfr h0
    obtain ⟨copy, rule, h1, h2, rfl⟩ := setPredefined_ok h0
    obtain ⟨ct, hct, rfl⟩ := copyRule_ok h1
    rw [hb, hf.written, copy_copyable he.order (sound_copyable _ hf.sound)] at hct
    obtain rfl : some (f.statement.tree env) = ct := by simpa using hct
    obtain ⟨_, _, _, _, _, _, _, _, _, _, _, _, h7, h8⟩ := prepareOneRule_ok (by simpa using hfr.converted) h2
    rcases h7 with ⟨h7, _⟩ | ⟨n0, n', h5, h6, h7⟩
    · simp at h7
    · simp at h5
      subst h5
      exact ⟨rule, n', rfl, h7, h6⟩
  cases hl with
  | parsed hfr =>
    obtain ⟨r', h0⟩ := written_sets (c := some f.statement) he hfr hf.written hf.sender hf.receiver hf.texts (by simp [hf.sound]) p
    obtain ⟨rule, n, h1, h2, h3⟩ := key rfl hfr h0
    exact ⟨r', rule, n, ensure_of_unready hfr.ready h0, h1, h2, h3⟩
  | prepared hfr h0 =>
    obtain ⟨rule, n, h1, h2, h3⟩ := key rfl hfr h0
    exact ⟨r, rule, n, ensure_of_ready (setPredefined_ready h0), h1, h2, h3⟩

/-- **C96**, the query: for rules with conditions about the document there is a query, and it selects exactly the documents of which the conditions hold. If the conditions ask for the entries
of objects it is an aggregation, otherwise it is simple. -/
theorem C96_query_partial (he : Assumed env) (hp : PathsOk env) (hb : BaseField names) (hl : Loaded env g r body t) (hf : Searchable env t body s v f) :
    ∃ r' res, r.toMongoQuery env g p (join gs"." names) = .ok (r', .ok res) ∧ ((∃ q, res = .simple q) ↔ f.entryPaths = []) ∧
      ∀ doc root msg, StoredIn names doc root → f.Unused doc → f.Clear env t msg root none → f.Typed env t msg root none →
        (resultSelects (mongoDB env) res doc = true ↔ f.Holds env t msg root none) := by
  obtain ⟨r', rule, n, h1, h2, h3, h4⟩ := loaded_query (p := p) he hl hf
  obtain ⟨a1, a2⟩ := claim_translatable (env := env.toExt) hb f false .top [] (fun _ => rfl) hf.plain hf.findable
  have hw := statement_writable f.statement hf.sound
  obtain ⟨x, hx⟩ := (C52_translatable hw hb.ok a2 h4).2 a1
  have hsc := (claim_scoped hb f false n hf.plain hf.findable h4).1
  have hst : x.2 = (f.entryPaths.map pathNames).map (stepFor names) := by
    rw [node_steps hb.ok (scoped_parents hsc) hx, claim_entries hb f false n [] hf.plain hf.findable h4, List.map_map, List.map_map]
    refine List.map_congr_left fun p _ => ?_
    simp only [Function.comp, entryStep, stepFor]
    rw [join_cons (by simp [hb.ne])]
    simp
  have hq : rule.toMongo env (join gs"." names) = .ok (if x.2.length = 0 then .simple x.1 else .aggregate x.2 x.1) := by
    simp only [Rule.toMongo, h3, hx, Go.ok_bind]
    rfl
  have hsel : ∀ doc, resultSelects (mongoDB env) (if x.2.length = 0 then .simple x.1 else .aggregate x.2 x.1) doc = selects (mongoDB env) x.1 (added (mongoDB env) x.2 doc) := by
    intro doc
    split
    · next h0 => rw [List.length_eq_zero_iff.1 h0]; rfl
    · rfl
  refine ⟨r', (if x.2.length = 0 then .simple x.1 else .aggregate x.2 x.1), ?_, ?_, fun doc root msg hs hu hd hk => ?_⟩
  · simp only [RuleObj.toMongoQuery, h1, h2, deref, Go.ok_bind, hq]
    rfl
  · have h0 : x.2.length = 0 ↔ f.entryPaths = [] := by rw [hst, List.length_map, List.length_map, List.length_eq_zero_iff]
    split
    · next h => exact ⟨fun _ => h0.1 h, fun _ => ⟨_, rfl⟩⟩
    · next h => exact ⟨(fun ⟨_, e⟩ => by cases e), fun e => absurd (h0.2 e) h⟩
  · rw [hsel, hst]
    have hplain : ∀ p ∈ f.entryPaths, PlainSteps p.steps := claim_entry_plain f false hf.plain hf.findable
    obtain ⟨k1, k2⟩ := steps_done (env := env.toExt) (ls := f.entryPaths.map pathNames) hb
      (fun l hl => by obtain ⟨p, hp, rfl⟩ := List.mem_map.1 hl; exact stepName_pathName (hplain p hp))
      (fun a ha b hb' hab => by
        obtain ⟨p, hp, rfl⟩ := List.mem_map.1 ha
        obtain ⟨q, hq, rfl⟩ := List.mem_map.1 hb'
        exact congrArg (List.map stepName) (hf.apart p hp q hq (names_prefix (claim_entry_fields f false hf.findable p hp) (claim_entry_fields f false hf.findable q hq) hab)))
      hs.field (fun hne => hu (by simpa using hne))
    refine (C51_partial (mongoDB env) hb.ok hsc hx _).trans
      (claim_formula he.regexp hp hb k1 hs.names f false n _ none (fun p hp o ho => ?_) hf.plain hf.findable h4 (by simp [At]) hd hk)
    have := k2 (pathNames p) (List.mem_map.2 ⟨p, hp, rfl⟩)
    rw [listFor, reach_base hs.field, pathNames, reach_leads ho hs.names] at this
    cases o <;> exact this

/-- **C96.** The query of a rule finds a stored document exactly if a check of a message with this document, parsed or as a text, gives the decision of the rule. The rest of the rule
has to match the message. -/
theorem C96_check_partial {base : Msg} (he : Assumed env) (hp : PathsOk env) (hb : BaseField names) (hl : Loaded env g r body t) (hf : Searchable env t body s v f)
    (hm : MsgOk env base) (hr : WrittenParts body s v base) :
    ∃ r' res, r.toMongoQuery env g p (join gs"." names) = .ok (r', .ok res) ∧
      ∀ doc root msg p', StoredIn names doc root → f.Unused doc → f.Clear env t base root none → f.Typed env t base root none → Carries env base root msg none →
        ∃ o, r.check env g p' msg = .ok o ∧ (resultSelects (mongoDB env) res doc = true → o.result = (decisionOf body.decision).rank) ∧
          (resultSelects (mongoDB env) res doc = false → o.result = Decision.default.rank ∧ o.extra = []) := by
  obtain ⟨r', res, h1, -, h2⟩ := C96_query_partial (p := p) he hp hb hl hf
  refine ⟨r', res, h1, fun doc root msg p' hst hu hd hk hc => ?_⟩
  have hA : WrittenClaims env t base root body (WrittenParts body s v base ∧ ∀ f' ∈ some f, f'.Holds env t base root none) (decisionOf body.decision) :=
    .mk (c := some f) hf.written hf.sender hf.receiver hf.texts (by simp [hf.sound]) (by simp [hf.plain]) (by simpa using hd)
  obtain ⟨o, ho, k1, k2⟩ := rule_says he (carries_msg hc hm) ⟨body, t, hl, writtenClaims he hp hc hA⟩ p'
  have hq := h2 doc root base hst hu hd hk
  refine ⟨o, ho, fun hs => k1 ⟨hr, by simpa using hq.1 hs⟩, fun hs => k2 fun hh => ?_⟩
  have := hq.2 (by simpa using hh.2)
  rw [hs] at this
  cases this

/-! ## Violations -/

/-- Violation of C96: NEQ on a field that is not there. The query finds the document, the rule does not apply to it. -/
theorem C96_violated_missing : ∃ (n : Node) (kvs : List (Str × Json)), n = leaf gs"jsonpath:$.kind" gs"NEQ" gs"Pod" ∧ lookup gs"kind" kvs = none ∧
    found gs"raw" n (stored kvs) = some true ∧ blocks n (.obj kvs) = some false := ⟨_, [], rfl, rfl, by decide +kernel, by decide +kernel⟩

/-- Violation of C96: a value `true` is compared with the text `true` in the query, and with what is written for it in the engine. -/
theorem C96_violated_boolean : ∃ (n : Node) (kvs : List (Str × Json)), n = leaf gs"jsonpath:$.ok" gs"EQ" gs"true" ∧ lookup gs"ok" kvs = some (.bool true) ∧
    found gs"raw" n (stored kvs) = some false ∧ blocks n (.obj kvs) = some true := ⟨_, [(gs"ok", .bool true)], rfl, rfl, by decide +kernel, by decide +kernel⟩

/-- Violation of C96: the engine reads texts as numbers, the query does not. -/
theorem C96_violated_number : ∃ (n : Node) (kvs : List (Str × Json)), n = leaf gs"jsonpath:$.port" gs"EQ" gs"5" ∧ lookup gs"port" kvs = some (.str gs"5") ∧
    found gs"raw" n (stored kvs) = some false ∧ blocks n (.obj kvs) = some true := ⟨_, [(gs"port", .str gs"5")], rfl, rfl, by decide +kernel, by decide +kernel⟩

/-- Violation of C96: a value with a unit is a text in the query. Neither the number 5 nor the text `5Mi` is found as less than `1Gi`. -/
theorem C96_violated_unit : ∃ (n : Node) (kvs kvs' : List (Str × Json)), n = leaf gs"jsonpath:$.mem" gs"LT" gs"1Gi" ∧ lookup gs"mem" kvs = some (.num (.fin 5)) ∧
    lookup gs"mem" kvs' = some (.str gs"5Mi") ∧ found gs"raw" n (stored kvs) = some false ∧ blocks n (.obj kvs) = some true ∧
    found gs"raw" n (stored kvs') = some false ∧ blocks n (.obj kvs') = some true :=
  ⟨_, [(gs"mem", .num (.fin 5))], [(gs"mem", .str gs"5Mi")], rfl, rfl, rfl, by decide +kernel, by decide +kernel, by decide +kernel, by decide +kernel⟩

/-- Violation of C96: an empty text is there for the query and missing for the engine. -/
theorem C96_violated_empty : ∃ (n : Node) (kvs : List (Str × Json)), n = leaf gs"jsonpath:$.kind" gs"EX" [] ∧ lookup gs"kind" kvs = some (.str []) ∧
    found gs"raw" n (stored kvs) = some true ∧ blocks n (.obj kvs) = some false := ⟨_, [(gs"kind", .str [])], rfl, rfl, by decide +kernel, by decide +kernel⟩

/-- Violation of C96: an expression matches texts only in the query, and also numbers in the engine. -/
theorem C96_violated_expression : ∃ (n : Node) (kvs : List (Str × Json)), n = leaf gs"jsonpath:$.port" gs"RE" gs"5" ∧ lookup gs"port" kvs = some (.num (.fin 5)) ∧
    found gs"raw" n (stored kvs) = some false ∧ blocks n (.obj kvs) = some true := ⟨_, [(gs"port", .num (.fin 5))], rfl, rfl, by decide +kernel, by decide +kernel⟩

/-- Violation of C96: the query looks into lists, the engine does not. -/
theorem C96_violated_list : ∃ (n : Node) (kvs : List (Str × Json)), n = leaf gs"jsonpath:$.tags" gs"EQ" gs"a" ∧ lookup gs"tags" kvs = some (.arr [.str gs"a", .str gs"b"]) ∧
    found gs"raw" n (stored kvs) = some true ∧ blocks n (.obj kvs) = some false :=
  ⟨_, [(gs"tags", .arr [.str gs"a", .str gs"b"])], rfl, rfl, by decide +kernel, by decide +kernel⟩

/-! ## Example -/

/-- There is no owner, and there is a bad container. -/
def findClaim : Claim :=
  .and [.not (.test { start := .document, name := gs"owner" } gs"EX" []), .any [mainPath] badContainer]

noncomputable def findRule : Rule := { (Demo.rule gs"block").body with conditions := some (findClaim.statement.tree placeEnv) }

theorem find_searchable : Searchable placeEnv policyTables findRule gs"*" gs"*" findClaim where
  written := rfl
  sender := .plain (by simp [findRule, Demo.rule])
  receiver := .plain (by simp [findRule, Demo.rule])
  texts := by
    refine ⟨?_, ?_, ?_, ?_⟩
    · show PlainPattern _; decide
    · show PlainPattern _; decide
    · show PlainPattern gs"*"; decide
    · show PlainPattern gs"*"; decide
  sound := by
    have := place_sound
    simp only [placeClaim, findClaim, Claim.statement, Claim.statements, Sound, SoundAll, and_true] at this ⊢
    exact ⟨by simp, this.2.2.1, paths_ok (by simp) (by simp), bad_sound⟩
  plain := by
    simp only [findClaim, Claim.Plain, Claim.AllPlain, and_true]
    exact ⟨one_plain (field_plain (by decide)), paths_plain (by simp), bad_plain⟩
  findable := by
    simp [findClaim, badContainer, mainPath, Claim.Findable, Claim.AllFindable]
  apart := by simp [Claim.Apart, findClaim, badContainer, Claim.entryPaths, Claim.allEntryPaths]

theorem find_clear : findClaim.Clear placeEnv policyTables placeMsg placeDoc none := by
  rw [findClaim, Claim.Clear, Claim.ClearInTurn, Claim.ClearInTurn, Claim.ClearInTurn, Claim.Clear.eq_def placeEnv policyTables placeMsg placeDoc (.any _ _)]
  refine ⟨owner_clear, fun _ => ⟨⟨fun p hp => ?_, .inl ⟨mainPath, rfl, _, place_list, by simp⟩⟩, fun _ => trivial⟩⟩
  cases List.mem_singleton.1 hp
  exact ⟨_, .there place_list, bad_clear⟩

theorem noNumbers_obj {kvs : List (Str × Json)} (h : ∀ x ∈ kvs, (∃ c ∈ x.1.head?, c.isDigit = false) ∧ NoNumberNames x.2) : NoNumberNames (.obj kvs) := by
  intro p kvs' i hl
  cases hl with
  | here =>
    cases hx : lookup (decimal i) kvs with
    | none => rfl
    | some v =>
      obtain ⟨⟨c, hc, hd⟩, -⟩ := h _ (lookup_some hx)
      have := decimal_digits i c (List.mem_of_mem_head? hc)
      rw [hd] at this
      cases this
  | field hx hp => exact (h _ (lookup_some hx)).2 _ _ i hp

theorem noNumbers_arr {l : List Json} (h : ∀ x ∈ l, NoNumberNames x) : NoNumberNames (.arr l) := by
  intro p kvs i hl
  cases hl with
  | item hx hp => exact h _ (List.mem_of_getElem? hx) _ _ i hp

theorem noNumbers_str (s : Str) : NoNumberNames (.str s) := by intro p kvs i hl; cases hl

theorem noNumbers_num (x : F64) : NoNumberNames (.num x) := by intro p kvs i hl; cases hl

theorem find_stored : StoredIn [gs"data", gs"raw"] (.obj [(gs"data", .obj [(gs"raw", placeDoc)])]) placeDoc where
  field := .field rfl (.field rfl (.here _))
  names := by
    have c : ∀ x n, NoNumberNames (placeContainer x n) := fun x n => noNumbers_obj fun y hy => by
      simp only [List.mem_cons, List.not_mem_nil, or_false] at hy
      rcases hy with rfl | rfl
      · exact ⟨⟨_, rfl, by decide⟩, noNumbers_str _⟩
      · exact ⟨⟨_, rfl, by decide⟩, noNumbers_arr fun y hy => by simp only [List.mem_cons, List.not_mem_nil, or_false] at hy; subst hy; exact noNumbers_num _⟩
    refine noNumbers_obj fun y hy => ?_
    simp only [List.mem_cons, List.not_mem_nil, or_false] at hy
    rcases hy with rfl | rfl
    · exact ⟨⟨_, rfl, by decide⟩, noNumbers_str _⟩
    · refine ⟨⟨_, rfl, by decide⟩, noNumbers_obj fun y hy => ?_⟩
      simp only [List.mem_cons, List.not_mem_nil, or_false] at hy
      subst hy
      refine ⟨⟨_, rfl, by decide⟩, noNumbers_arr fun y hy => ?_⟩
      simp only [List.mem_cons, List.not_mem_nil, or_false] at hy
      rcases hy with rfl | rfl <;> exact c _ _

theorem find_typed : findClaim.Typed placeEnv policyTables placeMsg placeDoc none := by
  have plain : ∀ w ∈ [[], gs"redis", gs"5"], NoReference w := by
    intro w hw
    simp only [List.mem_cons, List.not_mem_nil, or_false] at hw
    rcases hw with rfl | rfl | rfl <;> exact ⟨by rintro ⟨y, h⟩; simp at h, by rintro ⟨y, h⟩; simp at h⟩
  have image : ∀ x n, x ≠ [] → placeEnv.parseFloat x = none ∧ parseNumber placeEnv x = none → ∀ o w,
      Path.Leads placeDoc (some (placeContainer x n)) { start := .element, name := gs"image" } o → ValueResolves placeEnv policyTables gs"EQ" gs"#bad" w →
      OneKind placeEnv o gs"EQ" w ∧ NoReference w := by
    intro x n hx hn o w hl hv
    cases path_unique (.element rfl rfl (.field rfl (.here _))) hl
    cases resolves_unique (.string rfl rfl : ValueResolves placeEnv policyTables gs"EQ" gs"#bad" gs"redis") hv
    exact ⟨.text hx fun _ => hn, plain _ (by simp)⟩
  have cpu : ∀ x (n : Int), ∀ o w,
      Path.Leads placeDoc (some (placeContainer x n)) { start := .element, name := gs"cpu", rest := [.item 0] } o → ValueResolves placeEnv policyTables gs"GE" gs"5" w →
      OneKind placeEnv o gs"GE" w ∧ NoReference w := by
    intro x n o w hl hv
    cases path_unique (.element rfl rfl (.field rfl (.item rfl (.here _)))) hl
    cases resolves_unique (.plain (by simp) : ValueResolves placeEnv policyTables gs"GE" gs"5" gs"5") hv
    have h := number_parse place_ok (s := gs"5") (q := 5) (wholeText_number 5) (wholeText_noE 5) (place_whole 5 (by decide)).2
    exact ⟨.number ⟨.ge, by decide⟩ (place_whole 5 (by decide)).2 h, plain _ (by simp)⟩
  simp only [findClaim, badContainer, Claim.Typed, Claim.TypedInTurn]
  refine ⟨fun o w hl hv => ?_, fun _ => ⟨fun p hp l hl e he => ?_, fun _ => trivial⟩⟩
  · cases path_unique place_owner.1 hl
    cases resolves_unique place_owner.2.1 hv
    exact ⟨.nothing (by decide), plain _ (by simp)⟩
  · cases List.mem_singleton.1 hp
    cases path_unique place_list hl
    simp only [List.mem_cons, List.not_mem_nil, or_false] at he
    rcases he with rfl | rfl
    · exact ⟨image _ _ (by simp) ⟨rfl, rfl⟩, fun _ => ⟨cpu _ _, fun _ => trivial⟩⟩
    · exact ⟨image _ _ (by simp) ⟨rfl, rfl⟩, fun _ => ⟨cpu _ _, fun _ => trivial⟩⟩

/-- The hypotheses are met: the query of the rule finds the document with the container `redis`. -/
example : ∃ r' q, ({ body := findRule } : RuleObj).toMongoQuery placeEnv policyTables [] gs"data.raw" = .ok (r', .ok (.simple q)) ∧
    selects (mongoDB placeEnv) q (.obj [(gs"data", .obj [(gs"raw", placeDoc)])]) = true := by
  obtain ⟨r', res, h1, h0, h2⟩ := C96_query_partial (r := { body := findRule }) (p := []) (g := policyTables) place_assumed place_ok (names := [gs"data", gs"raw"]) ⟨by simp, by simp; exact ⟨field_plain (by decide), field_plain (by decide)⟩⟩
    (.parsed ⟨rfl, rfl, rfl⟩) find_searchable
  have hp : findClaim.entryPaths = [] := by simp [findClaim, badContainer, Claim.entryPaths, Claim.allEntryPaths]
  obtain ⟨q, rfl⟩ := h0.2 hp
  refine ⟨r', q, h1, (h2 _ placeDoc placeMsg find_stored (fun h => absurd hp h) find_clear find_typed).2 ?_⟩
  have := place_holds
  simp only [placeClaim, findClaim, Claim.Holds, Claim.AllHold, and_true] at this ⊢
  exact ⟨this.2.1, mainPath, by simp, _, place_list, _, .tail _ (.head _), bad_holds⟩

end Mapl.Props

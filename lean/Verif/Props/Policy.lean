import Verif.Lemmas.Policy
import Verif.Props.Loading
import Verif.Props.Parse
import Verif.Props.Names
import Verif.Props.Documents

/-!
# C74: a policy decides by its written meaning

`RuleSays` gives, for a rule as it was written, when it applies to a message; it refers to the texts of the rule and to `Meaning` only. The
theorems say that loading, preparing and checking succeed and that the answer is the most severe decision of the rules that apply.
-/

namespace Mapl.Props

open Spec

variable {env : Env} {g t : Predef} {msg : Msg} {rs : List RuleObj}

/-- **C74.** A policy whose conditions are defined on the message is checked without a crash; each rule that applies by its written
meaning gives its decision and every other rule gives `default`; the answer is the most severe decision of the rules that apply. -/
theorem C74_policy (he : Assumed env) (hm : MsgOk env msg) {xs : List (Prop × Decision)}
    (h : List.Forall₂ (fun r x => RuleSays env g msg r x.1 x.2) rs xs) :
    ∃ out, check env g msg rs = .ok out ∧ Decides xs out := by
  have hlen : rs.length = xs.length := h.length_eq
  have hrule : ∀ (k : Nat) r x, rs[k]? = some r → xs[k]? = some x → RuleSays env g msg r x.1 x.2 := by
    intro k r x h1 h2
    obtain ⟨l1, rfl⟩ := List.getElem?_eq_some_iff.1 h1
    obtain ⟨l2, rfl⟩ := List.getElem?_eq_some_iff.1 h2
    exact h.get l1 l2
  obtain ⟨out, hout⟩ := returns_check.2 fun k r hr => by
    obtain ⟨l1, -⟩ := List.getElem?_eq_some_iff.1 hr
    obtain ⟨o, ho, -⟩ := rule_says he hm (hrule k r xs[k] hr (List.getElem?_eq_getElem _)) [k]
    exact ⟨o, ho⟩
  obtain ⟨ds, h1, h2, d, h3, h4, h5, h6⟩ := check_summary hout
  obtain ⟨outs, c1, a, -, -, -, -, c2, -⟩ := check_inv hout
  obtain ⟨-, c3, c4⟩ := (checkRules_ok rs 0 _).1 c1
  simp only at c3 c4
  have hres : ∀ (k : Nat) x, xs[k]? = some x → (x.1 → out.results[k]? = some x.2.rank) ∧ (¬ x.1 → out.results[k]? = some Decision.default.rank) := by
    intro k x hx
    obtain ⟨l2, -⟩ := List.getElem?_eq_some_iff.1 hx
    have hr : rs[k]? = some (rs[k]'(by omega)) := List.getElem?_eq_getElem _
    obtain ⟨o, ho, e1, e2⟩ := rule_says he hm (hrule k _ x hr hx) [0 + k]
    obtain ⟨o', ho', e3⟩ := c4 k _ hr
    obtain rfl : o' = o := by rw [ho] at ho'; exact (Except.ok.inj ho').symm
    rw [c2, List.getElem?_map, e3]
    exact ⟨fun hA => by simp [e1 hA], fun hA => by simp [(e2 hA).1]⟩
  have hds : ∀ (k : Nat) x, xs[k]? = some x → (x.1 → ds[k]? = some x.2) ∧ (¬ x.1 → ds[k]? = some .default) := by
    intro k x hx
    obtain ⟨e1, e2⟩ := hres k x hx
    rw [h1, List.getElem?_map] at e1 e2
    have inj : ∀ (y : Option Decision) (d : Decision), y.map Decision.rank = some d.rank → y = some d := by
      intro y d hy
      cases y with
      | none => simp at hy
      | some y => cases y <;> cases d <;> simp [Decision.rank] at hy ⊢
    exact ⟨fun hA => inj _ _ (e1 hA), fun hA => inj _ _ (e2 hA)⟩
  refine ⟨out, hout, d, h3, h4, ?_, ?_, ?_, hres⟩
  · rcases h5 with h5 | h5
    · exact .inl h5
    · obtain ⟨k, hk⟩ := List.mem_iff_getElem?.1 h5
      obtain ⟨lk, -⟩ := List.getElem?_eq_some_iff.1 hk
      have hx : xs[k]? = some (xs[k]'(by omega)) := List.getElem?_eq_getElem _
      obtain ⟨e1, e2⟩ := hds k _ hx
      by_cases hA : (xs[k]'(by omega)).1
      · have := e1 hA
        rw [hk] at this
        exact .inr ⟨_, List.getElem_mem _, hA, by simpa using this.symm⟩
      · have := e2 hA
        rw [hk] at this
        exact .inl (by simpa using this)
  · intro x hx hA
    obtain ⟨k, hk⟩ := List.mem_iff_getElem?.1 hx
    exact h6 _ (List.mem_iff_getElem?.2 ⟨k, (hds k x hk).1 hA⟩)
  · rw [h1, List.length_map, h2, hlen]

mutual
theorem statement_writable : ∀ (f : Statement), Sound env t f → Writable env (f.tree env)
  | .cond a m v, h => by
    rw [Sound] at h
    exact .cond h.1 (by simp)
  | .and fs, h => by
    rw [Sound] at h
    exact .and (statements_writable fs h.2)
  | .or fs, h => by
    rw [Sound] at h
    exact .or (statements_writable fs h.2)
  | .not f, h => by
    rw [Sound] at h
    exact .not (statement_writable f h)
  | .any q f, h => by
    rw [Sound] at h
    exact .any (parent_ok h.1) (by simp) (by simp) (statement_writable f h.2)
  | .all q f, h => by
    rw [Sound] at h
    exact .all (parent_ok h.1) (by simp) (by simp) (statement_writable f h.2)

theorem statements_writable : ∀ (fs : List Statement), SoundAll env t fs → ∀ n ∈ Statement.trees env fs, Writable env n
  | [], _, n, hn => by simp [Statement.trees] at hn
  | f :: fs, h, n, hn => by
    rw [SoundAll] at h
    rw [Statement.trees, List.mem_cons] at hn
    rcases hn with rfl | hn
    · exact statement_writable f h.1
    · exact statements_writable fs h.2 n hn
end

/-- **C74.** Every statement that the engine accepts can be written as a document, and any document that writes it is read as its tree. -/
theorem C74_documents (ho : env.OrdOk) (f : Statement) (h : Sound env t f) :
    (∃ j, IsMap j ∧ Writes env [] j (f.tree env)) ∧
    ∀ j, Writes env [] j (f.tree env) → ∀ p, unmarshalConditions env p j = .ok (some (f.tree env)) := by
  obtain ⟨j, h1, h2, -⟩ := C46_every_tree ho (statement_writable f h)
  exact ⟨⟨j, h1, h2⟩, fun j hj p => C46_rule ho hj p⟩

/-- **C74.** Loading such rules with their tables succeeds, and then any check, whatever the global tables are, decides by what the rules
say with their own tables. -/
theorem C74_loaded (he : Assumed env) {bodies : List Rule} {xs : List (Prop × Decision)} (hb : ∀ b ∈ bodies, b.converted = false)
    (h : List.Forall₂ (fun b x => WrittenSays env t msg b x.1 x.2) bodies xs) :
    ∃ rs, loadWithTables env t bodies = .ok (rs, none) ∧ rs.map (·.body) = bodies ∧
      (MsgOk env msg → ∀ g, ∃ out, check env g msg rs = .ok out ∧ Decides xs out) := by
  have hfresh : ∀ b ∈ bodies, Fresh (parsedRule b) := fun b h => ⟨rfl, rfl, hb b h⟩
  obtain ⟨rs, hrs⟩ := loadLoop_total (env := env) (t := t) (bs := bodies) (i := 0) (done := []) fun j b hj => by
    obtain ⟨l1, rfl⟩ := List.getElem?_eq_some_iff.1 hj
    have hx := h.get l1 (h.length_eq ▸ l1)
    generalize (xs.get _).1 = A, (xs.get _).2 = d at hx
    cases hx with
    | mk hc hs hv ht hok hd => exact written_sets he (hfresh _ (List.getElem_mem l1)) hc hs hv ht hok _
  refine ⟨rs, hrs, (C68_loaded he.order hrs).1, fun hm g => C74_policy he hm ?_⟩
  obtain ⟨new, e, hlen, hnew⟩ := loadLoop_ok hrs
  simp at e
  subst e
  refine List.forall₂_iff_get.2 ⟨by rw [hlen, h.length_eq], fun k h1 h2 => ?_⟩
  have hk : bodies[k]? = some (bodies[k]'(by omega)) := List.getElem?_eq_getElem _
  obtain ⟨r, e1, e2⟩ := hnew k _ hk
  obtain rfl : rs.get ⟨k, h1⟩ = r := by
    rw [List.getElem?_eq_getElem h1] at e1
    simpa using e1
  exact ⟨_, t, .prepared (hfresh _ (List.getElem_mem _)) e2, h.get (by omega) h2⟩

/-! ## A policy -/

/-- External functions for which everything that is assumed holds. -/
noncomputable def policyEnv : Env := { regexExt with ord := fun _ l => l }

theorem policyEnv_ok : Assumed policyEnv where
  regexp := regexExt_ok
  order := fun _ _ => List.Perm.refl _
  numbers := ⟨demo_numbers.int, demo_numbers.start⟩
  empty := by rfl

/-- The payload is larger than 10 and some container has the image that the tables call `bad`. -/
def policyStatement : Statement :=
  .and [.cond gs"payloadSize" gs"GT" gs"10", .any (.document [gs"containers"]) (.cond gs"jsonpath:$RELATIVE.image" gs"EQ" gs"#bad")]

/-- A rule that blocks such requests, and a rule that allows the clients named in the tables to read below `/x`. -/
noncomputable def policyRules : List Rule :=
  [{ (Demo.rule gs"block").body with conditions := some (policyStatement.tree policyEnv) },
   { (Demo.rule gs"allow").body with senderName := gs"#clients", senderType := gs"workload", operation := gs"read", resourceName := gs"/x*", protocol := gs"http" }]

def policyTables : Predef :=
  { strings := [(gs"bad", gs"redis")], lists := [(gs"clients", [gs"a*", gs"b"])], listsNoRefs := [(gs"clients", [gs"a*", gs"b"])] }

def policyMsg : Msg :=
  { Demo.msgI with sourceIp := gs"10.1.2.3", destinationIp := gs"10.1.2.4", sourceNetIp := parseIP Demo.ext gs"10.1.2.3",
                   destinationNetIp := parseIP Demo.ext gs"10.1.2.4", requestSize := 20, contextProtocol := gs"HTTP" }

theorem policyMsg_ok : MsgOk policyEnv policyMsg := by
  refine ⟨rfl, rfl, ?_, ?_, ?_, ?_, ?_, ?_⟩ <;> (show '\n' ∉ _; decide)

theorem policy_sound : Sound policyEnv policyTables policyStatement := by
  rw [policyStatement, Sound, SoundAll, SoundAll, SoundAll, Sound, Sound, Sound]
  refine ⟨by simp, ⟨?_, by unfold NoControl; decide, by unfold NoControl; decide, ?_⟩, ⟨?_, ?_, by unfold NoControl; decide, by unfold NoControl; decide, ?_⟩, trivial⟩
  · exact (C42_accepted_iff { attr := _, method := _, value := _ }).1 ⟨_, rfl⟩
  · exact C42_prepared_iff (r := none) |>.1 ⟨_, rfl⟩
  · refine ⟨by simp, fun r hr => ?_⟩
    simp only [List.mem_cons, List.not_mem_nil, or_false] at hr
    subst hr
    refine ⟨⟨by unfold Verbatim; decide, by decide, by decide, by decide⟩, rfl⟩
  · exact (C42_accepted_iff { attr := _, method := _, value := _ }).1 ⟨_, rfl⟩
  · exact C42_prepared_iff (r := none) |>.1 ⟨_, rfl⟩

theorem policy_size : ValueResolves policyEnv policyTables gs"GT" gs"10" gs"10" ∧
    Says policyEnv policyMsg gs"payloadSize" gs"GT" gs"10" (NumMethod.gt.holds (20 : Int) 10) :=
  ⟨.plain (by simp), Says.size (env := policyEnv.toExt) (msg := policyMsg) (k := .gt) (m := gs"GT") (x := 10) (by decide) (intText_iff.2 rfl)⟩

theorem policy_image (x : Str) (hc : Clean x) (hx : parseNumber policyEnv x = none) (hn : x ≠ gs"<nil>") (cpu : Json) :
    ValueResolves policyEnv policyTables gs"EQ" gs"#bad" gs"redis" ∧
    Says policyEnv { policyMsg with rawIRel := some (.obj [(gs"image", .str x), (gs"cpu", cpu)]) } gs"jsonpath:$RELATIVE.image" gs"EQ" gs"redis" (x = gs"redis") := by
  refine ⟨.string rfl rfl, .scalar (P := (· = gs"redis")) (.eq (by decide) ⟨by rintro ⟨y, h⟩; simp at h, by rintro ⟨y, h⟩; simp at h⟩)
    (.parsed (.path (by rintro (⟨y, h⟩ | ⟨y, h⟩) <;> simp at h) ⟨rfl, rfl⟩ (.found rfl)) .string hc hn) fun _ => hx⟩

theorem policy_ranges : Ranges policyEnv policyMsg (.document [gs"containers"])
    [{ policyMsg with rawIRel := some (.obj [(gs"image", .str gs"nginx"), (gs"cpu", .num (.fin 2))]) },
     { policyMsg with rawIRel := some (.obj [(gs"image", .str gs"redis"), (gs"cpu", .num (.fin 7))]) }] :=
  Ranges.document (env := policyEnv.toExt) (msg := policyMsg) (rs := [gs"containers"]) (d := Demo.doc) rfl (by
    intro r hr
    simp only [List.mem_cons, List.not_mem_nil, or_false] at hr
    subst hr
    exact .array _)

theorem policy_defined : Defined policyEnv policyTables policyStatement policyMsg := by
  rw [policyStatement, Defined, DefinedInTurn, DefinedInTurn, DefinedInTurn, Defined, Defined]
  refine ⟨⟨_, _, policy_size⟩, fun _ => ⟨⟨_, policy_ranges, fun x hx => ?_⟩, fun _ => trivial⟩⟩
  rw [Defined]
  simp only [List.mem_cons, List.not_mem_nil, or_false] at hx
  rcases hx with rfl | rfl
  · exact ⟨_, _, policy_image gs"nginx" ⟨by simp, by decide, by decide, by decide⟩ rfl (by simp) _⟩
  · exact ⟨_, _, policy_image gs"redis" ⟨by simp, by decide, by decide, by decide⟩ rfl (by simp) _⟩

theorem policy_meaning : Meaning policyEnv policyTables policyStatement policyMsg := by
  rw [policyStatement, Meaning, MeaningAll, MeaningAll, MeaningAll, Meaning, Meaning]
  refine ⟨⟨_, _, policy_size.1, policy_size.2, by decide⟩, ⟨_, policy_ranges, _, .tail _ (.head _), ?_⟩, trivial⟩
  rw [Meaning]
  exact ⟨_, _, (policy_image gs"redis" ⟨by simp, by decide, by decide, by decide⟩ rfl (by simp) (.num (.fin 7))).1,
    (policy_image gs"redis" ⟨by simp, by decide, by decide, by decide⟩ rfl (by simp) (.num (.fin 7))).2, rfl⟩

theorem policy_says : List.Forall₂ (fun b x => WrittenSays policyEnv policyTables policyMsg b x.1 x.2) policyRules
    [(WrittenParts policyRules[0] gs"*" gs"*" policyMsg ∧ ∀ f ∈ some policyStatement, Meaning policyEnv policyTables f policyMsg, .block),
     (WrittenParts policyRules[1] gs"a*,b" gs"*" policyMsg ∧ ∀ f ∈ (none : Option Statement), Meaning policyEnv policyTables f policyMsg, .allow)] := by
  refine .cons ?_ (.cons ?_ .nil)
  · refine WrittenSays.mk (body := policyRules[0]) (c := some policyStatement) rfl (.plain (by simp [policyRules, Demo.rule])) (.plain (by simp [policyRules, Demo.rule])) ⟨?_, ?_, ?_, ?_⟩ ?_ ?_
    · show PlainPattern _; decide
    · show PlainPattern _; decide
    · show PlainPattern gs"*"; decide
    · show PlainPattern gs"*"; decide
    · simp [policy_sound]
    · simp [policy_defined]
  · refine WrittenSays.mk (body := policyRules[1]) (c := none) rfl (.list (l := [gs"a*", gs"b"]) rfl) (.plain (by simp [policyRules, Demo.rule])) ⟨?_, ?_, ?_, ?_⟩ (by simp) (by simp)
    · show PlainPattern _; decide
    · show PlainPattern _; decide
    · show PlainPattern gs"read"; decide
    · show PlainPattern gs"/x*"; decide

/-- Both rules apply to the message; the answer is to block. -/
example : ∃ rs, loadWithTables policyEnv policyTables policyRules = .ok (rs, none) ∧
    ∀ g, ∃ out, check policyEnv g policyMsg rs = .ok out ∧ out.decisionString = gs"block" ∧ out.results = [3, 1] := by
  obtain ⟨rs, h1, -, h2⟩ := C74_loaded policyEnv_ok (by simp [policyRules, Demo.rule]) policy_says
  refine ⟨rs, h1, fun g => ?_⟩
  obtain ⟨out, ho, d, e1, e2, e3, e4, e5, e6⟩ := h2 policyMsg_ok g
  have a0 : WrittenParts policyRules[0] gs"*" gs"*" policyMsg ∧ ∀ f ∈ some policyStatement, Meaning policyEnv policyTables f policyMsg := by
    refine ⟨⟨?_, ?_, ?_, ?_⟩, by simp [policy_meaning]⟩
    · exact ⟨.inl rfl, gs"*", mem_split_iff.1 (by decide), by show Glob gs"*" gs"a"; simp [Glob]⟩
    · exact ⟨.inl rfl, gs"*", mem_split_iff.1 (by decide), by show Glob gs"*" gs"b"; simp [Glob]⟩
    · trivial
    · trivial
  have a1 : WrittenParts policyRules[1] gs"a*,b" gs"*" policyMsg ∧ ∀ f ∈ (none : Option Statement), Meaning policyEnv policyTables f policyMsg := by
    refine ⟨⟨?_, ?_, ?_, ?_⟩, by simp⟩
    · exact ⟨.inr rfl, gs"a*", mem_split_iff.1 (by decide), by show Glob gs"a*" gs"a"; simp [Glob]⟩
    · exact ⟨.inl rfl, gs"*", mem_split_iff.1 (by decide), by show Glob gs"*" gs"b"; simp [Glob]⟩
    · show OperationMatches gs"read" gs"GET"; simp [OperationMatches]
    · exact ⟨by show List.map _ _ = List.map _ _; decide, .inl rfl, gs"/x*", gs"/x*", mem_split_iff.1 (by decide), trimmed_iff.2 (by decide), by show Glob gs"/x*" gs"/x"; simp [Glob]⟩
  have r0 := (e6 0 _ rfl).1 a0
  have r1 := (e6 1 _ rfl).1 a1
  refine ⟨out, ho, ?_, ?_⟩
  · have := e4 _ (.head _) a0
    rw [e2]
    cases d with
    | block => rfl
    | _ => simp [Decision.rank] at this
  · obtain ⟨x, y, hxy⟩ : ∃ x y, out.results = [x, y] := by
      match hres : out.results, e5 with
      | [x, y], _ => exact ⟨x, y, rfl⟩
    rw [hxy] at r0 r1 ⊢
    simp [Decision.rank] at r0 r1
    rw [r0, r1]

/-- A condition on the version of the encryption, guarded by one on its type. -/
def guarded : Statement := .and [.cond gs"encryptionType" gs"EQ" gs"TLS", .cond gs"encryptionVersion" gs"GE" gs"1"]

theorem guarded_sound : SoundAll policyEnv policyTables [.cond gs"encryptionType" gs"EQ" gs"TLS", .cond gs"encryptionVersion" gs"GE" gs"1"] := by
  rw [SoundAll, SoundAll, SoundAll, Sound, Sound]
  refine ⟨⟨?_, by unfold NoControl; decide, by unfold NoControl; decide, ?_⟩, ⟨?_, by unfold NoControl; decide, by unfold NoControl; decide, ?_⟩, trivial⟩
  · exact (C42_accepted_iff { attr := _, method := _, value := _ }).1 ⟨_, rfl⟩
  · exact C42_prepared_iff (r := none) |>.1 ⟨_, rfl⟩
  · exact (C42_accepted_iff { attr := _, method := _, value := _ }).1 ⟨_, rfl⟩
  · exact C42_prepared_iff (r := none) |>.1 ⟨_, rfl⟩

/-- The message is not encrypted and has no version, so the second condition says nothing of it. It is not asked. -/
example : policyMsg.encryptionVersion = none ∧ Defined policyEnv policyTables guarded policyMsg ∧ ¬ Meaning policyEnv policyTables guarded policyMsg := by
  have h1 : ValueResolves policyEnv policyTables gs"EQ" gs"TLS" gs"TLS" := .plain (by simp)
  have h2 : Says policyEnv policyMsg gs"encryptionType" gs"EQ" gs"TLS" (policyMsg.encryptionType = gs"TLS") :=
    .text .encryption (.eq (by decide) (by unfold PlainWord; decide)) (by rintro ⟨x, h⟩; simp at h)
  have h3 : ¬ Meaning policyEnv policyTables (.cond gs"encryptionType" gs"EQ" gs"TLS") policyMsg := by
    have hs := guarded_sound
    rw [SoundAll] at hs
    rw [meaning_cond policyEnv_ok hs.1 h1 h2]
    decide
  refine ⟨rfl, ?_, ?_⟩
  · rw [guarded, Defined, DefinedInTurn, Defined]
    exact ⟨⟨_, _, h1, h2⟩, fun h => absurd h h3⟩
  · rw [guarded, Meaning, MeaningAll]
    exact fun h => h3 h.1

/-- The same message with the text of the document instead of the parsed document. -/
def policyText : Msg := { policyMsg with rawI := none, jsonRaw := some (Demo.render Demo.doc) }

theorem policy_container {s : Str} (n : Str) (hs : ∀ c ∈ s, c ≠ '"' ∧ c ≠ '\\') (hb : ∀ c ∈ s, c ≠ '{' ∧ c ≠ '}') (hn : ∀ c ∈ n, c ∉ gs"{}[],:\"\\") :
    ObjectText Nested (gs"{\"image\":\"" ++ s ++ gs"\",\"cpu\":" ++ n ++ gs"}") := by
  refine ⟨[(gs"\"image\"", '"' :: (s ++ gs"\"")), (gs"\"cpu\"", n)], ?_, ?_, by simp [join]⟩
  · simp only [List.mem_cons, List.not_mem_nil, or_false]
    rintro x (rfl | rfl)
    · exact key_text (k := gs"image") (quoted_plain (by simp)) (nested_plain (by simp))
    · exact key_text (k := gs"cpu") (quoted_plain (by simp)) (nested_plain (by simp))
  · simp only [List.mem_cons, List.not_mem_nil, or_false]
    rintro x (rfl | rfl)
    · exact .str (quoted_plain hs) (nested_plain hb)
    · exact .atom hn

theorem policy_jsGet (raw q : Str) : policyEnv.jsGet raw q = Demo.ext.jsGet raw q := rfl

set_option maxRecDepth 8000 in
theorem policy_text_ranges : Ranges policyEnv policyText (.document [gs"containers"])
    [{ policyText with jsonRawRel := some gs"{\"image\":\"nginx\",\"cpu\":2}" }, { policyText with jsonRawRel := some gs"{\"image\":\"redis\",\"cpu\":7}" }] := by
  have h : Demo.ext.jsGet (Demo.render Demo.doc) gs"$.containers" = (gs"[{\"image\":\"nginx\",\"cpu\":2},{\"image\":\"redis\",\"cpu\":7}]", false) := by decide +kernel
  refine Ranges.text (l := [gs"{\"image\":\"nginx\",\"cpu\":2}", gs"{\"image\":\"redis\",\"cpu\":7}"]) rfl
    (.document (parts := [gs"[{\"image\":\"nginx\",\"cpu\":2},{\"image\":\"redis\",\"cpu\":7}]"]) rfl (.cons (.part ((policy_jsGet _ _).trans h)) .nil) (by rintro r ⟨⟩; exact congrArg Prod.snd ((policy_jsGet _ _).trans h))) (by simp [join]) ?_
  refine PartElements.lists (env := policyEnv.toExt)
    (ls := [[{ isObject := true, text := gs"{\"image\":\"nginx\",\"cpu\":2}" }, { isObject := true, text := gs"{\"image\":\"redis\",\"cpu\":7}" }]]) (by simp) ?_ (by
      intro rest hr
      have : (gs"[{" : Str) <+: gs"[[" ++ rest := by rw [← hr]; decide
      simp at this)
  intro l hl
  simp only [List.mem_cons, List.not_mem_nil, or_false] at hl
  subst hl
  simp only [List.mem_cons, List.not_mem_nil, or_false]
  rintro i (rfl | rfl)
  · exact ⟨⟨by simp [Blank], by simp [Blank], policy_container (s := gs"nginx") gs"2" (by simp) (by simp) (by simp)⟩, by simp⟩
  · exact ⟨⟨by simp [Blank], by simp [Blank], policy_container (s := gs"redis") gs"7" (by simp) (by simp) (by simp)⟩, by simp⟩

theorem policy_text_image {x raw : Str} (hc : Clean x) (hx : parseNumber policyEnv x = none) (hne : raw ≠ []) (hr : policyEnv.jsGet raw gs"$.image" = (gs"\"" ++ x ++ gs"\"", false)) :
    ValueResolves policyEnv policyTables gs"EQ" gs"#bad" gs"redis" ∧
    Says policyEnv { policyText with jsonRawRel := some raw } gs"jsonpath:$RELATIVE.image" gs"EQ" gs"redis" (x = gs"redis") := by
  refine ⟨.string rfl rfl, .scalar (P := (· = gs"redis")) (.eq (by decide) ⟨by rintro ⟨y, h⟩; simp at h, by rintro ⟨y, h⟩; simp at h⟩)
    (.text (.path (by rintro (⟨y, h⟩ | ⟨y, h⟩) <;> simp at h) ⟨rfl, hne, rfl⟩ hr) (.inr rfl) hc) fun _ => hx⟩

theorem policy_text_says : Defined policyEnv policyTables policyStatement policyText ∧ Meaning policyEnv policyTables policyStatement policyText := by
  have h1 := policy_text_image (x := gs"nginx") (raw := gs"{\"image\":\"nginx\",\"cpu\":2}") ⟨by simp, by decide, by decide, by decide⟩ rfl (by simp) (by
    rw [policy_jsGet]; decide +kernel)
  have h2 := policy_text_image (x := gs"redis") (raw := gs"{\"image\":\"redis\",\"cpu\":7}") ⟨by simp, by decide, by decide, by decide⟩ rfl (by simp) (by
    rw [policy_jsGet]; decide +kernel)
  have hs : Says policyEnv policyText gs"payloadSize" gs"GT" gs"10" (NumMethod.gt.holds (20 : Int) 10) :=
    Says.size (env := policyEnv.toExt) (msg := policyText) (k := .gt) (m := gs"GT") (x := 10) (by decide) (intText_iff.2 rfl)
  constructor
  · rw [policyStatement, Defined, DefinedInTurn, DefinedInTurn, DefinedInTurn, Defined, Defined]
    refine ⟨⟨_, _, policy_size.1, hs⟩, fun _ => ⟨⟨_, policy_text_ranges, fun x hx => ?_⟩, fun _ => trivial⟩⟩
    rw [Defined]
    simp only [List.mem_cons, List.not_mem_nil, or_false] at hx
    rcases hx with rfl | rfl
    · exact ⟨_, _, h1⟩
    · exact ⟨_, _, h2⟩
  · rw [policyStatement, Meaning, MeaningAll, MeaningAll, MeaningAll, Meaning, Meaning]
    refine ⟨⟨_, _, policy_size.1, hs, by decide⟩, ⟨_, policy_text_ranges, _, .tail _ (.head _), ?_⟩, trivial⟩
    rw [Meaning]
    exact ⟨_, _, h2.1, h2.2, rfl⟩

/-- The rule blocks the message whose document is held as text. -/
example : ∀ g, ∃ rs out, loadWithTables policyEnv policyTables [policyRules[0]] = .ok (rs, none) ∧ check policyEnv g policyText rs = .ok out ∧
    out.decisionString = gs"block" := by
  intro g
  obtain ⟨d, m⟩ := policy_text_says
  have hs : List.Forall₂ (fun b x => WrittenSays policyEnv policyTables policyText b x.1 x.2) [policyRules[0]]
      [(WrittenParts policyRules[0] gs"*" gs"*" policyText ∧ ∀ f ∈ some policyStatement, Meaning policyEnv policyTables f policyText, .block)] := by
    refine .cons (WrittenSays.mk (body := policyRules[0]) (c := some policyStatement) rfl (.plain (by simp [policyRules, Demo.rule]))
      (.plain (by simp [policyRules, Demo.rule])) ⟨?_, ?_, ?_, ?_⟩ (by simp [policy_sound]) (by simp [d])) .nil
    · show PlainPattern _; decide
    · show PlainPattern _; decide
    · show PlainPattern gs"*"; decide
    · show PlainPattern gs"*"; decide
  obtain ⟨rs, h1, -, h2⟩ := C74_loaded policyEnv_ok (by simp [policyRules, Demo.rule]) hs
  have hok : MsgOk policyEnv policyText := by
    refine ⟨rfl, rfl, ?_, ?_, ?_, ?_, ?_, ?_⟩ <;> (show '\n' ∉ _; decide)
  obtain ⟨out, ho, d, e1, e2, e3, e4, e5, e6⟩ := h2 hok g
  refine ⟨rs, out, h1, ho, ?_⟩
  have := e4 _ (.head _) ⟨⟨⟨.inl rfl, gs"*", mem_split_iff.1 (by decide), by show Glob gs"*" gs"a"; simp [Glob]⟩, ⟨.inl rfl, gs"*", mem_split_iff.1 (by decide), by show Glob gs"*" gs"b"; simp [Glob]⟩,
    trivial, trivial⟩, by simp [m]⟩
  rw [e2]
  cases d with
  | block => rfl
  | _ => simp [Decision.rank] at this

end Mapl.Props

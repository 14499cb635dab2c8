import Verif.Lemmas.Place
import Verif.Props.Policy
import Verif.Lemmas.Decode
import Verif.Lemmas.Fields

/-!
# Conditions about a document are decided by the document

C93. Given what `PathsOk` assumes of the libraries, a policy of `Claim`s is decided by the values in the document, and it does not matter whether the message has the document parsed
or as a text that is plainly written.
-/

namespace Mapl.Props

open Mapl.Spec

variable {env : Env} {g t : Predef} {base msg msg' : Msg} {root : Json} {cur : Option Json} {rs : List RuleObj}

/-- **C93**, one condition: it answers what its method and value say about what the path leads to in the document. -/
theorem C93_condition_partial {p : Path} {m v w : Str} {o : Option Json} {P : Prop} {c : Condition} {l : List Nat} (he : Assumed env) (hp : PathsOk env) (hpl : PlainSteps p.steps)
    (h : (parsed env (gs"jsonpath:" ++ p.text) m v none).prepare env t = .ok c) (hv : ValueResolves env t m v w) (hl : p.Leads root cur o) (hS : TestSays env o m w P)
    (hc : Carries env base root msg cur) : ∃ b, testOneCondition env l c msg = .ok (b, []) ∧ (b = true ↔ P) :=
  says_answer he.regexp he.order he.numbers he.empty h hv (path_says hp hpl hc hl hS) l

/-- **C93**, conditions: what they mean for a message is what they say of its document. -/
theorem C93_statement_partial (he : Assumed env) (hp : PathsOk env) (f : Claim) (hpl : f.Plain) (hs : Sound env t f.statement) (hd : f.Clear env t base root cur)
    (hc : Carries env base root msg cur) : Defined env t f.statement msg ∧ (Meaning env t f.statement msg ↔ f.Holds env t base root cur) :=
  claim_meaning he hp f msg cur hpl hs hc hd

/-- **C93.** A check decides by what the rules say of the document. -/
theorem C93_check_partial (he : Assumed env) (hp : PathsOk env) (hm : MsgOk env base) {xs : List (Prop × Decision)}
    (h : List.Forall₂ (fun r x => RuleClaims env g base root r x.1 x.2) rs xs) (hc : Carries env base root msg none) :
    ∃ out, check env g msg rs = .ok out ∧ Decides xs out :=
  C74_policy he (carries_msg hc hm) (h.imp fun _ _ ⟨body, t, h1, h2⟩ => ⟨body, t, h1, writtenClaims he hp hc h2⟩)

/-- **C93**, with tables: loading such rules succeeds, and then any check decides by what they say of the document. -/
theorem C93_loaded_partial (he : Assumed env) (hp : PathsOk env) (hm : MsgOk env base) {bodies : List Rule} {xs : List (Prop × Decision)} (hb : ∀ b ∈ bodies, b.converted = false)
    (h : List.Forall₂ (fun b x => WrittenClaims env t base root b x.1 x.2) bodies xs) (hc : Carries env base root msg none) :
    ∃ rs, loadWithTables env t bodies = .ok (rs, none) ∧ rs.map (·.body) = bodies ∧ ∀ g, ∃ out, check env g msg rs = .ok out ∧ Decides xs out := by
  obtain ⟨rs, h1, h2, h3⟩ := C74_loaded he hb (h.imp fun _ _ => writtenClaims he hp hc)
  exact ⟨rs, h1, h2, h3 (carries_msg hc hm)⟩

theorem decides_unique {xs : List (Prop × Decision)} {o o' : CheckOut} (h : Decides xs o) (h' : Decides xs o') :
    o.decision = o'.decision ∧ o.decisionString = o'.decisionString ∧ o.results = o'.results := by
  obtain ⟨d, a1, a2, a3, a4, a5, a6⟩ := h
  obtain ⟨d', b1, b2, b3, b4, b5, b6⟩ := h'
  have le : ∀ {d d' : Decision}, (d = .default ∨ ∃ x ∈ xs, x.1 ∧ x.2 = d) → (∀ x ∈ xs, x.1 → x.2.rank ≤ d'.rank) → d.rank ≤ d'.rank := by
    rintro d d' (rfl | ⟨x, h1, h2, rfl⟩) h
    · exact Nat.zero_le _
    · exact h x h1 h2
  have hd : d = d' := by
    have := Nat.le_antisymm (le a3 b4) (le b3 a4)
    cases d <;> cases d' <;> first | rfl | (revert this; decide)
  subst hd
  refine ⟨a1.trans b1.symm, a2.trans b2.symm, List.ext_getElem? fun k => ?_⟩
  cases hk : xs[k]? with
  | none =>
    have := List.getElem?_eq_none_iff.1 hk
    rw [List.getElem?_eq_none (by omega), List.getElem?_eq_none (by omega)]
  | some x =>
    by_cases hx : x.1
    · rw [(a6 k x hk).1 hx, (b6 k x hk).1 hx]
    · rw [(a6 k x hk).2 hx, (b6 k x hk).2 hx]

/-- **C93.** Messages that have the same document, parsed or in any plainly written form, get the same decision and the same results. -/
theorem C93_same_partial (he : Assumed env) (hp : PathsOk env) (hm : MsgOk env base) {xs : List (Prop × Decision)}
    (h : List.Forall₂ (fun r x => RuleClaims env g base root r x.1 x.2) rs xs) (hc : Carries env base root msg none) (hc' : Carries env base root msg' none) :
    ∃ out out', check env g msg rs = .ok out ∧ check env g msg' rs = .ok out' ∧
      out.decision = out'.decision ∧ out.decisionString = out'.decisionString ∧ out.results = out'.results := by
  obtain ⟨o, h1, h2⟩ := C93_check_partial he hp hm h hc
  obtain ⟨o', h3, h4⟩ := C93_check_partial he hp hm h hc'
  exact ⟨o, o', h1, h3, decides_unique h2 h4⟩

/-! ## Plainly written texts are JSON -/

theorem literal_plain {s : Str} (h : PlainString s) : Literal s s := by
  induction s with
  | nil => exact ⟨[], .nil, .nil⟩
  | cons c s ih =>
    obtain ⟨l, h1, h2⟩ := ih fun d hd => h d (by simp [hd])
    have hc := h c (by simp)
    simp only [List.mem_cons, List.not_mem_nil, or_false, not_or] at hc
    exact ⟨.char c :: l, .plain hc.1.1 hc.1.2.1 hc.2 h1, .char h2⟩

/-- Whole numbers are read as such. -/
def WholeRead (env : Ext) : Prop := ∀ n : Int, n.natAbs < 1000000 → NumberText (wholeText n) ∧ env.parseFloat (wholeText n) = some (.fin n)

mutual
theorem plainly_value {env : Ext} (hw : WholeRead env) : ∀ {s : Str} {v : Json}, Plainly env s v → ValueOf env s v
  | _, _, .null => .null
  | _, _, .true => .true
  | _, _, .false => .false
  | _, _, .whole h => .num (hw _ h).1 (hw _ h).2
  | _, _, .num h _ hx _ => .num h hx
  | _, _, .str h => .str (literal_plain h)
  | _, _, .noElements => .noElements (w := []) blank_nil
  | _, _, .arr h => .arr (plainly_elements hw h)
  | _, _, .noMembers => .noMembers (w := []) blank_nil
  | _, _, .obj h _ => .obj (plainly_members hw h)

theorem plainly_elements {env : Ext} (hw : WholeRead env) : ∀ {s : Str} {l : List Json}, PlainElements env s l → ElementsOf env s l
  | _, _, .one h1 hv h2 => .one h1 (plainly_value hw hv) h2
  | _, _, .more h1 hv h2 h => .more h1 (plainly_value hw hv) h2 (plainly_elements hw h)

theorem plainly_members {env : Ext} (hw : WholeRead env) : ∀ {s : Str} {l : List (Str × Json)}, PlainMembers env s l → MembersOf env s l
  | _, _, .oneMember h0 hk h1 h2 hv h3 => .oneMember h0 (literal_plain hk) h1 h2 (plainly_value hw hv) h3
  | _, _, .moreMembers h0 hk h1 h2 hv h3 h => .moreMembers h0 (literal_plain hk) h1 h2 (plainly_value hw hv) h3 (plainly_members hw h)
end

theorem plainly_doc {env : Ext} (hw : WholeRead env) {s : Str} {v : Json} (h : Plainly env s v) : JsonDoc env s v :=
  ⟨[], s, [], blank_nil, plainly_value hw h, blank_nil, by simp⟩

/-- **C93.** A plainly written text is a JSON document, and has no other value. -/
theorem C93_text (hp : PathsOk env) {s : Str} (h : Plainly env s root) : JsonDoc env s root ∧ ∀ d, JsonDoc env s d → d = root := by
  have hd := plainly_doc (fun n hn => by
    obtain ⟨h1, h2⟩ := hp.whole n hn
    obtain ⟨h3, -, h5⟩ := hp.print n h1
    rw [h2] at h3 h5
    exact ⟨h3, h5⟩) h
  refine ⟨hd, fun d hd' => ?_⟩
  have h1 := jsonScan_iff.2 hd
  rw [jsonScan_iff.2 hd'] at h1
  exact Option.some.inj h1

/-! ## Where documents differ after all -/

/-- **C93** is violated for texts with escapes, as the Go encoder writes them: the document with the text `a&b`, which it writes `a\u0026b`, meets EQ with `a&b` if it is parsed and not if it
is a text. -/
theorem C93_violated_escape : ∃ (env : Env) (raw : Str) (d : Json), JsonDoc env raw d ∧ raw = env.jsonMarshal d ∧ env.OrdOk ∧ NumbersOk env ∧
    Answers env {} [] { rawI := some d } gs"jsonpath:$.kind" gs"EQ" gs"a&b" true ∧
    Answers env {} [] { jsonRaw := some raw } gs"jsonpath:$.kind" gs"EQ" gs"a&b" false :=
  ⟨Demo.env, gs"{\"kind\":\"a\\u0026b\"}", .obj [(gs"kind", .str gs"a&b")], jsonScan_iff.1 (by rfl), by decide +kernel, Demo.env_ordOk, demo_numbers,
   answers_of (by decide +kernel), answers_of (by decide +kernel)⟩

/-- **C93** is violated for lists that have other elements than objects: in the parsed document ANY and ALL range over all elements, in the text over the objects. With a rule that blocks
if every element of `["x",{"a":1}]` has an `a`, the parsed document is not blocked and the text is. -/
theorem C93_violated_scalars : ∃ (env : Env) (raw : Str) (d : Json) (rs : List RuleObj), JsonDoc env raw d ∧ raw = env.jsonMarshal d ∧
    (∃ o, check env {} { rawI := some d } rs = .ok o ∧ o.decision = Decision.default.rank) ∧
    ∃ o, check env {} { jsonRaw := some raw } rs = .ok o ∧ o.decision = Decision.block.rank := by
  have sum : ∀ {r : Go CheckOut} {a b c d}, Demo.summary r = some (a, b, c, d) → ∃ o, r = .ok o ∧ o.decision = a := by
    intro r a b c d h
    cases r with
    | ok o => simp only [Demo.summary, Option.some.injEq, Prod.mk.injEq] at h; exact ⟨o, rfl, h.1⟩
    | error e => simp [Demo.summary] at h
  refine ⟨Demo.env, gs"{\"xs\":[\"x\",{\"a\":1}]}", .obj [(gs"xs", .arr [.str gs"x", .obj [(gs"a", .num (.fin 1))]])],
    [Demo.rule gs"block" (some (Demo.allOf gs"jsonpath:$.xs" (Demo.cond gs"jsonpath:$RELATIVE.a" gs"EX" [])))], jsonScan_iff.1 (by rfl), by decide +kernel,
    sum (b := [0]) (c := -1) (d := []) (by decide +kernel), sum (b := [3]) (c := 0) (d := [0]) (by decide +kernel)⟩

/-! ## An environment with such libraries

Numbers are the whole numbers below a million; the libraries find what is there. -/

theorem numeral_decimal (n : Nat) : Numeral (decimal n) n := by
  have : ∀ {n s}, Digits n s → Numeral s n := by
    intro n s h
    induction h with
    | digit h => exact .digit h
    | more _ _ h ih => exact .more ih h
  exact this (decimal_toDigits n)

theorem decimal_inj {a b : Nat} (h : decimal a = decimal b) : a = b := by
  have h1 := numeral_iff.1 (numeral_decimal a)
  rw [h, numeral_iff.1 (numeral_decimal b)] at h1
  exact (Option.some.inj h1).symm

theorem digitText_decimal (n : Nat) : DigitText (decimal n) := by
  refine ⟨?_, fun c hc => ?_⟩
  · have h := numeral_decimal n
    generalize decimal n = s at h
    cases h <;> simp
  · have h := wholeText_char (n : Int) c (by rw [wholeText, if_neg (by omega)]; exact hc)
    have hd := decimal_digits n c hc
    simp only [List.mem_cons, List.not_mem_nil, or_false] at h ⊢
    rcases h with h | h | h | h | h | h | h | h | h | h | rfl | rfl | rfl | rfl | rfl <;> first | tauto | (revert hd; decide)

theorem wholeText_number (n : Int) : NumberText (wholeText n) := by
  have hi : decimal n.natAbs = gs"0" ∨ (DigitText (decimal n.natAbs) ∧ (decimal n.natAbs).head? ≠ some '0') := by
    by_cases h : n.natAbs = 0
    · left; rw [h]; rfl
    · obtain ⟨c, t, h1, h2⟩ := digits_head h
      exact .inr ⟨digitText_decimal _, by rw [show decimal n.natAbs = c :: t from h1]; simpa using h2⟩
  unfold wholeText
  split
  · exact ⟨gs"-", decimal n.natAbs, [], [], by simp, .inr rfl, hi, .inl rfl, .inl rfl⟩
  · exact ⟨[], decimal n.natAbs, [], [], by simp, .inl rfl, hi, .inl rfl, .inl rfl⟩

theorem wholeText_int {n : Int} (h : n.natAbs < 1000000) : IntText (wholeText n) n := by
  unfold wholeText
  split
  · have := IntText.minus (numeral_decimal n.natAbs) (by omega)
    rwa [show -((n.natAbs : Nat) : Int) = n by omega] at this
  · have := IntText.plain (numeral_decimal n.natAbs) (by omega)
    rwa [show ((n.natAbs : Nat) : Int) = n by omega] at this

theorem wholeText_noE (n : Int) : ∀ a c b, wholeText n = a ++ 'e' :: c :: b → c.isDigit = false := by
  intro a c b h
  exfalso
  have he : 'e' ∈ wholeText n := by rw [h]; simp
  unfold wholeText at he
  split at he
  · rcases List.mem_cons.1 he with e | he
    · revert e; decide
    · have := decimal_digits _ _ he; revert this; decide
  · have := decimal_digits _ _ he; revert this; decide

/-- The names of one field or the number of one element, and how the rest goes on. -/
theorem run_inj {P : Char → Bool} {a b s t : Str} (ha : ∀ c ∈ a, P c = true) (hb : ∀ c ∈ b, P c = true) (hs : ∀ c ∈ s.head?, P c = false) (ht : ∀ c ∈ t.head?, P c = false)
    (h : a ++ s = b ++ t) : a = b ∧ s = t := by
  induction a generalizing b with
  | nil =>
    cases b with
    | nil => exact ⟨rfl, h⟩
    | cons c b =>
      rw [List.nil_append] at h
      have := hs c (by rw [h]; simp)
      rw [hb c (by simp)] at this
      cases this
  | cons c a ih =>
    cases b with
    | nil =>
      rw [List.nil_append] at h
      have := ht c (by rw [← h]; simp)
      rw [ha c (by simp)] at this
      cases this
    | cons c' b =>
      simp only [List.cons_append, List.cons.injEq] at h
      obtain ⟨h1, h2⟩ := ih (fun d hd => ha d (by simp [hd])) (fun d hd => hb d (by simp [hd])) h.2
      exact ⟨by rw [h.1, h1], h2⟩

def nameChar (c : Char) : Bool := c.isAlphanum || c == '_'

theorem steps_head (p : List Step) : ∀ c ∈ (stepsText p).head?, nameChar c = false := by
  cases p with
  | nil => simp [stepsText]
  | cons s p =>
    intro c hc
    cases s <;> simp only [stepsText_cons, Step.text, List.cons_append, List.head?_cons, Option.mem_def, Option.some.injEq] at hc <;> subst hc <;> decide

theorem stepsText_inj : ∀ {p p' : List Step}, PlainSteps p → PlainSteps p' → stepsText p = stepsText p' → p = p'
  | [], [], _, _, _ => rfl
  | [], s :: p, _, _, h => by cases s <;> simp [stepsText, Step.text] at h
  | s :: p, [], _, _, h => by cases s <;> simp [stepsText, Step.text] at h
  | .field n :: p, .item i :: p', _, _, h => by simp [stepsText_cons, Step.text] at h
  | .item i :: p, .field n :: p', _, _, h => by simp [stepsText_cons, Step.text] at h
  | .field n :: p, .field n' :: p', h1, h2, h => by
    rw [plainSteps_cons] at h1 h2
    simp only [stepsText_cons, Step.text, List.cons_append, List.cons.injEq, true_and] at h
    have hn : ∀ {n}, FieldName n → ∀ c ∈ n, nameChar c = true := fun h c hc => by simpa [nameChar] using h.2.1 c hc
    obtain ⟨e1, e2⟩ := run_inj (hn (h1.1 n rfl)) (hn (h2.1 n' rfl)) (steps_head p) (steps_head p') h
    rw [e1, stepsText_inj h1.2 h2.2 e2]
  | .item i :: p, .item i' :: p', h1, h2, h => by
    rw [plainSteps_cons] at h1 h2
    simp only [stepsText_cons, Step.text, List.cons_append, List.cons.injEq, true_and, List.append_assoc] at h
    obtain ⟨e1, e2⟩ := run_inj (P := Char.isDigit) (decimal_digits i) (decimal_digits i') (by simp) (by simp) h
    simp only [List.cons.injEq, true_and, List.nil_append] at e2
    rw [decimal_inj e1, stepsText_inj h1.2 h2.2 e2]

open Classical in
/-- Whole numbers below a million. -/
noncomputable def placeNumbers : Ext :=
  { regexExt with
    parseFloat := fun s => (parseInt s).map fun (n : Int) => if n.natAbs < 1000000 then F64.fin n else F64.posInf
    rnd := fun q => if ∃ n : Int, n.natAbs < 1000000 ∧ q = n then .fin q else .nan
    fmtFloat := fun x => match x with | .fin q => wholeText q.num | _ => gs"NaN"
    jpOk := fun q => hasPrefix q gs"$." }

open Classical in
/-- Libraries that find what is there. -/
noncomputable def placeExt : Ext :=
  { placeNumbers with
    jpGet := fun q d => if h : ∃ v p, (∃ k : Mark, PlainSteps p ∧ q = '$' :: (stepsText p ++ k.text)) ∧ Leads d p (some v) then (h.choose, none) else (.null, some gs"nothing there")
    jsGet := fun s q => if h : ∃ u p d v, (∃ k : Mark, PlainSteps p ∧ q = '$' :: (stepsText p ++ k.text)) ∧ Plainly placeNumbers s d ∧ Leads d p (some v) ∧ Plainly placeNumbers u v then (h.choose, false) else ([], false)
    ugly := fun s => s
    jsonUnmarshal := fun s => if h : ∃ d, Plainly placeNumbers s d then some h.choose else none
    jsonMarshal := fun d => if d = .arr [] then gs"[]" else if h : ∃ s, Plainly placeNumbers s d then h.choose else [] }

noncomputable def placeEnv : Env := { placeExt with ord := fun _ l => l }

mutual
theorem plainly_congr {e e' : Ext} (h : e.parseFloat = e'.parseFloat) : ∀ {s : Str} {v : Json}, Plainly e s v → Plainly e' s v
  | _, _, .null => .null
  | _, _, .true => .true
  | _, _, .false => .false
  | _, _, .whole h' => .whole h'
  | _, _, .num h1 h2 h3 h4 => .num h1 h2 (h ▸ h3) h4
  | _, _, .str h' => .str h'
  | _, _, .noElements => .noElements
  | _, _, .arr h' => .arr (plainElements_congr h h')
  | _, _, .noMembers => .noMembers
  | _, _, .obj h' hd => .obj (plainMembers_congr h h') hd

theorem plainElements_congr {e e' : Ext} (h : e.parseFloat = e'.parseFloat) : ∀ {s : Str} {l : List Json}, PlainElements e s l → PlainElements e' s l
  | _, _, .one h1 hv h2 => .one h1 (plainly_congr h hv) h2
  | _, _, .more h1 hv h2 ht => .more h1 (plainly_congr h hv) h2 (plainElements_congr h ht)

theorem plainMembers_congr {e e' : Ext} (h : e.parseFloat = e'.parseFloat) : ∀ {s : Str} {l : List (Str × Json)}, PlainMembers e s l → PlainMembers e' s l
  | _, _, .oneMember h0 hk h1 h2 hv h3 => .oneMember h0 hk h1 h2 (plainly_congr h hv) h3
  | _, _, .moreMembers h0 hk h1 h2 hv h3 ht => .moreMembers h0 hk h1 h2 (plainly_congr h hv) h3 (plainMembers_congr h ht)
end

theorem plainElements_part {e : Ext} : ∀ {s : Str} {l : List Json}, PlainElements e s l → ∀ v ∈ l, ∃ u, Plainly e u v
  | _, _, .one _ hv _, v, h => by rw [List.mem_singleton.1 h]; exact ⟨_, hv⟩
  | _, _, .more _ hv _ ht, v, h => by
    rcases List.mem_cons.1 h with rfl | h
    · exact ⟨_, hv⟩
    · exact plainElements_part ht v h

theorem plainMembers_part {e : Ext} : ∀ {s : Str} {l : List (Str × Json)}, PlainMembers e s l → ∀ x ∈ l, ∃ u, Plainly e u x.2
  | _, _, .oneMember _ _ _ _ hv _, x, h => by rw [List.mem_singleton.1 h]; exact ⟨_, hv⟩
  | _, _, .moreMembers _ _ _ _ hv _ ht, x, h => by
    rcases List.mem_cons.1 h with rfl | h
    · exact ⟨_, hv⟩
    · exact plainMembers_part ht x h

theorem plainly_part {e : Ext} {d : Json} {p : List Step} {o : Option Json} (h : Leads d p o) : ∀ {s v}, o = some v → Plainly e s d → ∃ u, Plainly e u v := by
  induction h with
  | here => intro s v e hs; cases e; exact ⟨_, hs⟩
  | field h _ ih =>
    intro s v e hs
    cases hs with
    | noMembers => simp [lookup] at h
    | obj hm _ =>
      obtain ⟨u, hu⟩ := plainMembers_part hm _ (lookup_some h)
      exact ih e hu
  | item h _ ih =>
    intro s v e hs
    cases hs with
    | noElements => simp at h
    | arr hm =>
      obtain ⟨u, hu⟩ := plainElements_part hm _ (List.mem_of_getElem? h)
      exact ih e hu
  | noField => intro s v e; cases e
  | noItem => intro s v e; cases e

theorem place_whole : WholeRead placeNumbers := fun n hn => by
  refine ⟨wholeText_number n, ?_⟩
  show Option.map _ (parseInt (wholeText n)) = _
  rw [intText_iff.1 (wholeText_int hn)]
  simp [hn]

theorem place_rnd {q : Rat} (h : placeEnv.rnd q = .fin q) : ∃ n : Int, n.natAbs < 1000000 ∧ q = n := by
  by_contra hn
  have : placeEnv.rnd q = .nan := if_neg hn
  rw [this] at h
  cases h

theorem marked_inj {p p' : List Step} {k k' : Mark} (hp : PlainSteps p) (hp' : PlainSteps p') (h : stepsText p ++ k.text = stepsText p' ++ k'.text) : p = p' := by
  have no : ∀ {p : List Step}, PlainSteps p → ':' ∉ stepsText p ∧ '*' ∉ stepsText p := fun h =>
    ⟨fun hm => by have := steps_pathChar h _ hm; revert this; unfold PathChar; decide, fun hm => by have := steps_pathChar h _ hm; revert this; unfold PathChar; decide⟩
  have mem : ∀ c, c ∈ stepsText p ++ k.text ↔ c ∈ stepsText p' ++ k'.text := fun c => by rw [h]
  have h1 := mem ':'
  have h2 := mem '*'
  have e : k = k' := by
    simp only [List.mem_append, (no hp).1, (no hp').1, false_or] at h1
    simp only [List.mem_append, (no hp).2, (no hp').2, false_or] at h2
    cases k <;> cases k' <;> first | rfl | (exfalso; revert h1 h2; decide)
  subst e
  exact stepsText_inj hp hp' (List.append_cancel_right h)

theorem place_get {p : List Step} {k : Mark} {d v : Json} (hp : PlainSteps p) (h : Leads d p (some v)) : placeEnv.jpGet ('$' :: (stepsText p ++ k.text)) d = (v, none) := by
  have hex : ∃ v' p', (∃ k' : Mark, PlainSteps p' ∧ '$' :: (stepsText p ++ k.text) = '$' :: (stepsText p' ++ k'.text)) ∧ Leads d p' (some v') := ⟨v, p, ⟨k, hp, rfl⟩, h⟩
  refine (dif_pos hex).trans ?_
  obtain ⟨p', ⟨k', h1, h2⟩, h3⟩ := hex.choose_spec
  rw [← marked_inj hp h1 (by simpa using h2)] at h3
  have := leads_unique h3 h
  simp only [Option.some.injEq] at this
  rw [this]

theorem place_getText {p : List Step} {k : Mark} {s : Str} {d v : Json} (hp : PlainSteps p) (hs : Plainly placeEnv.toExt s d) (h : Leads d p (some v)) :
    ∃ u, placeEnv.jsGet s ('$' :: (stepsText p ++ k.text)) = (u, false) ∧ Plainly placeEnv.toExt u v := by
  have hs' : Plainly placeNumbers s d := plainly_congr (e := placeEnv.toExt) (e' := placeNumbers) rfl hs
  obtain ⟨u, hu⟩ := plainly_part h rfl hs'
  have hex : ∃ u' p' d' v', (∃ k' : Mark, PlainSteps p' ∧ '$' :: (stepsText p ++ k.text) = '$' :: (stepsText p' ++ k'.text)) ∧ Plainly placeNumbers s d' ∧ Leads d' p' (some v') ∧
      Plainly placeNumbers u' v' := ⟨u, p, d, v, ⟨k, hp, rfl⟩, hs', h, hu⟩
  refine ⟨hex.choose, ?_, ?_⟩
  · exact dif_pos hex
  · obtain ⟨p', d', v', ⟨k', h1, h2⟩, h3, h4, h5⟩ := hex.choose_spec
    rw [← marked_inj hp h1 (by simpa using h2)] at h4
    have hd : d' = d := by
      have e1 := jsonScan_iff.2 (plainly_doc place_whole h3)
      rw [jsonScan_iff.2 (plainly_doc place_whole hs')] at e1
      exact (Option.some.inj e1).symm
    rw [hd] at h4
    have := leads_unique h4 h
    simp only [Option.some.injEq] at this
    rw [this] at h5
    exact plainly_congr (e := placeNumbers) (e' := placeEnv.toExt) rfl h5

theorem place_noGet {p : List Step} {k : Mark} {d : Json} (hp : PlainSteps p) (h : Leads d p none) : ∃ e, placeEnv.jpGet ('$' :: (stepsText p ++ k.text)) d = (.null, some e) := by
  refine ⟨gs"nothing there", ?_⟩
  refine dif_neg ?_
  rintro ⟨v, p', ⟨k', h1, h2⟩, h3⟩
  rw [← marked_inj (k := k) (k' := k') hp h1 (List.cons.inj h2).2] at h3
  cases leads_unique h3 h

theorem place_noText {p : List Step} {k : Mark} {s : Str} {d : Json} (hp : PlainSteps p) (hs : Plainly placeEnv.toExt s d) (h : Leads d p none) :
    placeEnv.jsGet s ('$' :: (stepsText p ++ k.text)) = ([], false) := by
  have hs' : Plainly placeNumbers s d := plainly_congr (e := placeEnv.toExt) (e' := placeNumbers) rfl hs
  refine dif_neg ?_
  rintro ⟨u, p', d', v', ⟨k', h1, h2⟩, h3, h4, h5⟩
  rw [← marked_inj (k := k) (k' := k') hp h1 (List.cons.inj h2).2] at h4
  have hd : d' = d := by
    have e1 := jsonScan_iff.2 (plainly_doc place_whole h3)
    rw [jsonScan_iff.2 (plainly_doc place_whole hs')] at e1
    exact (Option.some.inj e1).symm
  rw [hd] at h4
  cases leads_unique h4 h

theorem no_elements {e : Ext} {u : Str} (h : Plainly e u (.arr [])) : u = gs"[]" := by
  generalize hj : Json.arr [] = j at h
  cases h with
  | noElements => rfl
  | arr h =>
    cases hj
    cases h
  | _ => cases hj

theorem place_marshal {s : Str} {d : Json} (h : Plainly placeEnv.toExt s d) : Plainly placeEnv.toExt (placeEnv.jsonMarshal d) d := by
  have h' : Plainly placeNumbers s d := plainly_congr (e := placeEnv.toExt) (e' := placeNumbers) rfl h
  have hex : ∃ s, Plainly placeNumbers s d := ⟨s, h'⟩
  by_cases he : d = .arr []
  · rw [show placeEnv.jsonMarshal d = gs"[]" from if_pos he, he]
    exact .noElements
  · rw [show placeEnv.jsonMarshal d = hex.choose from (if_neg he).trans (dif_pos hex)]
    exact plainly_congr (e := placeNumbers) (e' := placeEnv.toExt) rfl hex.choose_spec

theorem place_ok : PathsOk placeEnv.toExt where
  found p d v hp h := by
    have := place_get (k := .none) hp h
    rwa [Mark.text, List.append_nil] at this
  listed p k d l hp _ h := place_get hp h
  absent p d hp h := by
    have := place_noGet (k := .none) hp h
    rwa [Mark.text, List.append_nil] at this
  unlisted p k d hp h := by
    cases h with
    | missing h =>
      obtain ⟨e, he⟩ := place_noGet (k := k) hp h
      exact .inl ⟨_, he⟩
    | empty h => exact .inr ⟨_, place_get hp h⟩
  foundText p s d v hp hs h := by
    have := place_getText (k := .none) hp hs h
    rwa [Mark.text, List.append_nil] at this
  listedText p k s d l hp _ hs h := place_getText hp hs h
  absentText p s d hp hs h := by
    have := place_noText (k := .none) hp hs h
    rw [Mark.text, List.append_nil] at this
    exact .inl this
  unlistedText p k s d hp hs h := by
    cases h with
    | missing h => exact .inl ⟨[], by simp, place_noText hp hs h⟩
    | empty h =>
      obtain ⟨u, hu, hu'⟩ := place_getText (k := k) hp hs h
      exact .inl ⟨u, by rw [no_elements hu']; simp, hu⟩
  ugly s d h := h
  uglyParts ss ds _ := by rw [show ss.map placeEnv.ugly = ss from List.map_id' ss]; rfl
  read s d h := by
    have h' : Plainly placeNumbers s d := plainly_congr (e := placeEnv.toExt) (e' := placeNumbers) rfl h
    have hex : ∃ d, Plainly placeNumbers s d := ⟨d, h'⟩
    refine (dif_pos hex).trans ?_
    have e1 := jsonScan_iff.2 (plainly_doc place_whole hex.choose_spec)
    rw [jsonScan_iff.2 (plainly_doc place_whole h')] at e1
    exact e1.symm
  written s d h _ := place_marshal h
  writtenEntry s kv h _ := place_marshal h
  one := if_pos ⟨1, by decide, by simp⟩
  exact s q h := by
    obtain ⟨n, -, h⟩ := Option.map_eq_some_iff.1 (show Option.map _ (parseInt s) = some (F64.fin q) from h)
    by_cases hn : n.natAbs < 1000000
    · rw [if_pos hn] at h
      cases h
      exact if_pos ⟨n, hn, rfl⟩
    · rw [if_neg hn] at h
      cases h
  print q h := by
    obtain ⟨n, hn, rfl⟩ := place_rnd h
    have : placeEnv.fmtFloat (.fin (n : Rat)) = wholeText n := by show wholeText (n : Rat).num = _; rw [Rat.num_intCast]
    rw [this]
    exact ⟨wholeText_number n, wholeText_noE n, (place_whole n hn).2⟩
  whole n hn := ⟨if_pos ⟨n, hn, rfl⟩, by show wholeText (n : Rat).num = _; rw [Rat.num_intCast]⟩

theorem place_assumed : Assumed placeEnv where
  regexp := regexExt_ok
  order := fun _ _ => List.Perm.refl _
  numbers := by
    refine ⟨fun s n h => ?_, fun c s x h => ?_⟩
    · show ∃ x, Option.map _ (parseInt s) = some x
      rw [intText_iff.1 h]
      exact ⟨_, rfl⟩
    · obtain ⟨n, h, -⟩ := Option.map_eq_some_iff.1 (show Option.map _ (parseInt (c :: s)) = some x from h)
      have := parseInt_chars h c (by simp)
      refine ⟨?_, ?_, ?_⟩ <;> rintro rfl <;> simp [digitVal] at this
  empty := if_pos rfl

/-- Some container has the image that the tables call `bad` and at least 5 units of cpu. -/
def badContainer : Claim := .and [.test { start := .element, name := gs"image" } gs"EQ" gs"#bad", .test { start := .element, name := gs"cpu", rest := [.item 0] } gs"GE" gs"5"]

def initPath : ListPath := { start := .document, name := gs"spec", rest := [.field gs"initContainers"], mark := .slice }

def mainPath : ListPath := { start := .document, name := gs"spec", rest := [.field gs"containers"], mark := .slice }

/-- The payload is larger than 10, there is no owner, and there is a bad container, in one of two lists. -/
def placeClaim : Claim :=
  .and [.attr gs"payloadSize" gs"GT" gs"10", .not (.test { start := .document, name := gs"owner" } gs"EX" []), .any [initPath, mainPath] badContainer]

/-- A container. -/
def placeContainer (image : Str) (cpu : Int) : Json := .obj [(gs"image", .str image), (gs"cpu", .arr [.num (.fin cpu)])]

def placeDoc : Json := .obj [(gs"kind", .str gs"Pod"), (gs"spec", .obj [(gs"containers", .arr [placeContainer gs"nginx" 2, placeContainer gs"redis" 7])])]

/-- The document as a text. -/
def placeText : Str := gs"{\"kind\": \"Pod\", \"spec\": {\"containers\": [{\"image\":\"nginx\",\"cpu\":[2]}, {\"image\":\"redis\",\"cpu\":[ 7 ]}]}}"

theorem place_text : Plainly placeEnv.toExt placeText placeDoc := by
  have blank : Blank [] := blank_nil
  have space : Blank gs" " := by simp [Blank]
  have c1 : Plainly placeEnv.toExt gs"{\"image\":\"nginx\",\"cpu\":[2]}" (placeContainer gs"nginx" 2) := by
    have h := PlainMembers.oneMember (env := placeEnv.toExt) (w0 := []) (w1 := []) (w2 := []) (w3 := []) (k := gs"cpu") blank (by unfold PlainString; decide) blank blank
      (.arr (.one (w := []) (w' := []) blank (.whole (n := 2) (by decide)) blank)) blank
    exact .obj (.moreMembers (w0 := []) (w1 := []) (w2 := []) (w3 := []) (k := gs"image") blank (by unfold PlainString; decide) blank blank
      (.str (s := gs"nginx") (by unfold PlainString; decide)) blank h) (by decide)
  have c2 : Plainly placeEnv.toExt gs"{\"image\":\"redis\",\"cpu\":[ 7 ]}" (placeContainer gs"redis" 7) := by
    have h := PlainMembers.oneMember (env := placeEnv.toExt) (w0 := []) (w1 := []) (w2 := []) (w3 := []) (k := gs"cpu") blank (by unfold PlainString; decide) blank blank
      (.arr (.one space (.whole (n := 7) (by decide)) space)) blank
    exact .obj (.moreMembers (w0 := []) (w1 := []) (w2 := []) (w3 := []) (k := gs"image") blank (by unfold PlainString; decide) blank blank
      (.str (s := gs"redis") (by unfold PlainString; decide)) blank h) (by decide)
  have l := Plainly.arr (.more (w := []) (w' := []) blank c1 blank (.one (w' := []) space c2 blank))
  have h1 := Plainly.obj (.oneMember (w0 := []) (w1 := []) (w3 := []) (k := gs"containers") blank (by unfold PlainString; decide) blank space l blank) (by decide)
  have h2 := PlainMembers.oneMember (w1 := []) (w3 := []) (k := gs"spec") space (by unfold PlainString; decide) blank space h1 blank
  exact .obj (.moreMembers (w0 := []) (w1 := []) (w3 := []) (k := gs"kind") blank (by unfold PlainString; decide) blank space
      (.str (s := gs"Pod") (by unfold PlainString; decide)) blank h2) (by decide)

theorem field_plain {n : Str} (h : n ≠ [] ∧ (∀ c ∈ n, c.isAlphanum = true ∨ c = '_') ∧ ∀ c ∈ n.head?, c.isDigit = false) : FieldName n := h

theorem one_plain {n : Str} (h : FieldName n) : PlainSteps [.field n] := fun m hm => by
  simp only [List.mem_cons, List.not_mem_nil, or_false, Step.field.injEq] at hm; rw [hm]; exact h

theorem bad_plain : badContainer.Plain := by
  simp only [badContainer, Claim.Plain, Claim.AllPlain, and_true]
  exact ⟨one_plain (field_plain (by decide)), plainSteps_cons.2 ⟨fun n e => by cases e; exact field_plain (by decide), fun n hn => by simp at hn⟩⟩

theorem paths_plain {ps : List ListPath} (h : ∀ p ∈ ps, p ∈ [initPath, mainPath]) : ∃ st, ∀ p ∈ ps, p.start = st ∧ PlainSteps p.steps := by
  refine ⟨.document, fun p hp => ?_⟩
  have := h p hp
  simp only [List.mem_cons, List.not_mem_nil, or_false] at this
  rcases this with rfl | rfl <;>
    exact ⟨rfl, plainSteps_cons.2 ⟨fun n e => by cases e; exact field_plain (by decide), one_plain (field_plain (by decide))⟩⟩

theorem place_plain : placeClaim.Plain := by
  simp only [placeClaim, Claim.Plain, Claim.AllPlain, and_true]
  exact ⟨by simp, one_plain (field_plain (by decide)), paths_plain (by simp), bad_plain⟩

theorem bad_sound : Sound placeEnv policyTables badContainer.statement := by
  simp only [badContainer, Claim.statement, Claim.statements, Sound, SoundAll, and_true]
  refine ⟨by simp, ⟨?_, by unfold NoControl; decide, by unfold NoControl; decide, ?_⟩, ?_, by unfold NoControl; decide, by unfold NoControl; decide, ?_⟩
  · exact (C42_accepted_iff { attr := _, method := _, value := _ }).1 ⟨_, rfl⟩
  · exact C42_prepared_iff (r := none) |>.1 ⟨_, rfl⟩
  · exact (C42_accepted_iff { attr := _, method := _, value := _ }).1 ⟨_, rfl⟩
  · exact C42_prepared_iff (r := none) |>.1 ⟨_, rfl⟩

theorem paths_ok {ps : List ListPath} (hne : ps ≠ []) (h : ∀ p ∈ ps, p ∈ [initPath, mainPath]) : (parentOf ps).Ok placeEnv := by
  rw [parentOf_document fun p hp => by
    have := h p hp
    simp only [List.mem_cons, List.not_mem_nil, or_false] at this
    rcases this with rfl | rfl <;> rfl]
  refine ⟨by simpa using hne, fun r hr => ?_⟩
  obtain ⟨p, hp, rfl⟩ := List.mem_map.1 hr
  have := h p hp
  simp only [List.mem_cons, List.not_mem_nil, or_false] at this
  rcases this with rfl | rfl
  · exact ⟨⟨by unfold Verbatim; decide, by decide, by decide, by decide⟩, rfl⟩
  · exact ⟨⟨by unfold Verbatim; decide, by decide, by decide, by decide⟩, rfl⟩

theorem place_sound : Sound placeEnv policyTables placeClaim.statement := by
  simp only [placeClaim, Claim.statement, Claim.statements, Sound, SoundAll, and_true]
  refine ⟨by simp, ⟨?_, by unfold NoControl; decide, by unfold NoControl; decide, ?_⟩, ⟨?_, by unfold NoControl; decide, by unfold NoControl; decide, ?_⟩,
    paths_ok (by simp) (by simp), bad_sound⟩
  · exact (C42_accepted_iff { attr := _, method := _, value := _ }).1 ⟨_, rfl⟩
  · exact C42_prepared_iff (r := none) |>.1 ⟨_, rfl⟩
  · exact (C42_accepted_iff { attr := _, method := _, value := _ }).1 ⟨_, rfl⟩
  · exact C42_prepared_iff (r := none) |>.1 ⟨_, rfl⟩

/-- The message without its document. -/
def placeMsg : Msg := { policyMsg with rawI := none }

theorem placeMsg_ok : MsgOk placeEnv placeMsg := by
  refine ⟨rfl, rfl, ?_, ?_, ?_, ?_, ?_, ?_⟩ <;> (show '\n' ∉ _; decide)

theorem place_size : ValueResolves placeEnv policyTables gs"GT" gs"10" gs"10" ∧ Says placeEnv placeMsg gs"payloadSize" gs"GT" gs"10" (NumMethod.gt.holds (20 : Int) 10) :=
  ⟨.plain (by simp), Says.size (env := placeEnv.toExt) (msg := placeMsg) (k := .gt) (m := gs"GT") (x := 10) (by decide) (intText_iff.2 rfl)⟩

theorem place_owner : Path.Leads placeDoc none { start := .document, name := gs"owner" } none ∧ ValueResolves placeEnv policyTables gs"EX" [] [] ∧
    TestSays placeEnv none gs"EX" [] (gs"EX" = gs"NEX" ∨ gs"EX" = gs"nex") := ⟨.document rfl (.noField rfl), .plain (by simp), .missing⟩

theorem place_image (x : Str) (cpu : Int) (hc : Clean x) (hx : parseNumber placeEnv x = none) (hn : x ≠ gs"<nil>") :
    Path.Leads placeDoc (some (placeContainer x cpu)) { start := .element, name := gs"image" } (some (.str x)) ∧ ValueResolves placeEnv policyTables gs"EQ" gs"#bad" gs"redis" ∧
    TestSays placeEnv (some (.str x)) gs"EQ" gs"redis" (x = gs"redis") :=
  ⟨.element rfl rfl (.field rfl (.here _)), .string rfl rfl,
   .text (P := (· = gs"redis")) (.eq (by decide) ⟨by rintro ⟨y, h⟩; simp at h, by rintro ⟨y, h⟩; simp at h⟩) (.str hc hn) fun _ => hx⟩

theorem place_cpu (x : Str) (cpu : Int) (hn : cpu.natAbs < 1000000) :
    Path.Leads placeDoc (some (placeContainer x cpu)) { start := .element, name := gs"cpu", rest := [.item 0] } (some (.num (.fin cpu))) ∧
    ValueResolves placeEnv policyTables gs"GE" gs"5" gs"5" ∧ TestSays placeEnv (some (.num (.fin cpu))) gs"GE" gs"5" (NumMethod.ge.holdsF (.fin cpu) (.fin 5)) := by
  refine ⟨.element rfl rfl (.field rfl (.item rfl (.here _))), .plain (by simp), .number (k := .ge) (by decide) ?_ (.num (place_ok.whole cpu hn).1)⟩
  have h := number_parse place_ok (s := gs"5") (q := 5) (wholeText_number 5) (wholeText_noE 5) (place_whole 5 (by decide)).2
  exact h

theorem place_list : mainPath.Leads placeDoc none (some (.arr [placeContainer gs"nginx" 2, placeContainer gs"redis" 7])) := .document rfl (.field rfl (.field rfl (.here _)))

theorem place_noList : initPath.Leads placeDoc none none := .document rfl (.field rfl (.noField rfl))

theorem bad_clear : ∀ e ∈ [placeContainer gs"nginx" 2, placeContainer gs"redis" 7], (∃ kvs, e = .obj kvs) ∧ badContainer.Clear placeEnv policyTables placeMsg placeDoc (some e) := by
  intro e he
  simp only [badContainer, Claim.Clear, Claim.ClearInTurn]
  simp only [List.mem_cons, List.not_mem_nil, or_false] at he
  rcases he with rfl | rfl
  · exact ⟨⟨_, rfl⟩, ⟨_, _, _, place_image gs"nginx" 2 ⟨by simp, by decide, by decide, by decide⟩ rfl (by simp)⟩,
      fun _ => ⟨⟨_, _, _, place_cpu gs"nginx" 2 (by decide)⟩, fun _ => trivial⟩⟩
  · exact ⟨⟨_, rfl⟩, ⟨_, _, _, place_image gs"redis" 7 ⟨by simp, by decide, by decide, by decide⟩ rfl (by simp)⟩,
      fun _ => ⟨⟨_, _, _, place_cpu gs"redis" 7 (by decide)⟩, fun _ => trivial⟩⟩

theorem owner_clear : (Claim.not (.test { start := .document, name := gs"owner" } gs"EX" [])).Clear placeEnv policyTables placeMsg placeDoc none := by
  simp only [Claim.Clear]
  exact ⟨_, _, _, place_owner⟩

theorem place_clear : placeClaim.Clear placeEnv policyTables placeMsg placeDoc none := by
  rw [placeClaim, Claim.Clear, Claim.ClearInTurn, Claim.ClearInTurn, Claim.ClearInTurn, Claim.ClearInTurn, Claim.Clear.eq_def placeEnv policyTables placeMsg placeDoc (.attr _ _ _),
    Claim.Clear.eq_def placeEnv policyTables placeMsg placeDoc (.any _ _)]
  refine ⟨⟨_, _, place_size⟩, fun _ => ⟨owner_clear, fun _ => ⟨⟨fun p hp => ?_, .inl ⟨mainPath, rfl, _, place_list, by simp⟩⟩, fun _ => trivial⟩⟩⟩
  simp only [List.mem_cons, List.not_mem_nil, or_false] at hp
  rcases hp with rfl | rfl
  · exact ⟨_, .missing place_noList, by simp⟩
  · exact ⟨_, .there place_list, bad_clear⟩

theorem bad_holds : badContainer.Holds placeEnv policyTables placeMsg placeDoc (some (placeContainer gs"redis" 7)) := by
  simp only [badContainer, Claim.Holds, Claim.AllHold, and_true]
  constructor
  · obtain ⟨h1, h2, h3⟩ := place_image gs"redis" 7 ⟨by simp, by decide, by decide, by decide⟩ rfl (by simp)
    exact ⟨_, _, _, h1, h2, h3, rfl⟩
  · obtain ⟨h1, h2, h3⟩ := place_cpu gs"redis" 7 (by decide)
    exact ⟨_, _, _, h1, h2, h3, by decide +kernel⟩

theorem place_holds : placeClaim.Holds placeEnv policyTables placeMsg placeDoc none := by
  simp only [placeClaim, Claim.Holds, Claim.AllHold, and_true]
  refine ⟨⟨_, _, place_size.1, place_size.2, by decide⟩, ?_, ⟨mainPath, .tail _ (.head _), _, place_list, _, .tail _ (.head _), bad_holds⟩⟩
  rintro ⟨o, w, P, h1, h2, h3, h4⟩
  cases path_unique place_owner.1 h1
  cases h3
  revert h4
  decide

/-- A rule that blocks such requests. -/
noncomputable def placeRule : Rule := { (Demo.rule gs"block").body with conditions := some (placeClaim.statement.tree placeEnv) }

theorem place_rule : WrittenClaims placeEnv policyTables placeMsg placeDoc placeRule
    (WrittenParts placeRule gs"*" gs"*" placeMsg ∧ ∀ f ∈ some placeClaim, f.Holds placeEnv policyTables placeMsg placeDoc none) .block := by
  refine WrittenClaims.mk (body := placeRule) (c := some placeClaim) rfl (.plain (by simp [placeRule, Demo.rule])) (.plain (by simp [placeRule, Demo.rule])) ⟨?_, ?_, ?_, ?_⟩ ?_ ?_ ?_
  · show PlainPattern _; decide
  · show PlainPattern _; decide
  · show PlainPattern gs"*"; decide
  · show PlainPattern gs"*"; decide
  · simp [place_sound]
  · simp [place_plain]
  · simp [place_clear]

/-- The message is blocked, with the document parsed and with the document as a text. -/
example : ∃ rs, loadWithTables placeEnv policyTables [placeRule] = .ok (rs, none) ∧ ∀ msg ∈ [{ placeMsg with rawI := some placeDoc }, { placeMsg with jsonRaw := some placeText }],
    ∀ g, ∃ out, check placeEnv g msg rs = .ok out ∧ out.decisionString = gs"block" ∧ out.results = [3] := by
  have both : ∀ msg ∈ [{ placeMsg with rawI := some placeDoc }, { placeMsg with jsonRaw := some placeText }], Carries placeEnv.toExt placeMsg placeDoc msg none := by
    intro msg h
    simp only [List.mem_cons, List.not_mem_nil, or_false] at h
    rcases h with rfl | rfl
    · exact .parsed (r := none) (by simp)
    · exact .text (r := none) place_text (by simp)
  have applies : WrittenParts placeRule gs"*" gs"*" placeMsg ∧ ∀ f ∈ some placeClaim, f.Holds placeEnv policyTables placeMsg placeDoc none := by
    refine ⟨⟨?_, ?_, ?_, ?_⟩, by simp [place_holds]⟩
    · exact ⟨.inl rfl, gs"*", mem_split_iff.1 (by decide), by show Glob gs"*" gs"a"; simp [Glob]⟩
    · exact ⟨.inl rfl, gs"*", mem_split_iff.1 (by decide), by show Glob gs"*" gs"b"; simp [Glob]⟩
    · trivial
    · trivial
  have load := fun msg h => C93_loaded_partial (msg := msg) (t := policyTables) (bodies := [placeRule]) (xs := [(_, .block)]) place_assumed place_ok placeMsg_ok (by simp [placeRule, Demo.rule]) (.cons place_rule .nil) (both msg h)
  obtain ⟨rs, h1, -, -⟩ := load _ (.head _)
  refine ⟨rs, h1, fun msg hmsg g => ?_⟩
  obtain ⟨rs', h1', -, h2⟩ := load msg hmsg
  rw [h1] at h1'
  cases h1'
  obtain ⟨out, ho, d, e1, e2, e3, e4, e5, e6⟩ := h2 g
  refine ⟨out, ho, ?_, ?_⟩
  · have := e4 _ (.head _) applies
    rw [e2]
    cases d with
    | block => rfl
    | _ => simp [Decision.rank] at this
  · have r0 := (e6 0 _ rfl).1 applies
    obtain ⟨x, hx⟩ : ∃ x, out.results = [x] := by
      match h : out.results, e5 with
      | [x], _ => exact ⟨x, rfl⟩
    rw [hx] at r0 ⊢
    simpa [Decision.rank] using r0

end Mapl.Props

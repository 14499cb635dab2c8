import Verif.Lemmas.Names
import Verif.Props.Match

/-!
# C10–C13, C35 (names): what the texts of a rule mean

`RegexpOk env` is the assumption that Go's `regexp` package behaves on the small fragment of syntax described in
`Spec/Regex.lean`. `r.setPredefined env p t = .ok (r', none)` reads "preparing `r` with table `t` succeeded and left `r'`".
-/

namespace Mapl.Props

open Spec

variable {env : Env} {g t : Predef} {m : Msg} {p : List Nat} {r r' : RuleObj} {rule : Rule} {o : RuleOut} {s v : Str}

open Classical in
/-- External functions for which the assumption about regular expressions holds. -/
noncomputable def regexExt : Ext :=
  { Demo.ext with reOk := fun _ => true, reMatch := fun p s => decide (∃ r, readPattern p = some r ∧ Finds r s) }

theorem regexExt_ok : RegexpOk regexExt := by
  intro p r h
  refine ⟨rfl, fun s => ?_⟩
  simp only [regexExt, decide_eq_true_eq, h, Option.some.injEq, exists_eq_left']

/-- **C35** for names: `#key` is resolved in the list table, else in the string table; everything else is left alone. -/
theorem C35_names (x s : Str) : replaceName x t = .ok s ↔ Resolves t x s := replaceName_iff

/-- **C35** for names: preparation fails exactly for `#key` with `key` in neither table. -/
theorem C35_names_rejected (x : Str) :
    (∃ e, replaceName x t = .error e) ↔ ∃ k, x = '#' :: k ∧ lookup k t.listsNoRefs = none ∧ lookup k t.strings = none := by
  constructor
  · rintro ⟨e, h⟩
    by_cases hx : ∃ k, x = '#' :: k
    · obtain ⟨k, rfl⟩ := hx
      refine ⟨k, rfl, ?_, ?_⟩
      · by_contra hl
        obtain ⟨l, hl⟩ := Option.ne_none_iff_exists'.1 hl
        rw [replaceName_iff.2 (.list hl)] at h; simp at h
      · by_contra hs
        obtain ⟨v, hs⟩ := Option.ne_none_iff_exists'.1 hs
        cases hl : lookup k t.listsNoRefs with
        | some l => rw [replaceName_iff.2 (.list hl)] at h; simp at h
        | none => rw [replaceName_iff.2 (.string hl hs)] at h; simp at h
    · rw [replaceName_iff.2 (.plain fun k hk => hx ⟨k, hk⟩)] at h; simp at h
  · rintro ⟨k, rfl, hl, hs⟩
    cases h : replaceName ('#' :: k) t with
    | error e => exact ⟨e, rfl⟩
    | ok s =>
      have := replaceName_iff.1 h
      cases this with
      | plain hp => exact absurd rfl (hp k)
      | list hl' => rw [hl] at hl'; simp at hl'
      | string _ hs' => rw [hs] at hs'; simp at hs'

/-- **C35** for rules: a prepared rule has the resolved names. -/
theorem C35_prepared_names (hc : r.body.converted = false) (h : r.setPredefined env p t = .ok (r', none))
    (hp : r'.prepared = some rule) :
    Resolves t r.body.senderName rule.senderName ∧ Resolves t r.body.receiverName rule.receiverName := by
  obtain ⟨copy, rule', c1, c2, rfl⟩ := setPredefined_ok h
  simp at hp; subst hp
  obtain ⟨c, c3, rfl⟩ := copyRule_ok c1
  obtain ⟨s', v', sl, rl, op, re, h1, h2, _, _, _, _, _, h8⟩ := prepareOneRule_ok (by simpa using hc) c2
  rw [h8]
  exact ⟨replaceName_iff.1 h1, replaceName_iff.1 h2⟩

example : Resolves ⟨[(gs"db", gs"mysql")], [], [(gs"web", [gs"a", gs"b"])]⟩ gs"#web" gs"a,b" ∧
    Resolves ⟨[(gs"db", gs"mysql")], [], [(gs"web", [gs"a", gs"b"])]⟩ gs"#db" gs"mysql" :=
  ⟨.list (l := [gs"a", gs"b"]) rfl, .string rfl rfl⟩

/-- **C10.** A sender of type `*` or `workload` agrees with a message exactly when one of its patterns is a glob for the
source service. -/
theorem C10_sender (hok : RegexpOk env) (hm : MsgOk env m) (hc : r.body.converted = false)
    (h : r.setPredefined env p t = .ok (r', none)) (hp : r'.prepared = some rule) (hs : Resolves t r.body.senderName s)
    (hv : Resolves t r.body.receiverName v) (ht : TextsOk r.body s v)
    (hty : r.body.senderType = gs"*" ∨ r.body.senderType = gs"workload") :
    (∃ e ∈ rule.senderList, SenderEntry env e m) ↔ NameMatches s m.sourceService := by
  rw [(parts_text hok hm hc h hp hs hv ht).1, SenderText, if_neg (by rcases hty with h | h <;> rw [h] <;> decide)]
  exact ⟨fun h => h.2, fun h => ⟨hty, h⟩⟩

/-- **C10.** A receiver of type `*` or `workload`: the destination service; of type `hostname`: the request host. -/
theorem C10_receiver (hok : RegexpOk env) (hm : MsgOk env m) (hc : r.body.converted = false)
    (h : r.setPredefined env p t = .ok (r', none)) (hp : r'.prepared = some rule) (hs : Resolves t r.body.senderName s)
    (hv : Resolves t r.body.receiverName v) (ht : TextsOk r.body s v) :
    (r.body.receiverType = gs"*" ∨ r.body.receiverType = gs"workload" →
      ((∃ e ∈ rule.receiverList, ReceiverEntry env e m) ↔ NameMatches v m.destinationService)) ∧
    (r.body.receiverType = gs"hostname" →
      ((∃ e ∈ rule.receiverList, ReceiverEntry env e m) ↔ NameMatches v m.requestHost)) := by
  rw [(parts_text hok hm hc h hp hs hv ht).2.1, ReceiverText]
  constructor
  · intro hty
    rw [if_neg (by rcases hty with h | h <;> rw [h] <;> decide), if_neg (by rcases hty with h | h <;> rw [h] <;> decide)]
    exact ⟨fun h => h.2, fun h => ⟨hty, h⟩⟩
  · intro hty
    rw [hty, if_neg (by decide), if_pos rfl]

/-- **C11.** The resource pattern of a prepared rule accepts exactly the texts for which one of the written patterns is
a glob. -/
theorem C11_resource (hok : RegexpOk env) (hc : r.body.converted = false)
    (h : r.setPredefined env p t = .ok (r', none)) (hp : r'.prepared = some rule) (ht : PlainPattern r.body.resourceName)
    {text : Str} (hn : OneLine text) :
    Accepts env rule.resourceNameRegex text ↔ TextMatches r.body.resourceName text := by
  obtain ⟨copy, rule', c1, c2, rfl⟩ := setPredefined_ok h
  simp at hp; subst hp
  obtain ⟨c, c3, rfl⟩ := copyRule_ok c1
  obtain ⟨s', v', sl, rl, op, re, h1, h2, _, _, _, h6, _, h8⟩ := prepareOneRule_ok (by simpa using hc) c2
  rw [h8]
  exact accepts_text hok h6 ht hn

/-- **C11, C12.** The operation pattern of a prepared rule: keywords, and globs otherwise. -/
theorem C12_operation (hok : RegexpOk env) (hc : r.body.converted = false)
    (h : r.setPredefined env p t = .ok (r', none)) (hp : r'.prepared = some rule) (ht : PlainPattern r.body.operation)
    {text : Str} (hn : OneLine text) :
    Accepts env rule.operationRegex text ↔ OperationMatches r.body.operation text := by
  obtain ⟨copy, rule', c1, c2, rfl⟩ := setPredefined_ok h
  simp at hp; subst hp
  obtain ⟨c, c3, rfl⟩ := copyRule_ok c1
  obtain ⟨s', v', sl, rl, op, re, h1, h2, _, _, h5, _, _, h8⟩ := prepareOneRule_ok (by simpa using hc) c2
  rw [h8]
  exact accepts_operation hok h5 ht hn

/-- **C12.** The three keywords, one by one, for every method text (line breaks included). -/
theorem C12_keywords (hok : RegexpOk env) (hc : r.body.converted = false)
    (h : r.setPredefined env p t = .ok (r', none)) (hp : r'.prepared = some rule) (method : Str) :
    (r.body.operation = gs"*" → Accepts env rule.operationRegex method) ∧
    (r.body.operation ∈ [gs"read", gs"READ"] → (Accepts env rule.operationRegex method ↔
      method ∈ [gs"GET", gs"HEAD", gs"OPTIONS", gs"TRACE", gs"read", gs"READ"])) ∧
    (r.body.operation ∈ [gs"write", gs"WRITE"] → (Accepts env rule.operationRegex method ↔
      method ∈ [gs"POST", gs"PUT", gs"DELETE"])) := by
  obtain ⟨copy, rule', c1, c2, rfl⟩ := setPredefined_ok h
  simp at hp; subst hp
  obtain ⟨c, c3, rfl⟩ := copyRule_ok c1
  obtain ⟨s', v', sl, rl, op, re, h1, h2, _, _, h5, _, _, h8⟩ := prepareOneRule_ok (by simpa using hc) c2
  rw [h8]
  simp only [List.mem_cons, List.not_mem_nil, or_false]
  exact accepts_keywords hok h5 method

/-- **C13.** A subnet sender agrees with an IPv4 message exactly when one of its entries covers the source address. -/
theorem C13_sender (hok : RegexpOk env) (hm : MsgOk env m) (hc : r.body.converted = false)
    (h : r.setPredefined env p t = .ok (r', none)) (hp : r'.prepared = some rule) (hs : Resolves t r.body.senderName s)
    (hv : Resolves t r.body.receiverName v) (ht : TextsOk r.body s v) (hty : r.body.senderType = gs"subnet") {y : V4}
    (hy : m.sourceIp = y.text) (hx : ∀ e, Listed s e → ∃ x : Subnet, e = x.text) :
    (∃ e ∈ rule.senderList, SenderEntry env e m) ↔ ∃ x : Subnet, Listed s x.text ∧ x.Covers y := by
  rw [(parts_text hok hm hc h hp hs hv ht).1, SenderText, if_pos hty]
  constructor
  · rintro ⟨e, h1, h2⟩
    obtain ⟨x, rfl⟩ := hx e h1
    rw [hy, covers_subnet env.toExt] at h2
    exact ⟨x, h1, h2⟩
  · rintro ⟨x, h1, h2⟩
    exact ⟨_, h1, by rw [hy, covers_subnet env.toExt]; exact h2⟩

/-- **C13** for receivers. -/
theorem C13_receiver (hok : RegexpOk env) (hm : MsgOk env m) (hc : r.body.converted = false)
    (h : r.setPredefined env p t = .ok (r', none)) (hp : r'.prepared = some rule) (hs : Resolves t r.body.senderName s)
    (hv : Resolves t r.body.receiverName v) (ht : TextsOk r.body s v) (hty : r.body.receiverType = gs"subnet") {y : V4}
    (hy : m.destinationIp = y.text) (hx : ∀ e, Listed v e → ∃ x : Subnet, e = x.text) :
    (∃ e ∈ rule.receiverList, ReceiverEntry env e m) ↔ ∃ x : Subnet, Listed v x.text ∧ x.Covers y := by
  rw [(parts_text hok hm hc h hp hs hv ht).2.1, ReceiverText, if_pos hty]
  constructor
  · rintro ⟨e, h1, h2⟩
    obtain ⟨x, rfl⟩ := hx e h1
    rw [hy, covers_subnet env.toExt] at h2
    exact ⟨x, h1, h2⟩
  · rintro ⟨x, h1, h2⟩
    exact ⟨_, h1, by rw [hy, covers_subnet env.toExt]; exact h2⟩

/-- **C13.** One compiled entry, without any assumption about regular expressions. -/
theorem C13_entry {env : Ext} {x : Subnet} {e : ExpandedSR} (h : expandOne env gs"subnet" x.text = .ok e) (y : V4) :
    AddressMatches e y.text (parseIP env y.text) ↔ x.Covers y := address_subnet h y

/-- **C13.** No CIDR entry and no `*` covers a message without IPv4 address (an IPv6 address or no address at all). -/
theorem C13_not_ipv4 {env : Ext} {x : Subnet} (hx : ∀ a, x ≠ .addr a) {e : ExpandedSR}
    (h : expandOne env gs"subnet" x.text = .ok e) (text : Str) {ip : IP} (hip : to4 ip = none) : ¬ AddressMatches e text ip :=
  address_not_v4 hx h text hip

/-- 10.1.0.0/16 covers 10.1.2.3 and not 10.2.2.3; the notation is the usual one. -/
example : (Subnet.net ⟨10, 1, 0, 0⟩ 16).text = gs"10.1.0.0/16" ∧ (Subnet.net ⟨10, 1, 0, 0⟩ 16).Covers ⟨10, 1, 2, 3⟩ ∧
    ¬ (Subnet.net ⟨10, 1, 0, 0⟩ 16).Covers ⟨10, 2, 2, 3⟩ ∧
    ((expandOne Demo.ext gs"subnet" (Subnet.net ⟨10, 1, 0, 0⟩ 16).text).map (·.isCIDR)) = .ok true := by
  refine ⟨?_, ?_, ?_, ?_⟩
  · decide +kernel
  · show _ / _ = _ / _; decide
  · show ¬ (_ / _ = _ / _); decide
  · decide +kernel

/-- **C09–C14 together**, for a rule as parsed and in terms of what is written in it: if preparation and check succeed, the
rule gives its decision exactly when sender, receiver, operation and resource agree with the message and the prepared
conditions hold; otherwise it gives `default`. -/
theorem C09_written_rule (ho : env.OrdOk) (hok : RegexpOk env) (hm : MsgOk env m) (hf : Fresh r) (h : r.check env g p m = .ok o)
    (hs : Resolves g r.body.senderName s) (hv : Resolves g r.body.receiverName v) (ht : TextsOk r.body s v) :
    ∃ r1 rule, r.setPredefined env (0 :: p) g = .ok (r1, none) ∧ r1.prepared = some rule ∧
      (RuleKeySafe env rule m →
        (WrittenParts r.body s v m ∧ ConditionsSat env rule m → o.result = (decisionOf r.body.decision).rank) ∧
        (¬ (WrittenParts r.body s v m ∧ ConditionsSat env rule m) → o.result = Decision.default.rank ∧ o.extra = [])) := by
  obtain ⟨r1, rule, h1, h2, h3, h4⟩ := C09_fresh_rule_applies ho hf h
  refine ⟨r1, rule, h1, h2, fun hk => ?_⟩
  obtain ⟨p1, p2, p3, p4⟩ := parts_text hok hm hf.converted h1 h2 hs hv ht
  have key : Applies env rule m ↔ WrittenParts r.body s v m ∧ ConditionsSat env rule m := by
    unfold Applies
    constructor
    · rintro ⟨⟨a, b, c, d⟩, e⟩; exact ⟨⟨p1.1 a, p2.1 b, p3.1 c, p4.1 d⟩, e⟩
    · rintro ⟨⟨a, b, c, d⟩, e⟩; exact ⟨⟨p1.2 a, p2.2 b, p3.2 c, p4.2 d⟩, e⟩
  rw [← key]
  exact h4 hk

/-- A rule and a message that meet the hypotheses, and agree. -/
example :
    let r : Rule :=
      { senderName := gs"10.1.0.0/16, x", senderType := gs"workload", receiverName := gs"web-?.*", receiverType := gs"hostname",
        operation := gs"read", protocol := gs"http", resourceType := gs"*", resourceName := gs"/a/*", decision := gs"block" }
    let m : Msg :=
      { sourceService := gs"x", sourceIp := gs"10.1.2.3", destinationIp := gs"10.1.2.4", requestHost := gs"web-1.com",
        requestMethod := gs"GET", requestPath := gs"/a/b", contextProtocol := gs"HTTP",
        sourceNetIp := parseIP Demo.ext gs"10.1.2.3", destinationNetIp := parseIP Demo.ext gs"10.1.2.4" }
    TextsOk r r.senderName r.receiverName ∧ MsgOk regexExt m ∧ WrittenParts r r.senderName r.receiverName m := by
  refine ⟨⟨?_, ?_, ?_, ?_⟩, ⟨rfl, rfl, ?_, ?_, ?_, ?_, ?_, ?_⟩, ⟨?_, ?_, ?_, ?_⟩⟩
  · show PlainPattern _; decide
  · show PlainPattern _; decide
  · decide
  · decide
  all_goals try (show '\n' ∉ _; decide)
  · exact ⟨by decide, gs" x", mem_split_iff.1 (by decide), by simp [noBlanks, Glob]⟩
  · exact ⟨gs"web-?.*", mem_split_iff.1 (by decide), by simp [noBlanks, Glob]⟩
  · simp [OperationMatches]
  · refine ⟨by show List.map _ _ = List.map _ _; decide, .inl rfl, gs"/a/*", gs"/a/*", mem_split_iff.1 (by decide), trimmed_iff.2 (by decide), ?_⟩
    simp [Glob]

end Mapl.Props

import Verif.Lemmas.DecodeMessage
import Verif.Props.Messages
import Verif.Props.Tables

/-!
# C81: a document of messages gives the messages that are written in it

`MessagesDoc` says which messages a YAML document writes, `Completes` what loading adds to them. The full statement, without `Distinct` and
`Clear`, is false: see `C81_violated_fraction`, `C81_violated_null` and `C81_violated_repeated`.
-/

namespace Mapl.Props

open Spec

variable {env : Ext} {wild : F64 → Int} {parse : Str → Option Clock} {y : Yaml} {ms out : List Msg} {m m' : Msg}

theorem labels_written {l : List (Str × Str)} {s : Str} (h : LabelsOk l) (hs : s.filter (fun c => c ≠ ' ') = labelText l) :
    unmarshalLabels env (addQuotes s) [] = l := by
  have := C57_labels (env := env) (m := { sourceLabelsJson := s, destinationLabelsJson := gs"{}" }) h (l' := []) ⟨by simp, by simp⟩ hs rfl rfl rfl
  simpa [parseLabels] using this.1

theorem labels_missing {s : Str} (hs : s.filter (fun c => c ≠ ' ') = []) : unmarshalLabels env (addQuotes s) [] = [] := by
  rw [addQuotes_spaces, hs]; rfl

/-- What loading adds. -/
theorem completes_of (hs : m.sourceLabels = []) (hd : m.destinationLabels = []) {x : Msg} (hx : addTimeInfo env parse (addResourceType m) = .ok x) :
    Completes env parse m (parseLabels env (addNetIp env x)) := by
  obtain ⟨t1, t2⟩ := @C56_type m
  cases hp : parse m.requestTime with
  | none =>
    rw [C56_no_time (by rw [t2]; exact hp)] at hx
    cases hx
  | some c =>
    have hp' : parse (addResourceType m).requestTime = some c := by rw [t2]; exact hp
    have hclock : RoundOk env → ShowsTime c (parseLabels env (addNetIp env x)) := by
      intro hr
      obtain ⟨s, mi, h, e, -, -, -, -, -, -, a, b, d, f⟩ := C56_time hr hp'
      rw [hx] at e
      cases e
      exact ⟨s, mi, h, rfl, rfl, rfl, a, b, d, f⟩
    rw [t2] at hx
    unfold addTimeInfo at hx
    rw [show parse ({ m with contextType := (addResourceType m).contextType } : Msg).requestTime = some c from hp] at hx
    cases hx
    refine ⟨t1, rfl, rfl, ⟨c, hp, hclock⟩, fun l h1 h2 => ?_, fun l h1 h2 => ?_, fun h => ?_, fun h => ?_, rfl⟩
    · simpa [parseLabels, addNetIp, hs] using labels_written h1 h2
    · simpa [parseLabels, addNetIp, hd] using labels_written h1 h2
    · simpa [parseLabels, addNetIp, hs] using labels_missing h
    · simpa [parseLabels, addNetIp, hd] using labels_missing h

theorem messageOf_labels {y : Yaml} (h : MessageOf env y m) : m.sourceLabels = [] ∧ m.destinationLabels = [] := by
  cases h with
  | null => exact ⟨rfl, rfl⟩
  | message h => exact ⟨h.rest.2.2.2.2.2.2.2.2.2.1, h.rest.2.2.2.2.2.2.2.2.2.2⟩

theorem messagesDoc_labels (h : MessagesDoc env y ms) : ∀ m ∈ ms, m.sourceLabels = [] ∧ m.destinationLabels = [] := by
  cases h with
  | messages _ hr =>
    clear * - hr
    induction hr with
    | nil => simp
    | cons h _ ih => intro m hm; rcases List.mem_cons.1 hm with rfl | hm; exacts [messageOf_labels h, ih m hm]
  | _ => simp

theorem readMessages_iff (hd : Distinct y) (hc : Clear y) : readMessages env wild parse y = .ok out ↔ ∃ ms, MessagesDoc env y ms ∧ loadMessages env parse ms = .ok out := by
  unfold readMessages
  constructor
  · intro h
    split at h
    · next ms e => exact ⟨ms, (messagesDoc_iff hd hc).1 e, h⟩
    · cases h
  · rintro ⟨ms, h, hl⟩
    rw [(messagesDoc_iff (wild := wild) hd hc).2 h]
    exact hl

theorem loaded_completes (h : ∀ m ∈ ms, m.sourceLabels = [] ∧ m.destinationLabels = []) (hl : loadMessages env parse ms = .ok out) :
    List.Forall₂ (Completes env parse) ms out := by
  have := (C64_load.1 out).1 hl
  clear hl
  induction this with
  | nil => exact .nil
  | cons a _ ih =>
    obtain ⟨x, hx, rfl⟩ := a
    exact .cons (completes_of (h _ (by simp)).1 (h _ (by simp)).2 hx) (ih fun m hm => h m (by simp [hm]))

/-- **C81**, partial: whatever is read without an error is written in the document, message by message, and completed. -/
theorem C81_reads_partial (hd : Distinct y) (hc : Clear y) (h : readMessages env wild parse y = .ok out) :
    ∃ ms, MessagesDoc env y ms ∧ List.Forall₂ (Completes env parse) ms out := by
  obtain ⟨ms, h1, h2⟩ := (readMessages_iff hd hc).1 h
  exact ⟨ms, h1, loaded_completes (messagesDoc_labels h1) h2⟩

/-- **C81**, partial: the messages that a document writes are read, if all their time stamps can be read. -/
theorem C81_accepts_partial (hd : Distinct y) (hc : Clear y) (h : MessagesDoc env y ms) (ht : ∀ m ∈ ms, parse m.requestTime ≠ none) :
    ∃ out, readMessages env wild parse y = .ok out ∧ List.Forall₂ (Completes env parse) ms out := by
  cases hl : loadMessages env parse ms with
  | error e =>
    obtain ⟨m, hm, hn⟩ := C64_load.2.1 ⟨e, hl⟩
    exact absurd hn (ht m hm)
  | ok out => exact ⟨out, (readMessages_iff hd hc).2 ⟨ms, h, hl⟩, loaded_completes (messagesDoc_labels h) hl⟩

theorem messagesDoc_unique (hd : Distinct y) (hc : Clear y) {ms' : List Msg} (h : MessagesDoc env y ms) (h' : MessagesDoc env y ms') : ms = ms' := by
  have h1 := (messagesDoc_iff (wild := fun _ => 0) hd hc).2 h
  have h2 := (messagesDoc_iff (wild := fun _ => 0) hd hc).2 h'
  rw [h1] at h2
  cases h2
  rfl

/-- **C81**, partial: otherwise there is an error, for the whole document; reading messages never crashes. -/
theorem C81_refused_partial (hd : Distinct y) (hc : Clear y) :
    (∃ e, readMessages env wild parse y = .error (.err e)) ↔ ¬ ∃ ms, MessagesDoc env y ms ∧ ∀ m ∈ ms, parse m.requestTime ≠ none := by
  have np : ∀ x, readMessages env wild parse y ≠ .error (.panic x) := by
    intro x h
    have time : ∀ ms : List Msg, ∀ x, addTimeInfoAll env parse ms ≠ .error (.panic x) := by
      intro ms
      induction ms with
      | nil => intro x h; cases h
      | cons m ms ih =>
        intro x h
        unfold addTimeInfoAll at h
        rcases Go.bind_eq_error.1 h with h | ⟨a, -, h⟩
        · unfold addTimeInfo at h; split at h <;> cases h
        · rcases Go.bind_eq_error.1 h with h | ⟨b, -, h⟩
          · exact ih x h
          · cases h
    unfold readMessages at h
    split at h
    · unfold loadMessages at h
      rcases Go.bind_eq_error.1 h with h | ⟨a, -, h⟩
      · exact time _ x h
      · cases h
    · cases h
  constructor
  · rintro ⟨e, he⟩ ⟨ms, h1, h2⟩
    obtain ⟨out, h, -⟩ := C81_accepts_partial (wild := wild) hd hc h1 h2
    rw [he] at h
    cases h
  · intro h
    cases hr : readMessages env wild parse y with
    | error e =>
      cases e with
      | err e => exact ⟨e, rfl⟩
      | panic x => exact absurd hr (np x)
    | ok out =>
      refine absurd ?_ h
      obtain ⟨ms, h1, h2⟩ := (readMessages_iff hd hc).1 hr
      refine ⟨ms, h1, fun m hm hn => ?_⟩
      obtain ⟨e, he⟩ := C64_load.2.2 ⟨m, hm, hn⟩
      rw [h2] at he
      cases he

/-- A message of a document meets what the theorems on decisions ask of messages, if the texts that are matched have no line breaks. -/
theorem C81_message_ok (h : Completes env parse m m')
    (ht : ∀ s ∈ [m.sourceService, m.destinationService, m.requestHost, m.requestMethod, m.requestPath, m.destinationPort], OneLine s) : MsgOk env m' := by
  simp only [List.mem_cons, List.not_mem_nil, or_false, forall_eq_or_imp, forall_eq] at ht
  obtain ⟨t1, t2, t3, t4, t5, t6⟩ := ht
  have e := h.rest
  constructor
  · rw [h.source, e]
  · rw [h.destination, e]
  all_goals rw [e]; assumption

/-- **C81.** A whole policy in documents: tables, rules and messages. Each message is decided by the written meaning of the rules. -/
theorem C81_policy {env : Env} (he : Assumed env) {z w : Yaml} {t t' : Predef} (hz : Distinct z) (ht : TablesOf z t) (hv : Validated t t') (hy : Distinct y) (hx : NoDash y)
    {bodies : List Rule} (hr : RulesDoc (WritesTree env) y bodies) (hw : Distinct w) (hc : Clear w) (hm : MessagesDoc env w ms)
    (hp : ∀ m ∈ ms, parse m.requestTime ≠ none) :
    readTables z = .ok t' ∧ ∃ out, readMessages env wild parse w = .ok out ∧ List.Forall₂ (Completes env parse) ms out ∧
      ∀ m' ∈ out, ∀ xs : List (Prop × Decision), List.Forall₂ (fun b x => WrittenSays env t' m' b x.1 x.2) bodies xs → MsgOk env m' →
        ∃ rules, readRulesFileWithTables env t' y = .ok (rules, none) ∧ rules.map (·.body) = bodies ∧
          ∀ g, ∃ o, check env g m' rules = .ok o ∧ Decides xs o := by
  obtain ⟨out, h1, h2⟩ := C81_accepts_partial (wild := wild) hw hc hm hp
  refine ⟨(C79_tables_partial hz).2 ⟨t, ht, hv⟩, out, h1, h2, fun m' hm' xs hs hok => ?_⟩
  obtain ⟨rules, a, b, c, d⟩ := C79_policy he hz ht hv hy hx hr hs
  exact ⟨rules, b, c, d hok⟩

/-! ## Every message can be written -/

/-- The fields that a document can set are the only ones that are set. -/
structure PlainMessage (m : Msg) : Prop where
  size : -2 ^ 63 ≤ m.requestSize ∧ m.requestSize < 2 ^ 63
  rest : m.jsonRaw = none ∧ m.jsonRawRel = none ∧ m.rawI = none ∧ m.rawIRel = none ∧ m.secondsFromMidnight = .fin 0 ∧ m.minutesFromMidnight = .fin 0 ∧
    m.hoursFromMidnight = .fin 0 ∧ m.sourceNetIp = [] ∧ m.destinationNetIp = [] ∧ m.sourceLabels = [] ∧ m.destinationLabels = []

def messageYaml (m : Msg) : List (Str × Yaml) :=
  [(gs"request_size", .scalar [] (.int m.requestSize)),
    (gs"encryption_version", match m.encryptionVersion with | none => .scalar gs"null" .null | some x => .scalar [] (.float x))] ++
    messageTexts.map fun f => (f.key, textYaml (f.get m))

def messagesYaml (ms : List Msg) : Yaml := .map [(gs"messages", .seq (ms.map fun m => .map (messageYaml m)))]

theorem messageYaml_keys : ((messageYaml m).map (·.1)).Nodup := by
  have : (messageYaml m).map (·.1) = [gs"request_size", gs"encryption_version"] ++ messageTexts.map (·.key) := by
    simp [messageYaml, Function.comp_def]
  rw [this]
  decide +kernel

theorem messageYaml_clear : ClearMessage (messageYaml m) := by
  have keys : (messageYaml m).map (·.1) = [gs"request_size", gs"encryption_version"] ++ messageTexts.map (·.key) := by
    simp [messageYaml, Function.comp_def]
  constructor
  · rintro k hk ⟨y, hy⟩
    have h1 : k ∈ (messageYaml m).map (·.1) := List.mem_map.2 ⟨_, hy, rfl⟩
    rw [keys] at h1
    have : ∀ k ∈ [gs"json_raw", gs"json_raw_relative", gs"interface_raw", gs"interface_raw_relative"],
        k ∉ [gs"request_size", gs"encryption_version"] ++ messageTexts.map (·.key) := by decide +kernel
    exact this k hk h1
  · intro t x h
    have := (lookup_mem_yaml messageYaml_keys).2 h
    simp [messageYaml, lookup] at this
  · intro t h
    have := (lookup_mem_yaml messageYaml_keys).2 h
    have ne : ¬ gs"encryption_version" = gs"request_size" := by decide
    simp only [messageYaml, List.cons_append, lookup, ne, if_true, if_false, Option.some.injEq] at this
    split at this
    · cases this; simp
    · cases this

theorem messageYaml_writes (h : PlainMessage m) : MessageDoc env (messageYaml m) m := by
  have hn := messageYaml_keys (m := m)
  have text : ∀ f ∈ messageTexts, TextUnder (messageYaml m) f.key (f.get m) := by
    intro f hf
    have hm : (f.key, textYaml (f.get m)) ∈ messageYaml m := List.mem_append_right _ (List.mem_map.2 ⟨f, hf, rfl⟩)
    refine ⟨fun y hy => ?_, fun hno => absurd ⟨_, hm⟩ hno⟩
    have e := ((lookup_mem_yaml hn).2 hy).symm.trans ((lookup_mem_yaml hn).2 hm)
    cases e
    exact .text (by simp)
  simp only [messageTexts, List.forall_mem_cons] at text
  obtain ⟨t1, t2, t3, t4, t5, t6, t7, t8, t9, t10, t11, t12, t13, t14, t15, t16, t17, t18, t19, t20, t21, -⟩ := text
  refine ⟨t1, t2, t3, t4, t5, t6, t7, t8, t9, t10, ⟨fun y hy => ?_, fun hno => ?_⟩, t11, t12, t13, t14, t15, t16, t17, t18, t19, t20, ⟨fun y hy => ?_, fun hno => ?_⟩, t21, h.rest⟩
  · have := (lookup_mem_yaml hn).2 hy
    simp only [messageYaml, List.cons_append, lookup, if_true, Option.some.injEq] at this
    subst this
    exact .int h.size
  · exact absurd ⟨_, .head _⟩ hno
  · have := (lookup_mem_yaml hn).2 hy
    have ne : ¬ gs"encryption_version" = gs"request_size" := by decide
    simp only [messageYaml, List.cons_append, lookup, ne, if_true, if_false, Option.some.injEq] at this
    subst this
    cases m.encryptionVersion with
    | none => exact .null ⟨_, by simp, rfl⟩
    | some x => exact .float _ _
  · exact absurd ⟨_, .tail _ (.head _)⟩ hno

/-- **C81.** Every list of messages is written by some document. -/
theorem C81_every (h : ∀ m ∈ ms, PlainMessage m) : Distinct (messagesYaml ms) ∧ Clear (messagesYaml ms) ∧ MessagesDoc env (messagesYaml ms) ms := by
  refine ⟨.map (by simp) ?_, ?_, .messages (l := ms.map fun m => .map (messageYaml m)) (by simp) ?_⟩
  · simp only [List.mem_singleton, forall_eq]
    refine .seq fun y hy => ?_
    obtain ⟨m, -, rfl⟩ := List.mem_map.1 hy
    refine .map messageYaml_keys fun x hx => ?_
    simp only [messageYaml, List.mem_append, List.mem_cons, List.not_mem_nil, or_false, List.mem_map] at hx
    rcases hx with (rfl | rfl) | ⟨f, -, rfl⟩
    · exact .scalar _ _
    · dsimp only; split <;> exact .scalar _ _
    · exact .scalar _ _
  · intro kvs l msg e hl hm
    cases e
    simp at hl
    subst hl
    obtain ⟨m, -, e⟩ := List.mem_map.1 hm
    cases e
    exact messageYaml_clear
  · induction ms with
    | nil => exact .nil
    | cons m ms ih => exact .cons (.message (messageYaml_writes (h m (by simp)))) (ih fun x hx => h x (by simp [hx]))

/-! ## Documents -/

/-- Half past two in the afternoon, seven hours behind UTC. -/
def demoClock (s : Str) : Option Clock := if s = gs"2018-07-29T14:30:00-07:00" then some ⟨14, 30, 0, 0, -25200⟩ else none

/-- A message with a size. -/
def sizedMessage (size : Yaml) (more : List (Str × Yaml)) : Yaml :=
  .map [(gs"messages", .seq [.map ([(gs"message_id", .scalar gs"0" (.int 0)), (gs"sender_service", textYaml gs"A.ns"), (gs"sender_ip", textYaml gs"10.0.0.1"),
    (gs"receiver_port", .scalar gs"0443" (.int 291)), (gs"sender_labels", textYaml gs"{app: web}"), (gs"request_protocol", textYaml gs"HTTP"), (gs"request_size", size),
    (gs"request_time", textYaml gs"2018-07-29T14:30:00-07:00")] ++ more)])]

/-- The number of the port stays as it is written, the size may be written as `1.024e3`, a misspelled key is ignored. -/
example : ∃ m', readMessages Demo.ext (fun _ => 0) demoClock (sizedMessage (.scalar gs"1.024e3" (.float (.fin 1024))) [(gs"request_metod", textYaml gs"GET")]) = .ok [m'] ∧
    m'.messageID = gs"0" ∧ m'.destinationPort = gs"0443" ∧ m'.requestSize = 1024 ∧ m'.contextType = gs"path" ∧ m'.sourceLabels = [(gs"app", gs"web")] ∧
    m'.requestMethod = [] := ⟨_, rfl, by decide +kernel, by decide +kernel, by decide +kernel, by decide +kernel, by decide +kernel, by decide +kernel⟩

/-- A time stamp that is missing in one message is an error for all of them, and so is a text under `json_raw`. -/
example : (∃ e, readMessages Demo.ext (fun _ => 0) demoClock
      (.map [(gs"messages", .seq [.map [(gs"request_time", textYaml gs"2018-07-29T14:30:00-07:00")], .map [(gs"message_id", textYaml gs"1")]])]) = .error (.err e)) ∧
    ∃ e, readMessages Demo.ext (fun _ => 0) demoClock (sizedMessage (.scalar gs"1" (.int 1)) [(gs"json_raw", textYaml gs"{}")]) = .error (.err e) :=
  ⟨⟨_, rfl⟩, _, rfl⟩

/-- Two messages meet all hypotheses. -/
example : ∃ y out, Distinct y ∧ Clear y ∧ readMessages Demo.ext (fun _ => 0) demoClock y = .ok out ∧
    List.Forall₂ (Completes Demo.ext demoClock) [{ requestSize := 7, requestTime := gs"2018-07-29T14:30:00-07:00" }, { requestTime := gs"2018-07-29T14:30:00-07:00", sourceService := gs"a", encryptionVersion := some (.fin 1) }] out := by
  obtain ⟨h1, h2, h3⟩ := C81_every (env := Demo.ext)
    (ms := [{ requestSize := 7, requestTime := gs"2018-07-29T14:30:00-07:00" }, { requestTime := gs"2018-07-29T14:30:00-07:00", sourceService := gs"a", encryptionVersion := some (.fin 1) }])
    (by
      intro m hm
      simp only [List.mem_cons, List.not_mem_nil, or_false] at hm
      rcases hm with rfl | rfl <;> exact ⟨by decide, rfl, rfl, rfl, rfl, rfl, rfl, rfl, rfl, rfl, rfl, rfl⟩)
  obtain ⟨out, h4, h5⟩ := C81_accepts_partial (wild := fun _ => 0) (parse := demoClock) h1 h2 h3 (by
    intro m hm
    simp only [List.mem_cons, List.not_mem_nil, or_false] at hm
    rcases hm with rfl | rfl <;> simp [demoClock])
  exact ⟨_, out, h1, h2, h4, h5⟩

/-- A message as a document can write it. -/
def writtenMsg : Msg :=
  { sourceIp := gs"10.1.2.3", destinationIp := gs"10.1.2.4", sourceService := gs"a1", requestMethod := gs"GET", requestPath := gs"/x/y", contextProtocol := gs"HTTP",
    requestTime := gs"2018-07-29T14:30:00-07:00" }

/-- Tables, the second rule of C74, and the message, all in documents: whether it is decided by the rule or not follows from the meaning of the rule. -/
example : ∃ z y w m', readTables z = .ok policyTables ∧ readMessages policyEnv.toExt (fun _ => 0) demoClock w = .ok [m'] ∧ MsgOk policyEnv m' ∧
    ∃ rules, readRulesFileWithTables policyEnv policyTables y = .ok (rules, none) ∧ rules.map (·.body) = policyRules.drop 1 ∧
      ∀ g, ∃ o, check policyEnv g m' rules = .ok o ∧ Decides [(WrittenParts policyRules[1] gs"a*,b" gs"*" m' ∧ True, .allow)] o := by
  have hp : ∀ r ∈ policyRules.drop 1, Plain policyEnv.toExt r := by
    intro r hr
    simp only [policyRules, List.drop, List.mem_cons, List.not_mem_nil, or_false] at hr
    subst hr
    exact ⟨⟨rfl, rfl, rfl, rfl, rfl⟩, by simp [Demo.rule], fun n hn => by simp [Demo.rule] at hn⟩
  obtain ⟨y, h1, h2, h3, -⟩ := C77_every policyEnv_ok.order hp
  obtain ⟨k1, k2⟩ := C79_every (t := policyTables) (by decide) (by decide)
  obtain ⟨w1, w2, w3⟩ := C81_every (env := policyEnv.toExt) (ms := [writtenMsg]) (by
    simp only [List.mem_singleton, forall_eq]
    exact ⟨by decide, rfl, rfl, rfl, rfl, rfl, rfl, rfl, rfl, rfl, rfl, rfl⟩)
  obtain ⟨e1, out, e2, e3, e4⟩ := C81_policy (wild := fun _ => 0) (parse := demoClock) policyEnv_ok k1 k2 ((C36_accepted _ policyTables).1 rfl) h1 h2 h3 w1 w2 w3 (by
    simp [writtenMsg, demoClock])
  cases e3 with
  | cons a b =>
    cases b
    rename_i m'
    have ok : MsgOk policyEnv m' := C81_message_ok a (by
      simp only [List.mem_cons, List.not_mem_nil, or_false]
      rintro s (rfl | rfl | rfl | rfl | rfl | rfl) <;> (show '\n' ∉ _; decide))
    refine ⟨_, y, _, m', e1, e2, ok, ?_⟩
    have := e4 m' (by simp) [(WrittenParts policyRules[1] gs"a*,b" gs"*" m' ∧ ∀ f ∈ (none : Option Statement), Meaning policyEnv policyTables f m', .allow)]
      (.cons (WrittenSays.mk (body := policyRules[1]) (c := none) rfl (.list (l := [gs"a*", gs"b"]) rfl) (.plain (by simp [policyRules, Demo.rule]))
        ⟨by show PlainPattern _; decide, by show PlainPattern _; decide, by show PlainPattern gs"read"; decide, by show PlainPattern gs"/x*"; decide⟩ (by simp) (by simp)) .nil) ok
    simpa using this

/-! ## Where the code differs -/

/-- The results of checking the messages of a document with the rules of a document. -/
def resultsOfAll (env : Env) (rules messages : Yaml) : Go (List (List Int)) := do
  let ms ← readMessages env.toExt (fun _ => 0) demoClock messages
  ms.mapM (resultsOf env rules)

/-- Block messages larger than 1024. -/
def largeRule : Yaml :=
  blockAll [(gs"conditions", .map [(gs"attribute", textYaml gs"payloadSize"), (gs"method", textYaml gs"GT"), (gs"value", .scalar gs"1024" (.int 1024))])]

/-- **C81 fails** for sizes with a fraction: it is dropped without an error, and the message is not blocked by a rule that blocks larger messages. -/
theorem C81_violated_fraction : ∃ (env : Env) (y : Yaml), Distinct y ∧
    (readMessages env.toExt (fun _ => 0) demoClock y).map (fun ms => ms.map (·.requestSize)) = .ok [1024] ∧
    y = sizedMessage (.scalar gs"1024.5" (.float (.fin (2049 / 2)))) [] ∧ (¬ ∃ ms, MessagesDoc env.toExt y ms) ∧
    resultsOfAll env largeRule y = .ok [[0]] ∧ resultsOfAll env largeRule (sizedMessage (.scalar gs"1025" (.int 1025)) []) = .ok [[3]] := by
  refine ⟨Demo.env, _, (testYaml_iff _).1 (by decide +kernel), by decide +kernel, rfl, ?_, by decide +kernel, by decide +kernel⟩
  rintro ⟨ms, h⟩
  cases h with
  | missing h => exact h ⟨_, .head _⟩
  | null h => simp at h
  | messages h hr =>
    simp at h
    subst h
    cases hr with
    | cons h _ =>
      cases h with
      | message h =>
        have := h.requestSize.1 (.scalar gs"1024.5" (.float (.fin (2049 / 2)))) (by simp)
        have key : ∀ {q : Rat} {n : Int}, WritesSize (.scalar gs"1024.5" (.float (.fin q))) n → q = n := by
          intro q n h
          cases h
          rfl
        have h1 := key this
        generalize Msg.requestSize _ = n at h1
        have h2 : (2049 : Rat) = 2 * n := by rw [← h1]; norm_num
        have : (2049 : Int) = 2 * n := by exact_mod_cast h2
        omega

/-- **C81 fails** for the version `Null`: it is read as zero, while `null` is none. -/
theorem C81_violated_null : ∃ m1 m2 : Msg,
    readMessages Demo.ext (fun _ => 0) demoClock (sizedMessage (.scalar gs"1" (.int 1)) [(gs"encryption_version", .scalar gs"Null" .null)]) = .ok [m1] ∧
    readMessages Demo.ext (fun _ => 0) demoClock (sizedMessage (.scalar gs"1" (.int 1)) [(gs"encryption_version", .scalar gs"null" .null)]) = .ok [m2] ∧
    m1.encryptionVersion = some (.fin 0) ∧ m2.encryptionVersion = none := ⟨_, _, rfl, rfl, by decide +kernel, by decide +kernel⟩

/-- **C81 fails** for a key that is there twice: the first value is dropped without an error, also in files. -/
theorem C81_violated_repeated : ∃ (y : Yaml) (m' : Msg), Clear y ∧ readMessages Demo.ext (fun _ => 0) demoClock y = .ok [m'] ∧ m'.sourceService = gs"B.ns" ∧
    y = sizedMessage (.scalar gs"1" (.int 1)) [(gs"sender_service", textYaml gs"B.ns")] ∧ ¬ ∃ ms, MessagesDoc Demo.ext y ms := by
  refine ⟨_, _, ?_, rfl, by decide +kernel, rfl, ?_⟩
  · intro kvs l msg e hl hm
    cases e
    simp at hl
    subst hl
    simp at hm
    subst hm
    exact ⟨by simp [HasKey], by simp, by simp⟩
  · rintro ⟨ms, h⟩
    cases h with
    | missing h => exact h ⟨_, .head _⟩
    | null h => simp at h
    | messages h hr =>
      simp at h
      subst h
      cases hr with
      | cons h _ =>
        cases h with
        | message h =>
          have h1 := h.sourceService.1 (textYaml gs"A.ns") (by simp)
          have h2 := h.sourceService.1 (textYaml gs"B.ns") (by simp)
          generalize hs : Msg.sourceService _ = s at h1 h2
          cases h1 with
          | text _ => cases h2

end Mapl.Props

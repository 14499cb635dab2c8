import Verif.Spec.Messages
import Verif.Lemmas.JsonText
import Verif.Lemmas.Regex
import Verif.Props.Match
import Verif.Lemmas.Go
import Verif.Demo
import Mathlib.Tactic.Linarith
import Mathlib.Tactic.NormNum
import Mathlib.Tactic.Ring
import Mathlib.Tactic.Positivity

/-!
# C56, C57, C62, C63, C64: derived fields of messages
-/

namespace Mapl
open Spec

variable {env : Ext} {parse : Str → Option Clock} {m : Msg}

/-- The replacements act on single characters. -/
def quoteLabelChar (c : Char) : Str :=
  if c = ' ' then [] else if c = '{' then gs"{\"" else if c = ',' then gs"\",\"" else if c = ':' then gs"\":\"" else if c = '}' then gs"\"}" else [c]

theorem addQuotes_eq (s : Str) : addQuotes s = s.flatMap quoteLabelChar := by
  unfold addQuotes
  simp only [replaceAll_single, List.flatMap_assoc]
  congr 1
  funext c
  unfold quoteLabelChar
  by_cases h1 : c = ' '
  · subst h1; rfl
  by_cases h2 : c = '{'
  · subst h2; rfl
  by_cases h3 : c = ','
  · subst h3; rfl
  by_cases h4 : c = ':'
  · subst h4; rfl
  by_cases h5 : c = '}'
  · subst h5; rfl
  simp [h1, h2, h3, h4, h5]

theorem addQuotes_spaces (s : Str) : addQuotes s = addQuotes (s.filter fun c => c ≠ ' ') := by
  rw [addQuotes_eq, addQuotes_eq]
  induction s with
  | nil => rfl
  | cons c s ih =>
    by_cases h : c = ' '
    · subst h; simpa [quoteLabelChar] using ih
    · simp [h, ih]

theorem flatMap_plain {s : Str} (h : ∀ c ∈ s, LabelChar c) : s.flatMap quoteLabelChar = s := by
  induction s with
  | nil => rfl
  | cons c s ih =>
    have hc := (h c (by simp)).1
    simp at hc
    rw [List.flatMap_cons, ih fun x hx => h x (by simp [hx])]
    simp [quoteLabelChar, hc]

theorem textLit_plain {s : Str} (h : ∀ c ∈ s, LabelChar c) : TextLit s s := fun t => tail_verbatim (fun c hc => by
  obtain ⟨h1, h2⟩ := h c hc
  simp at h1
  exact ⟨by simp [h1], by simp [h1], by simp [isControl]; omega⟩) t

theorem labels_members : ∀ {l : List (Str × Str)}, l ≠ [] → (∀ x ∈ l, (∀ c ∈ x.1, LabelChar c) ∧ ∀ c ∈ x.2, LabelChar c) →
    ∃ s, gs"\"" ++ (join gs"," (l.map fun x => x.1 ++ gs":" ++ x.2)).flatMap quoteLabelChar ++ gs"\"" = s ∧
      MemberTexts env s (l.map fun x => (x.1, .str x.2))
  | [], h, _ => absurd rfl h
  | [x], _, h => by
    obtain ⟨h1, h2⟩ := h x (by simp)
    refine ⟨_, rfl, ?_⟩
    have := MemberTexts.one (env := env) (textLit_plain h1) (valueText_str (textLit_plain h2))
    simpa [join, List.flatMap_append, flatMap_plain h1, flatMap_plain h2, quoteLabelChar] using this
  | x :: y :: l, _, h => by
    obtain ⟨h1, h2⟩ := h x (by simp)
    obtain ⟨s, hs, hm⟩ := labels_members (l := y :: l) (by simp) fun z hz => h z (by simp [hz])
    refine ⟨_, rfl, ?_⟩
    have := MemberTexts.more (env := env) (textLit_plain h1) (valueText_str (textLit_plain h2)) hm
    rw [← hs] at this
    simpa [join, List.flatMap_append, flatMap_plain h1, flatMap_plain h2, quoteLabelChar] using this

theorem labels_text {l : List (Str × Str)} (hne : l ≠ []) (h : LabelsOk l) :
    jsonParse env (addQuotes (labelText l)) = some (.obj (l.map fun x => (x.1, .str x.2))) := by
  obtain ⟨s, hs, hm⟩ := labels_members (env := env) hne h.2
  have := jsonParse_once (valueText_obj hm) (once_obj (by simpa [List.map_map, Function.comp_def] using h.1) once_map)
  rw [← this, ← hs, addQuotes_eq, labelText]
  simp [List.flatMap_append, quoteLabelChar]

end Mapl

namespace Mapl.Props
open Spec

variable {env : Ext} {parse : Str → Option Clock} {m m' : Msg}

/-! ## C57 -/

/-- **C57.** Labels written as documented, with blanks anywhere, become JSON text for the object with exactly these keys and values. -/
theorem C57_json {l : List (Str × Str)} {s : Str} (hne : l ≠ []) (h : LabelsOk l) (hs : s.filter (fun c => c ≠ ' ') = labelText l) :
    jsonParse env (addQuotes s) = some (.obj (l.map fun x => (x.1, .str x.2))) := by
  rw [addQuotes_spaces, hs]
  exact labels_text hne h

/-- **C57.** The labels of a message after loading are the ones in its text (the empty list included). -/
theorem C57_labels {l l' : List (Str × Str)} (h : LabelsOk l) (h' : LabelsOk l') (hs : m.sourceLabelsJson.filter (fun c => c ≠ ' ') = labelText l)
    (hd : m.destinationLabelsJson.filter (fun c => c ≠ ' ') = labelText l') (h1 : m.sourceLabels = []) (h2 : m.destinationLabels = []) :
    (parseLabels env m).sourceLabels = l ∧ (parseLabels env m).destinationLabels = l' := by
  have key : ∀ {l : List (Str × Str)} {s : Str}, LabelsOk l → s.filter (fun c => c ≠ ' ') = labelText l → unmarshalLabels env (addQuotes s) [] = l := by
    intro l s h hs
    by_cases hne : l = []
    · subst hne
      rw [addQuotes_spaces, hs]
      rfl
    · have hf := foldl_setKey l [] (by simpa using h.1)
      rw [unmarshalLabels, C57_json hne h hs]
      simp only [List.foldl_map]
      simpa using hf
  unfold parseLabels
  rw [h1, h2]
  exact ⟨key h hs, key h' hd⟩

/-- The labels of the documentation. -/
example : LabelsOk [(gs"key1", gs"ABbC"), (gs"key2", gs"DEF"), (gs"key3", gs"XYZ")] ∧
    (gs"{key1:ABbC, key2:DEF, key3:XYZ}").filter (fun c => c ≠ ' ') = labelText [(gs"key1", gs"ABbC"), (gs"key2", gs"DEF"), (gs"key3", gs"XYZ")] := by
  refine ⟨⟨by decide, ?_⟩, rfl⟩
  simp only [List.mem_cons, List.not_mem_nil, or_false]
  rintro x (rfl | rfl | rfl) <;> constructor <;> unfold LabelChar <;> decide

/-- Labels written as JSON, or with a colon in a value, are lost. -/
example : (parseLabels Demo.env { sourceLabelsJson := gs"{\"app\":\"web\"}", destinationLabelsJson := gs"{image:nginx:1}" }).sourceLabels = [] ∧
    (parseLabels Demo.env { sourceLabelsJson := gs"{\"app\":\"web\"}", destinationLabelsJson := gs"{app:web,image:nginx:1}" }).destinationLabels = [] := by
  decide +kernel

/-! ## C56 -/

/-- **C56**, the resource type: `path` for HTTP, `port` for TCP (in capitals or small letters), otherwise empty. -/
theorem C56_type : (addResourceType m).contextType = (if m.contextProtocol ∈ [gs"HTTP", gs"http"] then gs"path"
    else if m.contextProtocol ∈ [gs"TCP", gs"tcp"] then gs"port" else []) ∧ addResourceType m = { m with contextType := (addResourceType m).contextType } := by
  unfold addResourceType
  by_cases h1 : m.contextProtocol = gs"HTTP" ∨ m.contextProtocol = gs"http"
  · simp [h1]
  · by_cases h2 : m.contextProtocol = gs"TCP" ∨ m.contextProtocol = gs"tcp"
    · simp [h1, h2]
    · simp [h1, h2]

/-- **C56**, the time fields: they are finite, lie in the ranges of a day, and agree with the time of day and with each other up to rounding. -/
theorem C56_time (hr : RoundOk env) {c : Clock} (hc : parse m.requestTime = some c) :
    ∃ s mi h : Rat, addTimeInfo env parse m = .ok { m with secondsFromMidnight := .fin s, minutesFromMidnight := .fin mi, hoursFromMidnight := .fin h } ∧
      0 ≤ s ∧ s < 86400 ∧ 0 ≤ mi ∧ mi < 1440 ∧ 0 ≤ h ∧ h < 24 ∧
      |s - c.seconds| ≤ c.seconds / 2 ^ 53 ∧ |60 * mi - s| ≤ s / 2 ^ 53 ∧ |60 * h - mi| ≤ mi / 2 ^ 53 ∧ (c.nano = 0 → s = c.seconds) := by
  have step : ∀ q : Rat, q = 0 ∨ 1 / 10 ^ 18 ≤ q ∧ q ≤ 10 ^ 6 → ∃ x, env.rnd q = .fin x ∧ |x - q| ≤ q / 2 ^ 53 := by
    rintro q (rfl | ⟨h1, h2⟩)
    · exact ⟨0, by simpa using hr.whole 0 (by norm_num), by simp⟩
    · have h3 : (2 : Rat) ^ 64 ≤ 2 ^ 1022 := pow_le_pow_right₀ (by norm_num) (by norm_num)
      have h4 : (2 : Rat) ^ 64 ≤ 2 ^ 1023 := pow_le_pow_right₀ (by norm_num) (by norm_num)
      exact hr.near q (le_trans (one_div_le_one_div_of_le (by norm_num) (le_trans (by norm_num) h3)) h1)
        (le_trans h2 (le_trans (by norm_num) h4))
  have bound : ∀ q x : Rat, |x - q| ≤ q / 2 ^ 53 → x ≤ q + q / 2 ^ 53 ∧ q - q / 2 ^ 53 ≤ x := fun q x h => by
    rw [abs_le] at h; constructor <;> linarith [h.1, h.2]
  obtain ⟨hh, hm, hs, hn⟩ := And.intro c.hour.isLt (And.intro c.minute.isLt (And.intro c.second.isLt c.nano.isLt))
  generalize hN : (((c.hour.val * 60 + c.minute.val) * 60 + c.second.val) * 1000000000 + c.nano.val : Int) = N
  have hN0 : 0 ≤ N := by omega
  have hN1 : N ≤ 86399999999999 := by omega
  have hsec : (N : Rat) / 1000000000 = c.seconds := by
    rw [← hN, Clock.seconds]
    push_cast
    ring
  have hwhole : env.rnd N = .fin N := hr.whole N (by rw [abs_of_nonneg hN0]; omega)
  have hNr0 : (0 : Rat) ≤ N := by exact_mod_cast hN0
  have hNr1 : (N : Rat) ≤ 86399999999999 := by exact_mod_cast hN1
  have hcase : (N : Rat) = 0 ∨ (1 : Rat) ≤ N := by
    rcases Int.lt_or_le 0 N with h | h
    · right; exact_mod_cast h
    · left; have : N = 0 := by omega
      rw [this]; rfl
  obtain ⟨s, hs1, hs2⟩ := step ((N : Rat) / 1000000000) (by
    rcases hcase with h | h
    · left; rw [h]; norm_num
    · right; constructor
      · rw [div_le_div_iff₀ (by norm_num) (by norm_num)]; linarith
      · rw [div_le_iff₀ (by norm_num)]; linarith)
  obtain ⟨bs1, bs2⟩ := bound _ _ hs2
  have s0 : s = 0 ∨ 1 / 10 ^ 10 ≤ s := by
    rcases hcase with h | h
    · left
      rw [h] at bs1 bs2
      norm_num at bs1 bs2
      linarith
    · right
      linarith
  obtain ⟨mi, hm1, hm2⟩ := step (s / 60) (by
    rcases s0 with h | h
    · left; rw [h]; norm_num
    · right; constructor <;> linarith)
  obtain ⟨bm1, bm2⟩ := bound _ _ hm2
  have m0 : mi = 0 ∨ 1 / 10 ^ 13 ≤ mi := by
    rcases s0 with h | h
    · left
      rw [h] at bm1 bm2
      norm_num at bm1 bm2
      linarith
    · right
      linarith
  obtain ⟨ho, hh1, hh2⟩ := step (mi / 60) (by
    rcases m0 with h | h
    · left; rw [h]; norm_num
    · right; constructor <;> linarith)
  obtain ⟨bh1, bh2⟩ := bound _ _ hh2
  have s00 : 0 ≤ s := by rcases s0 with h | h <;> linarith
  have m00 : 0 ≤ mi := by rcases m0 with h | h <;> linarith
  have h00 : 0 ≤ ho := by linarith
  refine ⟨s, mi, ho, ?_, s00, by linarith, m00, by linarith, h00, by linarith, by rw [← hsec]; exact hs2, ?_, ?_, ?_⟩
  · unfold addTimeInfo
    rw [hc]
    simp only [hN, hwhole, fdiv, hs1, hm1, hh1]
  · rw [abs_le] at hm2 ⊢
    constructor <;> linarith [hm2.1, hm2.2]
  · rw [abs_le] at hh2 ⊢
    constructor <;> linarith [hh2.1, hh2.2]
  · intro h0
    have hk : (N : Rat) / 1000000000 = ((c.hour.val * 60 + c.minute.val) * 60 + c.second.val : Int) := by
      rw [← hN, h0]
      push_cast
      simp
    have := hr.whole ((c.hour.val * 60 + c.minute.val) * 60 + c.second.val : Int) (by
      rw [abs_of_nonneg (by omega)]; omega)
    rw [← hk, hs1] at this
    simp at this
    rw [this, ← hsec]

/-- **C56**: a time stamp that cannot be read is an error. -/
theorem C56_no_time (hc : parse m.requestTime = none) : addTimeInfo env parse m = .error (.err .badTime) := by
  unfold addTimeInfo; rw [hc]

/-- Exact arithmetic meets the assumption on rounding. -/
example : RoundOk { Demo.ext with rnd := .fin } where
  whole n _ := rfl
  near q h _ := ⟨q, rfl, by
    have : (0 : Rat) ≤ q := le_trans (by positivity) h
    simp; positivity⟩

/-! ## C62 -/

/-- **C62**, for time stamps in UTC with whole seconds: the seconds since midnight are those in UTC. -/
theorem C62_partial (hr : RoundOk env) {c : Clock} (hc : parse m.requestTime = some c) (hz : c.zone = 0) (hn : c.nano = 0)
    (h : addTimeInfo env parse m = .ok m') : m'.secondsFromMidnight = .fin c.utc := by
  obtain ⟨s, mi, ho, h1, _, _, _, _, _, _, _, _, _, h2⟩ := C56_time hr hc
  rw [h1] at h
  cases h
  rw [h2 hn, Clock.seconds, Clock.utc, hz, hn]
  have h1 := c.hour.isLt
  have h2 := c.minute.isLt
  have h3 := c.second.isLt
  rw [Int.emod_eq_of_lt (by omega) (by omega)]
  simp

/-- Violation of C62: for all other whole time stamps the fields are not in UTC. (The documentation's example is 11:30 in the zone -07:00.) -/
theorem C62_violated (hr : RoundOk env) {c : Clock} (hc : parse m.requestTime = some c) (hz : ¬ (86400 : Int) ∣ c.zone) (hn : c.nano = 0)
    (h : addTimeInfo env parse m = .ok m') : m'.secondsFromMidnight ≠ .fin c.utc := by
  obtain ⟨s, mi, ho, h1, _, _, _, _, _, _, _, _, _, h2⟩ := C56_time hr hc
  rw [h1] at h
  cases h
  rw [h2 hn, Clock.seconds, Clock.utc, hn]
  have h1 := c.hour.isLt
  have h2 := c.minute.isLt
  have h3 := c.second.isLt
  intro he
  simp only [F64.fin.injEq] at he
  have : ((3600 * c.hour.val + 60 * c.minute.val + c.second.val : Int) : Rat) = ((3600 * c.hour.val + 60 * c.minute.val + c.second.val - c.zone) % 86400 : Int) := by
    rw [← he]; push_cast; simp
  have := Int.cast_injective this
  apply hz
  omega

example : ∃ (parse : Str → Option Clock) (c : Clock), parse gs"2018-07-29T11:30:00-07:00" = some c ∧ ¬ (86400 : Int) ∣ c.zone ∧ c.nano = 0 :=
  ⟨fun _ => some ⟨11, 30, 0, 0, -25200⟩, _, rfl, by decide, rfl⟩

/-! ## C63 -/

/-- Violation of C63: a resource type that comes with a message of another protocol than HTTP and TCP is erased. -/
theorem C63_violated (h : m.contextProtocol ∉ [gs"HTTP", gs"http", gs"TCP", gs"tcp"]) : (addResourceType m).contextType = [] := by
  rw [C56_type.1]
  simp only [List.mem_cons, List.not_mem_nil, or_false, not_or] at h
  simp [h]

/-- **C63** for messages without a type. -/
theorem C63_partial (h : m.contextProtocol ∉ [gs"HTTP", gs"http", gs"TCP", gs"tcp"]) (ht : m.contextType = []) : addResourceType m = m := by
  obtain ⟨_, h2⟩ := C56_type (m := m)
  rw [h2, C63_violated h, ← ht]

/-- What follows for checks: after loading, a rule that names the type of its resource (such as `kafkaTopic` for KAFKA) applies to no message of such a
protocol. -/
theorem C63_never_applies {env : Env} {r : RuleObj} (h : m.contextProtocol ∉ [gs"HTTP", gs"http", gs"TCP", gs"tcp"]) (hf : Fresh r)
    (hp : r.body.protocol ∉ [gs"tcp", gs"*"]) (ht : r.body.resourceType ∉ [gs"*", []])
    (hc : r.check env g p (addResourceType m) = .ok o) : o.result = Decision.default.rank ∧ o.extra = [] := by
  obtain ⟨r1, rule, h1, h2, h3, h4, h5, h6⟩ := fresh_prepared hf hc
  refine (C09_rule_applies_execution h2 h3 h4 h6).2 ?_
  rintro ⟨⟨_, _, _, hr⟩, _⟩
  simp only [List.mem_cons, List.not_mem_nil, or_false, not_or] at hp ht
  rw [ResourceMatches, h5.protocol, h5.resourceType, C63_violated h, if_neg hp.1, if_neg hp.2] at hr
  rcases hr.2.1 with h | h
  · exact ht.1 h
  · exact ht.2 h

/-- A rule for a Kafka topic applies to the message as it was written, and no longer after loading. -/
example :
    let r : RuleObj := { body := { (Demo.rule gs"block").body with protocol := gs"KAFKA", resourceType := gs"kafkaTopic", resourceName := gs"*" } }
    let m : Msg := { Demo.msgI with contextProtocol := gs"KAFKA", contextType := gs"kafkaTopic" }
    (r.check Demo.env {} [] m).map (·.result) = .ok 3 ∧ (r.check Demo.env {} [] (addResourceType m)).map (·.result) = .ok 0 := by
  constructor <;> rfl

/-! ## Loading -/

/-- The messages of a file are loaded one by one, in order; one bad time stamp is an error for all. -/
theorem C64_load {ms : List Msg} : (∀ out, loadMessages env parse ms = .ok out ↔
      List.Forall₂ (fun m m' => ∃ x, addTimeInfo env parse (addResourceType m) = .ok x ∧ m' = parseLabels env (addNetIp env x)) ms out) ∧
    ((∃ e, loadMessages env parse ms = .error e) ↔ ∃ m ∈ ms, parse m.requestTime = none) := by
  have all : ∀ ms out, (loadMessages env parse ms = .ok out ↔ List.Forall₂ (fun m m' => ∃ x, addTimeInfo env parse (addResourceType m) = .ok x ∧ m' = parseLabels env (addNetIp env x)) ms out) := by
    intro ms
    induction ms with
    | nil => intro out; simp [loadMessages, addTimeInfoAll, bind, Except.bind, pure, Except.pure, eq_comm]
    | cons m ms ih =>
      intro out
      simp only [loadMessages, List.map_cons, addTimeInfoAll, Go.bind_eq_ok] at ih ⊢
      constructor
      · rintro ⟨l, ⟨x, hx, xs, hxs, hl⟩, ho⟩
        cases hl
        cases ho
        exact .cons ⟨x, hx, rfl⟩ ((ih _).1 ⟨xs, hxs, rfl⟩)
      · rintro (_ | ⟨⟨x, hx, rfl⟩, h⟩)
        obtain ⟨xs, hxs, ho⟩ := (ih _).2 h
        cases ho
        exact ⟨_, ⟨x, hx, xs, hxs, rfl⟩, rfl⟩
  refine ⟨all ms, ?_⟩
  have tp : ∀ m, (addResourceType m).requestTime = m.requestTime := fun m => by rw [C56_type.2]
  constructor
  · rintro ⟨e, he⟩
    by_contra hn
    push Not at hn
    have : ∃ out, loadMessages env parse ms = .ok out := by
      clear he
      induction ms with
      | nil => exact ⟨_, rfl⟩
      | cons m ms ih =>
        obtain ⟨out, ho⟩ := ih fun x hx => hn x (by simp [hx])
        have := hn m (by simp)
        cases hp : parse m.requestTime with
        | none => exact absurd hp this
        | some c => exact ⟨_, (all _ _).2 (.cons ⟨_, by unfold addTimeInfo; rw [tp, hp], rfl⟩ ((all _ _).1 ho))⟩
    obtain ⟨out, ho⟩ := this
    rw [he] at ho
    cases ho
  · rintro ⟨m, hm, hp⟩
    cases hl : loadMessages env parse ms with
    | error e => exact ⟨e, rfl⟩
    | ok out =>
      exfalso
      have h := (all _ _).1 hl
      clear hl
      induction h with
      | nil => cases hm
      | cons hx _ ih =>
        rcases List.mem_cons.1 hm with rfl | hm
        · obtain ⟨x, hx, _⟩ := hx
          unfold addTimeInfo at hx
          rw [tp, hp] at hx
          cases hx
        · exact ih hm

/-- **C64.** What loading changes in a message: the type follows the protocol, the addresses are read from the texts of source and
destination, the clock is that of the time stamp, the labels come from their texts; everything else stays as it was written. -/
theorem C64_fields {ms out : List Msg} (h : loadMessages env parse ms = .ok out) : List.Forall₂ (fun m m' =>
    m'.contextType = (if m.contextProtocol ∈ [gs"HTTP", gs"http"] then gs"path" else if m.contextProtocol ∈ [gs"TCP", gs"tcp"] then gs"port" else []) ∧
    m'.sourceNetIp = parseIP env m.sourceIp ∧ m'.destinationNetIp = parseIP env m.destinationIp ∧
    m'.sourceLabels = unmarshalLabels env (addQuotes m.sourceLabelsJson) m.sourceLabels ∧
    m'.destinationLabels = unmarshalLabels env (addQuotes m.destinationLabelsJson) m.destinationLabels ∧
    (∃ x, addTimeInfo env parse m = .ok x ∧ m'.secondsFromMidnight = x.secondsFromMidnight ∧ m'.minutesFromMidnight = x.minutesFromMidnight ∧
      m'.hoursFromMidnight = x.hoursFromMidnight) ∧
    m' = { m with
      contextType := m'.contextType, sourceNetIp := m'.sourceNetIp, destinationNetIp := m'.destinationNetIp, sourceLabels := m'.sourceLabels
      destinationLabels := m'.destinationLabels, secondsFromMidnight := m'.secondsFromMidnight, minutesFromMidnight := m'.minutesFromMidnight
      hoursFromMidnight := m'.hoursFromMidnight }) ms out := by
  refine (C64_load.1 out |>.1 h).imp ?_
  rintro m m' ⟨x, hx, rfl⟩
  obtain ⟨t1, t2⟩ := @C56_type m
  rw [t2] at hx
  unfold addTimeInfo at hx
  split at hx
  · simp at hx
  · next c hc =>
    cases hx
    refine ⟨t1, rfl, rfl, rfl, rfl, ?_, rfl⟩
    simp only [addTimeInfo, show parse m.requestTime = some c from hc]
    exact ⟨_, rfl, rfl, rfl, rfl⟩

/-- **C57.** The word `null` instead of a list of labels removes the labels; the empty text keeps them. -/
theorem C57_null (h : m.sourceLabelsJson.filter (fun c => c ≠ ' ') = gs"null") (h' : m.destinationLabelsJson.filter (fun c => c ≠ ' ') = []) :
    (parseLabels env m).sourceLabels = [] ∧ (parseLabels env m).destinationLabels = m.destinationLabels := by
  unfold parseLabels
  dsimp only
  rw [addQuotes_spaces m.sourceLabelsJson, h, addQuotes_spaces m.destinationLabelsJson, h']
  exact ⟨rfl, rfl⟩

example : (gs" null ").filter (fun c => c ≠ ' ') = gs"null" := by decide

end Mapl.Props

import Verif.Spec.Alone
import Verif.Lemmas.Covers
import Verif.Props.Address
import Verif.Props.DecodeMessage
import Verif.Props.Fields
import Verif.Props.Frame

/-!
# C106: a message that is read alone is decided like the same message in a document of messages

In full: if `YamlReadMessageAttributes` reads a message, and `YamlReadMessagesFromString` reads a document in whose list the same message stands, then `Check` gives the
same seven values for both, with every list of rules.
-/

namespace Mapl.Props

open Spec

variable {env : Env} {wild : F64 → Int} {parse : Str → Option Clock} {kvs : List (Str × Yaml)} {text : Str} {z : Yaml} {i : Nat} {m m' : Msg} {out : List Msg}
  {g : Predef} {rs : List RuleObj}

/-- The message as it is written, what is made of it when it is read alone, and what is made of it in a list. -/
theorem alone_listed (hz : Distinct z) (hc : Clear z) (hs : StandsAt z i kvs) (h1 : readMessage env.toExt wild text (.map kvs) = .ok m)
    (h2 : readMessages env.toExt wild parse z = .ok out) (hm : out[i]? = some m') :
    ∃ m0, MessageDoc env.toExt kvs m0 ∧ m = typed m0 ∧ Completes env.toExt parse m0 m' := by
  obtain ⟨top, l, rfl, hl, hi⟩ := hs
  have hmem : Yaml.map kvs ∈ l := List.mem_of_getElem? hi
  cases hz with | map hn hd =>
    have hdl := hd _ hl
    cases hdl with | seq hdl =>
      have hk : (kvs.map (·.1)).Nodup := by
        cases hdl _ hmem with | map hk _ => exact hk
      have hcm : ClearMessage kvs := hc top l kvs rfl hl hmem
      obtain ⟨m0, e1, e2⟩ := C88_reads (wild := wild) hk hcm h1
      refine ⟨m0, e1, e2, ?_⟩
      obtain ⟨ms, h3, h4⟩ := C81_reads_partial (.map hn hd) hc h2
      have hget : ∀ {α β : Type} {R : α → β → Prop} {as : List α} {bs : List β} {i : Nat} {a : α}, List.Forall₂ R as bs → as[i]? = some a → ∃ b, bs[i]? = some b ∧ R a b := by
        intro α β R as bs i a h
        induction h generalizing i with
        | nil => intro h; simp at h
        | cons h _ ih =>
          intro hi
          cases i with
          | zero => simp at hi; subst hi; exact ⟨_, rfl, h⟩
          | succ i => simpa using ih (by simpa using hi)
      cases h3 with
      | missing h => exact absurd ⟨_, hl⟩ h
      | null h => cases List.inj_on_of_nodup_map hn hl h rfl
      | @messages _ l' _ h hr =>
        cases List.inj_on_of_nodup_map hn hl h rfl
        obtain ⟨m1, e3, e4⟩ := hget hr hi
        obtain ⟨m2, e5, e6⟩ := hget h4 e3
        rw [hm] at e5
        cases e5
        cases e4 with | message e4 =>
          have a1 := (message_iff (wild := wild) hk hcm).2 e1
          have a2 := (message_iff (wild := wild) hk hcm).2 e4
          rw [← a1.2, a2.2]
          exact e6

theorem noLabels_filter {s : Str} (h : NoLabels s) : s.filter (fun c => c ≠ ' ') = [] := by
  rw [List.filter_eq_nil_iff]
  intro c hc
  simp [h c hc]

/-- **C106**, partial: the two messages are decided alike by rules that look at nothing that is filled in only for messages in a document of messages: no subnets
if the message has an address, no hours, and no labels if some are written. (The full statement is for all rules.) -/
theorem C106_partial (ho : env.OrdOk) (hz : Distinct z) (hc : Clear z) (hs : StandsAt z i kvs) (h1 : readMessage env.toExt wild text (.map kvs) = .ok m)
    (h2 : readMessages env.toExt wild parse z = .ok out) (hm : out[i]? = some m') (hu : ∀ r ∈ rs, Usable env r) (hr : ∀ r ∈ rs, NeedsNothing env g m r) :
    (check env g m rs).map CheckOut.answer = (check env g m' rs).map CheckOut.answer := by
  obtain ⟨m0, hd, rfl, h⟩ := alone_listed hz hc hs h1 h2 hm
  obtain ⟨n1, n2, n3, n4, n5, n6, n7, n8, n9, n10, n11⟩ := hd.rest
  have e := h.rest
  have none : ∀ s, (¬ ∃ y, AddressText s y) → parseIP env.toExt s = [] := by
    intro s hs
    by_contra hc
    exact hs (parseIP_sound hc)
  refine C75_parts ho hu (fun r hm => ?_) fun r hm f hf => ?_
  · have hn := hr r hm
    constructor
    · intro _; rw [e]; rfl
    · intro ht
      refine ⟨by rw [e]; rfl, ?_⟩
      rw [h.source]
      exact n8.trans (none _ (hn.sender ht)).symm
    · intro _; rw [e]; rfl
    · intro ht
      refine ⟨by rw [e]; rfl, ?_⟩
      rw [h.destination]
      exact n9.trans (none _ (hn.receiver ht)).symm
    · intro _; rw [e]; rfl
    · rw [e]; rfl
    · intro _; rw [e]; rfl
    · intro _ _; exact ⟨by rw [e]; rfl, h.type.symm, by rw [e]; rfl⟩
  · have hn := hr r hm
    cases f with
    | hours => exact absurd hf hn.hours
    | senderLabel k =>
      show lookup k m0.sourceLabels = lookup k m'.sourceLabels
      rw [h.noSourceLabels (noLabels_filter (hn.senderLabels ⟨k, hf⟩)), n10]
    | receiverLabel k =>
      show lookup k m0.destinationLabels = lookup k m'.destinationLabels
      rw [h.noDestinationLabels (noLabels_filter (hn.receiverLabels ⟨k, hf⟩)), n11]
    | documents =>
      refine ⟨?_, ?_, ?_, ?_⟩ <;> (rw [e]; rfl)
    | _ => show (_ : _) = _; rw [e]; rfl

/-- An entry for a subnet does not agree with a message without an address of type `net.IP`. -/
theorem net_nil {x : Ext} : ∀ {l : List Str} {sl : List ExpandedSR}, List.Forall₂ (fun s e => expandOne x gs"subnet" s = .ok e) l sl → (∀ s ∈ l, ∃ a n, NetText s a n) →
    m.sourceNetIp = [] → ∀ e ∈ sl, ¬ SenderEntry x e m
  | _, _, .cons (a := s) (b := e) he hr, hn, hm, e', hm' => by
    rcases List.mem_cons.1 hm' with rfl | hm'
    · obtain ⟨a, n, hs⟩ := hn s List.mem_cons_self
      obtain ⟨-, ht, -, hi⟩ := expandOne_ok he
      have hi := hi rfl
      obtain ⟨net, hp⟩ : ∃ net, parseCIDR x (if s = gs"*" then gs"0.0.0.0/0" else s) = some net := by
        split
        · obtain ⟨net, hp, -⟩ := parseCIDR_complete x zeros_text (by decide); exact ⟨net, hp⟩
        · next hx => obtain ⟨net, hp, -⟩ := parseCIDR_complete x hs hx; exact ⟨net, hp⟩
      rw [isIpCIDR, hp] at hi
      simp only [Prod.mk.injEq] at hi
      obtain ⟨-, h2, -, h4⟩ := hi
      rintro (⟨-, h⟩ | ⟨h, -⟩)
      · rw [AddressMatches, if_pos h2, h4, hm, parseCIDR_nil hp] at h
        cases h
      · rw [ht] at h
        exact absurd h (by decide)
    · exact net_nil hr (fun s hs => hn s (List.mem_cons_of_mem _ hs)) hm e' hm'

/-- **C106 fails**, in general: a rule whose senders are all subnets does not apply to any message that is read alone, whatever address the message has. -/
theorem C106_subnets {r : RuleObj} {p : List Nat} {o : RuleOut} {s : Str} (hk : (kvs.map (·.1)).Nodup) (hc : ClearMessage kvs)
    (h1 : readMessage env.toExt wild text (.map kvs) = .ok m) (hf : Fresh r) (hty : r.body.senderType = gs"subnet")
    (hs : Resolves g r.body.senderName s) (hn : ∀ e, Listed s e → ∃ x n, NetText e x n) (h : r.check env g p m = .ok o) :
    o.result = Decision.default.rank ∧ o.extra = [] := by
  obtain ⟨m0, hd, rfl⟩ := C88_reads hk hc h1
  have hnet : (typed m0).sourceNetIp = [] := hd.rest.2.2.2.2.2.2.2.1
  obtain ⟨r1, rule, h2, h3, h4, h5, h6, h7⟩ := fresh_prepared hf h
  refine (ruleCheck_prepared h3 h4 h5 h7).2.1 ?_
  rintro ⟨hp, -⟩
  obtain ⟨e, he, hs'⟩ := hp.sender
  obtain ⟨copy, rule', c1, c2, rfl⟩ := setPredefined_ok h2
  simp at h4; subst h4
  obtain ⟨c, -, rfl⟩ := copyRule_ok c1
  obtain ⟨s', v', sl, rl, op, re, a1, -, a3, -, -, -, -, a8⟩ := prepareOneRule_ok (by simpa using hf.converted) c2
  simp only at a1 a3
  rw [replaceName_iff.2 hs, Except.ok.injEq] at a1
  subst a1
  have hl : rule'.senderList = sl := by rw [a8]
  rw [hl] at he
  rw [hty] at a3
  exact net_nil (mapM_forall₂ a3) (fun x hx => hn x (mem_split_iff.1 hx)) hnet e he hs'

/-- What the rules find in a message that is read alone: no address, the hour zero, no labels. -/
theorem C106_unset (hk : (kvs.map (·.1)).Nodup) (hc : ClearMessage kvs) (h1 : readMessage env.toExt wild text (.map kvs) = .ok m) :
    m.sourceNetIp = [] ∧ m.destinationNetIp = [] ∧ m.hoursFromMidnight = .fin 0 ∧ m.sourceLabels = [] ∧ m.destinationLabels = [] := by
  obtain ⟨m0, hd, rfl⟩ := C88_reads hk hc h1
  obtain ⟨n1, n2, n3, n4, n5, n6, n7, n8, n9, n10, n11⟩ := hd.rest
  exact ⟨n8, n9, by assumption, n10, n11⟩

/-! ## A message -/

/-- The entries of a message from an address in an office network, in the afternoon, with a label. -/
def officeEntries : List (Str × Yaml) :=
  [(gs"sender_service", textYaml gs"shop"), (gs"sender_ip", textYaml gs"10.1.2.3"), (gs"sender_labels", textYaml gs"{app: web}"),
    (gs"request_time", textYaml gs"2018-07-29T14:30:00-07:00")]

def officeText : Str := gs"sender_service: shop\nsender_ip: 10.1.2.3\nsender_labels: \"{app: web}\"\nrequest_time: 2018-07-29T14:30:00-07:00\n"

/-- A document with this message. -/
def officeMessages : Yaml := .map [(gs"messages", .seq [.map officeEntries])]

/-- Block with one condition. -/
def blockIf (attr method value : Str) : Yaml :=
  blockAll [(gs"conditions", .map [(gs"attribute", textYaml attr), (gs"method", textYaml method), (gs"value", textYaml value)])]

/-- Block a network. -/
def blockNet : Yaml :=
  .map [(gs"rules", .seq [.map [(gs"sender", .map [(gs"senderName", textYaml gs"10.0.0.0/8"), (gs"senderType", textYaml gs"subnet")]),
    (gs"receiver", .map [(gs"receiverName", textYaml gs"*"), (gs"receiverType", textYaml gs"*")]), (gs"protocol", textYaml gs"*"),
    (gs"resource", .map [(gs"resourceType", textYaml gs"*"), (gs"resourceName", textYaml gs"*")]), (gs"operation", textYaml gs"*"),
    (gs"decision", textYaml gs"block")]])]

/-- The results of checking a message that is read alone with the rules of a document. -/
def resultsAlone (env : Env) (rules : Yaml) (text : Str) (tree : Yaml) : Go (List Int) := do
  let m ← readMessage env.toExt (fun _ => 0) text tree
  resultsOf env rules m

/-- **C106 fails** for subnets, for hours and for labels: a message from 10.1.2.3 at half past two with the label `app: web` is blocked by a rule for the senders
10.0.0.0/8, by a rule for the hours from eight, and by a rule for the label if it stands in a document of messages, and by none of them if it is read alone. -/
theorem C106_violated : ∃ (env : Env) (text : Str) (kvs : List (Str × Yaml)) (z : Yaml), env.OrdOk ∧ Distinct z ∧ StandsAt z 0 kvs ∧
    text = gs"sender_service: shop\nsender_ip: 10.1.2.3\nsender_labels: \"{app: web}\"\nrequest_time: 2018-07-29T14:30:00-07:00\n" ∧
    (resultsAlone env blockNet text (.map kvs) = .ok [0] ∧ resultsOfAll env blockNet z = .ok [[3]]) ∧
    (resultsAlone env (blockIf gs"utcHoursFromMidnight" gs"GE" gs"8") text (.map kvs) = .ok [0] ∧
      resultsOfAll env (blockIf gs"utcHoursFromMidnight" gs"GE" gs"8") z = .ok [[3]]) ∧
    (resultsAlone env (blockIf gs"senderLabel[app]" gs"EQ" gs"web") text (.map kvs) = .ok [0] ∧
      resultsOfAll env (blockIf gs"senderLabel[app]" gs"EQ" gs"web") z = .ok [[3]]) := by
  refine ⟨Demo.env, officeText, officeEntries, officeMessages, Demo.env_ordOk, (testYaml_iff _).1 (by decide +kernel), ⟨_, _, rfl, .head _, rfl⟩, rfl, ?_, ?_, ?_⟩ <;>
    exact ⟨by decide +kernel, by decide +kernel⟩

theorem office_clear : ClearMessage officeEntries := by
  refine ⟨?_, ?_, ?_⟩
  · simp only [List.forall_mem_cons]
    refine ⟨?_, ?_, ?_, ?_, by simp⟩ <;> (rintro ⟨v, h⟩; simp [officeEntries] at h)
  · intro t x h; simp [officeEntries] at h
  · intro t h; simp [officeEntries] at h

/-- A rule that looks at the size and the documents decides this message alike in both cases. -/
example : ∃ m m', readMessage Demo.ext (fun _ => 0) officeText (.map officeEntries) = .ok m ∧ readMessages Demo.ext (fun _ => 0) demoClock officeMessages = .ok [m'] ∧
    (check Demo.env {} m [safeRule]).map CheckOut.answer = (check Demo.env {} m' [safeRule]).map CheckOut.answer := by
  have h1 : ∃ m, readMessage Demo.ext (fun _ => 0) officeText (.map officeEntries) = .ok m := ⟨_, read_accepted rfl rfl (by decide +kernel)⟩
  have h2 : ∃ m', readMessages Demo.ext (fun _ => 0) demoClock officeMessages = .ok [m'] := ⟨_, rfl⟩
  obtain ⟨m, h1⟩ := h1
  obtain ⟨m', h2⟩ := h2
  refine ⟨m, m', h1, h2, C106_partial (env := Demo.env) (i := 0) Demo.env_ordOk ((testYaml_iff _).1 (by decide +kernel)) ?_ ⟨_, _, rfl, .head _, rfl⟩ h1 h2 rfl
    (fun r hr => ?_) fun r hr => ?_⟩
  · rintro kvs l msg ⟨⟩ hl hm
    simp at hl; subst hl
    simp at hm; subst hm
    exact office_clear
  · simp at hr; subst hr
    exact .fresh ⟨rfl, rfl, rfl⟩
  · simp at hr; subst hr
    refine ⟨fun h => absurd h (by decide), fun h => absurd h (by decide), fun h => ?_, ?_, ?_⟩
    · rcases safeRule_mentions h with h | h <;> cases h
    · rintro ⟨k, h⟩
      rcases safeRule_mentions h with h | h <;> cases h
    · rintro ⟨k, h⟩
      rcases safeRule_mentions h with h | h <;> cases h

/-- The rule for 10.0.0.0/8 meets the hypotheses of `C106_subnets` with this message, although the message comes from there. -/
example : ∃ m o, readMessage Demo.ext (fun _ => 0) officeText (.map officeEntries) = .ok m ∧ (subnetRule gs"10.0.0.0/8").check Demo.env {} [0] m = .ok o ∧
    m.sourceIp = gs"10.1.2.3" ∧ o.result = Decision.default.rank := by
  let m : Msg := { sourceService := gs"shop", sourceIp := gs"10.1.2.3", sourceLabelsJson := gs"{app: web}", requestTime := gs"2018-07-29T14:30:00-07:00" }
  have h1 : readMessage Demo.ext (fun _ => 0) officeText (.map officeEntries) = .ok (typed m) := read_accepted rfl rfl (by decide +kernel)
  have h2 : ∃ o, (subnetRule gs"10.0.0.0/8").check Demo.env {} [0] (typed m) = .ok o := ⟨_, rfl⟩
  obtain ⟨o, h2⟩ := h2
  refine ⟨_, o, h1, h2, rfl, (C106_subnets (env := Demo.env) (s := gs"10.0.0.0/8") (by decide) office_clear h1 ⟨rfl, rfl, rfl⟩ rfl ?_ ?_ h2).1⟩
  · exact .plain fun k h => by cases h
  · intro e he
    have := mem_split_iff.2 he
    rw [show split ',' gs"10.0.0.0/8" = [gs"10.0.0.0/8"] from rfl] at this
    simp only [List.mem_cons, List.not_mem_nil, or_false] at this
    subst this
    exact ⟨_, _, .v4 ⟨10, 0, 0, 0⟩ (t := gs"8") (n := 8) (.one rfl) (by decide)⟩

end Mapl.Props

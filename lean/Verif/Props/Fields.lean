import Verif.Lemmas.Fields
import Verif.Demo

/-!
# C88: a document with one message is accepted if and only if all its keys are known

In full: `YamlReadMessageAttributes` reads a document of lines `key: value` as the message that it writes, with the resource type by the protocol, if all keys are known;
if one is not known then it returns an error.
-/

namespace Mapl.Props

open Spec

variable {env : Ext} {wild : F64 → Int} {l : List Entry} {text : Str} {m m' : Msg} {y : Yaml}

theorem matches_join : ∀ {ls : List Str}, (∀ x ∈ ls, '\n' ∉ x) → fieldMatches (join gs"\n" ls) = ls.filterMap fieldMatch ∧
    fieldMatches (join gs"\n" ls ++ gs"\n") = ls.filterMap fieldMatch
  | [], _ => ⟨rfl, rfl⟩
  | [x], h => by
    have hx := h x (List.mem_cons_self ..)
    rw [join, fieldMatches, fieldMatches, split_last hx, split_part _ hx]
    exact ⟨rfl, by simp only [List.filterMap_cons]; cases fieldMatch x <;> rfl⟩
  | x :: z :: ls, h => by
    have hx := h x (List.mem_cons_self ..)
    obtain ⟨h1, h2⟩ := matches_join (ls := z :: ls) fun a ha => h a (List.mem_cons_of_mem _ ha)
    rw [fieldMatches] at h1 h2
    rw [join, fieldMatches, fieldMatches]
    simp only [List.append_assoc, List.singleton_append, List.cons_append, List.nil_append]
    rw [split_part _ hx, split_part _ hx]
    rw [List.filterMap_cons (l := split '\n' (join gs"\n" (z :: ls))), List.filterMap_cons (l := split '\n' (join gs"\n" (z :: ls) ++ gs"\n")), h1, h2]
    exact ⟨(List.filterMap_cons ..).symm, (List.filterMap_cons ..).symm⟩

theorem linesText_join : ∀ (l : List Entry), linesText l = join gs"\n" (l.map Entry.line)
  | [] => rfl
  | [_] => rfl
  | e :: e' :: l => by rw [linesText, linesText_join (e' :: l)]; rfl

theorem typed_eq (m : Msg) : addResourceType m = typed m := by
  unfold addResourceType typed
  simp only [List.mem_cons, List.not_mem_nil, or_false]
  split
  · rfl
  · split <;> rfl

theorem line_match (h : OneWord e.value) : (fieldMatch (Entry.line e)).isSome = true := by
  obtain ⟨hq, -⟩ := plain_solid h
  have : Entry.line e = e.key ++ ':' :: ' ' :: e.value := by simp [Entry.line]
  rw [this]
  cases hv : e.value with
  | nil => exact absurd hv h.nonempty
  | cons c t => exact match_some (hq.chars c (by simp [hv])).1 _

theorem line_free' {e : Entry} (h : PlainEntry env e) : '\n' ∉ e.line := by
  obtain ⟨hq, -⟩ := plain_solid h.value
  simp only [Entry.line, List.mem_append, not_or]
  exact ⟨⟨h.key.1, by decide⟩, fun hm => absurd (hq.chars _ hm).1 (by decide)⟩

/-- A known key does not look like labels. -/
theorem line_pairs {e : Entry} (h : PlainEntry env e) (hk : e.key ∈ messageKeys) {x : Str} (hx : fieldMatch e.line = some x) : matchPairs x = 0 := by
  have hp := match_prefix hx
  have hkeys : ∀ k ∈ messageKeys, k ∉ [gs"request_type", gs"sender_labels", gs"receiver_labels", gs"json_raw", gs"json_raw_relative", gs"interface_raw", gs"interface_raw_relative"] →
      ∀ w ∈ [gs"sender_label", gs"receiver_label"], contains (k ++ gs": ") w = false := by decide +kernel
  have key : ∀ w ∈ [gs"sender_label", gs"receiver_label"], contains x w = false := by
    intro w hw
    have hb : ' ' ∉ w := by revert w; decide
    have hs : w ∈ specialWords := by revert w; decide
    apply not_infix
    intro hi
    have hi : w <:+: (e.key ++ gs": ") ++ e.value := hi.trans hp.isInfix
    rcases infix_word hi with hi | hi | ⟨a, b, ha, -, hab, h1, -⟩
    · rw [← contains_infix, hkeys _ hk h.key.2 w hw] at hi
      simp at hi
    · exact (plain_solid h.value).1.words w hs hi
    · obtain ⟨a', c, rfl⟩ : ∃ a' c, a = a' ++ [c] := ⟨_, _, (List.dropLast_append_getLast ha).symm⟩
      obtain ⟨z, hz⟩ := h1
      have : c = ' ' := by
        have : z ++ a' ++ [c] = e.key ++ [':'] ++ [' '] := by simpa using hz
        have := (List.append_inj' this rfl).2
        simpa using this
      subst this
      rw [hab] at hb
      simp at hb
  rw [matchPairs, key _ (by simp), key _ (by simp)]
  rfl

theorem yaml_length (hl : ∀ e ∈ l, PlainEntry env e) (ht : text = linesText l ∨ text = linesText l ++ gs"\n") :
    fieldMatches text = l.filterMap (fun e => fieldMatch e.line) ∧ (fieldMatches text).length = l.length := by
  have hm := matches_join (ls := l.map Entry.line) fun x hx => by
    obtain ⟨e, he, rfl⟩ := List.mem_map.1 hx
    exact line_free' (hl e he)
  have h1 : fieldMatches text = l.filterMap (fun e => fieldMatch e.line) := by
    rcases ht with rfl | rfl
    · rw [linesText_join, hm.1, List.filterMap_map]; rfl
    · rw [linesText_join, hm.2, List.filterMap_map]; rfl
  refine ⟨h1, ?_⟩
  rw [h1, filterMap_length, List.countP_eq_length]
  exact fun e he => line_match (hl e he).value

theorem countP_swap {a b : List Str} (ha : a.Nodup) (hb : b.Nodup) : a.countP (· ∈ b) = b.countP (· ∈ a) := by
  rw [List.countP_eq_length_filter, List.countP_eq_length_filter]
  apply List.Perm.length_eq
  rw [List.perm_ext_iff_of_nodup (ha.filter _) (hb.filter _)]
  intro x
  simp [and_comm]

theorem counted_nodup : countedKeys.Nodup := by decide +kernel

theorem counted_known : ∀ k ∈ countedKeys, k ∈ messageKeys := by decide +kernel

theorem known_counted : ∀ k ∈ messageKeys, k ∉ [gs"request_type", gs"sender_labels", gs"receiver_labels", gs"json_raw", gs"json_raw_relative", gs"interface_raw", gs"interface_raw_relative"] →
    k ∈ countedKeys := by decide +kernel

/-- The comparison is right. -/
theorem compare_iff (hk : (l.map (·.key)).Nodup) (hl : ∀ e ∈ l, PlainEntry env e) (ht : text = linesText l ∨ text = linesText l ++ gs"\n")
    {json : Str} (hj : (fieldMatches (replaceFields json)).length = countedKeys.countP (· ∈ l.map (·.key))) :
    compareJsonAndYaml json text = true ↔ ∀ e ∈ l, e.key ∈ messageKeys := by
  obtain ⟨h1, h2⟩ := yaml_length hl ht
  unfold compareJsonAndYaml
  rw [decide_eq_true_eq, h2, hj, countP_swap counted_nodup hk, List.countP_map]
  have hle : l.countP ((fun k => decide (k ∈ countedKeys)) ∘ fun e => e.key) ≤ l.length := List.countP_le_length
  constructor
  · intro h e he
    have : l.countP ((fun k => decide (k ∈ countedKeys)) ∘ fun e => e.key) = l.length := by omega
    rw [List.countP_eq_length] at this
    exact counted_known _ (by simpa using this e he)
  · intro h
    have hc : l.countP ((fun k => decide (k ∈ countedKeys)) ∘ fun e => e.key) = l.length := by
      rw [List.countP_eq_length]
      intro e he
      simpa using known_counted _ (h e he) (hl e he).key.2
    have hp : ((fieldMatches text).map matchPairs).sum = 0 := by
      have zero : ∀ {ns : List Nat}, (∀ n ∈ ns, n = 0) → ns.sum = 0 := by
        intro ns
        induction ns with
        | nil => exact fun _ => rfl
        | cons n ns ih => intro h; rw [List.sum_cons, h n (List.mem_cons_self ..), ih fun n hn => h n (List.mem_cons_of_mem _ hn)]
      apply zero
      intro n hn
      obtain ⟨x, hx, rfl⟩ := List.mem_map.1 hn
      rw [h1] at hx
      obtain ⟨e, he, hx⟩ := List.mem_filterMap.1 hx
      exact line_pairs (hl e he) (h e he) hx
    rw [hp, hc]
    rfl

theorem entry_clear (hl : ∀ e ∈ l, PlainEntry env e) : ClearMessage (lineEntries l) := by
  refine ⟨fun k hk ⟨y, hy⟩ => ?_, fun t x hx => ?_, fun t hx => ?_⟩
  · obtain ⟨e, he, h'⟩ := List.mem_map.1 hy
    have := (hl e he).key.2
    rw [(Prod.mk.inj h').1] at this
    apply this
    simp only [List.mem_cons, List.not_mem_nil, or_false] at hk ⊢
    tauto
  · obtain ⟨e, he, h'⟩ := List.mem_map.1 hx
    obtain ⟨k1, k2⟩ := Prod.mk.inj h'
    obtain ⟨n, -, hw⟩ := (hl e he).size k1
    rw [k2] at hw
    cases hw with
    | float h => exact ⟨_, h.1, h.2, rfl⟩
  · obtain ⟨e, he, h'⟩ := List.mem_map.1 hx
    obtain ⟨k1, k2⟩ := Prod.mk.inj h'
    simp at k2
    exact absurd k2.2 (hl e he).kind

theorem entry_decodes (hk : (l.map (·.key)).Nodup) (hl : ∀ e ∈ l, PlainEntry env e) :
    ∃ m, MessageDoc env (lineEntries l) m ∧ decodeStruct (messageField env wild) {} {} (linesTree l) = (m, false) := by
  have hn : ((lineEntries l).map (·.1)).Nodup := by rw [lineEntries_keys]; exact hk
  have hf : (decodeFields (messageField env wild) {} (lineEntries l)).2 = false := by
    rw [decodeFields_flag messageField_flag]
    rintro ⟨k, y⟩ hx
    obtain ⟨e, he, h'⟩ := List.mem_map.1 hx
    obtain ⟨rfl, rfl⟩ := Prod.mk.inj h'
    unfold messageBad
    dsimp only
    split
    · unfold decodeText
      split <;> simp_all
    · split
      · next hk => obtain ⟨n, -, hw⟩ := (hl e he).size hk; exact ((decodeInt_iff fun t x e' => by
          rw [e'] at hw; cases hw with | float h => exact ⟨_, h.1, h.2, rfl⟩).2 hw).1
      · split
        · next hk => obtain ⟨q, hw, -⟩ := (hl e he).version hk; exact ((decodeNumber_iff fun t e' => by
            simp at e'; exact absurd e'.2 (hl e he).kind).2 hw).1
        · have := (hl e he).key.2
          simp only [decide_eq_false_iff_not]
          intro hr
          apply this
          simp only [rawKeys, List.mem_cons, List.not_mem_nil, or_false] at hr ⊢
          tauto
  exact ⟨_, (message_iff hn (entry_clear hl)).1 ⟨hf, rfl⟩, Prod.ext rfl hf⟩

/-- **C88.** A document of lines with plain values is accepted if and only if all its keys are known. The result is the message that is written, with its type; else there is an error.
Missing: values and keys that are not plain, see the violations. -/
theorem C88_partial (hk : (l.map (·.key)).Nodup) (hl : ∀ e ∈ l, PlainEntry env e) (ht : text = linesText l ∨ text = linesText l ++ gs"\n") :
    ((∀ e ∈ l, e.key ∈ messageKeys) → ∃ m kvs, linesTree l = .map kvs ∧ MessageDoc env kvs m ∧ readMessage env wild text (linesTree l) = .ok (typed m)) ∧
    ((∃ e ∈ l, e.key ∉ messageKeys) → ∃ err, readMessage env wild text (linesTree l) = .error (.err err)) := by
  obtain ⟨m, hm, hd⟩ := entry_decodes (wild := wild) hk hl
  obtain ⟨json, hj, hc⟩ := json_count hl hm
  have hiff := compare_iff hk hl ht hc
  constructor
  · intro h
    refine ⟨m, _, rfl, hm, ?_⟩
    rw [readMessage, hd]
    simp only [hj, Go.ok_bind]
    rw [if_pos (hiff.2 h), ← typed_eq]
    rfl
  · rintro ⟨e, he, h⟩
    refine ⟨.badNode, ?_⟩
    rw [readMessage, hd]
    simp only [hj, Go.ok_bind]
    rw [if_neg fun h' => h (hiff.1 h' e he)]

/-- **C88.** Whatever is accepted is read as it is written: keys that are not known have no effect. -/
theorem C88_reads {kvs : List (Str × Yaml)} (hk : (kvs.map (·.1)).Nodup) (hc : ClearMessage kvs) (h : readMessage env wild text (.map kvs) = .ok m') :
    ∃ m, MessageDoc env kvs m ∧ m' = typed m := by
  unfold readMessage at h
  split at h
  · cases h
  · next m hd =>
    obtain ⟨json, -, h⟩ := Go.bind_eq_ok.1 h
    split at h
    · cases h
      refine ⟨m, (message_iff (wild := wild) hk hc).1 ?_, typed_eq m⟩
      have : decodeFields (messageField env wild) {} kvs = (m, false) := hd
      rw [this]
      exact ⟨rfl, rfl⟩
    · cases h

/-- **C88.** There is no crash, on any text and document. -/
theorem C88_no_crash : NoPanic (readMessage env wild text y) := by
  unfold readMessage messageToJson
  split
  · simp [NoPanic]
  · split
    · simp only [Go.ok_bind]
      split <;> simp [NoPanic]
    · simp [NoPanic, Go.error_bind]

/-- **C88.** A version that is not a number or infinite is refused, whatever else the document says. -/
theorem C88_version {kvs : List (Str × Yaml)} (hk : (kvs.map (·.1)).Nodup) {t : Str} {x : F64} (hx : (gs"encryption_version", .scalar t (.float x)) ∈ kvs) (hf : ∀ q, x ≠ .fin q)
    (hc : ClearMessage kvs) : ∃ err, readMessage env wild text (.map kvs) = .error (.err err) := by
  unfold readMessage
  generalize hd : decodeStruct (messageField env wild) {} {} (.map kvs) = d
  obtain ⟨m, bad⟩ := d
  cases bad with
  | true => exact ⟨_, rfl⟩
  | false =>
    have hd : decodeFields (messageField env wild) {} kvs = (m, false) := hd
    have hm := (message_iff (wild := wild) (env := env) (m := m) hk hc).1 (by rw [hd]; exact ⟨rfl, rfl⟩)
    have hv : m.encryptionVersion = some x := by
      have := hm.encryptionVersion.1 _ hx
      generalize m.encryptionVersion = z at this
      cases this with
      | null h => obtain ⟨t, -, h⟩ := h; simp at h
      | float => rfl
    have : finite m.encryptionVersion = false := by
      rw [hv]
      cases x with
      | fin q => exact absurd rfl (hf q)
      | _ => rfl
    exact ⟨.badNode, by simp [messageToJson, this, Go.error_bind]⟩

/-! ## Violations -/

theorem read_refused {kvs : List (Str × Yaml)} (hd : decodeFields (messageField env wild) {} kvs = (m, false)) (hv : m.encryptionVersion = none)
    (hc : compareJsonAndYaml (gs"{\n" ++ join gs",\n" ((messageMembers Demo.ext m).map memberLine) ++ gs"\n}") text = false) :
    readMessage env wild text (.map kvs) = .error (.err .badNode) := by
  have he : messageMembers env m = messageMembers Demo.ext m := by simp only [messageMembers, hv]
  rw [readMessage, show decodeStruct (messageField env wild) {} {} (.map kvs) = (m, false) from hd]
  simp only [messageToJson, hv, finite, if_true, Go.ok_bind, he]
  rw [if_neg (by rw [hc]; exact Bool.false_ne_true)]

theorem read_accepted {kvs : List (Str × Yaml)} (hd : decodeFields (messageField env wild) {} kvs = (m, false)) (hv : m.encryptionVersion = none)
    (hc : compareJsonAndYaml (gs"{\n" ++ join gs",\n" ((messageMembers Demo.ext m).map memberLine) ++ gs"\n}") text = true) :
    readMessage env wild text (.map kvs) = .ok (typed m) := by
  have he : messageMembers env m = messageMembers Demo.ext m := by simp only [messageMembers, hv]
  rw [readMessage, show decodeStruct (messageField env wild) {} {} (.map kvs) = (m, false) from hd]
  simp only [messageToJson, hv, finite, if_true, Go.ok_bind, he]
  rw [if_pos hc, ← typed_eq]
  rfl

/-- **C88, violated.** A key that is not known is not noticed if two blanks follow another key: here `foo` has no effect. -/
theorem C88_violated_unknown : readMessage env wild gs"sender_service:  a\nfoo: 80" (.map [(gs"sender_service", .scalar gs"a" .str), (gs"foo", .scalar gs"80" (.int 80))]) =
    .ok { sourceService := gs"a" } := by
  rw [read_accepted (m := { sourceService := gs"a" }) rfl rfl (by decide +kernel)]
  simp [typed]

/-- **C88, violated.** A size of zero is refused. -/
theorem C88_violated_size : readMessage env wild gs"request_size: 0" (.map [(gs"request_size", .scalar gs"0" (.int 0))]) = .error (.err .badNode) :=
  read_refused (m := {}) rfl rfl (by decide +kernel)

/-- **C88, violated.** The type of the resource is refused. -/
theorem C88_violated_type : readMessage env wild gs"request_type: path" (.map [(gs"request_type", .scalar gs"path" .str)]) = .error (.err .badNode) :=
  read_refused (m := { contextType := gs"path" }) rfl rfl (by decide +kernel)

/-- **C88, violated.** Labels are refused: they are counted one by one in the document, but they are not in the message yet. -/
theorem C88_violated_labels : readMessage env wild gs"sender_labels: \"{app:web}\"" (.map [(gs"sender_labels", .scalar gs"{app:web}" .str)]) = .error (.err .badNode) ∧
    readMessage env wild gs"receiver_labels: \"{app:web}\"" (.map [(gs"receiver_labels", .scalar gs"{app:web}" .str)]) = .error (.err .badNode) :=
  ⟨read_refused (m := { sourceLabelsJson := gs"{app:web}" }) rfl rfl (by decide +kernel),
    read_refused (m := { destinationLabelsJson := gs"{app:web}" }) rfl rfl (by decide +kernel)⟩

/-- **C88, violated.** A comment with a colon is counted as a key, and a value that contains `null` is not counted. -/
theorem C88_violated_comment : readMessage env wild gs"sender_service: a # note: b\n# note: b" (.map [(gs"sender_service", .scalar gs"a" .str)]) = .error (.err .badNode) ∧
    readMessage env wild gs"sender_service: null" (.map [(gs"sender_service", .scalar gs"null" .null)]) = .error (.err .badNode) :=
  ⟨read_refused (m := { sourceService := gs"a" }) rfl rfl (by decide +kernel), read_refused (m := {}) rfl rfl (by decide +kernel)⟩

/-! ## A document -/

/-- A request from the service `shop` with a size of 10 bytes. -/
def shopLines : List Entry := [⟨gs"sender_service", gs"shop", .str⟩, ⟨gs"request_size", gs"10", .int 10⟩, ⟨gs"request_protocol", gs"HTTP", .str⟩]

theorem oneWord {v : Str} (h : v ≠ [] ∧ (∀ c ∈ v, 0x20 < c.toNat ∧ c.toNat ≠ 0x2028 ∧ c.toNat ≠ 0x2029 ∧ c ∉ ['"', '\\', '{', '}', '[', ']', ',', '<', '>', '&']) ∧
    ∀ w ∈ specialWords, contains v w = false) : OneWord v :=
  ⟨h.1, h.2.1, fun w hw h' => by rw [← contains_iff, h.2.2 w hw] at h'; simp at h'⟩

theorem shop_plain : ∀ e ∈ shopLines, PlainEntry env e := by
  simp only [shopLines, List.forall_mem_cons]
  refine ⟨?_, ?_, ?_, by simp⟩
  · exact ⟨by decide, oneWord (by decide), by simp, fun h => absurd h (by decide), fun h => absurd h (by decide)⟩
  · exact ⟨by decide, oneWord (by decide), by simp, fun _ => ⟨10, by decide, .int (by decide)⟩, fun h => absurd h (by decide)⟩
  · exact ⟨by decide, oneWord (by decide), by simp, fun h => absurd h (by decide), fun h => absurd h (by decide)⟩

/-- It is read, with the type of its resource. -/
example : ∃ m, readMessage Demo.ext wild gs"sender_service: shop\nrequest_size: 10\nrequest_protocol: HTTP\n" (linesTree shopLines) = .ok m ∧
    m.sourceService = gs"shop" ∧ m.requestSize = 10 ∧ m.contextType = gs"path" := by
  obtain ⟨m, kvs, h1, h2, h3⟩ := (C88_partial (env := Demo.ext) (wild := wild) (l := shopLines) (by decide) shop_plain (.inr rfl)).1 (by decide)
  cases h1
  refine ⟨_, h3, ?_, ?_, ?_⟩
  · have := h2.sourceService.1 (.scalar gs"shop" .str) (by simp [shopLines])
    show m.sourceService = _
    generalize m.sourceService = z at this
    cases this; rfl
  · have := h2.requestSize.1 (.scalar gs"10" (.int 10)) (by simp [shopLines])
    show m.requestSize = _
    generalize m.requestSize = z at this
    cases this; rfl
  · have : m.contextProtocol = gs"HTTP" := by
      have := h2.contextProtocol.1 (.scalar gs"HTTP" .str) (by simp [shopLines])
      generalize m.contextProtocol = z at this
      cases this; rfl
    simp [typed, this]

/-- With a misspelled key it is refused. -/
example : ∃ err, readMessage Demo.ext wild gs"sender_servce: shop" (linesTree [⟨gs"sender_servce", gs"shop", .str⟩]) = .error (.err err) := by
  refine (C88_partial (env := Demo.ext) (l := [⟨gs"sender_servce", gs"shop", .str⟩]) (by simp) ?_ (.inl rfl)).2 ⟨_, List.mem_cons_self .., by decide⟩
  simp only [List.forall_mem_cons]
  exact ⟨⟨by decide, oneWord (by decide), by simp, fun h => absurd h (by decide), fun h => absurd h (by decide)⟩, by simp⟩

/-- A version that is infinite. -/
example : ∃ err, readMessage env wild gs"encryption_version: .inf" (.map [(gs"encryption_version", .scalar gs".inf" (.float .posInf))]) = .error (.err err) :=
  C88_version (x := .posInf) (by decide) (.head _) (by simp) ⟨by simp [HasKey], by simp, by simp⟩

end Mapl.Props

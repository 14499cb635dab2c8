import Verif.Props.Fields

/-!
# C88 for lines with any values

The values of a document may be quoted, have blanks, or be labels. An unknown key is always refused, and so are labels.
-/

namespace Mapl.Props

open Spec

variable {env : Ext} {wild : F64 → Int} {text : Str} {m : Msg} {kvs : List (Str × Yaml)} {ws : List (Str × Str)}

/-- A line as it is written: a key and the text after it. -/
def writtenLine (x : Str × Str) : Str := x.1 ++ gs": " ++ x.2

/-- Lines with one key each; the text after the key does not begin with a blank. -/
structure PlainLine (x : Str × Str) : Prop where
  key : '\n' ∉ x.1
  value : '\n' ∉ x.2
  begins : ∃ c t, x.2 = c :: t ∧ c ∉ [' ', '\t', '\n', '\r', Char.ofNat 12]

theorem hexDigit_free {n : Nat} (h : n < 16) : hexDigit n ≠ '\n' := by
  revert n
  decide

theorem quote_free (s : Str) : '\n' ∉ quoteJson s := by
  have h : ∀ c, '\n' ∉ quoteChar c := by
    intro c
    unfold quoteChar
    split
    · decide
    split
    · decide
    split
    · decide
    split
    · decide
    split
    · decide
    split
    · next hc =>
      have hn : c.toNat < 128 := by
        rcases hc with hc | rfl | rfl | rfl
        · omega
        all_goals decide
      simp only [List.mem_cons, List.not_mem_nil, or_false, not_or]
      exact ⟨by decide, by decide, by decide, by decide, (hexDigit_free (by omega)).symm, (hexDigit_free (by omega)).symm⟩
    split
    · decide
    split
    · decide
    · next h3 _ _ _ _ _ => simpa using fun e => h3 (Eq.symm e)
  unfold quoteJson
  simp only [List.mem_append, not_or, List.mem_flatMap, not_exists, not_and]
  exact ⟨⟨by decide, fun c _ => h c⟩, by decide⟩

/-- The line of a member is not counted if its key is missing. -/
structure AtMost (kvs : List (Str × Yaml)) (x : Str × Str) (k : Option Str) : Prop where
  line : '\n' ∉ memberLine x ++ gs","
  count : (fieldMatch (cleanLine (memberLine x ++ gs","))).isSome = true → ∃ k', k = some k' ∧ HasKey kvs k'

theorem atMost_text {name k s : Str} (h : TextUnder kvs k s) (hn : safeName name = true) (hname : '\n' ∉ name) : AtMost kvs (name, quoteJson s) (some k) := by
  refine ⟨line_free hname (quote_free s), fun hc => ⟨k, rfl, ?_⟩⟩
  by_contra hk
  rw [h.2 hk, text_counts hn (by simp)] at hc
  simp at hc

theorem atMost_constant {x : Str × Str} (h1 : '\n' ∉ memberLine x ++ gs",") (h2 : (fieldMatch (cleanLine (memberLine x ++ gs","))).isSome = false) : AtMost kvs x none :=
  ⟨h1, fun h => by rw [h2] at h; cases h⟩

theorem atMost_type (hm : MessageDoc env kvs m) : AtMost kvs (gs"ContextType", quoteJson m.contextType) (some gs"request_type") := by
  refine ⟨line_free (by decide) (quote_free _), fun hc => ⟨_, rfl, ?_⟩⟩
  by_contra hk
  rw [hm.contextType.2 hk] at hc
  revert hc
  decide +kernel

theorem atMost_size (hm : MessageDoc env kvs m) : AtMost kvs (gs"RequestSize", fmtInt m.requestSize) (some gs"request_size") := by
  refine ⟨line_free (by decide) (number_free (fmtInt_chars _)), fun hc => ⟨_, rfl, ?_⟩⟩
  by_contra hk
  rw [hm.requestSize.2 hk] at hc
  revert hc
  decide +kernel

theorem atMost_version (hm : MessageDoc env kvs m) (hnum : ∀ q, '\n' ∉ env.jsonMarshal (.num (.fin q))) (hf : finite m.encryptionVersion = true) :
    AtMost kvs (gs"EncryptionVersion", match m.encryptionVersion with | none => gs"null" | some x => env.jsonMarshal (.num x)) (some gs"encryption_version") := by
  refine ⟨line_free (by decide) ?_, fun hc => ⟨_, rfl, ?_⟩⟩
  · split
    · decide
    · next x hx =>
      rw [hx] at hf
      cases x with
      | fin q => exact hnum q
      | _ => cases hf
  · by_contra hk
    rw [hm.encryptionVersion.2 hk] at hc
    have : (fieldMatch (cleanLine (memberLine (gs"EncryptionVersion", gs"null") ++ gs","))).isSome = false := by decide +kernel
    exact absurd (this.symm.trans hc) (by decide)

/-- The keys of the members of the text, all but the last, with the type. -/
def memberKeys' : List (Option Str) := memberKeys.set 19 (some gs"request_type")

theorem memberKeys'_eq : memberKeys'.filterMap id = messageKeys := by decide +kernel

set_option maxRecDepth 20000 in
theorem atMost_members (hm : MessageDoc env kvs m) (hnum : ∀ q, '\n' ∉ env.jsonMarshal (.num (.fin q))) (hf : finite m.encryptionVersion = true) :
    List.Forall₂ (AtMost kvs) (messageMembers env m).dropLast memberKeys' := by
  have hv := atMost_version hm hnum hf
  have hs := atMost_size hm
  have hct := atMost_type hm
  have ht : ∀ {name k s}, TextUnder kvs k s → safeName name = true → '\n' ∉ name → AtMost kvs (name, quoteJson s) (some k) := fun h a b => atMost_text h a b
  simp only [messageMembers, List.dropLast, memberKeys', memberKeys, List.set]
  refine .cons (ht hm.sourceIp ?_ ?_) (.cons (ht hm.sourceNamespace ?_ ?_) (.cons (ht hm.sourceCluster ?_ ?_) (.cons (ht hm.destinationIp ?_ ?_) (.cons (ht hm.destinationPort ?_ ?_)
    (.cons (ht hm.destinationNamespace ?_ ?_) (.cons (ht hm.destinationCluster ?_ ?_) (.cons (ht hm.requestPath ?_ ?_) (.cons (ht hm.requestHost ?_ ?_) (.cons (ht hm.requestMethod ?_ ?_)
    (.cons hs (.cons (ht hm.requestTime ?_ ?_) (.cons (ht hm.requestUseragent ?_ ?_) (.cons (ht hm.contextProtocol ?_ ?_) (.cons (ht hm.messageID ?_ ?_) (.cons (ht hm.sourceService ?_ ?_)
    (.cons (ht hm.destinationService ?_ ?_) (.cons (ht hm.sourceLabelsJson ?_ ?_) (.cons (ht hm.destinationLabelsJson ?_ ?_) (.cons hct
    (.cons (ht hm.encryptionType ?_ ?_) (.cons hv (.cons (atMost_constant ?_ ?_) (.cons (atMost_constant ?_ ?_) (.cons (atMost_constant ?_ ?_) (.cons (atMost_constant ?_ ?_)
    (.cons (ht hm.domain ?_ ?_) (.cons (atMost_constant ?_ ?_) (.cons (atMost_constant ?_ ?_) (.cons (atMost_constant ?_ ?_) (.cons (atMost_constant ?_ ?_)
    (.cons (atMost_constant ?_ ?_) (.cons (atMost_constant ?_ ?_) .nil)))))))))))))))))))))))))))))))) <;> decide +kernel

theorem atMost_sum {keys : List Str} (hkeys : keys = kvs.map (·.1)) {xs : List (Str × Str)} {ks : List (Option Str)} (h : List.Forall₂ (AtMost kvs) xs ks) :
    (xs.map fun x => memberLine x ++ gs",").countP (fun x => (fieldMatch (cleanLine x)).isSome) ≤ (ks.filterMap id).countP (· ∈ keys) := by
  induction h with
  | nil => simp only [List.map_nil, List.filterMap_nil, List.countP_nil, Nat.le_refl]
  | @cons x k xs ks h hs ih =>
    rw [List.map_cons, List.countP_cons]
    cases k with
    | none =>
      have : (fieldMatch (cleanLine (memberLine x ++ gs","))).isSome = false := by
        by_contra hc
        obtain ⟨k', hk', -⟩ := h.count (Bool.eq_true_of_not_eq_false hc)
        cases hk'
      simpa [this] using ih
    | some k =>
      rw [show (some k :: ks).filterMap id = k :: ks.filterMap id from rfl, List.countP_cons]
      have : (fieldMatch (cleanLine (memberLine x ++ gs","))).isSome = true → k ∈ keys := fun hc => by
        obtain ⟨k', hk', y, hy⟩ := h.count hc
        cases hk'
        rw [hkeys]
        exact List.mem_map.2 ⟨_, hy, rfl⟩
      by_cases hc : (fieldMatch (cleanLine (memberLine x ++ gs","))).isSome = true
      · simp only [hc, this hc, decide_true, if_true]
        omega
      · simp only [hc]
        simp only [Bool.false_eq_true, if_false]
        omega

theorem atMost_free : ∀ {xs : List (Str × Str)} {ks : List (Option Str)}, List.Forall₂ (AtMost kvs) xs ks → ∀ y ∈ xs.map fun x => memberLine x ++ gs",", '\n' ∉ y
  | _, _, .nil => by simp
  | x :: xs, k :: ks, .cons h hs => by
    intro y hy
    rcases List.mem_cons.1 hy with rfl | hy
    · exact h.line
    · exact atMost_free hs y hy

/-- At most the known keys are counted, whatever the values are. -/
theorem json_atMost (hm : MessageDoc env kvs m) (hnum : ∀ q, '\n' ∉ env.jsonMarshal (.num (.fin q))) {json : Str} (hj : messageToJson env m = .ok json) :
    (fieldMatches (replaceFields json)).length ≤ messageKeys.countP (· ∈ kvs.map (·.1)) := by
  unfold messageToJson at hj
  split at hj
  · next hf =>
    cases hj
    have hc := atMost_members hm hnum hf
    have hlast : messageMembers env m = (messageMembers env m).dropLast ++ [(gs"DestinationLabels", gs"null")] := rfl
    have htext : gs"{\n" ++ join gs",\n" ((messageMembers env m).map memberLine) ++ gs"\n}" =
        lines (gs"{" :: ((messageMembers env m).dropLast.map (fun x => memberLine x ++ gs",") ++ [memberLine (gs"DestinationLabels", gs"null")])) ++ gs"}" := by
      have := join_lines ((messageMembers env m).dropLast.map memberLine) (memberLine (gs"DestinationLabels", gs"null"))
      rw [List.map_map] at this
      conv_lhs => rw [hlast, List.map_append, List.map_singleton]
      have e : ∀ a : Str, gs"{\n" ++ a ++ gs"\n}" = gs"{\n" ++ (a ++ gs"\n") ++ gs"}" := by simp
      rw [e, this]
      simp [lines, Function.comp_def]
    have hfree : ∀ y ∈ gs"{" :: ((messageMembers env m).dropLast.map (fun x => memberLine x ++ gs",") ++ [memberLine (gs"DestinationLabels", gs"null")]), '\n' ∉ y := by
      intro y hy
      rcases List.mem_cons.1 hy with rfl | hy
      · decide
      · rcases List.mem_append.1 hy with hy | hy
        · exact atMost_free hc y hy
        · rw [List.mem_singleton.1 hy]; decide
    obtain ⟨h1, h2⟩ := replaceFields_lines hfree
    rw [htext, h1, matches_lines fun y hy => by obtain ⟨z, hz, rfl⟩ := List.mem_map.1 hy; exact h2 z hz, filterMap_length, List.countP_map]
    have c1 : (fieldMatch (cleanLine gs"{")).isSome = false := by decide +kernel
    have c2 : (fieldMatch (cleanLine (memberLine (gs"DestinationLabels", gs"null")))).isSome = false := by decide +kernel
    have := atMost_sum rfl hc
    rw [memberKeys'_eq] at this
    rw [List.countP_cons, List.countP_append, List.countP_cons, List.countP_nil]
    simp only [Function.comp_def, c1, c2]
    generalize List.countP _ messageKeys = z at this ⊢
    simpa using this
  · cases hj

/-! ## The document -/

theorem writtenLine_free {x : Str × Str} (h : PlainLine x) : '\n' ∉ writtenLine x := by
  simp only [writtenLine, List.mem_append, not_or]
  exact ⟨⟨h.key, by decide⟩, h.value⟩

theorem begins_solid {c : Char} (h : c ∉ [' ', '\t', '\n', '\r', Char.ofNat 12]) : solid c = true := by
  simp only [List.mem_cons, List.not_mem_nil, or_false, not_or] at h
  have : c.toNat ≠ 12 := fun e => h.2.2.2.2 (by rw [← e]; exact (Char.ofNat_toNat c).symm)
  simp [solid, h, this]

theorem written_match {x : Str × Str} (h : PlainLine x) : (fieldMatch (writtenLine x)).isSome = true := by
  obtain ⟨c, t, e, hc⟩ := h.begins
  have : writtenLine x = x.1 ++ ':' :: ' ' :: c :: t := by simp [writtenLine, e]
  rw [this]
  exact match_some (begins_solid hc) _

theorem written_matches (hl : ∀ x ∈ ws, PlainLine x) (ht : text = join gs"\n" (ws.map writtenLine) ∨ text = join gs"\n" (ws.map writtenLine) ++ gs"\n") :
    fieldMatches text = ws.filterMap (fun x => fieldMatch (writtenLine x)) ∧ (fieldMatches text).length = ws.length := by
  have hm := matches_join (ls := ws.map writtenLine) fun x hx => by
    obtain ⟨e, he, rfl⟩ := List.mem_map.1 hx
    exact writtenLine_free (hl e he)
  have h1 : fieldMatches text = ws.filterMap (fun x => fieldMatch (writtenLine x)) := by
    rcases ht with rfl | rfl
    · rw [hm.1, List.filterMap_map]; rfl
    · rw [hm.2, List.filterMap_map]; rfl
  refine ⟨h1, ?_⟩
  rw [h1, filterMap_length, List.countP_eq_length]
  exact fun e he => written_match (hl e he)

theorem messageKeys_nodup : messageKeys.Nodup := by decide +kernel

/-- If the document has more than its known keys then it is refused. -/
theorem refused_of_more (hn : (kvs.map (·.1)).Nodup) (hc : ClearMessage kvs) (hnum : ∀ q, '\n' ∉ env.jsonMarshal (.num (.fin q)))
    (h : (kvs.map (·.1)).countP (· ∈ messageKeys) < (fieldMatches text).length + ((fieldMatches text).map matchPairs).sum) :
    ∃ err, readMessage env wild text (.map kvs) = .error (.err err) := by
  unfold readMessage
  generalize hd : decodeStruct (messageField env wild) {} {} (.map kvs) = d
  obtain ⟨m, bad⟩ := d
  cases bad with
  | true => exact ⟨_, rfl⟩
  | false =>
    have hd : decodeFields (messageField env wild) {} kvs = (m, false) := hd
    have hm := (message_iff (wild := wild) (env := env) (m := m) hn hc).1 (by rw [hd]; exact ⟨rfl, rfl⟩)
    dsimp only
    cases hj : messageToJson env m with
    | error e =>
      unfold messageToJson at hj
      split at hj
      · cases hj
      · cases hj
        exact ⟨_, rfl⟩
    | ok json =>
      have := json_atMost hm hnum hj
      rw [countP_swap messageKeys_nodup hn] at this
      simp only [Go.ok_bind]
      refine ⟨.badNode, if_neg ?_⟩
      unfold compareJsonAndYaml
      rw [decide_eq_true_eq]
      omega

/-- **C88.** A document of lines with a key that is not known is refused, whatever the values are: they may be quoted, empty, null, of a wrong kind, have blanks, colons or braces. -/
theorem C88_unknown (hn : (kvs.map (·.1)).Nodup) (hkeys : kvs.map (·.1) = ws.map (·.1)) (hl : ∀ x ∈ ws, PlainLine x)
    (ht : text = join gs"\n" (ws.map writtenLine) ∨ text = join gs"\n" (ws.map writtenLine) ++ gs"\n") (hc : ClearMessage kvs)
    (hnum : ∀ q, '\n' ∉ env.jsonMarshal (.num (.fin q))) (hu : ∃ x ∈ kvs, x.1 ∉ messageKeys) : ∃ err, readMessage env wild text (.map kvs) = .error (.err err) := by
  apply refused_of_more hn hc hnum
  have h1 := (written_matches hl ht).2
  obtain ⟨x, hx, hu⟩ := hu
  have h2 : (kvs.map (·.1)).countP (· ∈ messageKeys) < (kvs.map (·.1)).length := by
    apply Nat.lt_of_le_of_ne List.countP_le_length
    intro e
    rw [List.countP_eq_length] at e
    exact hu (by simpa using e x.1 (List.mem_map.2 ⟨x, hx, rfl⟩))
  have h3 : (kvs.map (·.1)).length = ws.length := by rw [hkeys, List.length_map]
  omega

/-! ## Labels -/

theorem alnum_eq (c : Char) : alnum c = c.isAlphanum := by
  unfold alnum Char.isAlphanum Char.isAlpha Char.isUpper Char.isLower Char.isDigit
  simp only [Char.le_def, Bool.decide_or, Bool.decide_and, ge_iff_le]
  have : ∀ a b c : Bool, (a || (b || c)) = (b || c || a) := by decide
  exact this _ _ _

/-- There is a label where two letters or digits have a colon between them. -/
theorem labelPairs_pos {c d : Char} (hc : alnum c = true) (hd : alnum d = true) (b : Str) : ∀ n (a : Str), a.length = n → 0 < labelPairs (a ++ c :: ':' :: d :: b) := by
  intro n
  induction n using Nat.strongRecOn with
  | _ n ih =>
    intro a ha
    have hcc : c ≠ ':' := by rintro rfl; exact absurd hc (by decide)
    match a, ha with
    | [], _ => simp [labelPairs, hc, hd]
    | [x], ha =>
      have := ih 0 (by simp [← ha]) [] rfl
      simp only [List.cons_append, List.nil_append] at this ⊢
      rw [labelPairs]
      · exact this
      · intro _ _ h; cases h; exact hcc rfl
    | [x, y], ha =>
      have := ih 1 (by simp [← ha]) [y] rfl
      simp only [List.cons_append, List.nil_append] at this ⊢
      by_cases hy : y = ':'
      · subst hy
        rw [labelPairs]
        split
        · omega
        · exact this
      · rw [labelPairs]
        · exact this
        · intro _ _ h; cases h; exact hy rfl
    | x :: y :: z :: a, ha =>
      have := ih _ (by simp [← ha]) (y :: z :: a) rfl
      simp only [List.cons_append] at this ⊢
      by_cases hy : y = ':'
      · subst hy
        rw [labelPairs]
        split
        · omega
        · exact this
      · rw [labelPairs]
        · exact this
        · intro _ _ h; cases h; exact hy rfl

theorem match_none : ∀ {v : Str}, (∀ c ∈ v, solid c = true) → fieldMatch v = none
  | [], _ => rfl
  | c :: v, h => by
    rw [fieldMatch, match_none fun c hc => h c (List.mem_cons_of_mem _ hc)]
    dsimp only
    unfold fieldAt
    split
    · next e =>
      rw [List.cons.injEq] at e
      have := h ' ' (by rw [e.2]; simp)
      exact absurd this (by decide)
    · rfl

theorem takeWhile_whole {p : Char → Bool} : ∀ {v : Str}, (∀ c ∈ v, p c = true) → v.takeWhile p = v
  | [], _ => rfl
  | c :: v, h => by rw [List.takeWhile_cons, if_pos (h c (List.mem_cons_self ..)), takeWhile_whole fun c hc => h c (List.mem_cons_of_mem _ hc)]

theorem part_le_sum {n : Nat} : ∀ {ns : List Nat}, n ∈ ns → n ≤ ns.sum
  | m :: ns, h => by
    rw [List.sum_cons]
    rcases List.mem_cons.1 h with rfl | h
    · omega
    · have := part_le_sum h
      omega

/-- A line with a value in one word is matched as a whole. -/
theorem match_whole {v : Str} (h0 : v ≠ []) (hv : ∀ c ∈ v, solid c = true) : ∀ k : Str, fieldMatch (k ++ ':' :: ' ' :: v) = some (k ++ ':' :: ' ' :: v)
  | [] => by
    rw [List.nil_append, fieldMatch, fieldMatch, match_none hv]
    cases v with
    | nil => exact absurd rfl h0
    | cons c v =>
      have : fieldAt (' ' :: c :: v) = none := rfl
      simp only [this]
      rw [fieldAt, if_pos (hv c (List.mem_cons_self ..)), takeWhile_whole hv]
  | c :: k => by rw [List.cons_append, fieldMatch, match_whole h0 hv k]

/-- **C88, violated in general.** A document with the labels of a sender or receiver in one word is refused, if there is a label `name:value` in it, whatever the other lines are. -/
theorem C88_labels (hn : (kvs.map (·.1)).Nodup) (hkeys : kvs.map (·.1) = ws.map (·.1)) (hl : ∀ x ∈ ws, PlainLine x)
    (ht : text = join gs"\n" (ws.map writtenLine) ∨ text = join gs"\n" (ws.map writtenLine) ++ gs"\n") (hc : ClearMessage kvs)
    (hnum : ∀ q, '\n' ∉ env.jsonMarshal (.num (.fin q))) {k v a b : Str} {c d : Char} (hk : k = gs"sender_labels" ∨ k = gs"receiver_labels") (hw : (k, v) ∈ ws)
    (hv : v = a ++ c :: ':' :: d :: b) (hone : ∀ x ∈ v, x ∉ [' ', '\t', '\n', '\r', Char.ofNat 12]) (h1 : c.isAlphanum = true) (h2 : d.isAlphanum = true) :
    ∃ err, readMessage env wild text (.map kvs) = .error (.err err) := by
  apply refused_of_more hn hc hnum
  obtain ⟨e1, e2⟩ := written_matches hl ht
  have hm : writtenLine (k, v) ∈ fieldMatches text := by
    rw [e1]
    refine List.mem_filterMap.2 ⟨(k, v), hw, ?_⟩
    have : writtenLine (k, v) = k ++ ':' :: ' ' :: v := by simp [writtenLine]
    rw [this]
    exact match_whole (by simp [hv]) (fun c hc => begins_solid (hone c hc)) _
  have hp : 0 < matchPairs (writtenLine (k, v)) := by
    have hl : 0 < labelPairs (writtenLine (k, v)) := by
      have : writtenLine (k, v) = (k ++ gs": " ++ a) ++ c :: ':' :: d :: b := by simp [writtenLine, hv]
      rw [this]
      exact labelPairs_pos ((alnum_eq c).trans h1) ((alnum_eq d).trans h2) b _ _ rfl
    unfold matchPairs
    rcases hk with rfl | rfl
    · have : contains (writtenLine (gs"sender_labels", v)) gs"sender_label" = true := contains_iff.2 ⟨[], gs"s: " ++ v, rfl⟩
      rw [if_pos this]
      omega
    · have : contains (writtenLine (gs"receiver_labels", v)) gs"receiver_label" = true := contains_iff.2 ⟨[], gs"s: " ++ v, rfl⟩
      rw [if_pos this]
      omega
  have hs : matchPairs (writtenLine (k, v)) ≤ ((fieldMatches text).map matchPairs).sum := part_le_sum (List.mem_map.2 ⟨_, hm, rfl⟩)
  have h2 : (kvs.map (·.1)).countP (· ∈ messageKeys) ≤ (kvs.map (·.1)).length := List.countP_le_length
  have h3 : (kvs.map (·.1)).length = ws.length := by rw [hkeys, List.length_map]
  omega

/-! ## Documents -/

theorem demo_number (q : Rat) : '\n' ∉ Demo.ext.jsonMarshal (.num (.fin q)) := by
  have : Demo.ext.jsonMarshal (.num (.fin q)) = fmtInt q.num := rfl
  rw [this]
  exact number_free (fmtInt_chars _)

/-- A misspelled key beside a quoted value with a colon. -/
example : ∃ err, readMessage Demo.ext wild gs"sender_servce: shop\nrequest_path: \"/a: b\"\n"
    (.map [(gs"sender_servce", .scalar gs"shop" .str), (gs"request_path", .scalar gs"/a: b" .str)]) = .error (.err err) := by
  refine C88_unknown (ws := [(gs"sender_servce", gs"shop"), (gs"request_path", gs"\"/a: b\"")]) (by decide) rfl ?_ (.inr rfl) ⟨by simp [HasKey], by simp, by simp⟩
    demo_number ⟨_, List.mem_cons_self .., by decide⟩
  simp only [List.forall_mem_cons]
  exact ⟨⟨by decide, by decide, _, _, rfl, by decide⟩, ⟨by decide, by decide, _, _, rfl, by decide⟩, by simp⟩

/-- Labels with digits in them, beside another line. -/
example : ∃ err, readMessage Demo.ext wild gs"sender_service: shop\nreceiver_labels: \"{tier:2}\"\n"
    (.map [(gs"sender_service", .scalar gs"shop" .str), (gs"receiver_labels", .scalar gs"{tier:2}" .str)]) = .error (.err err) := by
  refine C88_labels (ws := [(gs"sender_service", gs"shop"), (gs"receiver_labels", gs"\"{tier:2}\"")]) (by decide) rfl ?_ (.inr rfl) ⟨by simp [HasKey], by simp, by simp⟩
    demo_number (.inr rfl) (.tail _ (.head _)) (a := gs"\"{tie") (b := gs"}\"") (c := 'r') (d := '2') rfl (by decide) (by decide) (by decide)
  simp only [List.forall_mem_cons]
  exact ⟨⟨by decide, by decide, _, _, rfl, by decide⟩, ⟨by decide, by decide, _, _, rfl, by decide⟩, by simp⟩

end Mapl.Props

import Verif.Lemmas.Validate
import Verif.Lemmas.Names
import Verif.Spec.Leaf

/-! # What preparation makes of an acceptable condition -/

namespace Mapl

open Spec

theorem sliceBrackets_ok {word k : Str} (h1 : '[' ∉ word) (h2 : ']' ∉ word) (hk : ']' ∉ k) :
    sliceBrackets (word ++ gs"[" ++ k ++ gs"]") = .ok k := by
  have i2 : index gs"]" (word ++ gs"[" ++ k ++ gs"]") = some (word.length + 1 + k.length) := by
    have := index_append (c := ']') (s := word ++ gs"[" ++ k) (t := []) (by simp [h2, hk])
    rw [this]; simp
    omega
  have i1 : index gs"[" (word ++ gs"[" ++ k ++ gs"]") = some word.length := by
    have := index_append (c := '[') (s := word) (t := k ++ gs"]") h1
    rw [← this]; simp
  unfold sliceBrackets
  rw [i2]
  simp only [i1]
  rw [if_pos (Nat.le_add_right _ _)]
  congr 1
  rw [List.take_left' (by simp; omega), List.drop_left' (by simp)]

/-- The part of preparation that looks at the value. -/
def valuePart (d : Condition) : Condition :=
  if hasPrefix d.value gs"receiverLabel[" then
    { d with valueIsReceiverLabel := true, valueReceiverLabelKey := (d.value.drop 14).dropLast, value := gs"receiverLabel" }
  else if hasPrefix d.value gs"$receiver." then
    { d with valueIsReceiverObject := true, valueReceiverObject := d.value.drop 10, value := gs"$receiver" }
  else d

/-- The three functions that take an attribute apart. -/
def handleAll (d : Condition) : Go Condition := do
  let c ← handleLabels d
  handleJsonpath (handleObjects c)

/-- The part of preparation that looks at the attribute. -/
inductive AttrPart (d : Condition) : Str → Condition → Prop
  | simple {a} (h : a ∈ simpleAttributes) : AttrPart d a d
  | senderField {x} : AttrPart d (gs"$sender." ++ x) { d with attrIsSenderObject := true, senderObjectAttr := x, attr := gs"$sender" }
  | receiverField {x} : AttrPart d (gs"$receiver." ++ x)
      { d with attrIsReceiverObject := true, receiverObjectAttr := x, attr := gs"$receiver" }
  | senderLabel {k} (hk : ']' ∉ k) : AttrPart d (gs"senderLabel[" ++ k ++ gs"]")
      { d with attrIsSenderLabel := true, senderLabelKey := k, attr := gs"senderLabel" }
  | receiverLabel {k} (hk : ']' ∉ k) : AttrPart d (gs"receiverLabel[" ++ k ++ gs"]")
      { d with attrIsReceiverLabel := true, receiverLabelKey := k, attr := gs"receiverLabel" }
  | path {q} (h : PathOk q) : AttrPart d (gs"jsonpath:" ++ q)
      { d with attrIsJsonpath := true, attrIsJsonpathRelative := pathRel q, jsonpathQuery := pathQuery q, attr := gs"jsonpath" }

/-- `handleAll` when nothing is to be done for the attribute. -/
theorem labels_value {d : Condition} (h1 : hasPrefix d.attr gs"senderLabel[" = false) (h2 : hasPrefix d.attr gs"receiverLabel[" = false)
    (hv : LabelValueOk d.value) : handleLabels d = .ok (if hasPrefix d.value gs"receiverLabel[" then
      { d with valueIsReceiverLabel := true, valueReceiverLabelKey := (d.value.drop 14).dropLast, value := gs"receiverLabel" } else d) := by
  unfold handleLabels
  simp only [h1, h2, Bool.false_eq_true, if_false, Go.pure_eq, Go.ok_bind]
  by_cases h : hasPrefix d.value gs"receiverLabel[" = true
  · rw [if_pos h, if_pos h]
    obtain ⟨k, hk, he⟩ := hv (hasPrefix_iff.1 h)
    have : sliceBrackets d.value = .ok k := by rw [he]; exact sliceBrackets_ok (by decide) (by decide) hk
    rw [this, Go.ok_bind, he]
    simp
  · rw [if_neg h, if_neg h]

theorem jsonpath_no {d : Condition} (h : hasPrefix d.attr gs"jsonpath:" = false) : handleJsonpath d = .ok d := by
  unfold handleJsonpath; rw [h]; rfl

theorem jsonpath_yes {d : Condition} {q : Str} (h : d.attr = gs"jsonpath:" ++ q) (hq : PathOk q) : handleJsonpath d =
    .ok { d with attrIsJsonpath := true, attrIsJsonpathRelative := pathRel q, jsonpathQuery := pathQuery q, attr := gs"jsonpath" } := by
  have ha : afterFirst gs":" (gs"jsonpath:" ++ q) = q := rfl
  unfold handleJsonpath
  rw [h, if_pos (hasPrefix_iff.2 ⟨q, rfl⟩), ha]
  simp only []
  have hne : q ≠ [] := by
    rcases hq.start with ⟨r, rfl⟩ | ⟨r, rfl⟩ | ⟨r, rfl⟩ | ⟨r, rfl⟩ | ⟨r, rfl⟩ | rfl <;> simp
  have hrel : ∀ x : Str, x ≠ [] → (match x with
      | [] => .error (.panic .outOfRange)
      | ch :: cs => .ok
        { d with attrIsJsonpath := true, attrIsJsonpathRelative := pathRel q,
                 jsonpathQuery := replaceAll (replaceAll (removeDotQuotes (if ch = '.' then '$' :: ch :: cs else ch :: cs)) gs"'" gs"\"") gs".[" gs"[",
                 attr := gs"jsonpath" } : Go Condition) = .ok
        { d with attrIsJsonpath := true, attrIsJsonpathRelative := pathRel q,
                 jsonpathQuery := replaceAll (replaceAll (removeDotQuotes (if x.head? = some '.' then '$' :: x else x)) gs"'" gs"\"") gs".[" gs"[",
                 attr := gs"jsonpath" } := by
    intro x hx
    cases x with
    | nil => exact absurd rfl hx
    | cons ch cs => simp
  by_cases h1 : sliceHasPrefix [gs"$RELATIVE.", gs"$KEY", gs"$VALUE"] q = true
  · have hr : pathRel q = true := by simp [pathRel, h1]
    have hn : replaceFirst gs"$RELATIVE." gs"$." q ≠ [] := by
      cases q with
      | nil => exact absurd rfl hne
      | cons ch cs => unfold replaceFirst; split <;> simp
    have := hrel _ hn
    rw [hr] at this
    unfold pathQuery
    rw [hr, if_pos h1]
    simp only [h1, if_true]
    exact this
  · by_cases h2 : q = gs"$RELATIVE"
    · subst h2
      rfl
    · have hr : pathRel q = false := by simp [pathRel, h1, h2]
      have := hrel _ hne
      rw [hr] at this
      unfold pathQuery
      rw [hr, if_neg h1, if_neg h2]
      simp only [h1, h2, if_false]
      exact this

theorem objects_value {d : Condition} (h1 : hasPrefix d.attr gs"$sender." = false) (h2 : hasPrefix d.attr gs"$receiver." = false) :
    handleObjects d = if hasPrefix d.value gs"$receiver." then
      { d with valueIsReceiverObject := true, valueReceiverObject := d.value.drop 10, value := gs"$receiver" } else d := by
  unfold handleObjects
  simp only [h1, h2, Bool.false_eq_true, if_false]
  by_cases h : hasPrefix d.value gs"$receiver." = true
  · rw [if_pos h, if_pos h]
    obtain ⟨x, hx⟩ := hasPrefix_iff.1 h
    rw [hx]; rfl
  · rw [if_neg h, if_neg h]

theorem valuePart_attr (d : Condition) : (valuePart d).attr = d.attr := by
  unfold valuePart; split
  · rfl
  · split <;> rfl

theorem sender_step {d : Condition} {k : Str} (h : d.attr = gs"senderLabel" ++ gs"[" ++ k ++ gs"]") (hk : ']' ∉ k) :
    handleAll d = handleAll { d with attrIsSenderLabel := true, senderLabelKey := k, attr := gs"senderLabel" } := by
  have hs : sliceBrackets d.attr = .ok k := by rw [h]; exact sliceBrackets_ok (by decide) (by decide) hk
  have hp : hasPrefix d.attr gs"senderLabel[" = true := hasPrefix_iff.2 ⟨k ++ gs"]", by rw [h]; simp⟩
  unfold handleAll handleLabels
  rw [if_pos hp, hs]
  rfl

theorem receiver_step {d : Condition} {k : Str} (h : d.attr = gs"receiverLabel" ++ gs"[" ++ k ++ gs"]") (hk : ']' ∉ k) :
    handleAll d = handleAll { d with attrIsReceiverLabel := true, receiverLabelKey := k, attr := gs"receiverLabel" } := by
  have hs : sliceBrackets d.attr = .ok k := by rw [h]; exact sliceBrackets_ok (by decide) (by decide) hk
  have hp : hasPrefix d.attr gs"receiverLabel[" = true := hasPrefix_iff.2 ⟨k ++ gs"]", by rw [h]; simp⟩
  have hn : hasPrefix d.attr gs"senderLabel[" = false := by rw [h]; rfl
  unfold handleAll handleLabels
  rw [hn]
  simp only [Bool.false_eq_true, if_false, Go.pure_eq, Go.ok_bind]
  rw [if_pos hp, hs]
  rfl

theorem handleAll_attr {d : Condition} {m : Str} (ha : AttributeOk d.attr m) (hv : LabelValueOk d.value) :
    ∃ e, handleAll d = .ok e ∧ AttrPart (valuePart d) d.attr e := by
  have plain : ∀ {d : Condition}, hasPrefix d.attr gs"senderLabel[" = false → hasPrefix d.attr gs"receiverLabel[" = false →
      LabelValueOk d.value → hasPrefix d.attr gs"$sender." = false → hasPrefix d.attr gs"$receiver." = false →
      handleAll d = handleJsonpath (valuePart d) := by
    intro d h1 h2 hv h3 h4
    unfold handleAll valuePart
    rw [labels_value h1 h2 hv, Go.ok_bind]
    by_cases h : hasPrefix d.value gs"receiverLabel[" = true
    · rw [if_pos h, if_pos h, objects_value (by exact h3) (by exact h4)]
      rfl
    · rw [if_neg h, if_neg h, objects_value h3 h4]
  cases hd : d with
  | mk attr method value valueInt valueFloat valueRegex valueStringRegex b1 k1 b2 k2 b3 k3 b4 b5 b6 k4 k5 k6 b7 b8 jq pr ret o1 o2 o3 =>
  subst hd
  simp only at ha hv ⊢
  cases ha with
  | simple h hv' =>
    refine ⟨_, ?_, .simple h⟩
    simp only [simpleAttributes, List.mem_cons, List.not_mem_nil, or_false] at h
    rcases h with rfl | rfl | rfl | rfl | rfl | rfl | rfl | rfl | rfl | rfl <;>
      (rw [plain rfl rfl hv rfl rfl, jsonpath_no]; rw [valuePart_attr]; rfl)
  | version h =>
    refine ⟨_, ?_, .simple (by decide)⟩
    rw [plain rfl rfl hv rfl rfl, jsonpath_no]
    rw [valuePart_attr]; rfl
  | senderField h =>
    refine ⟨_, ?_, .senderField⟩
    unfold handleAll
    rw [labels_value rfl rfl hv, Go.ok_bind]
    unfold valuePart
    by_cases h : hasPrefix value gs"receiverLabel[" = true
    · simp only [if_pos h]
      rfl
    · simp only [if_neg h]
      unfold handleObjects
      by_cases h' : hasPrefix value gs"$receiver." = true
      · obtain ⟨y, rfl⟩ := hasPrefix_iff.1 h'
        rfl
      · simp only [if_neg h']
        show handleJsonpath (if hasPrefix value gs"$receiver." = true then _ else _) = _
        rw [if_neg h']
        rfl
  | receiverField h =>
    refine ⟨_, ?_, .receiverField⟩
    unfold handleAll
    rw [labels_value rfl rfl hv, Go.ok_bind]
    unfold valuePart
    by_cases h : hasPrefix value gs"receiverLabel[" = true
    · simp only [if_pos h]
      rfl
    · simp only [if_neg h]
      unfold handleObjects
      by_cases h' : hasPrefix value gs"$receiver." = true
      · obtain ⟨y, rfl⟩ := hasPrefix_iff.1 h'
        rfl
      · simp only [if_neg h']
        show handleJsonpath (if hasPrefix value gs"$receiver." = true then _ else _) = _
        rw [if_neg h']
        rfl
  | senderLabel ha h =>
    obtain ⟨k, hk, rfl⟩ := ha
    refine ⟨_, ?_, .senderLabel hk⟩
    rw [sender_step rfl hk, plain rfl rfl hv rfl rfl, jsonpath_no (by rw [valuePart_attr]; rfl)]
    unfold valuePart
    simp only []
    split
    · rfl
    · split <;> rfl
  | receiverLabel ha h =>
    obtain ⟨k, hk, rfl⟩ := ha
    refine ⟨_, ?_, .receiverLabel hk⟩
    rw [receiver_step rfl hk, plain rfl rfl hv rfl rfl, jsonpath_no (by rw [valuePart_attr]; rfl)]
    unfold valuePart
    simp only []
    split
    · rfl
    · split <;> rfl
  | @path q _ h =>
    refine ⟨_, ?_, .path h⟩
    rw [plain rfl rfl hv rfl rfl, jsonpath_yes (q := q)]
    · rw [valuePart_attr]
    · exact h

/-! ## References -/

theorem replaceCondition_iff {env : Ext} {c c' : Condition} {t : Predef} : replaceStringsAndListsInCondition env c t = .ok c' ↔
    ∃ w, ValueResolves env t c.method c.value w ∧ c' = { c with value := w } := by
  unfold replaceStringsAndListsInCondition isReplaceableList isReplaceableString
  by_cases h : ∃ k, c.value = '#' :: k
  · obtain ⟨k, hk⟩ := h
    have hp : hasPrefix c.value gs"#" = true := by rw [hk]; rfl
    have hr : replaceFirst gs"#" [] c.value = k := by rw [hk]; rfl
    simp only [hp, if_true, hr]
    cases hl : lookup k t.listsNoRefs with
    | some l =>
      simp only []
      by_cases hm : c.method = gs"RE" ∨ c.method = gs"NRE"
      · rw [if_pos hm]
        have hm' : c.method ∈ [gs"RE", gs"NRE"] := by simpa using hm
        by_cases ho : env.reOk (convertListToRegexString l) = true
        · rw [if_pos ho]
          constructor
          · intro h
            simp at h
            exact ⟨_, hk ▸ .alternatives hl hm' ho, h.symm⟩
          · rintro ⟨w, hw, rfl⟩
            rw [hk] at hw
            cases hw with
            | plain h => exact absurd rfl (h k)
            | list _ hm => exact absurd hm' hm
            | alternatives h _ _ => rw [hl] at h; cases h; rfl
            | string h _ => rw [hl] at h; simp at h
        · rw [if_neg ho]
          constructor
          · intro h; simp at h
          · rintro ⟨w, hw, rfl⟩
            rw [hk] at hw
            cases hw with
            | plain h => exact absurd rfl (h k)
            | list _ hm => exact absurd hm' hm
            | alternatives h _ hr => rw [hl] at h; cases h; exact absurd hr ho
            | string h _ => rw [hl] at h; simp at h
      · rw [if_neg hm]
        have hm' : c.method ∉ [gs"RE", gs"NRE"] := by simpa using hm
        constructor
        · intro h
          simp at h
          exact ⟨_, hk ▸ .list hl hm', h.symm⟩
        · rintro ⟨w, hw, rfl⟩
          rw [hk] at hw
          cases hw with
          | plain h => exact absurd rfl (h k)
          | list h _ => rw [hl] at h; cases h; rfl
          | alternatives _ hm _ => exact absurd hm hm'
          | string h _ => rw [hl] at h; simp at h
    | none =>
      simp only []
      cases hs : lookup k t.strings with
      | some v =>
        simp only []
        constructor
        · intro h
          simp at h
          exact ⟨_, hk ▸ .string hl hs, h.symm⟩
        · rintro ⟨w, hw, rfl⟩
          rw [hk] at hw
          cases hw with
          | plain h => exact absurd rfl (h k)
          | list h _ => rw [hl] at h; simp at h
          | alternatives h _ _ => rw [hl] at h; simp at h
          | string _ h => rw [hs] at h; cases h; rfl
      | none =>
        simp only []
        constructor
        · intro h; simp at h
        · rintro ⟨w, hw, rfl⟩
          rw [hk] at hw
          cases hw with
          | plain h => exact absurd rfl (h k)
          | list h _ => rw [hl] at h; simp at h
          | alternatives h _ _ => rw [hl] at h; simp at h
          | string _ h => rw [hs] at h; simp at h
  · have hp : hasPrefix c.value gs"#" = false := by
      rw [hasPrefix_false]
      rintro ⟨k, hk⟩
      exact h ⟨k, by simpa using hk⟩
    simp only [hp, Bool.false_eq_true, if_false]
    constructor
    · intro h'
      simp at h'
      exact ⟨c.value, .plain fun k hk => h ⟨k, hk⟩, by rw [h']⟩
    · rintro ⟨w, hw, rfl⟩
      generalize hcv : c.value = x at hw h
      cases hw with
      | plain _ => rw [← hcv]
      | list _ _ => exact absurd ⟨_, rfl⟩ h
      | alternatives _ _ _ => exact absurd ⟨_, rfl⟩ h
      | string _ _ => exact absurd ⟨_, rfl⟩ h

theorem noPanic_replace (env : Ext) (c : Condition) (t : Predef) : NoPanic (replaceStringsAndListsInCondition env c t) := by
  intro p h
  unfold replaceStringsAndListsInCondition at h
  generalize isReplaceableList c.value t = x at h
  generalize isReplaceableString c.value t = y at h
  obtain ⟨o, b⟩ := x
  cases o with
  | some l =>
    dsimp only at h
    exact ite_elim h (fun _ h => ite_elim h (fun _ h => by simp at h) fun _ h => by simp at h) fun _ h => by simp at h
  | none =>
    dsimp only at h
    cases y with
    | some v => simp at h
    | none => exact ite_elim h (fun _ h => by simp at h) fun _ h => by simp at h

/-! ## Conversion -/

/-- The method and the value after preparation. -/
def finalMethod (m : Str) : Str :=
  if m = gs"IN" ∨ m = gs"IS" then gs"RE" else if m = gs"NIN" then gs"NRE" else m

def finalValue (m v : Str) : Str := if m = gs"IN" ∨ m = gs"NIN" ∨ m = gs"IS" then listPattern v else v

/-- The texts and numbers of a prepared condition; `w` is the resolved value, `v` the written one. -/
def baseOf (env : Ext) (a m v w : Str) (r : Option (List RetVal)) : Condition :=
  { attr := a, method := finalMethod m, value := finalValue m w,
    valueInt := (parseInt (finalValue m w)).or ((parseInt w).or (parseInt v)),
    valueFloat := (parseNumber env (finalValue m w)).or ((parseNumber env w).or (parseNumber env v)),
    valueRegex := compile env (finalValue m w),
    valueStringRegex := compile env (convertStringToRegex (finalValue m w) m),
    ret := r, origAttr := a, origMethod := m, origValue := w }

theorem setNumbers_eq (env : Ext) (c : Condition) : setNumbers env c =
    { c with valueInt := (parseInt c.value).or c.valueInt, valueFloat := (parseNumber env c.value).or c.valueFloat } := by
  unfold setNumbers
  cases parseNumber env c.value <;> cases h : parseInt c.value <;> simp [h]

theorem convertMethod_eq (c : Condition) : convertMethod c =
    { c with origAttr := c.attr, origMethod := c.method, origValue := c.value,
             method := finalMethod c.method, value := finalValue c.method c.value } := by
  unfold convertMethod finalMethod finalValue
  simp only []
  split
  · next h =>
    rw [inListRegex_eq]
    rcases h with h | h | h <;> simp [h]
  · next h =>
    simp only [not_or] at h
    simp [h]

theorem setRegex_eq (env : Ext) {c : Condition} (h : c.valueRegex = none) : setRegex env c =
    { c with valueRegex := compile env c.value } := by
  unfold setRegex
  cases hc : compile env c.value with
  | some re => rfl
  | none => simp only []; rw [← h]

/-- The last steps: the regular expressions have to be valid, a json path has to be a query. -/
inductive Finished (env : Ext) (d : Condition) : Str → Condition → Condition → Prop
  | plain {a e} (h : ∀ q, a ≠ gs"jsonpath:" ++ q) (hr : d.valueStringRegex.isSome) : Finished env d a e e
  | path {q j e} (hq : prepareJsonpathQuery env (pathQuery q) = .ok j) : Finished env d (gs"jsonpath:" ++ q) e { e with prepared := some j }

/-- The flags of the attribute part. -/
theorem AttrPart.flags {d : Condition} {a : Str} {e : Condition} (h : AttrPart d a e) (h1 : d.attrIsJsonpath = false)
    (h2 : d.attrIsJsonpathRelative = false) :
    (e.attrIsJsonpath = true ∧ ∃ q, a = gs"jsonpath:" ++ q ∧ e.jsonpathQuery = pathQuery q) ∨
    (e.attrIsJsonpath = false ∧ e.attrIsJsonpathRelative = false ∧ ∀ q, a ≠ gs"jsonpath:" ++ q) := by
  cases h with
  | simple h =>
    refine .inr ⟨h1, h2, fun q => ?_⟩
    simp only [simpleAttributes, List.mem_cons, List.not_mem_nil, or_false] at h
    rcases h with rfl | rfl | rfl | rfl | rfl | rfl | rfl | rfl | rfl | rfl <;> simp
  | senderField => exact .inr ⟨h1, h2, fun q => by simp⟩
  | receiverField => exact .inr ⟨h1, h2, fun q => by simp⟩
  | senderLabel => exact .inr ⟨h1, h2, fun q => by simp⟩
  | receiverLabel => exact .inr ⟨h1, h2, fun q => by simp⟩
  | path => exact .inl ⟨rfl, _, rfl, rfl⟩

theorem valuePart_flags (d : Condition) : (valuePart d).attrIsJsonpath = d.attrIsJsonpath ∧
    (valuePart d).attrIsJsonpathRelative = d.attrIsJsonpathRelative ∧ (valuePart d).valueStringRegex = d.valueStringRegex := by
  unfold valuePart; split
  · exact ⟨rfl, rfl, rfl⟩
  · split <;> exact ⟨rfl, rfl, rfl⟩

theorem listPattern_label (v : Str) : LabelValueOk (listPattern v) := by
  rintro ⟨r, hr⟩
  simp [listPattern] at hr

theorem finalValue_label {m v : Str} (h : LabelValueOk v) : LabelValueOk (finalValue m v) := by
  unfold finalValue; split
  · exact listPattern_label v
  · exact h

/-- The last part of `convertCondition`. -/
def convertRest (env : Ext) (m w : Str) (d : Condition) : Go Condition := do
  failIf (¬ env.reOk (finalValue m w) ∧ finalMethod m ∈ regexMethods) .badRegex
  let c ← handleAll d
  failIf (¬ (c.attrIsJsonpath ∨ c.attrIsJsonpathRelative) ∧ d.valueStringRegex.isNone) .badRegex
  pure c

theorem parsed_eq (env : Ext) (a m v : Str) (r : Option (List RetVal)) : parsed env a m v r =
    { attr := a, method := m, value := v, ret := r, valueInt := parseInt v, valueFloat := parseNumber env v } := by
  rw [parsed, setNumbers_eq]; simp

theorem convert_parsed (env : Ext) (a m v w : Str) (r : Option (List RetVal)) :
    convertCondition env (setNumbers env { parsed env a m v r with value := w }) = convertRest env m w (baseOf env a m v w r) := by
  have base : setRegex env (setNumbers env (convertMethod (setNumbers env { parsed env a m v r with value := w }))) =
      { baseOf env a m v w r with valueStringRegex := none } := by
    rw [parsed_eq, setNumbers_eq, convertMethod_eq, setNumbers_eq, setRegex_eq env rfl]
    simp [baseOf]
  unfold convertCondition convertRest
  simp only [base]
  unfold handleAll
  simp only [bind_assoc]
  rfl

/-- What preparation makes of a parsed condition. -/
theorem prepare_iff {env : Ext} {t : Predef} {a m v : Str} {r : Option (List RetVal)} {c : Condition} :
    (parsed env a m v r).prepare env t = .ok c ↔ ∃ w e, ValueResolves env t m v w ∧ Acceptable env a m w ∧
      (finalMethod m ∈ patternMethods → env.reOk (finalValue m w) = true) ∧
      handleAll (baseOf env a m v w r) = .ok e ∧ Finished env (baseOf env a m v w r) a e c := by
  unfold Condition.prepare
  rw [Go.bind_eq_ok]
  simp only [Go.bind_eq_ok]
  constructor
  · rintro ⟨c1, h1, c2, h2, c3, h3, h4⟩
    obtain ⟨w, hw, rfl⟩ := replaceCondition_iff.1 h1
    obtain ⟨hacc, rfl⟩ := validateOneCondition_iff.1 h2
    rw [convert_parsed, convertRest, bind_unit_ok, failIf_ok] at h3
    obtain ⟨hre, h3⟩ := h3
    have hacc' : Acceptable env a m w := by
      rw [parsed_eq] at hacc
      exact hacc
    have hw' : ValueResolves env t m v w := by
      rw [parsed_eq] at hw
      exact hw
    obtain ⟨e, he, hpart⟩ := handleAll_attr (d := baseOf env a m v w r) hacc'.attr (finalValue_label hacc'.value.label)
    rw [he, Go.ok_bind, bind_unit_ok, failIf_ok] at h3
    obtain ⟨hfl, h3⟩ := h3
    simp at h3
    subst h3
    refine ⟨w, e, hw', hacc', fun hp => ?_, he, ?_⟩
    · by_contra hc
      exact hre ⟨hc, regexMethods_iff.2 hp⟩
    · obtain ⟨f1, f2, _⟩ := valuePart_flags (baseOf env a m v w r)
      unfold Condition.setQuery at h4
      rcases hpart.flags (by rw [f1]; rfl) (by rw [f2]; rfl) with ⟨h1, q, hq, hjq⟩ | ⟨h1, h2, h5⟩
      · rw [if_pos h1, Go.bind_eq_ok] at h4
        obtain ⟨j, hj, h4⟩ := h4
        simp at h4
        subst h4
        have hq' : a = gs"jsonpath:" ++ q := hq
        subst hq'
        rw [hjq] at hj
        exact .path hj
      · rw [h1] at h4
        simp at h4
        subst h4
        refine .plain h5 ?_
        rw [h1, h2] at hfl
        rw [Option.isSome_iff_ne_none]
        simpa using hfl
  · rintro ⟨w, e, hw, hacc, hre, he, hfin⟩
    obtain ⟨e', he', hpart⟩ := handleAll_attr (d := baseOf env a m v w r) hacc.attr (finalValue_label hacc.value.label)
    rw [he] at he'
    cases he'
    obtain ⟨f1, f2, _⟩ := valuePart_flags (baseOf env a m v w r)
    refine ⟨{ parsed env a m v r with value := w }, replaceCondition_iff.2 ⟨w, ?_, rfl⟩, _,
      validateOneCondition_iff.2 ⟨?_, rfl⟩, e, ?_, ?_⟩
    · rw [parsed_eq]; exact hw
    · rw [parsed_eq]; exact hacc
    · rw [convert_parsed, convertRest, bind_unit_ok, failIf_ok]
      refine ⟨fun ⟨h1, h2⟩ => h1 (hre (regexMethods_iff.1 h2)), ?_⟩
      rw [he, Go.ok_bind, bind_unit_ok, failIf_ok]
      refine ⟨?_, rfl⟩
      rintro ⟨h1, h2⟩
      cases hfin with
      | plain h hr => rw [Option.isSome_iff_ne_none] at hr; simp [hr] at h2
      | path hq =>
        rcases hpart.flags (by rw [f1]; rfl) (by rw [f2]; rfl) with ⟨h3, _⟩ | ⟨_, _, h5⟩
        · exact h1 (.inl h3)
        · exact h5 _ rfl
    · unfold Condition.setQuery
      cases hfin with
      | plain h hr =>
        rcases hpart.flags (by rw [f1]; rfl) (by rw [f2]; rfl) with ⟨_, q, hq, _⟩ | ⟨h3, _⟩
        · exact absurd hq (h q)
        · rw [h3]; rfl
      | @path q j _ hj =>
        rcases hpart.flags (by rw [f1]; rfl) (by rw [f2]; rfl) with ⟨h3, q', hq, hjq⟩ | ⟨_, _, h5⟩
        · have : q = q' := List.append_cancel_left hq
          subst this
          rw [if_pos h3, hjq, hj]; rfl
        · exact absurd rfl (h5 q)

/-- Inversion of preparation, by the form of the attribute. -/
theorem prepare_inv {env : Ext} {t : Predef} {a m v : Str} {r : Option (List RetVal)} {c : Condition}
    (h : (parsed env a m v r).prepare env t = .ok c) : ∃ w e, ValueResolves env t m v w ∧ Acceptable env a m w ∧
      (finalMethod m ∈ patternMethods → env.reOk (finalValue m w) = true) ∧
      AttrPart (valuePart (baseOf env a m v w r)) a e ∧ Finished env (baseOf env a m v w r) a e c := by
  obtain ⟨w, e, hw, hacc, hre, he, hfin⟩ := prepare_iff.1 h
  obtain ⟨e', he', hpart⟩ := handleAll_attr (d := baseOf env a m v w r) hacc.attr (finalValue_label hacc.value.label)
  rw [he] at he'
  cases he'
  exact ⟨w, e, hw, hacc, hre, hpart, hfin⟩

/-! ## No panics -/

theorem setNumbers_attr (env : Ext) (c : Condition) : (setNumbers env c).attr = c.attr ∧ (setNumbers env c).value = c.value ∧
    (setNumbers env c).method = c.method := by rw [setNumbers_eq]; exact ⟨rfl, rfl, rfl⟩

theorem setRegex_attr (env : Ext) (c : Condition) : (setRegex env c).attr = c.attr ∧ (setRegex env c).value = c.value := by
  unfold setRegex; split <;> exact ⟨rfl, rfl⟩

theorem noPanic_query (env : Ext) (q : Str) : NoPanic (prepareJsonpathQuery env q) := by
  intro p h
  unfold prepareJsonpathQuery at h
  refine ite_elim h (fun _ h => by simp at h) fun _ h => ?_
  cases hj : jpPrepare env (if replaceAll q gs"$RELATIVE" gs"$" = gs"$*" then gs"$.*" else replaceAll q gs"$RELATIVE" gs"$") with
  | some x => rw [hj] at h; simp at h
  | none => rw [hj] at h; simp at h

theorem noPanic_prepare (env : Ext) (t : Predef) (c : Condition) : NoPanic (c.prepare env t) := by
  unfold Condition.prepare
  refine noPanic_bind (noPanic_replace env c t) fun c1 h1 => noPanic_bind (noPanic_validate env c1) fun c2 h2 =>
    noPanic_bind ?_ fun c3 h3 => ?_
  · obtain ⟨hacc, rfl⟩ := validateOneCondition_iff.1 h2
    have e : ∀ d, convertCondition env d = (do
        let c := setRegex env (setNumbers env (convertMethod d))
        failIf (¬ env.reOk c.value ∧ c.method ∈ regexMethods) .badRegex
        let re2 := compile env (convertStringToRegex c.value c.origMethod)
        let c ← handleAll { c with valueStringRegex := re2 }
        failIf (¬ (c.attrIsJsonpath ∨ c.attrIsJsonpathRelative) ∧ re2.isNone) .badRegex
        pure c) := by
      intro d
      unfold convertCondition handleAll
      simp only [bind_assoc]
    rw [e]
    refine noPanic_bind (noPanic_failIf _) fun _ _ => noPanic_bind ?_ fun _ _ => noPanic_bind (noPanic_failIf _) fun _ _ => noPanic_pure _
    generalize hd : (setRegex env (setNumbers env (convertMethod (setNumbers env c1)))) = d
    have ha : d.attr = c1.attr := by
      rw [← hd, (setRegex_attr env _).1, (setNumbers_attr env _).1, convertMethod_eq]
      exact (setNumbers_attr env c1).1
    have hv : d.value = finalValue c1.method c1.value := by
      rw [← hd, (setRegex_attr env _).2, (setNumbers_attr env _).2.1, convertMethod_eq]
      show finalValue (setNumbers env c1).method (setNumbers env c1).value = _
      rw [(setNumbers_attr env c1).2.1, (setNumbers_attr env c1).2.2]
    obtain ⟨x, hx, _⟩ := handleAll_attr (d := { d with valueStringRegex := compile env (convertStringToRegex d.value d.origMethod) })
      (m := c1.method) (by show AttributeOk d.attr _; rw [ha]; exact hacc.attr)
      (by show LabelValueOk d.value; rw [hv]; exact finalValue_label hacc.value.label)
    rw [hx]
    exact noPanic_ok _
  · unfold Condition.setQuery
    split
    · exact noPanic_bind (noPanic_query env _) fun _ _ => noPanic_pure _
    · exact noPanic_pure _

theorem noPanic_mapM {α β : Type} {f : α → Go β} (h : ∀ a, NoPanic (f a)) : ∀ l : List α, NoPanic (l.mapM f)
  | [] => by simp only [List.mapM_nil]; exact noPanic_pure _
  | a :: l => by
    rw [List.mapM_cons]
    exact noPanic_bind (h a) fun _ _ => noPanic_bind (noPanic_mapM h l) fun _ _ => noPanic_pure _

mutual
theorem noPanic_node (env : Ext) (t : Predef) : ∀ n : Node, Complete n → NoPanic (n.prepare env t)
  | .nil, h => by simp [Complete] at h
  | .and ns, h => by
    unfold Node.prepare
    exact noPanic_bind (noPanic_nodes env t ns (by simpa [Complete] using h)) fun _ _ => noPanic_pure _
  | .or ns, h => by
    unfold Node.prepare
    exact noPanic_bind (noPanic_nodes env t ns (by simpa [Complete] using h)) fun _ _ => noPanic_pure _
  | .not n, h => by
    unfold Node.prepare
    exact noPanic_bind (noPanic_node env t n (by simpa [Complete] using h)) fun _ _ => noPanic_pure _
  | .any a n, h => by
    unfold Node.prepare AnyAll.prepare
    exact noPanic_bind (noPanic_node env t n (by simpa [Complete] using h)) fun _ _ =>
      noPanic_bind (noPanic_bind (noPanic_mapM (noPanic_query env) _) fun _ _ => noPanic_pure _) fun _ _ => noPanic_pure _
  | .all a n, h => by
    unfold Node.prepare AnyAll.prepare
    exact noPanic_bind (noPanic_node env t n (by simpa [Complete] using h)) fun _ _ =>
      noPanic_bind (noPanic_bind (noPanic_mapM (noPanic_query env) _) fun _ _ => noPanic_pure _) fun _ _ => noPanic_pure _
  | .tt, _ => by unfold Node.prepare; exact noPanic_pure _
  | .ff, _ => by unfold Node.prepare; exact noPanic_pure _
  | .cond c, _ => by
    unfold Node.prepare
    exact noPanic_bind (noPanic_prepare env t c) fun _ _ => noPanic_pure _

theorem noPanic_nodes (env : Ext) (t : Predef) : ∀ ns : List Node, (∀ n ∈ ns, Complete n) → NoPanic (prepareNodes env t ns)
  | [], _ => by unfold prepareNodes; exact noPanic_pure _
  | n :: ns, h => by
    unfold prepareNodes
    exact noPanic_bind (noPanic_node env t n (h n (by simp))) fun _ _ =>
      noPanic_bind (noPanic_nodes env t ns fun m hm => h m (by simp [hm])) fun _ _ => noPanic_pure _
end

theorem noPanic_expand (env : Ext) (type s : Str) : NoPanic (expandOne env type s) := by
  intro p h
  unfold expandOne at h
  refine ite_elim h (fun _ h => by simp at h) fun _ h => ?_
  dsimp only at h
  split at h <;> simp at h

theorem noPanic_rule (env : Ext) (t : Predef) (r : Rule) (h : ∀ n, r.conditions = some n → Complete n) :
    NoPanic (prepareOneRule env t r) := by
  unfold prepareOneRule
  refine noPanic_bind ?_ fun _ _ => noPanic_bind ?_ fun _ _ => ?_
  · unfold prepareConditions
    split
    · exact noPanic_ok _
    · next n hn => exact noPanic_bind (noPanic_node env t n (h n hn)) fun _ _ => noPanic_pure _
  · have : ∀ x, NoPanic (replaceName x t) := by
      intro x p h
      unfold replaceName at h
      generalize isReplaceableList x t = a at h
      generalize isReplaceableString x t = b at h
      obtain ⟨o, f⟩ := a
      cases o with
      | some l => simp at h
      | none =>
        cases b with
        | some v => simp at h
        | none => exact ite_elim h (fun _ h => by simp at h) fun _ h => by simp at h
    unfold replaceStringsAndListsInOneRule
    exact noPanic_bind (this _) fun _ _ => noPanic_bind (this _) fun _ _ => noPanic_pure _
  · intro p hp
    unfold convertFields at hp
    split at hp
    · simp at hp
    · next e he =>
      simp at hp
      subst hp
      unfold convertFieldsToRegex at he
      have hx := fun a b => noPanic_mapM (noPanic_expand env a) (split ',' b) p
      split at he
      · simp at he
      · split at he
        · next e' h' => simp at he; rw [he.2] at h'; exact hx _ _ h'
        · dsimp only at he
          split at he
          · next e' h' => simp at he; rw [he.2] at h'; exact hx _ _ h'
          · split at he
            · simp at he
            · split at he <;> simp at he

end Mapl

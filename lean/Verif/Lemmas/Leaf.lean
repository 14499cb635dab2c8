import Verif.Lemmas.Convert

/-! # Evaluation of prepared conditions -/

namespace Mapl

open Spec

/-- What the attribute of a prepared condition looks like. -/
inductive LeafAttr (env : Ext) (c : Condition) : Str → Prop
  | simple {a} (h : a ∈ simpleAttributes) (hc : c.attr = a) : LeafAttr env c a
  | senderField {x} (hc : c.attr = gs"$sender") (hx : c.senderObjectAttr = x) : LeafAttr env c (gs"$sender." ++ x)
  | receiverField {x} (hc : c.attr = gs"$receiver") (hx : c.receiverObjectAttr = x) : LeafAttr env c (gs"$receiver." ++ x)
  | senderLabel {k} (hc : c.attr = gs"senderLabel") (hf : c.attrIsSenderLabel = true) (hx : c.senderLabelKey = k) (hk : ']' ∉ k) :
      LeafAttr env c (gs"senderLabel[" ++ k ++ gs"]")
  | receiverLabel {k} (hc : c.attr = gs"receiverLabel") (hf : c.attrIsReceiverLabel = true) (hx : c.receiverLabelKey = k) (hk : ']' ∉ k) :
      LeafAttr env c (gs"receiverLabel[" ++ k ++ gs"]")
  | path {q j} (h : PathOk q) (hc : c.attr = gs"jsonpath") (hf : c.attrIsJsonpath = true) (hr : c.attrIsJsonpathRelative = pathRel q)
      (hq : c.jsonpathQuery = pathQuery q) (hp : c.prepared = some j) (hj : prepareJsonpathQuery env (pathQuery q) = .ok j) :
      LeafAttr env c (gs"jsonpath:" ++ q)

/-- The fields of a prepared condition; `w` is the resolved value. -/
structure Leaf (env : Ext) (a m v w : Str) (r : Option (List RetVal)) (c : Condition) : Prop where
  acceptable : Acceptable env a m w
  method : c.method = finalMethod m
  valueInt : c.valueInt = (parseInt (finalValue m w)).or ((parseInt w).or (parseInt v))
  valueFloat : c.valueFloat = (parseNumber env (finalValue m w)).or ((parseNumber env w).or (parseNumber env v))
  regex : c.valueRegex = compile env (finalValue m w)
  whole : c.valueStringRegex = compile env (convertStringToRegex (finalValue m w) m)
  ret : c.ret = r
  object : c.valueIsReceiverObject = hasPrefix (finalValue m w) gs"$receiver."
  objectName : c.valueIsReceiverObject = true → c.valueReceiverObject = (finalValue m w).drop 10
  label : c.valueIsReceiverLabel = hasPrefix (finalValue m w) gs"receiverLabel["
  labelName : c.valueIsReceiverLabel = true → c.valueReceiverLabelKey = ((finalValue m w).drop 14).dropLast
  value : c.value = if hasPrefix (finalValue m w) gs"receiverLabel[" then gs"receiverLabel"
    else if hasPrefix (finalValue m w) gs"$receiver." then gs"$receiver" else finalValue m w
  attr : LeafAttr env c a

theorem resolves_unique {env : Ext} {t : Predef} {m v w w' : Str} (h : ValueResolves env t m v w) (h' : ValueResolves env t m v w') :
    w = w' := by
  cases h <;> cases h' <;> simp_all

theorem prepare_leaf {env : Ext} {t : Predef} {a m v w : Str} {r : Option (List RetVal)} {c : Condition}
    (h : (parsed env a m v r).prepare env t = .ok c) (hw : ValueResolves env t m v w) : Leaf env a m v w r c := by
  obtain ⟨w', e, hw', hacc, -, hpart, hfin⟩ := prepare_inv h
  have := resolves_unique hw hw'
  subst this
  have hd : ∀ d : Condition, d.value = finalValue m w → d.valueIsReceiverObject = false → d.valueIsReceiverLabel = false →
      ((valuePart d).method = d.method ∧ (valuePart d).valueInt = d.valueInt ∧ (valuePart d).valueFloat = d.valueFloat ∧
      (valuePart d).valueRegex = d.valueRegex ∧ (valuePart d).valueStringRegex = d.valueStringRegex ∧ (valuePart d).ret = d.ret) ∧
      (valuePart d).valueIsReceiverObject = hasPrefix (finalValue m w) gs"$receiver." ∧
      ((valuePart d).valueIsReceiverObject = true → (valuePart d).valueReceiverObject = (finalValue m w).drop 10) ∧
      (valuePart d).valueIsReceiverLabel = hasPrefix (finalValue m w) gs"receiverLabel[" ∧
      ((valuePart d).valueIsReceiverLabel = true → (valuePart d).valueReceiverLabelKey = ((finalValue m w).drop 14).dropLast) ∧
      ((valuePart d).value = if hasPrefix (finalValue m w) gs"receiverLabel[" then gs"receiverLabel"
        else if hasPrefix (finalValue m w) gs"$receiver." then gs"$receiver" else finalValue m w) ∧ (valuePart d).attr = d.attr := by
    intro d h1 h2 h3
    unfold valuePart
    rw [h1]
    by_cases hl : hasPrefix (finalValue m w) gs"receiverLabel[" = true
    · have ho : hasPrefix (finalValue m w) gs"$receiver." = false := by
        obtain ⟨x, hx⟩ := hasPrefix_iff.1 hl
        rw [hx]; rfl
      rw [if_pos hl]
      simp [hl, ho, h2]
    · rw [if_neg hl]
      by_cases ho : hasPrefix (finalValue m w) gs"$receiver." = true
      · rw [if_pos ho]
        simp at hl
        simp [hl, ho, h3]
      · rw [if_neg ho]
        simp at hl ho
        simp [hl, ho, h3, h2, h1]
  obtain ⟨⟨f1, f2, f3, f4, f5, f6⟩, f7, f8, f9, f10, f11, f12⟩ := hd (baseOf env a m v w r) rfl rfl rfl
  generalize valuePart (baseOf env a m v w r) = d at *
  cases hfin with
  | plain hq hr =>
    cases hpart with
    | simple hs => exact ⟨hacc, f1, f2, f3, f4, f5, f6, f7, f8, f9, f10, f11, .simple hs f12⟩
    | senderField => exact ⟨hacc, f1, f2, f3, f4, f5, f6, f7, f8, f9, f10, f11, .senderField rfl rfl⟩
    | receiverField => exact ⟨hacc, f1, f2, f3, f4, f5, f6, f7, f8, f9, f10, f11, .receiverField rfl rfl⟩
    | senderLabel hk => exact ⟨hacc, f1, f2, f3, f4, f5, f6, f7, f8, f9, f10, f11, .senderLabel rfl rfl rfl hk⟩
    | receiverLabel hk => exact ⟨hacc, f1, f2, f3, f4, f5, f6, f7, f8, f9, f10, f11, .receiverLabel rfl rfl rfl hk⟩
    | path => exact absurd rfl (hq _)
  | @path q j _ hj =>
    generalize ha : gs"jsonpath:" ++ q = a' at hpart
    cases hpart with
    | simple hs =>
      subst ha
      simp [simpleAttributes] at hs
    | senderField => simp at ha
    | receiverField => simp at ha
    | senderLabel hk => simp at ha
    | receiverLabel hk => simp at ha
    | @path q' hok =>
      have : q = q' := List.append_cancel_left ha
      subst this
      exact ⟨hacc, f1, f2, f3, f4, f5, f6, f7, f8, f9, f10, f11, .path hok rfl rfl rfl rfl rfl hj⟩

/-! ## Numbers -/

theorem compareInt_spec {k : NumMethod} {s : Str} (hs : s ∈ k.spellings) (a x : Int) :
    compareInt a s (some x) = .ok (decide (k.holds a x)) := by
  have h : ∀ b : Bool, (b = true ↔ k.holds a x) → (.ok b : Go Bool) = .ok (decide (k.holds a x)) := by
    intro b hb
    rw [show b = decide (k.holds a x) by rw [Bool.eq_iff_iff, hb, decide_eq_true_iff]]
  cases k <;> simp only [NumMethod.spellings, List.mem_cons, List.not_mem_nil, or_false] at hs <;>
    rcases hs with rfl | rfl | rfl | rfl <;> exact h _ (by simp [NumMethod.holds])

theorem f64_lt (a b : F64) : a.lt b = decide (NumMethod.lt.holdsF a b) := by
  cases a <;> cases b <;> simp [F64.lt, NumMethod.holdsF, place, NumMethod.holds]
  next q => exact decide_eq_true (WithBot.coe_lt_coe.2 (WithTop.coe_lt_top (q : ℚ)))

theorem f64_eq (a b : F64) : a.eq b = decide (NumMethod.eq.holdsF a b) := by
  cases a <;> cases b <;> simp [F64.eq, NumMethod.holdsF, place, NumMethod.holds]

theorem f64_le (a b : F64) : a.le b = decide (NumMethod.le.holdsF a b) := by
  unfold F64.le
  rw [f64_lt, f64_eq]
  rw [Bool.eq_iff_iff]
  simp only [Bool.or_eq_true, decide_eq_true_eq]
  simp only [NumMethod.holdsF]
  cases place a <;> cases place b <;> simp [NumMethod.holds, le_iff_lt_or_eq]

theorem f64_ne (a b : F64) : (!a.eq b) = decide (NumMethod.ne.holdsF a b) := by
  rw [f64_eq]
  rw [Bool.eq_iff_iff]
  simp only [Bool.not_eq_true', decide_eq_true_eq, decide_eq_false_iff_not]
  simp only [NumMethod.holdsF]
  cases place a <;> cases place b <;> simp [NumMethod.holds]

theorem f64_gt (a b : F64) : b.lt a = decide (NumMethod.gt.holdsF a b) := by
  rw [f64_lt]
  rw [Bool.eq_iff_iff]
  simp only [Bool.not_eq_true', decide_eq_true_eq, decide_eq_false_iff_not]
  simp only [NumMethod.holdsF]
  cases place a <;> cases place b <;> simp [NumMethod.holds]

theorem f64_ge (a b : F64) : b.le a = decide (NumMethod.ge.holdsF a b) := by
  rw [f64_le]
  rw [Bool.eq_iff_iff]
  simp only [Bool.not_eq_true', decide_eq_true_eq, decide_eq_false_iff_not]
  simp only [NumMethod.holdsF]
  cases place a <;> cases place b <;> simp [NumMethod.holds]

theorem compareFloat_spec {k : NumMethod} {s : Str} (hs : s ∈ k.spellings) (a x : F64) :
    compareFloat a s (some x) = .ok (decide (k.holdsF a x)) := by
  cases k <;> simp only [NumMethod.spellings, List.mem_cons, List.not_mem_nil, or_false] at hs <;>
    rcases hs with rfl | rfl | rfl | rfl <;> simp only [compareFloat, ← f64_lt, ← f64_eq, ← f64_le, ← f64_ne, ← f64_gt, ← f64_ge] <;>
    simp [deref]

/-! ## Texts and labels -/

/-- The comparison of a text with the value of a prepared condition. -/
def leafText (env : Ext) (m w s : Str) : Bool :=
  if isRegexMethod (finalMethod m) then compareRegex env s (finalMethod m) (compile env (finalValue m w))
  else compareStringWithWildcards env s (finalMethod m) (compile env (convertStringToRegex (finalValue m w) m))

theorem compareText_leaf {env : Ext} {a m v w : Str} {r : Option (List RetVal)} {c : Condition} (h : Leaf env a m v w r c) (s : Str) :
    compareText env c s = leafText env m w s := by
  unfold compareText leafText
  rw [h.method, h.regex, h.whole]

theorem getAttribute_eq (m : Msg) (x : Str) : getAttribute .sender x m = fieldText m.sourceNamespace m.sourceCluster x ∧
    getAttribute .receiver x m = fieldText m.destinationNamespace m.destinationCluster x := by
  unfold getAttribute fieldText
  split
  · exact ⟨rfl, rfl⟩
  · split <;> exact ⟨rfl, rfl⟩

theorem leafAttr_sender {env : Ext} {c : Condition} {x : Str} (h : LeafAttr env c (gs"$sender." ++ x)) :
    c.attr = gs"$sender" ∧ c.senderObjectAttr = x := by
  generalize ha : gs"$sender." ++ x = a at h
  cases h with
  | simple h => subst ha; simp [simpleAttributes] at h
  | senderField hc hx => have := List.append_cancel_left ha; subst this; exact ⟨hc, hx⟩
  | receiverField => simp at ha
  | senderLabel => simp at ha
  | receiverLabel => simp at ha
  | path => simp at ha

theorem leafAttr_receiver {env : Ext} {c : Condition} {x : Str} (h : LeafAttr env c (gs"$receiver." ++ x)) :
    c.attr = gs"$receiver" ∧ c.receiverObjectAttr = x := by
  generalize ha : gs"$receiver." ++ x = a at h
  cases h with
  | simple h => subst ha; simp [simpleAttributes] at h
  | senderField => simp at ha
  | receiverField hc hx => have := List.append_cancel_left ha; subst this; exact ⟨hc, hx⟩
  | senderLabel => simp at ha
  | receiverLabel => simp at ha
  | path => simp at ha

theorem leafAttr_senderLabel {env : Ext} {c : Condition} {k : Str} (h : LeafAttr env c (gs"senderLabel[" ++ k ++ gs"]")) :
    c.attr = gs"senderLabel" ∧ c.attrIsSenderLabel = true ∧ c.senderLabelKey = k := by
  generalize ha : gs"senderLabel[" ++ k ++ gs"]" = a at h
  cases h with
  | simple h => subst ha; simp [simpleAttributes] at h
  | senderField => simp at ha
  | receiverField => simp at ha
  | senderLabel hc hf hx => have := List.append_cancel_left (List.append_cancel_right ha); subst this; exact ⟨hc, hf, hx⟩
  | receiverLabel => simp at ha
  | path => simp at ha

theorem leafAttr_receiverLabel {env : Ext} {c : Condition} {k : Str} (h : LeafAttr env c (gs"receiverLabel[" ++ k ++ gs"]")) :
    c.attr = gs"receiverLabel" ∧ c.attrIsReceiverLabel = true ∧ c.receiverLabelKey = k := by
  generalize ha : gs"receiverLabel[" ++ k ++ gs"]" = a at h
  cases h with
  | simple h => subst ha; simp [simpleAttributes] at h
  | senderField => simp at ha
  | receiverField => simp at ha
  | senderLabel => simp at ha
  | receiverLabel hc hf hx => have := List.append_cancel_left (List.append_cancel_right ha); subst this; exact ⟨hc, hf, hx⟩
  | path => simp at ha

theorem leafAttr_path {env : Ext} {c : Condition} {q : Str} (h : LeafAttr env c (gs"jsonpath:" ++ q)) :
    PathOk q ∧ c.attr = gs"jsonpath" ∧ c.attrIsJsonpath = true ∧ c.attrIsJsonpathRelative = pathRel q ∧
    c.jsonpathQuery = pathQuery q ∧ ∃ j, c.prepared = some j ∧ prepareJsonpathQuery env (pathQuery q) = .ok j := by
  generalize ha : gs"jsonpath:" ++ q = a at h
  cases h with
  | simple h => subst ha; simp [simpleAttributes] at h
  | senderField => simp at ha
  | receiverField => simp at ha
  | senderLabel => simp at ha
  | receiverLabel => simp at ha
  | path hok hc hf hr hq hp hj =>
    have := List.append_cancel_left ha; subst this; exact ⟨hok, hc, hf, hr, hq, _, hp, hj⟩

theorem leafAttr_simple {env : Ext} {c : Condition} {a : Str} (ha : a ∈ simpleAttributes) (h : LeafAttr env c a) : c.attr = a := by
  cases h with
  | simple _ h => exact h
  | senderField => simp [simpleAttributes] at ha
  | receiverField => simp [simpleAttributes] at ha
  | senderLabel => simp [simpleAttributes] at ha
  | receiverLabel => simp [simpleAttributes] at ha
  | path => simp [simpleAttributes] at ha

variable {env : Env} {a m v w : Str} {r : Option (List RetVal)} {c : Condition} {msg : Msg} {p : List Nat}

theorem test_payload (h : Leaf env gs"payloadSize" m v w r c) :
    testOneCondition env p c msg = (do let b ← compareInt msg.requestSize (finalMethod m) c.valueInt; pure (b, [])) := by
  have := leafAttr_simple (by decide) h.attr
  unfold testOneCondition
  rw [this, h.method]
  simp

theorem test_hours (h : Leaf env gs"utcHoursFromMidnight" m v w r c) :
    testOneCondition env p c msg = (do let b ← compareFloat msg.hoursFromMidnight (finalMethod m) c.valueFloat; pure (b, [])) := by
  have := leafAttr_simple (by decide) h.attr
  unfold testOneCondition
  rw [this, h.method]
  simp

theorem test_version (h : Leaf env gs"encryptionVersion" m v w r c) :
    testOneCondition env p c msg = (do
      let x ← deref msg.encryptionVersion
      let b ← compareFloat x (finalMethod m) c.valueFloat
      pure (b, [])) := by
  have := leafAttr_simple (by decide) h.attr
  unfold testOneCondition
  rw [this, h.method]
  simp

theorem test_text {f : Msg → Str} (h : Leaf env a m v w r c) (ht : TextAttr a f)
    (hn : (∃ x, a = gs"$sender." ++ x) → ¬ ∃ y, w = gs"$receiver." ++ y) :
    testOneCondition env p c msg = .ok (leafText env m w (f msg), []) := by
  cases ht with
  | agent =>
    have := leafAttr_simple (by decide) h.attr
    unfold testOneCondition
    rw [this]
    simp [compareText_leaf h]
  | encryption =>
    have := leafAttr_simple (by decide) h.attr
    unfold testOneCondition
    rw [this]
    simp [compareText_leaf h]
  | domain =>
    have := leafAttr_simple (by decide) h.attr
    unfold testOneCondition
    rw [this]
    simp [compareText_leaf h]
  | sender x =>
    obtain ⟨h1, h2⟩ := leafAttr_sender h.attr
    have ho : c.valueIsReceiverObject = false := by
      rw [h.object, Bool.eq_false_iff]
      intro hp
      obtain ⟨y, hy⟩ := hasPrefix_iff.1 hp
      refine hn ⟨x, rfl⟩ ⟨y, ?_⟩
      rw [← hy]
      unfold finalValue at hy ⊢
      split at hy
      · simp [listPattern] at hy
      · next hc => rw [if_neg hc]
    unfold testOneCondition testSenderAttribute
    rw [h1]
    simp [ho, h2, compareText_leaf h, (getAttribute_eq msg x).1]
  | receiver x =>
    obtain ⟨h1, h2⟩ := leafAttr_receiver h.attr
    unfold testOneCondition testReceiverAttribute
    rw [h1]
    simp [h2, compareText_leaf h, (getAttribute_eq msg x).2]

/-- A field of the sender compared with a field of the receiver. -/
theorem test_fields {x y : Str} (h : Leaf env (gs"$sender." ++ x) m v w r c) (hw : finalValue m w = gs"$receiver." ++ y) :
    testOneCondition env p c msg = .ok (if isRegexMethod (finalMethod m) then false else
      compareString (fieldText msg.sourceNamespace msg.sourceCluster x) (finalMethod m)
        (fieldText msg.destinationNamespace msg.destinationCluster y), []) := by
  obtain ⟨h1, h2⟩ := leafAttr_sender h.attr
  have ho : c.valueIsReceiverObject = true := by rw [h.object, hw]; rfl
  have hy := h.objectName ho
  rw [hw] at hy
  have hy' : c.valueReceiverObject = y := hy
  unfold testOneCondition testSenderAttribute
  rw [h1]
  simp [ho, h2, h.method, hy', getAttribute_eq]

/-- A label compared with the value of the condition. -/
def leafLabel (env : Ext) (m w s : Str) : Bool :=
  if finalMethod m = gs"EX" ∨ finalMethod m = gs"ex" then true else leafText env m w s

theorem test_label {f : Msg → Option Str} (h : Leaf env a m v w r c) (ht : LabelAttr a f)
    (hn : (∃ x, a = gs"senderLabel[" ++ x) → ¬ ∃ y, w = gs"receiverLabel[" ++ y) :
    testOneCondition env p c msg = .ok (match f msg with | none => false | some s => leafLabel env m w s, []) := by
  have hex : isRegexMethod (finalMethod m) = true → ¬ (finalMethod m = gs"EX" ∨ finalMethod m = gs"ex") := by
    intro h1 h2
    rcases h2 with h2 | h2 <;> rw [h2] at h1 <;> simp [isRegexMethod] at h1
  have hrest : ∀ s, (if isRegexMethod c.method then compareRegex env s c.method c.valueRegex
      else if c.method = gs"EX" ∨ c.method = gs"ex" then true
      else compareStringWithWildcards env s c.method c.valueStringRegex) = leafLabel env m w s := by
    intro s
    rw [h.method, h.regex, h.whole]
    unfold leafLabel leafText
    by_cases h1 : isRegexMethod (finalMethod m) = true
    · rw [if_pos h1, if_pos h1, if_neg (hex h1)]
    · rw [if_neg h1, if_neg h1]
  cases ht with
  | sender k =>
    obtain ⟨h1, h2, h3⟩ := leafAttr_senderLabel h.attr
    have ho : c.valueIsReceiverLabel = false := by
      rw [h.label, Bool.eq_false_iff]
      intro hp
      obtain ⟨y, hy⟩ := hasPrefix_iff.1 hp
      refine hn ⟨k ++ gs"]", by simp⟩ ⟨y, ?_⟩
      rw [← hy]
      unfold finalValue at hy ⊢
      split at hy
      · simp [listPattern] at hy
      · next hc => rw [if_neg hc]
    unfold testOneCondition testSenderLabel
    rw [h1, h2, h3, ho]
    simp only [hrest]
    cases lookup k msg.sourceLabels <;> rfl
  | receiver k =>
    obtain ⟨h1, h2, h3⟩ := leafAttr_receiverLabel h.attr
    unfold testOneCondition testReceiverLabel
    rw [h1, h2, h3]
    simp only [hrest]
    cases lookup k msg.destinationLabels <;> rfl

/-- A label of the sender compared with a label of the receiver. -/
theorem test_labels {k k' : Str} (h : Leaf env (gs"senderLabel[" ++ k ++ gs"]") m v w r c) (hw : finalValue m w = gs"receiverLabel[" ++ k' ++ gs"]") :
    testOneCondition env p c msg = .ok (match lookup k msg.sourceLabels, lookup k' msg.destinationLabels with
      | some s, some s' => if isRegexMethod (finalMethod m) then false else compareString s (finalMethod m) s'
      | _, _ => false, []) := by
  obtain ⟨h1, h2, h3⟩ := leafAttr_senderLabel h.attr
  have ho : c.valueIsReceiverLabel = true := by rw [h.label, hw]; rfl
  have hy : c.valueReceiverLabelKey = k' := by
    rw [h.labelName ho, hw]
    show (k' ++ gs"]").dropLast = k'
    simp
  unfold testOneCondition testSenderLabel
  rw [h1, h2, h3, ho, hy, h.method]
  cases lookup k msg.sourceLabels <;> cases lookup k' msg.destinationLabels <;> rfl

theorem spelling_final {k : NumMethod} {s : Str} (hs : s ∈ k.spellings) : finalMethod s = s ∧ ∀ w, finalValue s w = w := by
  cases k <;> simp only [NumMethod.spellings, List.mem_cons, List.not_mem_nil, or_false] at hs <;>
    rcases hs with rfl | rfl | rfl | rfl <;> exact ⟨rfl, fun _ => rfl⟩

/-! ## Json paths -/

theorem query_src {env : Ext} {q : Str} {j : JPath} (h : prepareJsonpathQuery env (pathQuery q) = .ok j) : j.src = queryText q := by
  unfold prepareJsonpathQuery at h
  unfold queryText
  dsimp only at h ⊢
  generalize (if replaceAll (pathQuery q) gs"$RELATIVE" gs"$" = gs"$*" then gs"$.*" else replaceAll (pathQuery q) gs"$RELATIVE" gs"$") = y at *
  refine ite_elim h (fun hc h => ?_) fun hc h => ?_
  · rw [if_pos hc]; cases h; rfl
  · rw [if_neg hc]
    unfold jpPrepare at h
    by_cases ho : env.jpOk y = true
    · rw [if_pos ho] at h; cases h; rfl
    · rw [if_neg ho] at h; simp at h

/-- A path that does not speak of an entry begins with `$.` or `$[`, or is `$`. -/
theorem pathQuery_start {q : Str} (hq : PathOk q) (he : ¬ EntryPath q) :
    pathQuery q ≠ gs"$KEY" ∧ hasPrefix (pathQuery q) gs"$VALUE" = false := by
  have fin : ∀ x : Str, (∃ r, x = gs"$." ++ r) → 
      replaceAll (replaceAll (removeDotQuotes x) gs"'" gs"\"") gs".[" gs"[" ≠ gs"$KEY" ∧
      hasPrefix (replaceAll (replaceAll (removeDotQuotes x) gs"'" gs"\"") gs".[" gs"[") gs"$VALUE" = false := by
    rintro x ⟨r, rfl⟩
    have h1 : removeDotQuotes (gs"$." ++ r) = '$' :: '.' :: removeDotQuotesAux false false '.' r := by
      simp [removeDotQuotes, removeDotQuotesAux]
    rw [h1]
    generalize removeDotQuotesAux false false '.' r = y
    have h2 : replaceAll ('$' :: '.' :: y) gs"'" gs"\"" = '$' :: '.' :: replaceAll y gs"'" gs"\"" := by
      simp [replaceAll, replaceAux, List.isPrefixOf]
    rw [h2]
    generalize replaceAll y gs"'" gs"\"" = z
    have h3 : ∃ u, replaceAll ('$' :: '.' :: z) gs".[" gs"[" = '$' :: '.' :: u ∨ replaceAll ('$' :: '.' :: z) gs".[" gs"[" = '$' :: '[' :: u := by
      unfold replaceAll
      simp only [replaceAux]
      split
      · next h => simp [List.isPrefixOf] at h
      · split
        · exact ⟨_, .inr rfl⟩
        · exact ⟨_, .inl rfl⟩
    obtain ⟨u, h3 | h3⟩ := h3 <;> rw [h3] <;> exact ⟨by simp, rfl⟩
  unfold pathQuery
  rcases hq.start with ⟨r, rfl⟩ | ⟨r, rfl⟩ | ⟨r, rfl⟩ | ⟨r, rfl⟩ | ⟨r, rfl⟩ | rfl
  · exact fin _ ⟨r, by simp [sliceHasPrefix, hasPrefix, List.isPrefixOf]⟩
  · exact fin _ ⟨r, by simp [sliceHasPrefix, hasPrefix, List.isPrefixOf]⟩
  · exact fin _ ⟨r, by simp [sliceHasPrefix, hasPrefix, List.isPrefixOf, replaceFirst]⟩
  · exact absurd (.inl ⟨r, rfl⟩) he
  · exact absurd (.inr ⟨r, rfl⟩) he
  · exact ⟨by decide, by decide⟩

theorem selected_query {env : Ext} {j : JPath} {d : Json} {x : Option Json} (h : Selected env j.src d x) : queryInterface env j d = x := by
  unfold queryInterface
  cases h with
  | found h => rw [h]
  | notFound h he => rw [h]; simp only []; rw [if_pos (contains_iff.2 he)]
  | failed h he => rw [h]; simp only []; rw [if_neg (fun hc => he (contains_iff.1 hc))]

theorem selected_unique {env : Ext} {q : Str} {d : Json} {x y : Option Json} (h : Selected env q d x) (h' : Selected env q d y) : x = y := by
  have h1 := selected_query (j := ⟨q⟩) h
  have h2 := selected_query (j := ⟨q⟩) h'
  rw [← h1, ← h2]

theorem test_path {q : Str} (h : Leaf env (gs"jsonpath:" ++ q) m v w none c) :
    testOneCondition env p c msg = (do let b ← testJsonpathFlag env p c msg; pure (b, [])) := by
  obtain ⟨-, h1, -⟩ := leafAttr_path h.attr
  unfold testOneCondition
  rw [h1, h.ret]
  simp only [reduceIte, List.cons.injEq, reduceCtorEq, and_false, or_self, Char.reduceEq]

theorem flag_document {q : Str} {d : Json} {x : Option Json} (h : Leaf env (gs"jsonpath:" ++ q) m v w r c) (he : ¬ EntryPath q)
    (hd : DocumentI msg q d) (hs : Selected env (queryText q) d x) :
    testJsonpathFlag env p c msg = judgeInterfaceValue env c x := by
  obtain ⟨hok, -, h2, h3, h4, j, h5, hj⟩ := leafAttr_path h.attr
  obtain ⟨k1, k2⟩ := pathQuery_start hok he
  rw [← query_src hj] at hs
  have hx := selected_query hs
  unfold testJsonpathFlag testJsonpathOnInterface
  obtain ⟨hI, hd⟩ := hd
  rw [h5, if_pos ⟨hI, rfl⟩, h2, h3, h4]
  by_cases hr : pathRel q = true
  · rw [hr] at hd ⊢
    simp only [if_true] at hd
    rw [hd]
    simp [k1, k2, deref, hx]
  · simp only [Bool.not_eq_true] at hr
    rw [hr] at hd ⊢
    simp only [Bool.false_eq_true, if_false] at hd
    rw [hd]
    simp [deref, hx]

theorem flag_interface {q : Str} {x : Option Json} (ho : env.OrdOk) (h : Leaf env (gs"jsonpath:" ++ q) m v w r c) (hs : SelectsI env msg q x) :
    testJsonpathFlag env p c msg = judgeInterfaceValue env c x := by
  have one : ∀ (kv : Str × Json), env.ord p [kv] = [kv] := fun kv => List.perm_singleton.1 (ho p [kv])
  cases hs with
  | path he hd hs => exact flag_document h he hd hs
  | key hq hI hr =>
    subst hq
    obtain ⟨hok, -, h2, h3, h4, j, h5, hj⟩ := leafAttr_path h.attr
    unfold testJsonpathFlag testJsonpathOnInterface getKeyValueFromInterface
    rw [h5, if_pos ⟨hI, rfl⟩, h2, h3, h4, show pathRel gs"$KEY" = true from rfl, show pathQuery gs"$KEY" = gs"$KEY" from rfl, hr]
    simp [one]
  | value hq hI hr =>
    subst hq
    obtain ⟨hok, -, h2, h3, h4, j, h5, hj⟩ := leafAttr_path h.attr
    unfold testJsonpathFlag testJsonpathOnInterface getKeyValueFromInterface
    rw [h5, if_pos ⟨hI, rfl⟩, h2, h3, h4, show pathRel gs"$VALUE" = true from rfl, show pathQuery gs"$VALUE" = gs"$VALUE" from rfl, hr]
    simp [one, hasPrefix, List.isPrefixOf]

theorem flag_text {q d : Str} {x : Str × Bool} (h : Leaf env (gs"jsonpath:" ++ q) m v w r c) (he : ¬ EntryPath q)
    (hd : DocumentB msg q d) (hs : env.jsGet d (pathQuery q) = x) :
    testJsonpathFlag env p c msg = judgeBytesValue env c x := by
  obtain ⟨hok, -, h2, h3, h4, j, h5, hj⟩ := leafAttr_path h.attr
  obtain ⟨k1, k2⟩ := pathQuery_start hok he
  unfold testJsonpathFlag testJsonpath
  obtain ⟨hI, hne, hd⟩ := hd
  have hl : d.length ≠ 0 := by simpa using hne
  rw [hI, if_neg (by simp), h2, h3, h4]
  by_cases hr : pathRel q = true
  · rw [hr] at hd ⊢
    simp only [if_true] at hd
    rw [hd]
    simp [k1, k2, hs, hl]
  · simp only [Bool.not_eq_true] at hr
    rw [hr] at hd ⊢
    simp only [Bool.false_eq_true, if_false] at hd
    rw [hd]
    simp [hs, hl]

theorem flag_bytes {q : Str} {x : Str × Bool} (h : Leaf env (gs"jsonpath:" ++ q) m v w r c) (hs : SelectsB env msg q x) :
    testJsonpathFlag env p c msg = judgeBytesValue env c x := by
  cases hs with
  | path he hd hs => exact flag_text h he hd hs
  | key hq hI hr hn hj =>
    subst hq
    obtain ⟨hok, -, h2, h3, h4, j, h5, -⟩ := leafAttr_path h.attr
    unfold testJsonpathFlag testJsonpath getKeyValue unmarshalMap
    rw [hI, if_neg (by simp), h2, h3, h4, show pathRel gs"$KEY" = true from rfl, show pathQuery gs"$KEY" = gs"$KEY" from rfl, hr]
    simp [hn, hj, hasPrefix, List.isPrefixOf]
  | value hq hI hr hn hj =>
    subst hq
    obtain ⟨hok, -, h2, h3, h4, j, h5, -⟩ := leafAttr_path h.attr
    unfold testJsonpathFlag testJsonpath getKeyValue unmarshalMap
    rw [hI, if_neg (by simp), h2, h3, h4, show pathRel gs"$VALUE" = true from rfl, show pathQuery gs"$VALUE" = gs"$VALUE" from rfl, hr]
    simp [hn, hj, hasPrefix, List.isPrefixOf]
  | field hq hrel hI hr hn hj hs =>
    obtain ⟨hok, -, h2, h3, h4, j, h5, -⟩ := leafAttr_path h.attr
    obtain ⟨z, rfl⟩ := hrel
    unfold testJsonpathFlag testJsonpath getKeyValue unmarshalMap
    rw [hI, if_neg (by simp), h2, h3, h4, show pathRel (gs"$VALUE" ++ z) = true by simp [pathRel, sliceHasPrefix, hasPrefix, List.isPrefixOf],
      hq, hr]
    simp [hn, hj, hasPrefix, List.isPrefixOf, replaceFirst]
    rw [← hs]
    rfl
  | @several raw kvs hq hI hr hn hj hk =>
    have hkv : getKeyValue env raw gs"$KEY" = ([], false) ∧ getKeyValue env raw gs"$VALUE" = ([], false) := by
      unfold getKeyValue unmarshalMap
      rw [hj]
      match kvs, hk with
      | [], _ => exact ⟨rfl, rfl⟩
      | [_], hk => exact absurd rfl hk
      | _ :: _ :: _, _ => exact ⟨rfl, rfl⟩
    obtain ⟨hok, -, h2, h3, h4, j, h5, -⟩ := leafAttr_path h.attr
    unfold testJsonpathFlag testJsonpath
    rw [hI, if_neg (by simp), h2, h3, h4]
    rcases hq with rfl | rfl
    · rw [show pathRel gs"$KEY" = true from rfl, show pathQuery gs"$KEY" = gs"$KEY" from rfl, hr]
      simp [hn, hasPrefix, List.isPrefixOf, hkv]
    · rw [show pathRel gs"$VALUE" = true from rfl, show pathQuery gs"$VALUE" = gs"$VALUE" from rfl, hr]
      simp [hn, hasPrefix, List.isPrefixOf, hkv]

theorem finalMethod_nex (m : Str) : (finalMethod m = gs"NEX" ∨ finalMethod m = gs"nex") ↔ (m = gs"NEX" ∨ m = gs"nex") := by
  unfold finalMethod
  split
  · next h => rcases h with rfl | rfl <;> simp
  · split
    · next h => subst h; simp
    · exact Iff.rfl

theorem emptyResult_leaf (h : Leaf env a m v w r c) : emptyResult c = decide (m = gs"NEX" ∨ m = gs"nex") := by
  unfold emptyResult
  rw [h.method]
  exact decide_eq_decide.2 (finalMethod_nex m)

theorem judge_noValue (h : Leaf env a m v w r c) (hj : env.jsonMarshal (.arr []) = gs"[]") {x : Option Json} (hx : NoValue x) :
    judgeInterfaceValue env c x = .ok (decide (m = gs"NEX" ∨ m = gs"nex")) := by
  rw [← emptyResult_leaf h]
  cases hx with
  | failed => rfl
  | null => rfl
  | text => rfl
  | array =>
    unfold judgeInterfaceValue valueText
    simp only [hj]
    simp [removeQuotesAndBrackets, replaceAll, replaceAux, List.isPrefixOf]

theorem judge_noText (h : Leaf env a m v w r c) {x : Str × Bool} (hx : NoText x) :
    judgeBytesValue env c x = .ok (decide (m = gs"NEX" ∨ m = gs"nex")) := by
  rw [← emptyResult_leaf h]
  cases hx with
  | failed => rfl
  | nothing => rfl
  | text => simp [judgeBytesValue, removeQuotesAndBrackets, replaceAll, replaceAux, List.isPrefixOf]
  | array => simp [judgeBytesValue, removeQuotesAndBrackets, replaceAll, replaceAux, List.isPrefixOf]

/-- Nothing is replaced if the first character of the replaced text does not occur. -/
theorem replaceAll_absent {c : Char} {cs new : Str} : ∀ {s : Str}, c ∉ s → replaceAll s (c :: cs) new = s
  | [], _ => rfl
  | x :: s, h => by
    have hx : c ≠ x := by intro h'; exact h (by simp [h'])
    have ih : replaceAll s (c :: cs) new = s := replaceAll_absent fun h' => h (by simp [h'])
    unfold replaceAll at ih ⊢
    simp only [replaceAux]
    rw [if_neg (by simp [List.isPrefixOf, hx]), ih]

theorem clean_same {s : Str} (h : Clean s) : removeQuotesAndBrackets s = s ∧ removeQuotesFromResult s = some s := by
  obtain ⟨h0, h1, h2, h3⟩ := h
  have hl : s.getLast? ≠ some '"' := fun hl => h1 (List.mem_of_getLast? hl)
  have hh : s.head? ≠ some '"' := fun hl => h1 (List.mem_of_mem_head? hl)
  have hb : s ≠ gs"[]" := by rintro rfl; simp at h2
  constructor
  · unfold removeQuotesAndBrackets
    dsimp only
    rw [replaceAll_absent h2, replaceAll_absent h3, replaceAll_absent h2, replaceAll_absent h1]
    simp [hh, hl, hb]
  · unfold removeQuotesFromResult
    simp [hh, hl]

theorem clean_quoted {s : Str} (h : Clean s) : removeQuotesAndBrackets (gs"\"" ++ s ++ gs"\"") = s := by
  obtain ⟨h0, h1, h2, h3⟩ := h
  have k2 : '[' ∉ gs"\"" ++ s ++ gs"\"" := by simp [h2]
  have k3 : ']' ∉ gs"\"" ++ s ++ gs"\"" := by simp [h3]
  have k1 : ∀ s : Str, '"' ∉ s → ']' ∉ s → replaceAll (s ++ gs"\"") gs"\"]" gs"\"" = s ++ gs"\"" := by
    intro s
    induction s with
    | nil => intro _ _; simp [replaceAll, replaceAux, List.isPrefixOf]
    | cons x s ih =>
      intro g1 g2
      simp at g1 g2
      have := ih g1.2 g2.2
      unfold replaceAll at this ⊢
      simp only [List.cons_append, replaceAux]
      rw [if_neg (by simp [List.isPrefixOf]; intro h'; exact absurd h' g1.1), this]
  have k4 : replaceAll (gs"\"" ++ s ++ gs"\"") gs"\"]" gs"\"" = gs"\"" ++ s ++ gs"\"" := by
    have := k1 s h1 h3
    unfold replaceAll at this ⊢
    simp only [List.cons_append, List.nil_append, replaceAux]
    have hne : (gs"\"]").isPrefixOf ('"' :: (s ++ gs"\"")) = false := by
      cases s with
      | nil => rfl
      | cons x s => simp at h3; simp [List.isPrefixOf]; exact h3.1
    rw [hne]
    simp [this]
  unfold removeQuotesAndBrackets
  dsimp only
  rw [replaceAll_absent k2, replaceAll_absent k3, replaceAll_absent k2, k4]
  have hb : gs"\"" ++ s ++ gs"\"" ≠ gs"[]" := by simp
  rw [if_neg hb, if_pos ⟨by simp, by simp, List.getLast?_concat⟩]
  simp

theorem scalar_text {env : Ext} {j : Json} {s : Str} (h : ScalarText env j s) : valueText env j = s := by
  cases h <;> rfl

theorem judge_scalar {j : Json} {s : Str} (ht : ScalarText env j s) (hc : Clean s) (hn : s ≠ gs"<nil>") (c : Condition) :
    judgeInterfaceValue env c (some j) = compareInterfaceText env c s := by
  unfold judgeInterfaceValue
  simp only [scalar_text ht, (clean_same hc).1, (clean_same hc).2, List.length_eq_zero_iff, hc.1, hn, or_self, if_false]

theorem judge_raw {x s : Str} (ht : x = s ∨ x = gs"\"" ++ s ++ gs"\"") (hc : Clean s) (c : Condition) :
    judgeBytesValue env c (x, false) = compareBytesText env c s := by
  unfold judgeBytesValue
  rcases ht with rfl | rfl
  · simp only [(clean_same hc).1, (clean_same hc).2, List.length_eq_zero_iff, hc.1, if_false, Bool.false_eq_true]
  · simp only [clean_quoted hc, (clean_same hc).2, List.length_eq_zero_iff, hc.1, if_false, Bool.false_eq_true]
    simp

/-! ### Lists and objects -/

theorem replaceAll_none {sub new : Str} : ∀ {s : Str}, contains s sub = false → replaceAll s sub new = s
  | [], _ => rfl
  | c :: s, h => by
    have hn : ¬ (sub.isPrefixOf (c :: s) = true) := by
      intro hp
      rw [List.isPrefixOf_iff_prefix] at hp
      obtain ⟨r, hr⟩ := hp
      rw [contains_iff.2 ⟨[], r, by simp [hr]⟩] at h
      cases h
    have ih := replaceAll_none (sub := sub) (new := new) (s := s) (by
      by_contra hc
      simp only [Bool.not_eq_false] at hc
      obtain ⟨a, b, hab⟩ := contains_iff.1 hc
      rw [contains_iff.2 ⟨c :: a, b, by simp [hab]⟩] at h
      cases h)
    unfold replaceAll at ih ⊢
    rw [replaceAux, if_neg hn, ih]

theorem replaceAll_end {a b : Char} {new : Str} (hab : a ≠ b) : ∀ {s : Str}, b ∉ s → replaceAll (s ++ [a, b]) [a, b] new = s ++ new
  | [], _ => by simp [replaceAll, replaceAux, List.isPrefixOf]
  | x :: s, h => by
    have ih := replaceAll_end (new := new) hab (s := s) fun h' => h (by simp [h'])
    have hne : [a, b].isPrefixOf (x :: (s ++ [a, b])) = false := by
      cases s with
      | nil => simp [List.isPrefixOf]; exact fun _ h => hab h.symm
      | cons y s =>
        simp only [List.mem_cons, not_or] at h
        simp only [List.cons_append, List.isPrefixOf, Bool.and_eq_false_iff, beq_eq_false_iff_ne]
        exact .inr (.inl h.2.1)
    unfold replaceAll at ih ⊢
    simp only [List.cons_append, replaceAux]
    rw [if_neg (by rw [hne]; simp), ih]

theorem join_mem {sep : Str} {c : Char} (hs : c ∉ sep) : ∀ {l : List Str}, (∀ t ∈ l, c ∉ t) → c ∉ join sep l
  | [], _ => by simp [join]
  | [x], h => by simpa [join] using h
  | x :: y :: l, h => by
    have ih := join_mem hs (l := y :: l) fun t ht => h t (by simp [ht])
    simp only [join, List.mem_append, not_or]
    exact ⟨⟨h x (by simp), hs⟩, ih⟩

theorem join_head {sep x : Str} {l : List Str} (hx : x ≠ []) : (join sep (x :: l)).head? = x.head? := by
  cases l with
  | nil => rfl
  | cons y l => cases x with
    | nil => exact absurd rfl hx
    | cons c x => rfl

theorem join_last {sep : Str} : ∀ {l : List Str} {x : Str}, x ≠ [] → (∀ t ∈ l, t ≠ []) → ∃ t ∈ x :: l, (join sep (x :: l)).getLast? = t.getLast?
  | [], x, _, _ => ⟨x, by simp, rfl⟩
  | y :: l, x, _, h => by
    obtain ⟨t, ht, e⟩ := join_last (sep := sep) (l := l) (x := y) (h y (by simp)) fun t ht => h t (by simp [ht])
    refine ⟨t, by simp at ht ⊢; tauto, ?_⟩
    rw [← e, join, List.getLast?_append]
    cases hj : (join sep (y :: l)).getLast? with
    | some c => rfl
    | none =>
      have hn : join sep (y :: l) = [] := List.getLast?_eq_none_iff.1 hj
      have h1 := join_head (sep := sep) (l := l) (h y (by simp))
      rw [hn] at h1
      exact absurd (List.head?_eq_none_iff.1 h1.symm) (h y (by simp))

theorem compound_text {x s : Str} (h : CompoundText x s) :
    s ≠ [] ∧ x ≠ [] ∧ x ≠ gs"<nil>" ∧ removeQuotesAndBrackets x = s ∧ removeQuotesFromResult s = some s := by
  cases h with
  | @texts l hne hc =>
    cases l with
    | nil => exact absurd rfl hne
    | cons t l =>
      have hq : '[' ∉ join gs"\",\"" (t :: l) := join_mem (by decide) fun t ht => (hc t ht).2.2.1
      have hb : ']' ∉ join gs"\",\"" (t :: l) := join_mem (by decide) fun t ht => (hc t ht).2.2.2
      have hh : (join gs"\",\"" (t :: l)).head? ≠ some '"' := by
        rw [join_head (hc t (by simp)).1]
        exact fun e => (hc t (by simp)).2.1 (List.mem_of_mem_head? e)
      have hl : (join gs"\",\"" (t :: l)).getLast? ≠ some '"' := by
        obtain ⟨t', ht', e⟩ := join_last (sep := gs"\",\"") (l := l) (hc t (by simp)).1 fun t ht => (hc t (by simp [ht])).1
        rw [e]
        exact fun e => (hc t' ht').2.1 (List.mem_of_getLast? e)
      have hn : join gs"\",\"" (t :: l) ≠ [] := by
        intro e
        have := join_head (sep := gs"\",\"") (l := l) (hc t (by simp)).1
        rw [e] at this
        exact (hc t (by simp)).1 (List.head?_eq_none_iff.1 this.symm)
      generalize join gs"\",\"" (t :: l) = s at *
      refine ⟨hn, by simp, by simp, ?_, ?_⟩
      · unfold removeQuotesAndBrackets
        dsimp only
        have e1 : replaceAll (gs"[\"" ++ s ++ gs"\"]") gs"[[" gs"[" = gs"[\"" ++ s ++ gs"\"]" := by
          have : replaceAll (gs"\"" ++ s ++ gs"\"]") gs"[[" gs"[" = gs"\"" ++ s ++ gs"\"]" := replaceAll_absent (by simp [hq])
          unfold replaceAll at this ⊢
          simp only [List.cons_append, List.nil_append, replaceAux] at this ⊢
          rw [if_neg (by simp [List.isPrefixOf])]
          rw [this]
        have e2 : replaceAll (gs"[\"" ++ s ++ gs"\"]") gs"]]" gs"]" = gs"[\"" ++ s ++ gs"\"]" := by
          have : ∀ r : Str, ']' ∉ r → replaceAll (r ++ gs"]") gs"]]" gs"]" = r ++ gs"]" := by
            intro r
            induction r with
            | nil => intro _; rfl
            | cons c r ih =>
              intro hr
              simp only [List.mem_cons, not_or] at hr
              have := ih hr.2
              unfold replaceAll at this ⊢
              simp only [List.cons_append, replaceAux]
              rw [if_neg (by simp [List.isPrefixOf]; intro e; exact absurd e hr.1), this]
          have := this (gs"[\"" ++ s ++ gs"\"") (by simp [hb])
          simpa using this
        have e3 : replaceAll (gs"[\"" ++ s ++ gs"\"]") gs"[\"" gs"\"" = gs"\"" ++ s ++ gs"\"]" := by
          have : replaceAll (s ++ gs"\"]") gs"[\"" gs"\"" = s ++ gs"\"]" := replaceAll_absent (by simp [hq])
          unfold replaceAll at this ⊢
          simp only [List.cons_append, List.nil_append, replaceAux]
          rw [if_pos (by simp [List.isPrefixOf])]
          simp [replaceAux, this]
        have e4 : replaceAll (gs"\"" ++ s ++ gs"\"]") gs"\"]" gs"\"" = gs"\"" ++ s ++ gs"\"" := replaceAll_end (by decide) (by simp [hb])
        have hb : gs"\"" ++ s ++ gs"\"" ≠ gs"[]" := by simp
        rw [e1, e2, e3, e4, if_neg hb, if_pos ⟨by simp, by simp, List.getLast?_concat⟩]
        simp
      · unfold removeQuotesFromResult
        simp [hh, hl]
  | whole hs hb hm =>
    have hd : x.head? ≠ some '"' ∧ x.getLast? ≠ some '"' ∧ x ≠ [] ∧ x ≠ gs"<nil>" := by
      rcases hb with ⟨t, rfl⟩ | ⟨t, rfl⟩ <;> exact ⟨by simp, by rw [List.getLast?_concat]; simp, by simp, by simp⟩
    have no : ∀ k ∈ [gs"[[", gs"]]", gs"[\"", gs"\"]"], ∀ new, replaceAll x k new = x := fun k hk new =>
      replaceAll_none (by
        cases hc : contains x k with
        | false => rfl
        | true => exact absurd (contains_iff.1 hc) (hm k hk))
    refine ⟨hd.2.2.1, hd.2.2.1, hd.2.2.2, ?_, ?_⟩
    · unfold removeQuotesAndBrackets
      dsimp only
      rw [no _ (by simp), no _ (by simp), no _ (by simp), no _ (by simp), if_neg hs, if_neg (by simp [hd.1])]
    · unfold removeQuotesFromResult
      simp [hd.1, hd.2.1]

theorem judge_compound {j : Json} {s : Str} (hj : Compound j) (ht : CompoundText (env.jsonMarshal j) s) (c : Condition) :
    judgeInterfaceValue env c (some j) = compareInterfaceText env c s := by
  have hv : valueText env j = env.jsonMarshal j := by cases j <;> first | rfl | cases hj
  obtain ⟨h1, h2, h3, h4, h5⟩ := compound_text ht
  unfold judgeInterfaceValue
  simp only [hv, h4, h5, List.length_eq_zero_iff, h1, h2, h3, or_self, if_false]

theorem judge_compoundRaw {x s : Str} (ht : CompoundText x s) (c : Condition) : judgeBytesValue env c (x, false) = compareBytesText env c s := by
  obtain ⟨h1, h2, -, h4, h5⟩ := compound_text ht
  unfold judgeBytesValue
  simp only [h4, h5, List.length_eq_zero_iff, h1, h2, if_false, Bool.false_eq_true]

theorem selectsText_nonempty {q s : Str} (h : SelectsText env msg q s) : s ≠ [] := by
  cases h with
  | parsed _ _ hc => exact hc.1
  | text _ _ hc => exact hc.1
  | compound _ _ ht => exact (compound_text ht).1
  | compoundText _ ht => exact (compound_text ht).1

/-- The comparison for parsed documents or for texts. -/
def compareScalar (env : Ext) (parsed : Bool) (c : Condition) (s : Str) : Go Bool :=
  if parsed then compareInterfaceText env c s else compareBytesText env c s

/-- What a json path condition does with a scalar. -/
theorem test_scalar {q s : Str} (ho : env.OrdOk) (h : Leaf env (gs"jsonpath:" ++ q) m v w none c) (hs : SelectsText env msg q s) :
    testOneCondition env p c msg = (do
      let b ← compareScalar env msg.rawI.isSome c s
      pure (b, [])) := by
  rw [test_path h, compareScalar]
  have parsed : ∀ {j}, SelectsI env msg q j → msg.rawI.isSome = true := fun hs => by
    cases hs with
    | path _ hd _ => exact hd.1
    | key _ h _ => exact h
    | value _ h _ => exact h
  have raw : ∀ {x}, SelectsB env msg q x → ¬ msg.rawI.isSome = true := fun hs => by
    have hI : msg.rawI = none := by
      cases hs with
      | path _ hd _ => exact hd.1
      | key _ h => exact h
      | value _ h => exact h
      | field _ _ h => exact h
      | several _ h => exact h
    rw [hI]; simp
  cases hs with
  | parsed hs ht hc hn => rw [flag_interface ho h hs, judge_scalar ht hc hn, if_pos (parsed hs)]
  | text hs ht hc => rw [flag_bytes h hs, judge_raw ht hc, if_neg (raw hs)]
  | compound hs hj ht => rw [flag_interface ho h hs, judge_compound hj ht, if_pos (parsed hs)]
  | compoundText hs ht => rw [flag_bytes h hs, judge_compoundRaw ht, if_neg (raw hs)]

end Mapl

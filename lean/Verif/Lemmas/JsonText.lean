import Verif.Model.Marshal
import Verif.Lemmas.Regex
import Mathlib.Tactic.IntervalCases

/-!
# Decoding what the encoder writes
-/

namespace Mapl

variable {env : Ext}

/-! ## Texts -/

theorem tail_plain {c : Char} {t : Str} (h1 : c ≠ '"') (h2 : c ≠ '\\') (h3 : ¬ c.toNat < 0x20) :
    parseStrTail none (c :: t) = (parseStrTail none t).map fun r => (c :: r.1, r.2) := by
  rw [parseStrTail.eq_def]
  split <;> simp_all

theorem tail_control {c : Char} {t : Str} (h1 : c ≠ '"') (h2 : c ≠ '\\') (h3 : c.toNat < 0x20) : parseStrTail none (c :: t) = none := by
  rw [parseStrTail.eq_def]
  split <;> simp_all

theorem tail_end (t : Str) : parseStrTail none ('"' :: t) = some ([], t) := by
  rw [parseStrTail.eq_def]
  split
  · simp_all
  · simp_all
  · simp_all
  · rename_i h; simp at h; simp [← h.1, ← h.2]

theorem tail_escape {e c : Char} {t : Str} (hu : e ≠ 'u') (h : simpleEscape e = some c) :
    parseStrTail none ('\\' :: e :: t) = (parseStrTail none t).map fun r => (c :: r.1, r.2) := by
  rw [parseStrTail.eq_def]
  split
  · simp_all
  · simp_all
  · simp_all
  · rename_i hno h; simp at h; exact absurd h.2.symm (hno e t h.1.symm)

theorem tail_u {a b c d : Char} {n : Nat} {t : Str} (h : hex4 a b c d = some n) (hs : ¬ (0xD800 ≤ n ∧ n ≤ 0xDBFF)) :
    parseStrTail none ('\\' :: 'u' :: a :: b :: c :: d :: t) = (parseStrTail none t).map fun r => (charOfU n :: r.1, r.2) := by
  rw [parseStrTail.eq_def]
  simp only [h]
  rw [if_neg hs]

/-- How conditions escape one character. -/
def jsonEscape (c : Char) : Str := if c = '\\' then gs"\\\\" else if c = '"' then gs"\\\"" else [c]

theorem escapeField_eq (s : Str) : escapeField s = s.flatMap jsonEscape := by
  unfold escapeField
  rw [replaceAll_single, replaceAll_single, List.flatMap_assoc]
  congr 1
  funext c
  unfold jsonEscape
  by_cases h1 : c = '\\'
  · simp [h1]
  · by_cases h2 : c = '"' <;> simp [h1, h2]

/-- A control character. -/
def isControl (c : Char) : Bool := c.toNat < 0x20

theorem tail_jsonEscape {c : Char} {t : Str} (h : isControl c = false) :
    parseStrTail none (jsonEscape c ++ t) = (parseStrTail none t).map fun r => (c :: r.1, r.2) := by
  unfold jsonEscape
  simp only [isControl, decide_eq_false_iff_not] at h
  split
  · rename_i e; subst e
    exact tail_escape (by decide) (by decide)
  · split
    · rename_i e; subst e
      exact tail_escape (by decide) (by decide)
    · rename_i h1 h2
      exact tail_plain h2 h1 h

theorem tail_escapeField {s : Str} (h : ∀ c ∈ s, isControl c = false) (t : Str) :
    parseStrTail none (escapeField s ++ '"' :: t) = some (s, t) := by
  rw [escapeField_eq]
  induction s with
  | nil => exact tail_end t
  | cons c s ih =>
    rw [List.flatMap_cons, List.append_assoc, tail_jsonEscape (h c (by simp)), ih fun c hc => h c (by simp [hc])]
    rfl

theorem tail_escapeField_control {s : Str} (h : ∃ c ∈ s, isControl c = true) (t : Str) : parseStrTail none (escapeField s ++ t) = none := by
  rw [escapeField_eq]
  induction s with
  | nil => simp at h
  | cons c s ih =>
    rw [List.flatMap_cons, List.append_assoc]
    by_cases hc : isControl c = true
    · have h1 : c ≠ '"' := by rintro rfl; exact absurd hc (by decide)
      have h2 : c ≠ '\\' := by rintro rfl; exact absurd hc (by decide)
      simp only [jsonEscape, h1, h2, if_false]
      exact tail_control h1 h2 (by simpa [isControl] using hc)
    · rw [tail_jsonEscape (by simpa using hc), ih]
      · rfl
      · obtain ⟨x, hx, hx'⟩ := h
        rcases List.mem_cons.1 hx with rfl | hx
        · exact absurd hx' hc
        · exact ⟨x, hx, hx'⟩

/-- Text without quotes, backslashes and control characters needs no escaping. -/
theorem tail_verbatim {s : Str} (h : ∀ c ∈ s, c ≠ '"' ∧ c ≠ '\\' ∧ isControl c = false) (t : Str) :
    parseStrTail none (s ++ '"' :: t) = some (s, t) := by
  induction s with
  | nil => exact tail_end t
  | cons c s ih =>
    obtain ⟨h1, h2, h3⟩ := h c (by simp)
    rw [List.cons_append, tail_plain h1 h2 (by simpa [isControl] using h3), ih fun c hc => h c (by simp [hc])]
    rfl

theorem hexVal_digit {n : Nat} (h : n < 16) : hexVal (hexDigit n) = some n := by
  interval_cases n <;> decide

theorem charOfU_toNat {c : Char} (h : c.toNat < 0xD800) : charOfU c.toNat = c := by
  unfold charOfU
  rw [if_neg (by omega), Char.ofNat_toNat]

theorem tail_quoteChar {c : Char} {t : Str} : parseStrTail none (quoteChar c ++ t) = (parseStrTail none t).map fun r => (c :: r.1, r.2) := by
  unfold quoteChar
  split_ifs with h1 h2 h3 h4 h5 h6 h7 h8
  · subst h1; exact tail_escape (by decide) (by decide)
  · subst h2; exact tail_escape (by decide) (by decide)
  · subst h3; exact tail_escape (by decide) (by decide)
  · subst h4; exact tail_escape (by decide) (by decide)
  · subst h5; exact tail_escape (by decide) (by decide)
  · have hlt : c.toNat < 256 := by
      rcases h6 with h | rfl | rfl | rfl
      · omega
      all_goals decide
    have hx : hex4 '0' '0' (hexDigit (c.toNat / 16)) (hexDigit (c.toNat % 16)) = some c.toNat := by
      unfold hex4
      rw [hexVal_digit (by omega : c.toNat / 16 < 16), hexVal_digit (by omega : c.toNat % 16 < 16)]
      have h0 : hexVal '0' = some 0 := by decide
      rw [h0]
      simp
      omega
    rw [List.cons_append, List.cons_append, List.cons_append, List.cons_append, List.cons_append, List.cons_append, List.nil_append, tail_u hx (by omega),
      charOfU_toNat (by omega)]
  · have := tail_u (t := t) (show hex4 '2' '0' '2' '8' = some 0x2028 by decide) (by omega)
    rw [← h7, charOfU_toNat (by omega)] at this
    exact this
  · have := tail_u (t := t) (show hex4 '2' '0' '2' '9' = some 0x2029 by decide) (by omega)
    rw [← h8, charOfU_toNat (by omega)] at this
    exact this
  · exact tail_plain h1 h2 (fun h => h6 (.inl h))

theorem tail_quote (s t : Str) : parseStrTail none (s.flatMap quoteChar ++ '"' :: t) = some (s, t) := by
  induction s with
  | nil => exact tail_end t
  | cons c s ih =>
    rw [List.flatMap_cons, List.append_assoc, tail_quoteChar, ih]
    rfl

/-! ## Values -/

/-- The inside of a text literal. -/
def TextLit (s : Str) (x : Str) : Prop := ∀ t, parseStrTail none (s ++ '"' :: t) = some (x, t)

/-- The text is a value, in front of anything. -/
structure ValueText (env : Ext) (s : Str) (j : Json) : Prop where
  head : ∃ c t, s = c :: t ∧ (c = '{' ∨ c = '[' ∨ c = '"' ∨ c = 'n' ∨ c = 't')
  parse : ∀ f t, s.length ≤ f → parseValue env f (s ++ t) = some (j, t)

/-- Comma separated members. -/
inductive MemberTexts (env : Ext) : Str → List (Str × Json) → Prop
  | one {ks k vs : Str} {v : Json} (hk : TextLit ks k) (hv : ValueText env vs v) : MemberTexts env (gs"\"" ++ ks ++ gs"\":" ++ vs) [(k, v)]
  | more {ks k vs s : Str} {v : Json} {l : List (Str × Json)} (hk : TextLit ks k) (hv : ValueText env vs v) (h : MemberTexts env s l) :
      MemberTexts env (gs"\"" ++ ks ++ gs"\":" ++ vs ++ gs"," ++ s) ((k, v) :: l)

/-- Comma separated elements. -/
inductive ElementTexts (env : Ext) : Str → List Json → Prop
  | one {s : Str} {v : Json} (h : ValueText env s v) : ElementTexts env s [v]
  | more {s s' : Str} {v : Json} {l : List Json} (h : ValueText env s v) (hs : ElementTexts env s' l) : ElementTexts env (s ++ gs"," ++ s') (v :: l)

theorem skipWs_cons {c : Char} {t : Str} (h : isJsonWs c = false) : skipWs (c :: t) = c :: t := by simp [skipWs, h]

theorem valueText_str {s x : Str} (h : TextLit s x) : ValueText env (gs"\"" ++ s ++ gs"\"") (.str x) := by
  refine ⟨⟨'"', s ++ gs"\"", by simp, by simp⟩, ?_⟩
  intro f t hf
  cases f with
  | zero => simp at hf
  | succ f =>
    have h := h t
    simp only [List.cons_append, List.nil_append, List.append_assoc]
    rw [parseValue, skipWs_cons (by decide)]
    simp only [Char.reduceEq, if_false, if_true]
    rw [h]; rfl

theorem parseMembers_of {s : Str} {l : List (Str × Json)} (h : MemberTexts env s l) : ∀ f acc t, s.length ≤ f →
    parseMembers env f acc (s ++ '}' :: t) = some (acc ++ l, t) := by
  induction h with
  | @one ks k vs v hk hv =>
    intro f acc t hf
    cases f with
    | zero => simp at hf
    | succ f =>
      simp only [List.cons_append, List.nil_append, List.append_assoc]
      rw [parseMembers, skipWs_cons (by decide)]
      simp only []
      rw [hk]
      simp only []
      rw [skipWs_cons (by decide)]
      simp only []
      rw [hv.parse f _ (by simp at hf; omega)]
      simp only []
      rw [skipWs_cons (by decide)]
      rfl
  | @more ks k vs s v l hk hv _ ih =>
    intro f acc t hf
    cases f with
    | zero => simp at hf
    | succ f =>
      simp only [List.cons_append, List.nil_append, List.append_assoc]
      rw [parseMembers, skipWs_cons (by decide)]
      simp only []
      rw [hk]
      simp only []
      rw [skipWs_cons (by decide)]
      simp only []
      rw [hv.parse f _ (by simp at hf; omega)]
      simp only []
      rw [skipWs_cons (by decide)]
      simp only []
      rw [ih f _ t (by simp at hf; omega)]
      simp

theorem setKey_fresh {α : Type} {k : Str} {v : α} : ∀ {acc : List (Str × α)}, k ∉ acc.map (·.1) → setKey k v acc = acc ++ [(k, v)]
  | [], _ => rfl
  | (k', v') :: acc, h => by
    simp only [List.map_cons, List.mem_cons, not_or] at h
    simp [setKey, h.1, setKey_fresh h.2]

theorem foldl_setKey {α : Type} : ∀ (l : List (Str × α)) (acc : List (Str × α)), ((acc ++ l).map (·.1)).Nodup →
    l.foldl (fun a x => setKey x.1 x.2 a) acc = acc ++ l
  | [], acc, _ => by simp
  | x :: l, acc, h => by
    have hx : x.1 ∉ acc.map (·.1) := by
      simp only [List.map_append, List.map_cons, List.nodup_append, List.mem_cons] at h
      intro hc
      exact h.2.2 _ hc _ (.inl rfl) rfl
    rw [List.foldl_cons, setKey_fresh hx, foldl_setKey l _ (by simpa using h)]
    simp

theorem memberTexts_head {s : Str} {l : List (Str × Json)} (h : MemberTexts env s l) : ∃ t, s = '"' :: t := by
  cases h <;> exact ⟨_, rfl⟩

theorem valueText_obj {s : Str} {l : List (Str × Json)} (h : MemberTexts env s l) :
    ValueText env (gs"{" ++ s ++ gs"}") (.obj l) := by
  refine ⟨⟨'{', s ++ gs"}", by simp, by simp⟩, ?_⟩
  intro f t hf
  cases f with
  | zero => simp at hf
  | succ f =>
    have hm := parseMembers_of h f [] t (by simp at hf; omega)
    rw [List.nil_append] at hm
    obtain ⟨u, rfl⟩ := memberTexts_head h
    simp only [List.cons_append, List.nil_append, List.append_assoc] at hm ⊢
    rw [parseValue, skipWs_cons (by decide)]
    simp only [if_true]
    rw [skipWs_cons (by decide)]
    split
    · rename_i e; simp at e
    · rw [hm]; rfl

theorem valueText_empty : ValueText env gs"{}" (.obj []) := by
  refine ⟨⟨'{', gs"}", rfl, by simp⟩, ?_⟩
  intro f t hf
  cases f with
  | zero => simp at hf
  | succ f => simp [parseValue, skipWs, isJsonWs]

theorem parseElems_of {s : Str} {l : List Json} (h : ElementTexts env s l) : ∀ f t, s.length < f →
    parseElems env f (s ++ ']' :: t) = some (l, t) := by
  induction h with
  | @one s v h =>
    intro f t hf
    cases f with
    | zero => simp at hf
    | succ f =>
      rw [parseElems, h.parse f _ (by omega)]
      simp only []
      rw [skipWs_cons (by decide)]
      rfl
  | @more s s' v l h _ ih =>
    intro f t hf
    cases f with
    | zero => simp at hf
    | succ f =>
      simp only [List.cons_append, List.nil_append, List.append_assoc]
      rw [parseElems, h.parse f _ (by simp at hf; omega)]
      simp only []
      rw [skipWs_cons (by decide)]
      simp only []
      rw [ih f t (by simp at hf; omega)]
      rfl

theorem elementTexts_head {s : Str} {l : List Json} (h : ElementTexts env s l) : ∃ c t, s = c :: t ∧ (c = '{' ∨ c = '[' ∨ c = '"' ∨ c = 'n' ∨ c = 't') := by
  cases h with
  | one h => exact h.head
  | more h _ =>
    obtain ⟨c, t, rfl, hc⟩ := h.head
    exact ⟨c, _, rfl, hc⟩

theorem valueText_arr {s : Str} {l : List Json} (h : ElementTexts env s l) : ValueText env (gs"[" ++ s ++ gs"]") (.arr l) := by
  refine ⟨⟨'[', s ++ gs"]", by simp, by simp⟩, ?_⟩
  intro f t hf
  cases f with
  | zero => simp at hf
  | succ f =>
    have hm := parseElems_of h f t (by simp at hf; omega)
    obtain ⟨c, u, rfl, hc⟩ := elementTexts_head h
    have hw : isJsonWs c = false := by rcases hc with rfl | rfl | rfl | rfl | rfl <;> decide
    have hb : c ≠ ']' := by rcases hc with rfl | rfl | rfl | rfl | rfl <;> decide
    simp only [List.cons_append, List.nil_append, List.append_assoc] at hm ⊢
    rw [parseValue, skipWs_cons (by decide)]
    simp only [Char.reduceEq, if_false, if_true]
    rw [skipWs_cons hw]
    split
    · rename_i e; simp at e; exact absurd e.1 hb
    · rw [hm]; rfl

theorem jsonScan_of {s : Str} {j : Json} (h : ValueText env s j) : jsonScan env s = some j := by
  unfold jsonScan
  have := h.parse (2 * s.length + 2) [] (by omega)
  rw [List.append_nil] at this
  rw [this]
  rfl

theorem once_map {l : List (Str × Str)} : onceMembers (l.map fun x => (x.1, .str x.2)) = l.map fun x => (x.1, .str x.2) := by
  induction l with
  | nil => rfl
  | cons x l ih => simp [onceMembers, Json.once, ih]

theorem once_obj {l : List (Str × Json)} (hd : (l.map (·.1)).Nodup) (h : onceMembers l = l) : (Json.obj l).once = .obj l := by
  rw [Json.once, h, foldl_setKey l [] (by simpa using hd)]; rfl

theorem jsonParse_of {s : Str} {j : Json} (h : ValueText env s j) : jsonParse env s = some j.once := by
  rw [jsonParse, jsonScan_of h]; rfl

theorem jsonParse_once {s : Str} {j : Json} (h : ValueText env s j) (ho : j.once = j) : jsonParse env s = some j := by
  rw [jsonParse_of h, ho]

theorem valueText_map {l : List (Str × Str)} : ValueText env (renderStringMap l) (.obj (l.map fun x => (x.1, .str x.2))) := by
  unfold renderStringMap
  cases l with
  | nil => exact valueText_empty
  | cons x l =>
    refine valueText_obj ?_
    induction l generalizing x with
    | nil =>
      have := MemberTexts.one (env := env) (k := x.1) (v := .str x.2) (fun t => tail_quote x.1 t) (valueText_str fun t => tail_quote x.2 t)
      simpa [renderStringMembers, quoteJson] using this
    | cons y l ih =>
      have := MemberTexts.more (env := env) (k := x.1) (v := .str x.2) (fun t => tail_quote x.1 t) (valueText_str fun t => tail_quote x.2 t) (ih y)
      simpa [renderStringMembers, quoteJson] using this

end Mapl

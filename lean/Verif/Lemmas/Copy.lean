import Verif.Spec.Copy
import Verif.Lemmas.JsonText
import Verif.Lemmas.Parse

/-!
# Encoding and decoding trees
-/

namespace Mapl
open Spec

variable {env : Env}

theorem isControl_iff {c : Char} : isControl c = false ↔ 0x20 ≤ c.toNat := by simp [isControl]

theorem verbatim_lit {s : Str} (h : Verbatim s) : TextLit s s := fun t => tail_verbatim (fun c hc => by
  obtain ⟨h1, h2, h3⟩ := h c hc
  exact ⟨h1, h2, isControl_iff.2 h3⟩) t

theorem escaped_lit {s : Str} (h : NoControl s) : TextLit (escapeField s) s := fun t => tail_escapeField (fun c hc => isControl_iff.2 (h c hc)) t

theorem method_verbatim {m : Str} (h : m ∈ allMethods) : Verbatim m := by
  have : ∀ m ∈ allMethods, ∀ c ∈ m, c ≠ '"' ∧ c ≠ '\\' ∧ 0x20 ≤ c.toNat := by decide
  exact this m h

theorem lit_of {s : Str} (h : ∀ c ∈ s, c ≠ '"' ∧ c ≠ '\\' ∧ 0x20 ≤ c.toNat) : TextLit s s := verbatim_lit h

theorem retOrig_cond {e : Ext} (l : List (Str × Str)) : retOrig (l.map (condRetVal e)) = l := by
  simp [retOrig, condRetVal, List.map_map, Function.comp_def]

theorem retOrig_quantifier {e : Ext} (l : List (Str × Str)) : retOrig (l.map (anyRetVal e)) = l := by
  simp [retOrig, anyRetVal, List.map_map, Function.comp_def]

theorem parsed_texts {e : Ext} {a m v : Str} {r : Option (List RetVal)} : (parsed e a m v r).attr = a ∧ (parsed e a m v r).method = m ∧
    (parsed e a m v r).value = v ∧ (parsed e a m v r).ret = r ∧ (parsed e a m v r).origAttr = [] ∧ (parsed e a m v r).origMethod = [] ∧
    (parsed e a m v r).origValue = [] := by
  simp [parsed, setNumbers_eq]

/-- No key is repeated in the document. -/
def Once (j : Json) : Prop := j.once = j

theorem once_key {k : Str} {w : Json} (h : Once w) : Once (.obj [(k, w)]) := once_obj (by simp) (by simp [onceMembers, show w.once = w from h])

theorem once_textMap {l : List (Str × Str)} (h : (l.map (·.1)).Nodup) : Once (textMap l) :=
  once_obj (by simpa [List.map_map, Function.comp_def] using h) once_map

theorem once_str (s : Str) : (Json.str s).once = .str s := rfl

theorem checkJson_of {e : Ext} {s : Str} {j : Json} (h : ValueText e s j) : checkJson e s = .ok s := by
  simp [checkJson, jsonParse_of h]

mutual
/-- All values of conditions are texts. -/
def TextValues : Json → Prop
  | .arr l => TextElements l
  | .obj kvs => TextEntries kvs
  | _ => True

def TextElements : List Json → Prop
  | [] => True
  | j :: js => TextValues j ∧ TextElements js

def TextEntries : List (Str × Json) → Prop
  | [] => True
  | (k, j) :: rest => (k ∈ valueKeys → ∃ s, j = .str s) ∧ TextValues j ∧ TextEntries rest
end

theorem textValues_map : ∀ l : List (Str × Str), TextValues (textMap l)
  | [] => trivial
  | x :: l => ⟨fun _ => ⟨_, rfl⟩, trivial, textValues_map l⟩

theorem textValues_key {k : Str} {w : Json} (hk : k ∉ valueKeys) (h : TextValues w) : TextValues (.obj [(k, w)]) := ⟨fun hv => absurd hv hk, h, trivial⟩

theorem marshal_cond {e : Ext} {a m v : Str} {r : Option (List (Str × Str))} (ok : Acceptable e a m v) (ha : NoControl a) (hv : NoControl v)
    (hr : ∀ l, r = some l → (l.map (·.1)).Nodup) : ∃ s k w, marshal e (condNode e a m v r) = .ok s ∧ ValueText e s (.obj [(k, w)]) ∧ Writes e k w (condNode e a m v r) ∧
      k ≠ parentKey ∧ k ≠ returnKey ∧ TextValues (.obj [(k, w)]) ∧ Once w := by
  obtain ⟨e1, e2, e3, e4, e5, e6, e7⟩ := @parsed_texts e a m v (r.map (·.map (condRetVal e)))
  have la := escaped_lit ha
  have lv := escaped_lit hv
  have lm := verbatim_lit (method_verbatim ok.method)
  have k1 : TextLit gs"attribute" gs"attribute" := lit_of (by decide)
  have k2 : TextLit gs"method" gs"method" := lit_of (by decide)
  have k3 : TextLit gs"value" gs"value" := lit_of (by decide)
  have k4 : TextLit gs"returnValueJsonpath" gs"returnValueJsonpath" := lit_of (by decide)
  have k5 : TextLit gs"condition" gs"condition" := lit_of (by decide)
  cases r with
  | none =>
    have hvt : ValueText e (marshalCondition (parsed e a m v none)) (.obj [(gs"condition", .obj [(gs"attribute", .str a), (gs"method", .str m), (gs"value", .str v)])]) := by
      have := valueText_obj (.one k5 (valueText_obj (.more k1 (valueText_str la) (.more k2 (valueText_str lm) (.one k3 (valueText_str (env := e) lv))))))
      simp only [Option.map_none] at e1 e2 e3 e4 e5 e6 e7
      simpa [marshalCondition, e1, e2, e3, e4, e5, e6, e7, orOrig] using this
    refine ⟨_, _, _, ?_, hvt, ?_, by decide, by decide, by simp [TextValues, TextEntries, valueKeys], once_obj (by simp) (by simp [onceMembers, once_str])⟩
    · simp only [condNode, Option.map_none, marshal]; exact checkJson_of hvt
    · refine .cond (by simp) ⟨by simp, ?_, ?_, ?_, ?_, ?_, ?_, ?_⟩ ok
      · exact ⟨_, .valued (ka := gs"attribute") (km := gs"method") (kv := gs"value") (kr := []) (by simp [attrKeys]) (by simp [methodKeys]) (by simp [valueKeys]) (.inl rfl),
          .refl _⟩
      all_goals simp [attrKeys, methodKeys, valueKeys, returnKeys, fmtV, valueWritten_iff]
  | some l =>
    have hm := valueText_map (env := e) (l := l)
    have hvt : ValueText e (marshalCondition (parsed e a m v (some (l.map (condRetVal e))))) (.obj [(gs"condition",
        .obj [(gs"attribute", .str a), (gs"method", .str m), (gs"value", .str v), (gs"returnValueJsonpath", textMap l)])]) := by
      have := valueText_obj (.one k5 (valueText_obj (.more k1 (valueText_str la) (.more k2 (valueText_str lm) (.more k3 (valueText_str (env := e) lv)
        (.one k4 hm))))))
      simp only [Option.map_some] at e1 e2 e3 e4 e5 e6 e7
      simpa [marshalCondition, e1, e2, e3, e4, e5, e6, e7, orOrig, retOrig_cond, textMap] using this
    refine ⟨_, _, _, ?_, hvt, ?_, by decide, by decide, by simpa [TextValues, TextEntries, valueKeys] using textValues_map l,
      once_obj (by simp) (by simp [onceMembers, once_str, show (textMap l).once = textMap l from once_textMap (hr l rfl)])⟩
    · simp only [condNode, Option.map_some, marshal]; exact checkJson_of hvt
    · refine .cond (by simp) ⟨by simp, ?_, ?_, ?_, ?_, ?_, ?_, ?_⟩ ok
      · exact ⟨_, .valued (ka := gs"attribute") (km := gs"method") (kv := gs"value") (kr := [gs"returnValueJsonpath"]) (by simp [attrKeys]) (by simp [methodKeys])
          (by simp [valueKeys]) (.inr ⟨_, by simp [returnKeys], rfl⟩), .refl _⟩
      all_goals simp [attrKeys, methodKeys, valueKeys, returnKeys, fmtV, valueWritten_iff]

theorem marshal_list {e : Ext} : ∀ {ns : List Node}, ns ≠ [] →
    (∀ n ∈ ns, ∃ s k w, marshal e n = .ok s ∧ ValueText e s (.obj [(k, w)]) ∧ Writes e k w n ∧ k ≠ parentKey ∧ k ≠ returnKey ∧ TextValues (.obj [(k, w)]) ∧ Once w) →
    ∃ l js, marshalList e ns = .ok l ∧ ElementTexts e (commaSep l) js ∧ ReadsAll e False False js ns ∧ TextElements js ∧ onceElements js = js
  | [], h, _ => absurd rfl h
  | [n], _, h => by
    obtain ⟨s, k, w, h1, h2, h3, -, -, h4, h5⟩ := h n (by simp)
    exact ⟨[s], [.obj [(k, w)]], by simp [marshalList, h1], by simpa [commaSep, join] using .one h2, .cons (.key (by simp) h3) .nil, ⟨h4, trivial⟩,
      by rw [onceElements, show (Json.obj [(k, w)]).once = _ from once_key h5]; rfl⟩
  | n :: n' :: ns, _, h => by
    obtain ⟨s, k, w, h1, h2, h3, -, -, h4, h5⟩ := h n (by simp)
    obtain ⟨l, js, g1, g2, g3, g4, g5⟩ := marshal_list (ns := n' :: ns) (by simp) fun n hn => h n (List.mem_cons_of_mem _ hn)
    have hl : l ≠ [] := by
      rintro rfl
      obtain ⟨c, t, e, -⟩ := elementTexts_head g2
      simp [commaSep, join] at e
    refine ⟨s :: l, .obj [(k, w)] :: js, ?_, ?_, .cons (.key (by simp) h3) g3, ⟨h4, g4⟩, by rw [onceElements, show (Json.obj [(k, w)]).once = _ from once_key h5, g5]⟩
    · rw [marshalList, h1, Go.ok_bind, g1]; rfl
    · have := ElementTexts.more h2 g2
      cases l with
      | nil => exact absurd rfl hl
      | cons x l => simpa [commaSep, join] using this

theorem marshal_quantifier {e : Ext} {kw parent : Str} {ret : List (Str × Str)} {n : Node} (hk : kw = gs"ANY" ∨ kw = gs"ALL") (hp : ParentOk parent)
    (hv : Verbatim parent) (hd : (ret.map (·.1)).Nodup) (hr : ∀ x ∈ ret, ∃ q, x.2 = gs"jsonpath:$RELATIVE" ++ q)
    {s k : Str} {w : Json} (h2 : ValueText e s (.obj [(k, w)])) (h3 : Writes e k w n) (h4 : TextValues (.obj [(k, w)])) (h5 : Once w) :
    ∃ v, ValueText e (marshalAnyAll kw (anyFields e parent ret) s) (.obj [(kw, v)]) ∧ Writes e kw v (quantifier kw (anyFields e parent ret) n) ∧ TextValues v ∧ Once v := by
  have kkw : TextLit kw kw := by rcases hk with rfl | rfl <;> exact lit_of (by decide)
  have k1 : TextLit gs"parentJsonpathAttribute" gs"parentJsonpathAttribute" := lit_of (by decide)
  have k2 : TextLit gs"returnValueJsonpath" gs"returnValueJsonpath" := lit_of (by decide)
  have k3 : TextLit gs"condition" gs"condition" := lit_of (by decide)
  have hpl : orOrig (anyFields e parent ret).parent (anyFields e parent ret).parentOrig = parent := by
    have : parent.length > 0 := by
      rcases hp with ⟨r, rfl⟩ | ⟨r, rfl⟩ | ⟨r, rfl⟩ <;> simp
    simp [orOrig, anyFields, this]
  have hchild : Writes e gs"condition" (.obj [(k, w)]) n := .key (by simp) h3
  cases ret with
  | nil =>
    refine ⟨.obj [(gs"parentJsonpathAttribute", .str parent), (gs"condition", .obj [(k, w)])], ?_, ?_, ⟨by simp, trivial, textValues_key (by decide) h4⟩,
      once_obj (by simp) (by simp [onceMembers, once_str, show (Json.obj [(k, w)]).once = _ from once_key h5])⟩
    · have := valueText_obj (.one kkw (valueText_obj (.more k1 (valueText_str (verbatim_lit hv)) (.one k3 h2))))
      have hlen : (anyFields e parent []).ret.length = 0 := rfl
      simpa [marshalAnyAll, hpl, hlen] using this
    · refine .quantifier (k := gs"condition") (v := .obj [(k, w)]) hk ⟨by simp, by simp, by simp [parentKey], hp, by simp [returnKey], by simp, by simp⟩
        ⟨by simp, (by decide : gs"condition" ≠ parentKey), (by decide : gs"condition" ≠ returnKey)⟩ ?_ hchild
      rintro x ⟨hx, g1, g2⟩
      simp only [List.mem_cons, List.not_mem_nil, or_false] at hx
      rcases hx with rfl | rfl
      · exact absurd rfl g1
      · rfl
  | cons y ys =>
    have hm := valueText_map (env := e) (l := y :: ys)
    refine ⟨.obj [(gs"parentJsonpathAttribute", .str parent), (gs"returnValueJsonpath", textMap (y :: ys)), (gs"condition", .obj [(k, w)])], ?_, ?_,
      ⟨by simp, trivial, by simp [valueKeys], textValues_map _, textValues_key (by decide) h4⟩,
      once_obj (by simp) (by simp [onceMembers, once_str, show (Json.obj [(k, w)]).once = _ from once_key h5, show (textMap (y :: ys)).once = _ from once_textMap hd])⟩
    · have := valueText_obj (.one kkw (valueText_obj (.more k1 (valueText_str (verbatim_lit hv)) (.more k2 hm (.one k3 h2)))))
      have hlen : (anyFields e parent (y :: ys)).ret.length > 0 := by simp [anyFields]
      have hro : retOrig (anyFields e parent (y :: ys)).ret = y :: ys := retOrig_quantifier _
      simp only [marshalAnyAll, hpl, if_pos hlen, hro]
      simpa [textMap] using this
    · refine .quantifier (k := gs"condition") (v := .obj [(k, w)]) hk ⟨by simp, by simp, by simp [parentKey], hp, ?_, by simp [returnKey], hr⟩
        ⟨by simp, (by decide : gs"condition" ≠ parentKey), (by decide : gs"condition" ≠ returnKey)⟩ ?_ hchild
      · intro x hx
        simp [returnKey] at hx
        exact hx
      · rintro x ⟨hx, g1, g2⟩
        simp only [List.mem_cons, List.not_mem_nil, or_false] at hx
        rcases hx with rfl | rfl | rfl
        · exact absurd rfl g1
        · exact absurd rfl g2
        · rfl

/-- The text of a copyable tree decodes to a document that writes it. -/
theorem marshal_copyable {e : Ext} {n : Node} (h : Copyable e n) :
    ∃ s k w, marshal e n = .ok s ∧ ValueText e s (.obj [(k, w)]) ∧ Writes e k w n ∧ k ≠ parentKey ∧ k ≠ returnKey ∧
      TextValues (.obj [(k, w)]) ∧ Once w := by
  induction h with
  | cond ok ha hv hr => exact marshal_cond ok ha hv hr
  | @and ns hne _ ih =>
    obtain ⟨l, js, h1, h2, h3, h4, h5⟩ := marshal_list hne ih
    refine ⟨gs"{\"AND\":[" ++ commaSep l ++ gs"]}", gs"AND", .arr js, ?_, ?_, .and h3, by decide, by decide, textValues_key (by decide) h4, by rw [Once, Json.once, h5]⟩
    · cases ns with
      | nil => exact absurd rfl hne
      | cons n ns => rw [marshal, h1]; rfl
    · have := valueText_obj (.one (show TextLit gs"AND" gs"AND" from lit_of (by decide)) (valueText_arr h2))
      simpa using this
  | @or ns hne _ ih =>
    obtain ⟨l, js, h1, h2, h3, h4, h5⟩ := marshal_list hne ih
    refine ⟨gs"{\"OR\":[" ++ commaSep l ++ gs"]}", gs"OR", .arr js, ?_, ?_, .or h3, by decide, by decide, textValues_key (by decide) h4, by rw [Once, Json.once, h5]⟩
    · cases ns with
      | nil => exact absurd rfl hne
      | cons n ns => rw [marshal, h1]; rfl
    · have := valueText_obj (.one (show TextLit gs"OR" gs"OR" from lit_of (by decide)) (valueText_arr h2))
      simpa using this
  | @not n hn ih =>
    obtain ⟨s, k, w, h1, h2, h3, -, -, h4, h5⟩ := ih
    refine ⟨gs"{\"NOT\":" ++ s ++ gs"}", gs"NOT", .obj [(k, w)], ?_, ?_, .not h3, by decide, by decide, textValues_key (by decide) h4, once_key h5⟩
    · rw [marshal, h1]; rfl
      rintro rfl; cases hn
    · have := valueText_obj (.one (show TextLit gs"NOT" gs"NOT" from lit_of (by decide)) h2)
      simpa using this
  | any hp hv hd hr _ ih =>
    obtain ⟨s, k, w, h1, h2, h3, -, -, h4, h5⟩ := ih
    obtain ⟨v, g1, g2, g3, g4⟩ := marshal_quantifier (.inl rfl) hp hv hd hr h2 h3 h4 h5
    refine ⟨_, gs"ANY", v, ?_, g1, g2, by decide, by decide, textValues_key (by decide) g3, g4⟩
    rw [marshal, h1, Go.ok_bind]; exact checkJson_of g1
  | all hp hv hd hr _ ih =>
    obtain ⟨s, k, w, h1, h2, h3, -, -, h4, h5⟩ := ih
    obtain ⟨v, g1, g2, g3, g4⟩ := marshal_quantifier (.inr rfl) hp hv hd hr h2 h3 h4 h5
    refine ⟨_, gs"ALL", v, ?_, g1, g2, by decide, by decide, textValues_key (by decide) g3, g4⟩
    rw [marshal, h1, Go.ok_bind]; exact checkJson_of g1

theorem copy_copyable (ho : env.OrdOk) {n : Node} (h : Copyable env n) (p : List Nat) : copyConditions env p (some n) = .ok (some n) := by
  obtain ⟨s, k, w, h1, h2, h3, -, -, -, h5⟩ := marshal_copyable h
  have hv := valueText_obj (.one (show TextLit gs"conditionsTree" gs"conditionsTree" from lit_of (by decide)) h2)
  have hm : marshalConditions env (some n) = .ok (gs"{\"conditionsTree\":" ++ s ++ gs"}") := by
    cases h <;> (rw [marshalConditions, h1]; rfl; try (rintro ⟨⟩))
  rw [copyConditions, hm, Go.ok_bind]
  have hj : jsonParse env (gs"{\"conditionsTree\":" ++ s ++ gs"}") = some (.obj [(gs"conditionsTree", .obj [(k, w)])]) := by
    have := jsonParse_once hv (once_key (once_key h5))
    simpa using this
  rw [hj]
  have hr : Writes env [] (.obj [(gs"conditionsTree", .obj [(k, w)])]) n := .key (by simp) (.key (by simp) h3)
  simp only [unmarshalConditions, parseConditionsTree]
  rw [interpret_of_reads ho hr]
  rfl

/-! ## Control characters -/

/-- The text starts no value. -/
def NoValue (e : Ext) (s : Str) : Prop := ∀ f t, s.length ≤ f → parseValue e f (s ++ t) = none

/-- Members of which one has no value. -/
inductive BadMembers (e : Ext) : Str → Prop
  | here {ks k vs : Str} (hk : TextLit ks k) (hv : NoValue e vs) : BadMembers e (gs"\"" ++ ks ++ gs"\":" ++ vs)
  | later {ks k vs s : Str} {v : Json} (hk : TextLit ks k) (hv : ValueText e vs v) (h : BadMembers e s) :
      BadMembers e (gs"\"" ++ ks ++ gs"\":" ++ vs ++ gs"," ++ s)

theorem parseMembers_bad {e : Ext} {s : Str} (h : BadMembers e s) : ∀ f acc t, s.length ≤ f → parseMembers e f acc (s ++ t) = none := by
  induction h with
  | @here ks k vs hk hv =>
    intro f acc t hf
    cases f with
    | zero => simp at hf
    | succ f =>
      simp only [List.cons_append, List.nil_append, List.append_assoc]
      rw [parseMembers, skipWs_cons (by decide)]
      simp only []
      rw [hk]
      simp only []
      rw [skipWs_cons (by decide)]
      simp only []
      rw [hv f _ (by simp at hf; omega)]
  | @later ks k vs s v hk hv _ ih =>
    intro f acc t hf
    cases f with
    | zero => simp at hf
    | succ f =>
      simp only [List.cons_append, List.nil_append, List.append_assoc]
      rw [parseMembers, skipWs_cons (by decide)]
      simp only []
      rw [hk]
      simp only []
      rw [skipWs_cons (by decide)]
      simp only []
      rw [hv.parse f _ (by simp at hf; omega)]
      simp only []
      rw [skipWs_cons (by decide)]
      simp only []
      rw [ih f _ t (by simp at hf; omega)]

theorem noValue_obj {e : Ext} {s : Str} (h : BadMembers e s) : NoValue e (gs"{" ++ s) := by
  intro f t hf
  cases f with
  | zero => simp at hf
  | succ f =>
    have hm := parseMembers_bad h f [] t (by simp at hf; omega)
    obtain ⟨u, rfl⟩ : ∃ u, s = '"' :: u := by cases h <;> exact ⟨_, rfl⟩
    simp only [List.cons_append, List.nil_append] at hm ⊢
    rw [parseValue, skipWs_cons (by decide)]
    simp only [if_true]
    rw [skipWs_cons (by decide)]
    split
    · rename_i e; simp at e
    · rw [hm]; rfl

theorem noValue_str {e : Ext} {s : Str} (h : ¬ NoControl s) : NoValue e (gs"\"" ++ escapeField s) := by
  have hc : ∃ c ∈ s, isControl c = true := by
    simp only [NoControl, not_forall] at h
    obtain ⟨c, hc, hlt⟩ := h
    exact ⟨c, hc, by simp [isControl]; omega⟩
  intro f t hf
  cases f with
  | zero => simp at hf
  | succ f =>
    simp only [List.cons_append, List.nil_append]
    rw [parseValue, skipWs_cons (by decide)]
    simp only [Char.reduceEq, if_false, if_true]
    rw [tail_escapeField_control hc]; rfl

theorem marshal_control {e : Ext} {a m v : Str} {r : Option (List RetVal)} (hm : m ∈ allMethods) (h : ¬ NoControl a ∨ ¬ NoControl v) :
    checkJson e (marshalCondition (parsed e a m v r)) = .error (.err .badCopy) := by
  obtain ⟨e1, e2, e3, e4, e5, e6, e7⟩ := @parsed_texts e a m v r
  have lm := verbatim_lit (method_verbatim hm)
  have k1 : TextLit gs"attribute" gs"attribute" := lit_of (by decide)
  have k2 : TextLit gs"method" gs"method" := lit_of (by decide)
  have k3 : TextLit gs"value" gs"value" := lit_of (by decide)
  have k5 : TextLit gs"condition" gs"condition" := lit_of (by decide)
  obtain ⟨s, t, hs, hno⟩ : ∃ s t, marshalCondition (parsed e a m v r) = s ++ t ∧ NoValue e s := by
    by_cases ha : NoControl a
    · have hv := h.resolve_left (fun h => h ha)
      refine ⟨_, ?_, ?_, noValue_obj (.here k5 (noValue_obj (.later k1 (valueText_str (escaped_lit ha)) (.later k2 (valueText_str lm) (.here k3 (noValue_str hv))))))⟩
      · exact match r with | none => gs"\"}}" | some r => gs"\",\"returnValueJsonpath\":" ++ renderStringMap (retOrig r) ++ gs"}}"
      · cases r <;> simp [marshalCondition, e1, e2, e3, e4, e5, e6, e7, orOrig]
    · refine ⟨_, ?_, ?_, noValue_obj (.here k5 (noValue_obj (.here k1 (noValue_str ha))))⟩
      · exact gs"\",\"method\":\"" ++ m ++ gs"\",\"value\":\"" ++ escapeField v ++
          match r with | none => gs"\"}}" | some r => gs"\",\"returnValueJsonpath\":" ++ renderStringMap (retOrig r) ++ gs"}}"
      · cases r <;> simp [marshalCondition, e1, e2, e3, e4, e5, e6, e7, orOrig]
  rw [hs, checkJson, jsonParse, jsonScan, hno _ t (by simp; omega)]; rfl

mutual
/-- A condition that cannot be encoded makes the encoding of the whole tree fail. -/
theorem marshal_bad {e : Ext} {c : Condition} (hc : checkJson e (marshalCondition c) = .error (.err .badCopy)) :
    ∀ {n : Node}, c ∈ leaves n → marshal e n = .error (.err .badCopy)
  | .nil, h => by simp [leaves] at h
  | .and [], h => by simp [leaves, leavesOf] at h
  | .and (n :: ns), h => by
    rw [marshal, marshalList_bad hc (by simpa [leaves] using h)]; rfl
  | .or [], h => by simp [leaves, leavesOf] at h
  | .or (n :: ns), h => by
    rw [marshal, marshalList_bad hc (by simpa [leaves] using h)]; rfl
  | .not n, h => by
    have hn : n ≠ .nil := by rintro rfl; simp [leaves] at h
    rw [marshal, marshal_bad hc (by simpa [leaves] using h)]
    · rfl
    · exact hn
  | .any a n, h => by rw [marshal, marshal_bad hc (by simpa [leaves] using h)]; rfl
  | .all a n, h => by rw [marshal, marshal_bad hc (by simpa [leaves] using h)]; rfl
  | .tt, h => by simp [leaves] at h
  | .ff, h => by simp [leaves] at h
  | .cond c', h => by
    simp only [leaves, List.mem_singleton] at h
    subst h
    rw [marshal, hc]

theorem marshalList_bad {e : Ext} {c : Condition} (hc : checkJson e (marshalCondition c) = .error (.err .badCopy)) :
    ∀ {ns : List Node}, c ∈ leavesOf ns → marshalList e ns = .error (.err .badCopy)
  | [], h => by simp [leavesOf] at h
  | n :: ns, h => by
    simp only [leavesOf, List.mem_append] at h
    rw [marshalList]
    rcases h with h | h
    · rw [marshal_bad hc h]; rfl
    · rw [marshalList_bad hc h]
      cases hm : marshal e n with
      | ok s => rfl
      | error x =>
        rw [marshal_error hm]; rfl

/-- Encoding fails in one way. -/
theorem marshal_error {e : Ext} : ∀ {n : Node} {x : Fail}, marshal e n = .error x → x = .err .badCopy
  | .nil, x, h => by simp [marshal] at h
  | .and [], x, h => by simp [marshal] at h
  | .and (n :: ns), x, h => by
    rw [marshal] at h
    cases hl : marshalList e (n :: ns) with
    | ok l => rw [hl] at h; simp at h
    | error y => rw [hl] at h; simp at h; rw [← h]; exact marshalList_error hl
  | .or [], x, h => by simp [marshal] at h
  | .or (n :: ns), x, h => by
    rw [marshal] at h
    cases hl : marshalList e (n :: ns) with
    | ok l => rw [hl] at h; simp at h
    | error y => rw [hl] at h; simp at h; rw [← h]; exact marshalList_error hl
  | .not n, x, h => by
    by_cases hn : n = .nil
    · subst hn; simp [marshal] at h
    · rw [marshal] at h
      · cases hl : marshal e n with
        | ok l => rw [hl] at h; simp at h
        | error y => rw [hl] at h; simp at h; rw [← h]; exact marshal_error hl
      · exact hn
  | .any a n, x, h => by
    rw [marshal] at h
    cases hl : marshal e n with
    | ok l => rw [hl] at h; simp only [Go.ok_bind, checkJson] at h; split at h <;> simp at h; exact h.symm
    | error y => rw [hl] at h; simp at h; rw [← h]; exact marshal_error hl
  | .all a n, x, h => by
    rw [marshal] at h
    cases hl : marshal e n with
    | ok l => rw [hl] at h; simp only [Go.ok_bind, checkJson] at h; split at h <;> simp at h; exact h.symm
    | error y => rw [hl] at h; simp at h; rw [← h]; exact marshal_error hl
  | .tt, x, h => by simp [marshal] at h
  | .ff, x, h => by simp [marshal] at h
  | .cond c, x, h => by
    rw [marshal, checkJson] at h; split at h <;> simp at h; exact h.symm

theorem marshalList_error {e : Ext} : ∀ {ns : List Node} {x : Fail}, marshalList e ns = .error x → x = .err .badCopy
  | [], x, h => by simp [marshalList] at h
  | n :: ns, x, h => by
    rw [marshalList] at h
    cases hl : marshal e n with
    | error y => rw [hl] at h; simp at h; rw [← h]; exact marshal_error hl
    | ok s =>
      rw [hl, Go.ok_bind] at h
      cases hs : marshalList e ns with
      | error y => rw [hs] at h; simp at h; rw [← h]; exact marshalList_error hs
      | ok l => rw [hs] at h; simp at h
end

theorem copy_bad {c : Condition} (hc : checkJson env (marshalCondition c) = .error (.err .badCopy)) {n : Node} (h : c ∈ leaves n) (p : List Nat) :
    copyConditions env p (some n) = .error (.err .badCopy) := by
  have hm := marshal_bad hc h
  have hn : n ≠ .nil := by rintro rfl; simp [leaves] at h
  rw [copyConditions, marshalConditions, hm]
  · rfl
  · exact hn

end Mapl

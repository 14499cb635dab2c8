import Verif.Model.Eval
import Verif.Spec.Split
import Verif.Demo

/-!
# C58: the splitter
-/

namespace Mapl
open Spec

theorem nested_append {a b : Str} (ha : Nested a) (hb : Nested b) : Nested (a ++ b) := by
  induction ha with
  | nil => exact hb
  | char h1 h2 _ ih => exact .char h1 h2 ih
  | @braces x y hx _ _ ih =>
    have : '{' :: (x ++ '}' :: y) ++ b = '{' :: (x ++ '}' :: (y ++ b)) := by simp
    rw [this]
    exact .braces hx ih

theorem nested_plain {s : Str} (h : ∀ c ∈ s, c ≠ '{' ∧ c ≠ '}') : Nested s := by
  induction s with
  | nil => exact .nil
  | cons c s ih => exact .char (h c (by simp)).1 (h c (by simp)).2 (ih fun x hx => h x (by simp [hx]))

theorem nested_blank {s : Str} (h : Blank s) : Nested s := nested_plain fun c hc => by
  have := h c hc
  constructor <;> rintro rfl <;> simp at this

theorem nested_join {l : List Str} (h : ∀ x ∈ l, Nested x) : Nested (join gs"," l) := by
  induction l with
  | nil => exact .nil
  | cons x l ih =>
    cases l with
    | nil => simpa [join] using h x (by simp)
    | cons y l =>
      rw [join]
      exact nested_append (nested_append (h x (by simp)) (.char (by decide) (by decide) .nil)) (ih fun z hz => h z (by simp [hz]))

theorem nested_key {s : Str} (h : KeyText Nested s) : Nested s := by
  cases h with
  | mk ha hk hp hb => exact nested_append (nested_blank ha) (.char (by decide) (by decide) (nested_append hp (.char (by decide) (by decide) (nested_blank hb))))

theorem nested_value {s : Str} (h : JsonText Nested s) : Nested s := by
  induction h with
  | atom h => exact nested_plain fun c hc => by have := h c hc; simp at this; exact ⟨this.1, this.2.1⟩
  | str hs hp => exact .char (by decide) (by decide) (nested_append hp (.char (by decide) (by decide) .nil))
  | arr _ ih => exact .char (by decide) (by decide) (nested_append (nested_join ih) (.char (by decide) (by decide) .nil))
  | obj hk _ ih =>
    refine .braces (nested_join ?_) .nil
    intro y hy
    obtain ⟨x, hx, rfl⟩ := List.mem_map.1 hy
    exact nested_append (nested_key (hk x hx)) (.char (by decide) (by decide) (ih x hx))
  | space ha hb _ ih => exact nested_append (nested_blank ha) (nested_append ih (nested_blank hb))

theorem nested_object {s : Str} (h : ObjectText Nested s) : ∃ t, s = '{' :: (t ++ gs"}") ∧ Nested t := by
  obtain ⟨l, hk, hv, rfl⟩ := h
  refine ⟨_, rfl, nested_join ?_⟩
  intro y hy
  obtain ⟨x, hx, rfl⟩ := List.mem_map.1 hy
  exact nested_append (nested_key (hk x hx)) (.char (by decide) (by decide) (nested_value (hv x hx)))

/-- Inside of an object, a properly nested text is only collected. -/
theorem scan_inside {w : Str} (h : Nested w) : ∀ (k : Int) (acc rest : Str), 0 < k →
    scanObjects k (some acc) (w ++ rest) = scanObjects k (some (w.reverse ++ acc)) rest := by
  induction h with
  | nil => intro k acc rest _; rfl
  | @char c s h1 h2 _ ih =>
    intro k acc rest hk
    rw [List.cons_append, scanObjects]
    simp only [h1, h2, false_and, if_false, Option.map_some]
    rw [if_neg (by omega), ih k _ rest hk]
    simp
  | @braces a b _ _ iha ihb =>
    intro k acc rest hk
    rw [List.cons_append, scanObjects]
    simp only [true_and, if_true, show ('{' : Char) ≠ '}' by decide, if_false]
    rw [if_neg (show ¬ k = 0 by omega), if_neg (by omega), List.append_assoc, Option.map_some, iha (k + 1) _ _ (by omega), List.cons_append, scanObjects]
    simp only [show ('}' : Char) ≠ '{' by decide, false_and, if_false, if_true, Option.map_some]
    rw [if_neg (by omega), show k + 1 - 1 = k by omega, ihb k _ rest hk]
    simp

/-- An object is found. -/
theorem scan_object {s rest : Str} (h : ObjectText Nested s) : scanObjects 0 none (s ++ rest) = s :: scanObjects 0 none rest := by
  obtain ⟨t, rfl, ht⟩ := nested_object h
  rw [List.cons_append, scanObjects]
  simp only [and_self, if_true, Option.map_some, show ('{' : Char) ≠ '}' by decide, if_false]
  rw [if_neg (by omega), List.append_assoc, scan_inside ht _ _ _ (by omega), List.cons_append, scanObjects]
  simp [show ('}' : Char) ≠ '{' by decide]

/-- Text outside of objects is skipped. -/
theorem scan_outside {s rest : Str} (h : ∀ c ∈ s, c ≠ '{' ∧ c ≠ '}') : scanObjects 0 none (s ++ rest) = scanObjects 0 none rest := by
  induction s with
  | nil => rfl
  | cons c s ih =>
    obtain ⟨h1, h2⟩ := h c (by simp)
    rw [List.cons_append, scanObjects]
    simp only [h1, h2, false_and, if_false, Option.map_none, if_true]
    exact ih fun x hx => h x (by simp [hx])

theorem blank_outside {s : Str} (h : Blank s) : ∀ c ∈ s, c ≠ '{' ∧ c ≠ '}' := fun c hc => by
  have := h c hc
  constructor <;> rintro rfl <;> simp at this

end Mapl

namespace Mapl.Props
open Spec

/-- The objects of a list are found. -/
theorem scan_listText {l : List Item} (h : ∀ i ∈ l, i.Ok Nested) (ho : ∀ i ∈ l, i.isObject = false → ∀ c ∈ i.text, c ≠ '{' ∧ c ≠ '}') (rest : Str) :
    scanObjects 0 none (listText l ++ rest) = objects l ++ scanObjects 0 none rest := by
  have item : ∀ i ∈ l, ∀ rest, scanObjects 0 none (i.before ++ (i.text ++ i.after) ++ rest) = objects [i] ++ scanObjects 0 none rest := by
    intro i hi rest
    obtain ⟨h1, h2, h3⟩ := h i hi
    rw [List.append_assoc, scan_outside (blank_outside h1), List.append_assoc]
    cases hb : i.isObject with
    | true =>
      rw [if_pos hb] at h3
      rw [scan_object h3, scan_outside (blank_outside h2)]
      simp [objects, hb]
    | false =>
      rw [scan_outside (ho i hi hb), scan_outside (blank_outside h2)]
      simp [objects, hb]
  have all : ∀ (l' : List Item), (∀ i ∈ l', i ∈ l) → ∀ rest, scanObjects 0 none (join gs"," (l'.map fun i => i.before ++ (i.text ++ i.after)) ++ rest) =
      objects l' ++ scanObjects 0 none rest := by
    intro l'
    induction l' with
    | nil => intro _ rest; rfl
    | cons i l' ih =>
      intro hl rest
      have hcons : objects (i :: l') = objects [i] ++ objects l' := by
        simp only [objects, ← List.map_append, ← List.filter_append]; rfl
      cases l' with
      | nil =>
        rw [List.map_cons, List.map_nil, join, item i (hl i (by simp))]
      | cons j l' =>
        rw [List.map_cons, List.map_cons, join, List.append_assoc, List.append_assoc, item i (hl i (by simp)), scan_outside (by simp)]
        have := ih (fun x hx => hl x (by simp [hx])) rest
        rw [List.map_cons] at this
        rw [this, hcons, List.append_assoc]
  show scanObjects 0 none (gs"[" ++ (join gs"," (l.map fun i => i.before ++ (i.text ++ i.after)) ++ gs"]") ++ rest) = _
  rw [List.append_assoc, scan_outside (by simp), List.append_assoc, all l (fun _ h => h), scan_outside (by simp)]

/-- **C58**, if in every string inside of an object the braces are nested properly, and the other values in the list contain no braces: the splitter
returns the texts of the objects, in order. -/
theorem C58_partial {l : List Item} (h : ∀ i ∈ l, i.Ok Nested) (ho : ∀ i ∈ l, i.isObject = false → ∀ c ∈ i.text, c ≠ '{' ∧ c ≠ '}') :
    getArrayOfJsonsFromInterfaceArray (listText l) = some (objects l) := by
  unfold getArrayOfJsonsFromInterfaceArray
  show some (scanObjects 0 none (listText l)) = _
  have := scan_listText h ho []
  rw [List.append_nil] at this
  rw [this]
  simp [scanObjects]

/-- Texts for the examples. -/
theorem key_text {P : Str → Prop} {k : Str} (hk : Quoted k) (hp : P k) : KeyText P ('"' :: (k ++ gs"\"")) := .mk (a := []) (b := []) (by simp [Blank]) hk hp (by simp [Blank])

theorem quoted_plain {s : Str} (h : ∀ c ∈ s, c ≠ '"' ∧ c ≠ '\\') : Quoted s := by
  induction s with
  | nil => exact .nil
  | cons c s ih => exact .char (h c (by simp)).1 (h c (by simp)).2 (ih fun x hx => h x (by simp [hx]))

theorem object_text {P : Str → Prop} {k v : Str} (hk : ∀ c ∈ k, c ≠ '"' ∧ c ≠ '\\') (hp : P k) (hv : JsonText P v) :
    ObjectText P (gs"{\"" ++ k ++ gs"\":" ++ v ++ gs"}") := by
  refine ⟨[('"' :: (k ++ gs"\""), v)], ?_, ?_, ?_⟩
  · simp only [List.mem_singleton, forall_eq]; exact key_text (quoted_plain hk) hp
  · simp only [List.mem_singleton, forall_eq]; exact hv
  · simp [join]

/-- `[ {"a": "${x}"},1,{"b":[{}]}]` -/
example : ∃ l : List Item, (∀ i ∈ l, i.Ok Nested) ∧ (∀ i ∈ l, i.isObject = false → ∀ c ∈ i.text, c ≠ '{' ∧ c ≠ '}') ∧
    listText l = gs"[ {\"a\": \"${x}\"},1,{\"b\":[{}]}]" ∧ objects l = [gs"{\"a\": \"${x}\"}", gs"{\"b\":[{}]}"] := by
  refine ⟨[{ before := gs" ", isObject := true, text := gs"{\"a\": \"${x}\"}" }, { isObject := false, text := gs"1" },
    { isObject := true, text := gs"{\"b\":[{}]}" }], ?_, by simp, rfl, rfl⟩
  have hx : Nested gs"${x}" := .char (by decide) (by decide) (.braces (a := gs"x") (.char (by decide) (by decide) .nil) .nil)
  simp only [List.mem_cons, List.not_mem_nil, or_false]
  rintro i (rfl | rfl | rfl)
  · exact ⟨by simp [Blank], by simp [Blank], object_text (k := gs"a") (by simp) (nested_plain (by simp))
      (.space (a := gs" ") (b := []) (by simp [Blank]) (by simp [Blank]) (.str (s := gs"${x}") (quoted_plain (by simp)) hx))⟩
  · exact ⟨by simp [Blank], by simp [Blank], .atom (by simp), by simp⟩
  · exact ⟨by simp [Blank], by simp [Blank], object_text (k := gs"b") (by simp) (nested_plain (by simp))
      (.arr (l := [gs"{}"]) (by simp only [List.mem_singleton, forall_eq]; exact .obj (l := []) (by simp) (by simp)))⟩

/-- Violation of C58: a closing brace in a string cuts the object off and hides the next one. -/
theorem C58_violated_string : ∃ l : List Item, (∀ i ∈ l, i.Ok fun _ => True) ∧ objects l = [gs"{\"a\":\"}\"}", gs"{\"b\":1}"] ∧
    getArrayOfJsonsFromInterfaceArray (listText l) = some [gs"{\"a\":\"}"] := by
  refine ⟨[{ isObject := true, text := gs"{\"a\":\"}\"}" }, { isObject := true, text := gs"{\"b\":1}" }], ?_, rfl, by decide +kernel⟩
  simp only [List.mem_cons, List.not_mem_nil, or_false]
  rintro i (rfl | rfl)
  · exact ⟨by simp [Blank], by simp [Blank], object_text (k := gs"a") (by simp) trivial (.str (s := gs"}") (quoted_plain (by simp)) trivial)⟩
  · exact ⟨by simp [Blank], by simp [Blank], object_text (k := gs"b") (by simp) trivial (.atom (s := gs"1") (by simp))⟩

/-- Violation of C58: an object inside of a list in the list is returned, and so is text in braces in a string. -/
theorem C58_violated_inner : ∃ l : List Item, (∀ i ∈ l, i.Ok fun _ => True) ∧ objects l = [] ∧
    getArrayOfJsonsFromInterfaceArray (listText l) = some [gs"{\"b\":1}", gs"{x}"] := by
  refine ⟨[{ isObject := false, text := gs"[{\"b\":1}]" }, { isObject := false, text := gs"\"{x}\"" }], ?_, rfl, by decide +kernel⟩
  simp only [List.mem_cons, List.not_mem_nil, or_false]
  rintro i (rfl | rfl)
  · refine ⟨by simp [Blank], by simp [Blank], .arr (l := [gs"{\"b\":1}"]) ?_, by simp⟩
    simp only [List.mem_singleton, forall_eq]
    exact .obj (l := [(gs"\"b\"", gs"1")]) (by simp only [List.mem_singleton, forall_eq]; exact key_text (k := gs"b") (quoted_plain (by simp)) trivial)
      (by simp only [List.mem_singleton, forall_eq]; exact .atom (by simp))
  · exact ⟨by simp [Blank], by simp [Blank], .str (s := gs"{x}") (quoted_plain (by simp)) trivial, by simp⟩

set_option maxRecDepth 20000 in
/-- What the first violation means for rules: a rule with ANY finds the element in the parsed document, but not in its text. -/
theorem C58_violated_rule : ∃ (r : RuleObj) (text : Str) (doc : Json) (o o' : RuleOut), Demo.env.jsonUnmarshal text = some doc ∧
    r.check Demo.env {} [] { rawI := some doc } = .ok o ∧ r.check Demo.env {} [] { jsonRaw := some text } = .ok o' ∧
    o.result = 3 ∧ o'.result = 0 := by
  obtain ⟨o, h1, h2⟩ : ∃ o, (Demo.rule gs"block" (some (Demo.anyOf gs"jsonpath:$.c" (Demo.cond gs"jsonpath:$RELATIVE.n" gs"EQ" gs"x")))).check Demo.env {} []
      { rawI := some (.obj [(gs"c", .arr [.obj [(gs"n", .str gs"}")], .obj [(gs"n", .str gs"x")]])]) } = .ok o ∧ o.result = 3 := ⟨_, rfl, by decide +kernel⟩
  obtain ⟨o', h3, h4⟩ : ∃ o, (Demo.rule gs"block" (some (Demo.anyOf gs"jsonpath:$.c" (Demo.cond gs"jsonpath:$RELATIVE.n" gs"EQ" gs"x")))).check Demo.env {} []
      { jsonRaw := some gs"{\"c\":[{\"n\":\"}\"},{\"n\":\"x\"}]}" } = .ok o ∧ o.result = 0 := ⟨_, rfl, by decide +kernel⟩
  exact ⟨_, _, _, o, o', by with_unfolding_all rfl, h1, h3, h2, h4⟩

end Mapl.Props

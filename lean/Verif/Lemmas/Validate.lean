import Verif.Spec.Validate
import Verif.Lemmas.Go
import Verif.Lemmas.Ints
import Verif.Lemmas.Net
import Verif.Lemmas.Regex
import Verif.Model.Load

/-! # Validation and conversion of conditions -/

namespace Mapl

open Spec

theorem failIf_ok {p : Prop} [Decidable p] {e : Err} {u : Unit} : failIf p e = .ok u ↔ ¬ p := by
  unfold failIf; split <;> simp [*]

theorem given_ok {p : Prop} [Decidable p] {x : Go Unit} {u : Unit} : given p x = .ok u ↔ (p → x = .ok ()) := by
  unfold given; split <;> simp [*]

theorem bind_unit_ok {α : Type} {x : Go Unit} {f : Unit → Go α} {r : α} : (x >>= f) = .ok r ↔ x = .ok () ∧ f () = .ok r := by
  rw [Go.bind_eq_ok]
  exact ⟨fun ⟨(), h1, h2⟩ => ⟨h1, h2⟩, fun ⟨h1, h2⟩ => ⟨(), h1, h2⟩⟩

/-- No panic. -/
def NoPanic {α : Type} (x : Go α) : Prop := ∀ p, x ≠ .error (.panic p)

theorem noPanic_ok {α : Type} (a : α) : NoPanic (.ok a : Go α) := by intro p; simp

theorem noPanic_pure {α : Type} (a : α) : NoPanic (pure a : Go α) := by intro p; simp

theorem noPanic_err {α : Type} (e : Err) : NoPanic (.error (.err e) : Go α) := by intro p; simp

theorem noPanic_bind {α β : Type} {x : Go α} {f : α → Go β} (hx : NoPanic x) (hf : ∀ a, x = .ok a → NoPanic (f a)) :
    NoPanic (x >>= f) := by
  intro p h
  rcases Go.bind_eq_error.1 h with h | ⟨a, ha, h⟩
  · exact hx p h
  · exact hf a ha p h

theorem noPanic_failIf {p : Prop} [Decidable p] (e : Err) : NoPanic (failIf p e) := by
  unfold failIf; split
  · exact noPanic_err _
  · exact noPanic_ok _

theorem noPanic_given {p : Prop} [Decidable p] {x : Go Unit} (h : p → NoPanic x) : NoPanic (given p x) := by
  unfold given; split
  · exact h ‹_›
  · exact noPanic_ok _

theorem hasPrefix_iff {s p : Str} : hasPrefix s p = true ↔ ∃ t, s = p ++ t := by
  unfold hasPrefix
  rw [List.isPrefixOf_iff_prefix]
  exact ⟨fun ⟨t, h⟩ => ⟨t, h.symm⟩, fun ⟨t, h⟩ => ⟨t, h.symm⟩⟩

theorem hasPrefix_false {s p : Str} : hasPrefix s p = false ↔ ¬ ∃ t, s = p ++ t := by
  rw [← hasPrefix_iff]; simp

theorem index_some {sub : Str} : ∀ {s : Str} {i : Nat}, index sub s = some i → ∃ a b, s = a ++ sub ++ b ∧ a.length = i
  | [], i, h => by
    unfold index at h
    split at h
    · next hp =>
      simp at h; subst h
      rw [List.isPrefixOf_iff_prefix, List.prefix_nil] at hp
      exact ⟨[], [], by simp [hp], rfl⟩
    · simp at h
  | c :: s, i, h => by
    unfold index at h
    split at h
    · next hp =>
      simp at h; subst h
      rw [List.isPrefixOf_iff_prefix] at hp
      obtain ⟨t, ht⟩ := hp
      exact ⟨[], t, by simp [ht], rfl⟩
    · simp only [Option.map_eq_some_iff] at h
      obtain ⟨j, hj, rfl⟩ := h
      obtain ⟨a, b, rfl, rfl⟩ := index_some hj
      exact ⟨c :: a, b, by simp, by simp⟩

theorem index_isSome {sub : Str} : ∀ (a b : Str), (index sub (a ++ sub ++ b)).isSome
  | [], b => by
    cases hs : sub ++ b with
    | nil =>
      simp at hs
      simp [hs, index]
    | cons c s =>
      have : sub.isPrefixOf (c :: s) = true := by
        rw [List.isPrefixOf_iff_prefix, ← hs]; exact List.prefix_append _ _
      rw [List.nil_append, hs, index, if_pos this]; rfl
  | c :: a, b => by
    have := index_isSome (sub := sub) a b
    rw [List.cons_append, List.cons_append]
    unfold index
    split
    · rfl
    · rw [Option.isSome_map]; exact this

theorem contains_iff {s sub : Str} : contains s sub = true ↔ ∃ a b, s = a ++ sub ++ b := by
  unfold contains
  constructor
  · intro h
    rw [Option.isSome_iff_exists] at h
    obtain ⟨i, hi⟩ := h
    obtain ⟨a, b, h, _⟩ := index_some hi
    exact ⟨a, b, h⟩
  · rintro ⟨a, b, rfl⟩; exact index_isSome a b

/-! ## Brackets -/

theorem split_at {c : Char} : ∀ {x : Str}, c ∈ x → ∃ a b, x = a ++ c :: b ∧ c ∉ a
  | d :: x, h => by
    by_cases hd : d = c
    · exact ⟨[], x, by simp [hd], by simp⟩
    · have : c ∈ x := by simpa [Ne.symm hd] using h
      obtain ⟨a, b, rfl, ha⟩ := split_at this
      exact ⟨d :: a, b, rfl, by simp [Ne.symm hd, ha]⟩

theorem badBracket_false {x : Str} : badBracket x = false ↔ ∃ a, ']' ∉ a ∧ x = a ++ gs"]" := by
  unfold badBracket
  by_cases h : ']' ∈ x
  · obtain ⟨a, b, rfl, ha⟩ := split_at h
    rw [index_append ha]
    simp only [decide_eq_false_iff_not]
    constructor
    · intro hl
      have : b = [] := List.eq_nil_of_length_eq_zero (by simp at hl; simpa using hl)
      exact ⟨a, ha, by simp [this]⟩
    · rintro ⟨a', ha', he⟩
      have : b = [] := by
        rcases List.append_eq_append_iff.1 he with ⟨k, h1, h2⟩ | ⟨k, h1, h2⟩
        · cases k with
          | nil => simpa using h2
          | cons d k => simp at h2; subst h1; rw [h2.1] at ha'; simp at ha'
        · cases k with
          | nil => simpa using h2.symm
          | cons d k => simp at h2
      simp [this]
  · rw [index_absent h]
    simp only [Bool.true_eq_false, false_iff]
    rintro ⟨a, _, rfl⟩
    simp at h

theorem badBracket_iff {word x : Str} (hw : ∃ r, x = word ++ gs"[" ++ r) (hc : ']' ∉ word) :
    badBracket x = false ↔ Bracketed word x := by
  rw [badBracket_false]
  unfold Bracketed
  constructor
  · rintro ⟨a, ha, rfl⟩
    obtain ⟨r, hr⟩ := hw
    rcases List.append_eq_append_iff.1 hr with ⟨k, h1, h2⟩ | ⟨k, h1, h2⟩
    · cases k with
      | nil =>
        simp at h1
        exact ⟨[], by simp, by simp [h1]⟩
      | cons d k =>
        simp at h2
        have : ']' ∈ word ++ gs"[" := by rw [h1, h2.1]; simp
        simp [hc] at this
    · subst h1
      exact ⟨k, fun h => ha (by simp [h]), by simp⟩
  · rintro ⟨k, hk, rfl⟩
    exact ⟨word ++ gs"[" ++ k, by simp [hk, hc], by simp⟩

/-- What `validateArraysAux` checks, seen from a position with the last opening bracket at `start`. -/
theorem validateArraysAux_spec (att : Str) : ∀ (pre cs : Str) (start : Nat), att = pre ++ cs →
    (∀ a b, pre ++ cs ≠ a ++ gs"[]" ++ b) →
    (∃ p x, pre = p ++ gs"[" ++ x ∧ '[' ∉ x ∧ p.length = start) →
    ∃ b, validateArraysAux att pre.length start cs = .ok b ∧ (b = true ↔ ∀ a d, cs = a ++ gs"]" ++ d →
      ∃ p x, pre ++ a = p ++ gs"[" ++ x ∧ '[' ∉ x ∧ IndexOk x)
  | pre, [], start, _, _, _ => ⟨true, rfl, by simp⟩
  | pre, c :: cs, start, hatt, hne, ⟨p, x, hp, hx, hs⟩ => by
    have hatt' : att = (pre ++ [c]) ++ cs := by simp [hatt]
    have hne' : ∀ a b, (pre ++ [c]) ++ cs ≠ a ++ gs"[]" ++ b := by simpa using hne
    unfold validateArraysAux
    by_cases h1 : c = '['
    · subst h1
      simp only [if_pos trivial, show ('[' = ']') = False by simp, if_false]
      obtain ⟨b, hb, hiff⟩ := validateArraysAux_spec att (pre ++ ['[']) cs pre.length hatt' hne' ⟨pre, [], by simp, by simp, rfl⟩
      simp only [List.length_append, List.length_singleton] at hb
      refine ⟨b, hb, hiff.trans ⟨fun h a d hd => ?_, fun h a d hd => ?_⟩⟩
      · cases a with
        | nil => simp at hd
        | cons e a =>
          simp at hd
          obtain ⟨rfl, hd⟩ := hd
          simpa using h a d (by simp [hd])
      · simpa using h ('[' :: a) d (by simp [hd])
    · simp only [h1, if_false]
      have hpre' : ∃ p x, pre ++ [c] = p ++ gs"[" ++ x ∧ '[' ∉ x ∧ p.length = start :=
        ⟨p, x ++ [c], by simp [hp], by simp [hx, Ne.symm h1], hs⟩
      obtain ⟨b, hb, hiff⟩ := validateArraysAux_spec att (pre ++ [c]) cs start hatt' hne' hpre'
      simp only [List.length_append, List.length_singleton] at hb
      by_cases h2 : c = ']'
      · subst h2
        simp only [if_pos trivial]
        have hlen : pre.length = start + 1 + x.length := by rw [hp]; simp [hs]; omega
        rw [if_neg (by omega)]
        have hin : (att.take pre.length).drop (start + 1) = x := by
          rw [hatt, List.take_left', hp, List.drop_left']
          · simp [hs]
          · rfl
        rw [hin]
        have hx0 : x ≠ [] := by
          rintro rfl
          exact hne p cs (by simp [hp])
        have key : IndexOk x → ((∀ a d, cs = a ++ gs"]" ++ d → ∃ p x, pre ++ gs"]" ++ a = p ++ gs"[" ++ x ∧ '[' ∉ x ∧ IndexOk x) ↔
            ∀ a d, ']' :: cs = a ++ gs"]" ++ d → ∃ p x, pre ++ a = p ++ gs"[" ++ x ∧ '[' ∉ x ∧ IndexOk x) := by
          intro hi
          constructor
          · intro h a d hd
            cases a with
            | nil => exact ⟨p, x, by simpa using hp, hx, hi⟩
            | cons e a =>
              simp at hd
              obtain ⟨rfl, hd⟩ := hd
              simpa using h a d (by simp [hd])
          · intro h a d hd
            simpa using h (']' :: a) d (by simp [hd])
        have no : ¬ IndexOk x → ¬ ∀ a d, ']' :: cs = a ++ gs"]" ++ d → ∃ p x, pre ++ a = p ++ gs"[" ++ x ∧ '[' ∉ x ∧ IndexOk x := by
          intro hi h
          obtain ⟨p', x', he, hx', hi'⟩ := h [] cs (by simp)
          have : x = x' := by
            rw [hp] at he
            simp only [List.append_nil, List.append_assoc] at he
            rcases List.append_eq_append_iff.1 he with ⟨k, h1, h2⟩ | ⟨k, h1, h2⟩
            · cases k with
              | nil => simpa using h2
              | cons d k =>
                simp at h2
                exact absurd (by rw [h2.2]; simp) hx
            · cases k with
              | nil => simpa using h2.symm
              | cons d k =>
                simp at h2
                exact absurd (by rw [h2.2]; simp) hx'
          exact hi (this ▸ hi')
        match hh : x.head?, hl : x.getLast? with
        | none, _ => simp at hh; exact absurd hh hx0
        | some _, none => simp at hl; exact absurd hl hx0
        | some u, some z =>
          simp only []
          by_cases q1 : u = '"' ∧ z = '"'
          · rw [if_pos q1]
            exact ⟨b, hb, hiff.trans (key (.inl ⟨by rw [hh, q1.1], by rw [hl, q1.2]⟩))⟩
          rw [if_neg q1]
          by_cases q2 : u = '\'' ∧ z = '\''
          · rw [if_pos q2]
            exact ⟨b, hb, hiff.trans (key (.inr (.inl ⟨by rw [hh, q2.1], by rw [hl, q2.2]⟩)))⟩
          rw [if_neg q2]
          have hnot : ¬ (∃ n : Int, 0 ≤ n ∧ IntText x n) → ¬ IndexOk x := by
            rintro hn (⟨h1, h2⟩ | ⟨h1, h2⟩ | h3)
            · rw [hh] at h1; rw [hl] at h2; simp at h1 h2; exact q1 ⟨h1, h2⟩
            · rw [hh] at h1; rw [hl] at h2; simp at h1 h2; exact q2 ⟨h1, h2⟩
            · exact hn h3
          match hpi : parseInt x with
          | none =>
            refine ⟨false, rfl, ?_⟩
            simp only [Bool.false_eq_true, false_iff]
            exact no (hnot (by rintro ⟨n, _, h⟩; rw [intText_iff, hpi] at h; simp at h))
          | some n =>
            simp only []
            by_cases hn : n < 0
            · rw [if_pos hn]
              refine ⟨false, rfl, ?_⟩
              simp only [Bool.false_eq_true, false_iff]
              exact no (hnot (by rintro ⟨k, hk, h⟩; rw [intText_iff, hpi] at h; simp at h; omega))
            · rw [if_neg hn]
              exact ⟨b, hb, hiff.trans (key (.inr (.inr ⟨n, by omega, intText_iff.2 hpi⟩)))⟩
      · rw [if_neg h2]
        refine ⟨b, hb, hiff.trans ⟨fun h a d hd => ?_, fun h a d hd => ?_⟩⟩
        · cases a with
          | nil => simp at hd; exact absurd hd.1 h2
          | cons e a =>
            simp at hd
            obtain ⟨rfl, hd⟩ := hd
            simpa using h a d (by simp [hd])
        · simpa using h (c :: a) d (by simp [hd])

theorem parseInt_letter {x : Str} : parseInt ('s' :: x) = none := rfl

/-- Before the first opening bracket. -/
theorem validateArrays_before (q : Str) : ∀ (pre cs : Str), q = pre ++ cs → '[' ∉ pre →
    (∀ a b, q ≠ a ++ gs"[]" ++ b) →
    ∃ b, validateArraysAux (gs"jsonpath:" ++ q) (9 + pre.length) 0 cs = .ok b ∧ (b = true ↔ ∀ a d, cs = a ++ gs"]" ++ d →
      ∃ p x, pre ++ a = p ++ gs"[" ++ x ∧ '[' ∉ x ∧ IndexOk x)
  | pre, [], _, _, _ => ⟨true, rfl, by simp⟩
  | pre, c :: cs, hq, hpre, hne => by
    unfold validateArraysAux
    by_cases h1 : c = '['
    · subst h1
      simp only [if_pos trivial, show ('[' = ']') = False by simp, if_false]
      have hn : ∀ a b, gs"jsonpath:" ++ pre ++ ['['] ++ cs ≠ a ++ gs"[]" ++ b := by
        intro a b h
        have : contains (gs"jsonpath:" ++ (pre ++ '[' :: cs)) gs"[]" = true := contains_iff.2 ⟨a, b, by simpa using h⟩
        simp [contains, index] at this
        rw [Option.isSome_iff_exists] at this
        obtain ⟨i, hi⟩ := this
        obtain ⟨a, b, h, _⟩ := index_some hi
        exact hne a b (hq.trans h)
      obtain ⟨b, hb, hiff⟩ := validateArraysAux_spec (gs"jsonpath:" ++ q) (gs"jsonpath:" ++ pre ++ ['[']) cs (9 + pre.length)
        (by simp [hq]) hn ⟨gs"jsonpath:" ++ pre, [], by simp, by simp, by simp; omega⟩
      have hl : List.length (gs"jsonpath:" ++ pre ++ ['[']) = 9 + pre.length + 1 := by simp; omega
      rw [hl] at hb
      refine ⟨b, hb, hiff.trans ⟨fun h a d hd => ?_, fun h a d hd => ?_⟩⟩
      · cases a with
        | nil => simp at hd
        | cons e a =>
          simp at hd
          obtain ⟨rfl, hd⟩ := hd
          obtain ⟨p, x, hp, hx⟩ := h a d (by simp [hd])
          simp only [List.append_assoc] at hp
          rcases List.append_eq_append_iff.1 hp with ⟨k, e1, e2⟩ | ⟨k, e1, e2⟩
          · exact ⟨k, x, by simpa using e2, hx⟩
          · cases k with
            | nil => exact ⟨[], x, by simpa using e2.symm, hx⟩
            | cons d k =>
              simp only [List.cons_append, List.nil_append, List.cons.injEq] at e2
              have : '[' ∈ gs"jsonpath:" := by rw [e1, ← e2.1]; simp
              simp at this
      · obtain ⟨p, x, hp, hx⟩ := h ('[' :: a) d (by simp [hd])
        exact ⟨gs"jsonpath:" ++ p, x, by simp at hp; simp [hp], hx⟩
    · simp only [h1, if_false]
      obtain ⟨b, hb, hiff⟩ := validateArrays_before q (pre ++ [c]) cs (by simp [hq]) (by simp [hpre, Ne.symm h1]) hne
      simp only [List.length_append, List.length_singleton] at hb
      by_cases h2 : c = ']'
      · subst h2
        simp only [if_pos trivial]
        rw [if_neg (by omega)]
        have hin : ((gs"jsonpath:" ++ q).take (9 + pre.length)).drop (0 + 1) = gs"sonpath:" ++ pre := by
          have : (gs"jsonpath:" ++ q).take (9 + pre.length) = gs"jsonpath:" ++ pre := by
            rw [hq, ← List.append_assoc, List.take_left']
            simp; omega
          rw [this]; rfl
        rw [hin]
        have hl : ∃ z, List.getLast? (gs"sonpath:" ++ pre) = some z := by
          cases h : List.getLast? (gs"sonpath:" ++ pre) with
          | none => rw [List.getLast?_eq_none_iff] at h; simp at h
          | some z => exact ⟨z, rfl⟩
        obtain ⟨z, hz⟩ := hl
        rw [hz]
        simp only [List.cons_append, List.head?_cons, parseInt_letter]
        refine ⟨false, by simp, ?_⟩
        simp only [Bool.false_eq_true, false_iff]
        intro h
        obtain ⟨p, x, hp, _⟩ := h [] cs (by simp)
        simp at hp
        rw [hp] at hpre
        simp at hpre
      · rw [if_neg h2]
        refine ⟨b, hb, hiff.trans ⟨fun h a d hd => ?_, fun h a d hd => ?_⟩⟩
        · cases a with
          | nil => simp at hd; exact absurd hd.1 h2
          | cons e a =>
            simp at hd
            obtain ⟨rfl, hd⟩ := hd
            simpa using h a d (by simp [hd])
        · simpa using h (c :: a) d (by simp [hd])

theorem validateArrays_iff {q : Str} (hne : ∀ a b, q ≠ a ++ gs"[]" ++ b) :
    ∃ b, validateArraysWithIndex (gs"jsonpath:" ++ q) = .ok b ∧ (b = true ↔ BracketsOk q) := by
  obtain ⟨b, hb, hiff⟩ := validateArrays_before q [] q (by simp) (by simp) hne
  refine ⟨b, ?_, by simpa [BracketsOk] using hiff⟩
  rw [← hb]
  rfl

/-! ## The attribute -/

theorem contains_jsonpath {q sub : Str} (h : sub.head? = some '[') :
    contains (gs"jsonpath:" ++ q) sub = true ↔ ∃ a b, q = a ++ sub ++ b := by
  cases sub with
  | nil => simp at h
  | cons d sub =>
    simp at h
    subst h
    rw [← contains_iff]
    simp [contains, index]

theorem validateJsonpathAttr_iff {a : Str} : validateJsonpathAttr a = .ok () ↔ ∀ q, a = gs"jsonpath:" ++ q → PathOk q := by
  have cut : ∀ (p : Str) {q : Str}, hasPrefix (gs"jsonpath:" ++ q)
      ('j' :: 's' :: 'o' :: 'n' :: 'p' :: 'a' :: 't' :: 'h' :: ':' :: p) = hasPrefix q p := fun p q => by
    simp [hasPrefix, List.isPrefixOf]
  unfold validateJsonpathAttr
  rw [given_ok, hasPrefix_iff]
  simp only [bind_unit_ok, failIf_ok]
  constructor
  · rintro h q rfl
    obtain ⟨h1, h2, h3, h4, h5, h6⟩ := h ⟨q, rfl⟩
    rw [contains_jsonpath (by simp)] at h4 h5
    obtain ⟨b, hb, hiff⟩ := validateArrays_iff (q := q) fun a b h => h5 ⟨a, b, h⟩
    rw [hb, Go.ok_bind, failIf_ok] at h6
    refine ⟨?_, ?_, h4, h5, hiff.1 (by simpa using h6)⟩
    · rw [cut gs"$", cut gs"."] at h1
      rw [cut gs"$", cut gs"$."] at h2
      simp only [sliceHasPrefix, List.any_cons, List.any_nil, cut gs"$RELATIVE.", cut gs"$KEY", cut gs"$VALUE",
        Bool.or_eq_true, Bool.or_false, hasPrefix_iff, ne_eq] at h1 h2
      by_cases d : ∃ t, q = gs"$" ++ t
      · by_cases e : ∃ t, q = gs"$." ++ t
        · exact .inr (.inl e)
        · have h2 := fun hh => h2 ⟨d, e, hh⟩
          by_contra hc
          simp only [not_or] at hc
          apply h2
          refine ⟨?_, ?_⟩
          · rintro (hh | hh | hh)
            · exact hc.2.2.1 hh
            · exact hc.2.2.2.1 hh
            · exact hc.2.2.2.2.1 hh
          · intro hh
            exact hc.2.2.2.2.2 (by simpa using hh)
      · left
        by_contra hc
        exact h1 ⟨d, hc⟩
    · rw [cut gs"$KEY.", hasPrefix_iff] at h3
      exact h3
  · rintro h ⟨q, rfl⟩
    obtain ⟨h1, h2, h4, h5, h6⟩ := h q rfl
    obtain ⟨b, hb, hiff⟩ := validateArrays_iff (q := q) fun a b h => h5 ⟨a, b, h⟩
    rw [contains_jsonpath (by simp), contains_jsonpath (by simp)]
    refine ⟨?_, ?_, ?_, h4, h5, ?_⟩
    · rw [cut gs"$", cut gs".", hasPrefix_iff, hasPrefix_iff]
      rintro ⟨a1, a2⟩
      rcases h1 with ⟨r, rfl⟩ | ⟨r, rfl⟩ | ⟨r, rfl⟩ | ⟨r, rfl⟩ | ⟨r, rfl⟩ | rfl
      · exact a2 ⟨r, rfl⟩
      all_goals exact a1 ⟨_, rfl⟩
    · rw [cut gs"$", cut gs"$."]
      simp only [sliceHasPrefix, List.any_cons, List.any_nil, cut gs"$RELATIVE.", cut gs"$KEY", cut gs"$VALUE",
        Bool.or_eq_true, Bool.or_false, hasPrefix_iff, ne_eq]
      rintro ⟨a1, a2, a3, a4⟩
      rcases h1 with ⟨r, rfl⟩ | h1 | h1 | h1 | h1 | rfl
      · obtain ⟨t, ht⟩ := a1; simp at ht
      · exact a2 h1
      · exact a3 (.inl h1)
      · exact a3 (.inr (.inl h1))
      · exact a3 (.inr (.inr h1))
      · exact a4 rfl
    · rw [cut gs"$KEY.", hasPrefix_iff]
      exact h2
    · rw [hb, Go.ok_bind, failIf_ok, hiff.2 h6]; simp

theorem numberMethods_iff {m : Str} : m ∈ numberMethods ↔ m ∈ orderMethods := by
  simp only [numberMethods, orderMethods, List.mem_cons, List.not_mem_nil, or_false]
  tauto

theorem regexMethods_iff {m : Str} : m ∈ regexMethods ↔ m ∈ patternMethods := by
  simp only [regexMethods, patternMethods, List.mem_cons, List.not_mem_nil, or_false]
  tauto

theorem supportedMethods_iff {m : Str} : m ∈ supportedMethods ↔ m ∈ allMethods := by
  have : ∀ l l' : List Str, (∀ x ∈ l, x ∈ l') → (∀ x ∈ l', x ∈ l) → ∀ m, m ∈ l ↔ m ∈ l' := fun l l' h h' m => ⟨h m, h' m⟩
  exact this _ _ (by decide) (by decide) m

theorem versionMethods_iff {m : Str} : m ∈ encryptionVersionMethods ↔ (m ∈ orderMethods ∨ m = gs"EQ" ∨ m = gs"eq") := by
  simp only [encryptionVersionMethods, orderMethods, List.mem_cons, List.not_mem_nil, or_false]
  tauto

theorem inListRegex_eq (v : Str) : inListRegex v = listPattern v := by
  unfold inListRegex listPattern
  simp only [replaceAll_single]
  congr 2
  induction v with
  | nil => rfl
  | cons c v ih =>
    by_cases h1 : c = '['
    · subst h1; simp [ih]
    by_cases h2 : c = ']'
    · subst h2; simp [ih]
    simp [h1, h2, ih]

/-- The part of `ValueOk` that is checked with the attribute. -/
def LabelValueOk (v : Str) : Prop := (∃ r, v = gs"receiverLabel[" ++ r) → Bracketed gs"receiverLabel" v

theorem labelPrefix {word a : Str} : (∃ t, a = (word ++ gs"[") ++ t) ↔ ∃ r, a = word ++ gs"[" ++ r := Iff.rfl

theorem validateAttribute_iff {c : Condition} :
    validateAttribute c = .ok () ↔ AttributeOk c.attr c.method ∧ LabelValueOk c.value := by
  have hb1 : ∀ {x}, (∃ r, x = gs"senderLabel[" ++ r) → (badBracket x = false ↔ Bracketed gs"senderLabel" x) := fun h =>
    badBracket_iff (word := gs"senderLabel") (by obtain ⟨r, rfl⟩ := h; exact ⟨r, rfl⟩) (by decide)
  have hb2 : ∀ {x}, (∃ r, x = gs"receiverLabel[" ++ r) → (badBracket x = false ↔ Bracketed gs"receiverLabel" x) := fun h =>
    badBracket_iff (word := gs"receiverLabel") (by obtain ⟨r, rfl⟩ := h; exact ⟨r, rfl⟩) (by decide)
  unfold validateAttribute validateConditionOnLabels validateConditionOnSenderReceiverAttributes
  simp only [bind_unit_ok, failIf_ok, given_ok]
  simp only [validateJsonpathAttr_iff, hasPrefix_iff, numberMethods_iff, versionMethods_iff,
    not_not, Bool.not_eq_true, sliceHasPrefix, supportedAttrPrefixes, List.any_cons, List.any_nil, Bool.or_eq_true, Bool.or_false]
  constructor
  · rintro ⟨h0, h1, h2, ⟨h3, h4, h5⟩, h6, h7⟩
    refine ⟨?_, fun h => (hb2 h).1 (h5 h)⟩
    rcases h0 with h0 | ⟨x, h0⟩ | ⟨x, h0⟩ | h0 | h0 | ⟨x, h0⟩
    · by_cases hv : c.attr = gs"encryptionVersion"
      · rw [hv]; exact .version (h1 hv)
      · exact .simple h0 hv
    · rw [h0]; exact .senderField (h6 ⟨x, h0⟩)
    · rw [h0]; exact .receiverField (h7 ⟨x, h0⟩)
    · exact .senderLabel ((hb1 h0).1 (h3 h0).1) (h3 h0).2
    · exact .receiverLabel ((hb2 h0).1 (h4 h0).1) (h4 h0).2
    · rw [h0]; exact .path (h2 x h0)
  · rintro ⟨ha, hl⟩
    have h5 : (∃ t, c.value = gs"receiverLabel[" ++ t) → badBracket c.value = false := fun h => (hb2 h).2 (hl h)
    generalize hca : c.attr = a at ha ⊢
    generalize hcm : c.method = m at ha ⊢
    clear hca hcm hl
    cases ha with
    | simple h hv =>
      refine ⟨.inl h, fun he => absurd he hv, ?_⟩
      simp only [simpleAttributes, List.mem_cons, List.not_mem_nil, or_false] at h
      refine ⟨fun q hq => ?_, ⟨fun hq => ?_, fun hq => ?_, h5⟩, fun hq => ?_, fun hq => ?_⟩
      · rcases h with rfl | rfl | rfl | rfl | rfl | rfl | rfl | rfl | rfl | rfl <;> simp at hq
      all_goals
        obtain ⟨t, hq⟩ := hq
        rcases h with rfl | rfl | rfl | rfl | rfl | rfl | rfl | rfl | rfl | rfl <;> simp at hq
    | version h =>
      refine ⟨.inl (by decide), fun _ => h, ?_⟩
      refine ⟨fun q hq => ?_, ⟨fun hq => ?_, fun hq => ?_, h5⟩, fun hq => ?_, fun hq => ?_⟩
      · simp at hq
      all_goals
        obtain ⟨t, hq⟩ := hq
        simp at hq
    | senderField h =>
      refine ⟨.inr (.inl ⟨_, rfl⟩), fun he => by simp at he, ?_⟩
      refine ⟨fun q hq => ?_, ⟨fun hq => ?_, fun hq => ?_, h5⟩, fun hq => h, fun hq => h⟩
      · simp at hq
      all_goals
        obtain ⟨t, hq⟩ := hq
        simp at hq
    | receiverField h =>
      refine ⟨.inr (.inr (.inl ⟨_, rfl⟩)), fun he => by simp at he, ?_⟩
      refine ⟨fun q hq => ?_, ⟨fun hq => ?_, fun hq => ?_, h5⟩, fun hq => h, fun hq => h⟩
      · simp at hq
      all_goals
        obtain ⟨t, hq⟩ := hq
        simp at hq
    | senderLabel ha h =>
      have hp : ∃ t, a = gs"senderLabel[" ++ t := by
        obtain ⟨k, _, rfl⟩ := ha
        exact ⟨k ++ gs"]", by simp⟩
      refine ⟨.inr (.inr (.inr (.inl hp))), fun he => ?_, fun q hq => ?_, ⟨fun _ => ⟨(hb1 hp).2 ha, h⟩, fun hq => ?_, h5⟩,
        fun hq => h, fun hq => h⟩
      all_goals obtain ⟨t, rfl⟩ := hp
      · simp at he
      · simp at hq
      · obtain ⟨t, hq⟩ := hq
        simp at hq
    | receiverLabel ha h =>
      have hp : ∃ t, a = gs"receiverLabel[" ++ t := by
        obtain ⟨k, _, rfl⟩ := ha
        exact ⟨k ++ gs"]", by simp⟩
      refine ⟨.inr (.inr (.inr (.inr (.inl hp)))), fun he => ?_, fun q hq => ?_, ⟨fun hq => ?_, fun _ => ⟨(hb2 hp).2 ha, h⟩, h5⟩,
        fun hq => h, fun hq => h⟩
      all_goals obtain ⟨t, rfl⟩ := hp
      · simp at he
      · simp at hq
      · obtain ⟨t, hq⟩ := hq
        simp at hq
    | @path q _ h =>
      refine ⟨.inr (.inr (.inr (.inr (.inr ⟨_, rfl⟩)))), fun he => by simp at he, ?_⟩
      refine ⟨fun q' hq => ?_, ⟨fun hq => ?_, fun hq => ?_, h5⟩, fun hq => ?_, fun hq => ?_⟩
      · have : q = q' := List.append_cancel_left hq
        exact this ▸ h
      all_goals
        obtain ⟨t, hq⟩ := hq
        simp at hq

theorem validateMethod_iff {env : Ext} {c : Condition} : validateMethod env c = .ok () ↔
    c.method ∈ allMethods ∧ (c.method = gs"IN" ∨ c.method = gs"NIN" → c.value ≠ [] ∧ env.reOk (listPattern c.value) = true) := by
  unfold validateMethod
  simp only [bind_unit_ok, failIf_ok, given_ok]
  simp only [not_not, supportedMethods_iff, inListRegex_eq, ne_eq]

theorem validateOneCondition_iff {env : Ext} {c c' : Condition} :
    validateOneCondition env c = .ok c' ↔ Acceptable env c.attr c.method c.value ∧ c' = setNumbers env c := by
  unfold validateOneCondition
  simp only [bind_unit_ok, validateAttribute_iff, validateMethod_iff]
  unfold convertAndValidateNumericalValues
  simp only [numberMethods_iff, regexMethods_iff]
  constructor
  · rintro ⟨⟨ha, hl⟩, ⟨hm, hi⟩, h⟩
    refine ite_elim h (fun _ h => by simp at h) fun h1 h => ite_elim h (fun _ h => by simp at h) fun h2 h => ?_
    simp at h
    refine ⟨⟨ha, hm, ⟨fun ho => ?_, fun hp => ?_, hi, hl⟩⟩, h.symm⟩
    · by_contra hc
      simp only [not_or] at hc
      apply h1
      refine ⟨?_, ho⟩
      simp only [Bool.or_eq_true, Option.isSome_iff_exists]
      rintro (h | h)
      · exact hc.1 h
      · exact hc.2 (h.imp fun _ => intText_iff.2)
    · by_contra hc
      exact h2 ⟨hc, hp⟩
  · rintro ⟨⟨ha, hm, ⟨hn, hp, hi, hl⟩⟩, rfl⟩
    refine ⟨⟨ha, hl⟩, ⟨hm, hi⟩, ?_⟩
    rw [if_neg, if_neg]
    · rintro ⟨h1, h2⟩; exact h1 (hp h2)
    · rintro ⟨h1, h2⟩
      apply h1
      simp only [Bool.or_eq_true, Option.isSome_iff_exists]
      exact (hn h2).imp id fun h => h.imp fun _ => intText_iff.1

/-! ## No panics -/

theorem noPanic_validate (env : Ext) (c : Condition) : NoPanic (validateOneCondition env c) := by
  unfold validateOneCondition
  refine noPanic_bind ?_ fun _ _ => noPanic_bind ?_ fun _ _ => ?_
  · unfold validateAttribute validateConditionOnLabels validateConditionOnSenderReceiverAttributes
    refine noPanic_bind (noPanic_failIf _) fun _ _ => noPanic_bind (noPanic_given fun _ => noPanic_failIf _) fun _ _ =>
      noPanic_bind ?_ fun _ _ => noPanic_bind ?_ fun _ _ => ?_
    · unfold validateJsonpathAttr
      refine noPanic_given fun hp => ?_
      obtain ⟨q, hq⟩ := hasPrefix_iff.1 hp
      rw [hq]
      refine noPanic_bind (noPanic_failIf _) fun _ _ => noPanic_bind (noPanic_failIf _) fun _ _ =>
        noPanic_bind (noPanic_failIf _) fun _ _ => noPanic_bind (noPanic_failIf _) fun _ _ =>
        noPanic_bind (noPanic_failIf _) fun _ h5 => noPanic_bind ?_ fun _ _ => noPanic_failIf _
      rw [failIf_ok, contains_jsonpath (by simp)] at h5
      obtain ⟨b, hb, _⟩ := validateArrays_iff (q := q) fun a b h => h5 ⟨a, b, h⟩
      rw [hb]; exact noPanic_ok _
    · refine noPanic_bind ?_ fun _ _ => noPanic_bind ?_ fun _ _ => ?_
      · exact noPanic_given fun _ => noPanic_bind (noPanic_failIf _) fun _ _ => noPanic_failIf _
      · exact noPanic_given fun _ => noPanic_bind (noPanic_failIf _) fun _ _ => noPanic_failIf _
      · exact noPanic_given fun _ => noPanic_failIf _
    · exact noPanic_bind (noPanic_given fun _ => noPanic_failIf _) fun _ _ => noPanic_given fun _ => noPanic_failIf _
  · unfold validateMethod
    exact noPanic_bind (noPanic_failIf _) fun _ _ => noPanic_given fun _ =>
      noPanic_bind (noPanic_failIf _) fun _ _ => noPanic_failIf _
  · unfold convertAndValidateNumericalValues
    intro p h
    refine ite_elim h (fun _ h => by simp at h) fun _ h => ite_elim h (fun _ h => by simp at h) fun _ h => by simp at h

end Mapl

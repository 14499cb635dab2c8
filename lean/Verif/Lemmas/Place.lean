import Verif.Spec.Place
import Verif.Lemmas.Policy
import Verif.Lemmas.Mongo
import Verif.Lemmas.JsonGrammar
import Verif.Props.Units
import Verif.Props.Split

/-! # Paths, claims and documents -/

namespace Mapl

open Spec

variable {env : Ext}

/-! ## How paths are read -/

/-- The characters of paths. -/
def PathChar (c : Char) : Prop := c.isAlphanum = true ∨ c ∈ gs"_.[]"

theorem pathChar_not {c : Char} (h : PathChar c) : c ≠ '\'' ∧ c ≠ '"' ∧ c ≠ '$' ∧ c ≠ ',' ∧ c ≠ ':' ∧ c ≠ '\\' ∧ 0x20 ≤ c.toNat := by
  rcases h with h | h
  · refine ⟨?_, ?_, ?_, ?_, ?_, ?_, ?_⟩ <;> try (rintro rfl; revert h; decide)
    simp only [Char.isAlphanum, Char.isAlpha, Char.isUpper, Char.isLower, Char.isDigit, Bool.or_eq_true, Bool.and_eq_true, decide_eq_true_eq, ge_iff_le, UInt32.le_iff_toNat_le] at h
    have : c.toNat = c.val.toNat := rfl
    simp at h
    omega
  · simp only [List.mem_cons, List.not_mem_nil, or_false] at h
    rcases h with rfl | rfl | rfl | rfl <;> decide

theorem name_pathChar {n : Str} (h : FieldName n) : ∀ c ∈ n, PathChar c := fun c hc => (h.2.1 c hc).imp id fun e => by subst e; decide

theorem digit_pathChar {c : Char} (h : c.isDigit = true) : PathChar c := .inl (by simp [Char.isAlphanum, h])

theorem step_pathChar {s : Step} (h : ∀ n, s = .field n → FieldName n) : ∀ c ∈ s.text, PathChar c := by
  cases s with
  | field n =>
    intro c hc
    rcases List.mem_cons.1 hc with rfl | hc
    · exact .inr (by decide)
    · exact name_pathChar (h n rfl) c hc
  | item i =>
    intro c hc
    simp only [Step.text, List.mem_cons, List.mem_append, List.not_mem_nil, or_false] at hc
    rcases hc with rfl | hc | rfl
    · exact .inr (by decide)
    · exact digit_pathChar (decimal_digits i c hc)
    · exact .inr (by decide)

theorem plainSteps_cons {s : Step} {p : List Step} : PlainSteps (s :: p) ↔ (∀ n, s = .field n → FieldName n) ∧ PlainSteps p := by
  constructor
  · exact fun h => ⟨fun n e => h n (by simp [e]), fun n hn => h n (by simp [hn])⟩
  · rintro ⟨h1, h2⟩ n hn
    rcases List.mem_cons.1 hn with e | hn
    · exact h1 n e.symm
    · exact h2 n hn

theorem stepsText_cons (s : Step) (p : List Step) : stepsText (s :: p) = s.text ++ stepsText p := rfl

theorem steps_pathChar : ∀ {p : List Step}, PlainSteps p → ∀ c ∈ stepsText p, PathChar c
  | [], _, c, hc => by simp [stepsText] at hc
  | s :: p, h, c, hc => by
    rw [plainSteps_cons] at h
    rw [stepsText_cons, List.mem_append] at hc
    rcases hc with hc | hc
    · exact step_pathChar h.1 c hc
    · exact steps_pathChar h.2 c hc

theorem replaceAux_over {c : Char} {old new t : Str} : ∀ {s : Str}, c ∉ s → replaceAux (c :: old) new (s ++ t) 0 = s ++ replaceAux (c :: old) new t 0
  | [], _ => rfl
  | d :: s, h => by
    simp only [List.mem_cons, not_or] at h
    rw [List.cons_append, replaceAux, if_neg (by simp [List.isPrefixOf, h.1]), replaceAux_over h.2]
    rfl

theorem replaceAux_steps : ∀ {p : List Step}, PlainSteps p → replaceAux gs".[" gs"[" (stepsText p) 0 = stepsText p
  | [], _ => rfl
  | .field n :: p, h => by
    rw [plainSteps_cons] at h
    have hn := h.1 n rfl
    have hdot : '.' ∉ n := fun hc => by rcases hn.2.1 _ hc with h | h <;> revert h <;> decide
    rw [stepsText_cons]
    obtain ⟨a, u, rfl⟩ : ∃ a u, n = a :: u := by
      cases n with
      | nil => exact absurd rfl hn.1
      | cons a u => exact ⟨a, u, rfl⟩
    have ha : a ≠ '[' := by rintro rfl; rcases hn.2.1 '[' (by simp) with h | h <;> revert h <;> decide
    rw [Step.text, List.cons_append, replaceAux, if_neg (by simp [List.isPrefixOf, Ne.symm ha]), replaceAux_over hdot, replaceAux_steps h.2]
  | .item i :: p, h => by
    rw [plainSteps_cons] at h
    have hdot : '.' ∉ '[' :: (decimal i ++ gs"]") := by
      simp only [List.mem_cons, List.mem_append, List.not_mem_nil, or_false, not_or]
      exact ⟨by decide, fun hc => by have := decimal_digits i _ hc; revert this; decide, by decide⟩
    rw [stepsText_cons, Step.text, replaceAux_over hdot, replaceAux_steps h.2]

theorem removeDotQuotesAux_none : ∀ {s : Str} {prev : Char}, (∀ c ∈ s, c ≠ '\'' ∧ c ≠ '"') → removeDotQuotesAux false false prev s = s
  | [], _, _ => rfl
  | c :: s, _, h => by
    have hc := h c (by simp)
    rw [removeDotQuotesAux, if_neg (by simp [hc.1]), if_neg (by simp [hc.2]), if_neg (by simp), if_neg (by simp), removeDotQuotesAux_none fun d hd => h d (by simp [hd])]

variable {p : Path}

theorem path_tail_text (p : Path) : '.' :: p.tail = stepsText p.steps := rfl

theorem dollar_text (p : Path) : gs"$." ++ p.tail = '$' :: stepsText p.steps := rfl

theorem tail_char (h : PlainSteps p.steps) : ∀ c ∈ p.tail, PathChar c := fun c hc => steps_pathChar h c (by rw [← path_tail_text]; simp [hc])

theorem path_not_entry (p : Path) : ¬ EntryPath p.text := by
  unfold Path.text
  rintro (⟨x, h⟩ | ⟨x, h⟩) <;> cases hs : p.start <;> simp [hs] at h

theorem path_rel (p : Path) : pathRel p.text = true ↔ p.start = .element := by
  unfold Path.text pathRel
  cases hs : p.start <;> simp [sliceHasPrefix, hasPrefix, List.isPrefixOf]

theorem path_query (h : PlainSteps p.steps) : pathQuery p.text = '$' :: stepsText p.steps := by
  have norm : replaceAll (replaceAll (removeDotQuotes ('$' :: stepsText p.steps)) gs"'" gs"\"") gs".[" gs"[" = '$' :: stepsText p.steps := by
    have hc := steps_pathChar h
    rw [removeDotQuotes, removeDotQuotesAux_none (by
      intro c hc'
      rcases List.mem_cons.1 hc' with rfl | hc'
      · decide
      · exact ⟨(pathChar_not (hc c hc')).1, (pathChar_not (hc c hc')).2.1⟩), replaceAll_absent (s := '$' :: stepsText p.steps) (c := '\'') (by
      intro hc'
      rcases List.mem_cons.1 hc' with e | hc'
      · exact absurd e (by decide)
      · exact (pathChar_not (hc _ hc')).1 rfl), replaceAll, replaceAux, if_neg (by simp [List.isPrefixOf]), replaceAux_steps h]
  unfold pathQuery Path.text
  cases hs : p.start with
  | document =>
    rw [← dollar_text] at norm ⊢
    simpa [sliceHasPrefix, hasPrefix, List.isPrefixOf] using norm
  | element =>
    have h1 : replaceFirst gs"$RELATIVE." gs"$." (gs"$RELATIVE." ++ p.tail) = '$' :: stepsText p.steps := by
      rw [← dollar_text]
      simp [replaceFirst, List.isPrefixOf]
    have h2 : sliceHasPrefix [gs"$RELATIVE.", gs"$KEY", gs"$VALUE"] (gs"$RELATIVE." ++ p.tail) = true := by
      simp [sliceHasPrefix, hasPrefix, List.isPrefixOf]
    dsimp only
    rw [h2, if_pos rfl, h1, if_neg (by simp)]
    exact norm

theorem path_queryText (h : PlainSteps p.steps) : queryText p.text = '$' :: stepsText p.steps := by
  have hd : '$' ∉ stepsText p.steps := fun hc => (pathChar_not (steps_pathChar h _ hc)).2.2.1 rfl
  have hr : replaceAll ('$' :: stepsText p.steps) gs"$RELATIVE" gs"$" = '$' :: stepsText p.steps := by
    rw [replaceAll, replaceAux, if_neg (by simp [List.isPrefixOf, ← path_tail_text])]
    have := replaceAll_absent (cs := gs"RELATIVE") (new := gs"$") hd
    rw [replaceAll] at this
    rw [this]
  unfold queryText
  rw [path_query h]
  dsimp only
  have h0 : ('$' :: stepsText p.steps : Str) ≠ gs"$*" := by rw [← path_tail_text]; simp
  rw [hr, if_neg h0]
  refine if_neg ?_
  rintro (hc | hc) <;> obtain ⟨a, b, hab⟩ := contains_iff.1 hc <;> rw [← path_tail_text] at hab hd
  all_goals
    cases a with
    | nil => simp at hab
    | cons a0 a =>
      simp only [List.cons_append, List.cons.injEq] at hab
      exact hd (by rw [hab.2]; simp)

/-! ## Numbers -/

theorem number_char {s : Str} (h : NumberText s) : ∀ c ∈ s, c ∈ gs"0123456789-+.eE" := by
  intro c hc
  have := numberText_chars h c hc
  simp only [isNumChar, Bool.or_eq_true, decide_eq_true_eq, digitVal_iff, List.mem_cons, List.not_mem_nil, or_false] at this ⊢
  tauto

theorem number_clean {s : Str} (h : NumberText s) : Clean s ∧ s ≠ gs"<nil>" := by
  have hc := number_char h
  refine ⟨⟨numberText_ne h, fun h => ?_, fun h => ?_, fun h => ?_⟩, fun e => ?_⟩
  · have := hc _ h; revert this; decide
  · have := hc _ h; revert this; decide
  · have := hc _ h; revert this; decide
  · have := hc '<' (by rw [e]; simp); revert this; decide

theorem digitText_last {t : Str} (h : DigitText t) : ∃ a c, t = a ++ [c] ∧ c ∈ gs"0123456789" := by
  rcases List.eq_nil_or_concat t with e | ⟨a, c, e⟩
  · exact absurd e h.1
  · exact ⟨a, c, by simpa using e, h.2 c (by rw [e]; simp)⟩

theorem number_last {s : Str} (h : NumberText s) : ∃ a c, s = a ++ [c] ∧ c ∈ gs"0123456789" := by
  obtain ⟨sign, int, frac, ex, rfl, -, hi, hf, he⟩ := h
  rcases he with rfl | ⟨e, sg, t, rfl, -, -, ht⟩
  · rcases hf with rfl | ⟨t, rfl, ht⟩
    · rcases hi with rfl | ⟨hi, -⟩
      · exact ⟨sign, '0', by simp, by decide⟩
      · obtain ⟨a, c, rfl, hc⟩ := digitText_last hi
        exact ⟨sign ++ a, c, by simp, hc⟩
    · obtain ⟨a, c, rfl, hc⟩ := digitText_last ht
      exact ⟨sign ++ int ++ '.' :: a, c, by simp, hc⟩
  · obtain ⟨a, c, rfl, hc⟩ := digitText_last ht
    exact ⟨sign ++ int ++ frac ++ e :: (sg ++ a), c, by simp, hc⟩

theorem number_noUnit {s : Str} (h : NumberText s) (he : ∀ a c b, s = a ++ 'e' :: c :: b → c.isDigit = false) : ∀ u ∈ units, ¬ u.1 <:+ s := by
  obtain ⟨a, c, rfl, hc⟩ := number_last h
  rintro u hu ⟨t, ht⟩
  have key : ∀ {x : Str} {d : Char}, t ++ (x ++ [d]) = a ++ [c] → d ∈ gs"0123456789" := by
    intro x d e
    rw [← List.append_assoc] at e
    rw [(List.append_inj' e rfl).2 |> List.singleton_inj.1]
    exact hc
  have ex : ∀ {d : Char} {b : Str}, t ++ 'e' :: d :: b = a ++ [c] → d.isDigit = false := fun e => he _ _ _ e.symm
  simp only [units, List.mem_cons, List.not_mem_nil, or_false] at hu
  rcases hu with rfl | rfl | rfl | rfl | rfl | rfl | rfl | rfl | rfl | rfl | rfl | rfl | rfl | rfl | rfl | rfl | rfl | rfl | rfl | rfl
  iterate 8 exact absurd (key (x := []) ht) (by decide)
  iterate 6 exact absurd (ex ht) (by decide)
  · exact absurd (key (x := gs"K") ht) (by decide)
  · exact absurd (key (x := gs"M") ht) (by decide)
  · exact absurd (key (x := gs"G") ht) (by decide)
  · exact absurd (key (x := gs"T") ht) (by decide)
  · exact absurd (key (x := gs"P") ht) (by decide)
  · exact absurd (key (x := gs"E") ht) (by decide)

theorem number_parse (hp : PathsOk env) {s : Str} {q : Rat} (h : NumberText s) (he : ∀ a c b, s = a ++ 'e' :: c :: b → c.isDigit = false)
    (hx : env.parseFloat s = some (.fin q)) : parseNumber env s = some (.fin q) := by
  rw [Props.C31_plain_exact (number_noUnit h he) hp.one fun q hq => hp.exact s q hq, hx]

/-! ## Texts that are plainly written -/

theorem plainly_num (hp : PathsOk env) {u : Str} {q : Rat} (h : Plainly env u (.num (.fin q))) : Clean u ∧ u ≠ gs"<nil>" ∧ parseNumber env u = some (.fin q) := by
  generalize hv : Json.num (.fin q) = v at h
  cases h <;> try (cases hv; done)
  · next n hn =>
    cases hv
    obtain ⟨h1, h2⟩ := hp.whole n hn
    obtain ⟨h3, h4, h5⟩ := hp.print n h1
    rw [h2] at h3 h4 h5
    exact ⟨(number_clean h3).1, (number_clean h3).2, number_parse hp h3 h4 h5⟩
  · next hn he hx =>
    cases hv
    exact ⟨(number_clean hn).1, (number_clean hn).2, number_parse hp hn he hx⟩

theorem plainly_whole {u : Str} {n : Int} (hn : n.natAbs < 1000000) (h : Plainly env u (.num (.fin n))) : u = wholeText n := by
  generalize hv : Json.num (.fin (n : Rat)) = v at h
  cases h <;> try (cases hv; done)
  · next m hm =>
    have e : (n : Rat) = m := by simpa using hv
    rw [Rat.intCast_inj.1 e]
  · next q hq _ _ _ =>
    have e : (n : Rat) = q := by simpa using hv
    exact absurd ⟨n, hn, e.symm⟩ hq

theorem plainly_str {u s : Str} (h : Plainly env u (.str s)) : u = gs"\"" ++ s ++ gs"\"" := by
  cases h; simp

theorem plainly_bool {u : Str} {b : Bool} (h : Plainly env u (.bool b)) : u = if b then gs"true" else gs"false" := by
  cases h <;> rfl

theorem plainly_empty {u : Str} (h : Plainly env u (.arr [])) : u = gs"[]" := by
  cases h with
  | noElements => rfl
  | arr h => cases h

/-- The texts of JSON values as they are. -/
theorem plain_nested {s : Str} (h : PlainString s) : Quoted s ∧ Nested s := by
  induction s with
  | nil => exact ⟨.nil, .nil⟩
  | cons c s ih =>
    obtain ⟨h1, h2⟩ := ih fun d hd => h d (by simp [hd])
    have hc := (h c (by simp)).1
    simp only [List.mem_cons, List.not_mem_nil, or_false, not_or] at hc
    exact ⟨.char hc.1 hc.2.1 h1, .char hc.2.2.1 hc.2.2.2 h2⟩

theorem number_atom {s : Str} (h : ∀ c ∈ s, c ∈ gs"0123456789-+.eE") : JsonText Nested s := .atom fun c hc => by
  have sub : ∀ c ∈ gs"0123456789-+.eE", c ∉ gs"{}[],:\"\\" := by decide
  exact sub c (h c hc)

theorem wholeText_char (n : Int) : ∀ c ∈ wholeText n, c ∈ gs"0123456789-+.eE" := by
  have dig : ∀ c ∈ decimal n.natAbs, c ∈ gs"0123456789-+.eE" := fun c hc => by
    have := decimal_digits _ c hc
    simp only [List.mem_cons, List.not_mem_nil, or_false]
    have h10 := digitVal_iff (c := c)
    revert this
    simp only [Char.isDigit, Bool.and_eq_true, decide_eq_true_eq, ge_iff_le]
    rintro ⟨h1, h2⟩
    obtain ⟨k, hk1, hk2, rfl⟩ := charRange (a := '0') (b := '9') (c := c) ⟨h1, h2⟩
    change 48 ≤ k at hk1
    change k ≤ 57 at hk2
    interval_cases k <;> decide
  intro c hc
  unfold wholeText at hc
  split at hc
  · rcases List.mem_cons.1 hc with rfl | hc
    · decide
    · exact dig c hc
  · exact dig c hc

/-- The members of an object, as `ObjectText` has them. -/
def MembersAs (s : Str) : Prop := ∃ l : List (Str × Str), l ≠ [] ∧ (∀ x ∈ l, KeyText Nested x.1) ∧ (∀ x ∈ l, JsonText Nested x.2) ∧ s = join gs"," (l.map fun x => x.1 ++ ':' :: x.2)

/-- The elements of a list, with white space. -/
def ElementsAs (s : Str) : Prop := ∃ l : List Str, l ≠ [] ∧ (∀ x ∈ l, JsonText Nested x) ∧ s = join gs"," l

theorem join_cons {sep x : Str} {l : List Str} (h : l ≠ []) : join sep (x :: l) = x ++ sep ++ join sep l := by
  cases l with
  | nil => exact absurd rfl h
  | cons y l => rfl

mutual
theorem plainly_text : ∀ {s : Str} {v : Json}, Plainly env s v → JsonText Nested s ∧ ((∃ kvs, v = .obj kvs) → ObjectText Nested s)
  | _, _, .null => ⟨.atom (by decide), by simp⟩
  | _, _, .true => ⟨.atom (by decide), by simp⟩
  | _, _, .false => ⟨.atom (by decide), by simp⟩
  | _, _, .whole (n := n) h => ⟨number_atom (wholeText_char n), by simp⟩
  | _, _, .num h _ _ _ => ⟨number_atom (number_char h), by simp⟩
  | _, _, .str h => ⟨.str (plain_nested h).1 (plain_nested h).2, by simp⟩
  | _, _, .noElements => ⟨.arr (l := []) (by simp), by simp⟩
  | _, _, .arr h => by
    obtain ⟨l, -, h1, rfl⟩ := plainElements_text h
    exact ⟨.arr h1, by simp⟩
  | _, _, .noMembers => ⟨.obj (l := []) (by simp) (by simp), fun _ => ⟨[], by simp, by simp, rfl⟩⟩
  | _, _, .obj h _ => by
    obtain ⟨l, -, h1, h2, rfl⟩ := plainMembers_text h
    exact ⟨.obj h1 h2, fun _ => ⟨l, h1, h2, rfl⟩⟩

theorem plainElements_text : ∀ {s : Str} {l : List Json}, PlainElements env s l → ElementsAs s
  | _, _, .one h1 hv h2 => ⟨[_], by simp, by simpa using .space h1 h2 (plainly_text hv).1, rfl⟩
  | _, _, .more (w := w) (s := s) (w' := w') h1 hv h2 h => by
    obtain ⟨l, hl, h3, rfl⟩ := plainElements_text h
    refine ⟨(w ++ (s ++ w')) :: l, by simp, ?_, by rw [join_cons hl]; simp⟩
    simp only [List.mem_cons, forall_eq_or_imp]
    exact ⟨.space h1 h2 (plainly_text hv).1, h3⟩

theorem plainMembers_text : ∀ {s : Str} {l : List (Str × Json)}, PlainMembers env s l → MembersAs s
  | _, _, .oneMember (w0 := w0) (k := k) (w1 := w1) (w2 := w2) (s := s) (w3 := w3) h0 hk h1 h2 hv h3 =>
    ⟨[(w0 ++ '"' :: (k ++ '"' :: w1), w2 ++ (s ++ w3))], by simp,
      by simpa using .mk h0 (plain_nested hk).1 (plain_nested hk).2 h1, by simpa using .space h2 h3 (plainly_text hv).1, by simp [join]⟩
  | _, _, .moreMembers (w0 := w0) (k := k) (w1 := w1) (w2 := w2) (s := s) (w3 := w3) h0 hk h1 h2 hv h3 h => by
    obtain ⟨l, hl, e1, e2, rfl⟩ := plainMembers_text h
    refine ⟨(w0 ++ '"' :: (k ++ '"' :: w1), w2 ++ (s ++ w3)) :: l, by simp, ?_, ?_, ?_⟩
    · simp only [List.mem_cons, forall_eq_or_imp]
      exact ⟨.mk h0 (plain_nested hk).1 (plain_nested hk).2 h1, e1⟩
    · simp only [List.mem_cons, forall_eq_or_imp]
      exact ⟨.space h2 h3 (plainly_text hv).1, e2⟩
    · rw [List.map_cons, join_cons (by simpa using hl)]; simp
end

theorem plainly_ne {s : Str} {v : Json} (hp : PathsOk env) (h : Plainly env s v) : s ≠ [] := by
  cases h <;> try simp
  · next n hn =>
    have h1 := (plainly_num hp (.whole hn)).1.1
    exact h1
  · next hn _ _ => exact numberText_ne hn

/-- A list of objects as a list of items. -/
theorem plainElements_items : ∀ {s : Str} {l : List Json}, PlainElements env s l → (∀ e ∈ l, ∃ kvs, e = .obj kvs) →
    ∃ is : List Item, is ≠ [] ∧ s = join gs"," (is.map fun i => i.before ++ (i.text ++ i.after)) ∧
      List.Forall₂ (fun i e => i.Ok Nested ∧ i.isObject = true ∧ Plainly env i.text e) is l
  | _, _, .one (w := w) (s := s) (w' := w') h1 hv h2, ho =>
    ⟨[⟨w, true, s, w'⟩], by simp, rfl, .cons ⟨⟨h1, h2, by simpa using (plainly_text hv).2 (ho _ (by simp))⟩, rfl, hv⟩ .nil⟩
  | _, _, .more (w := w) (s := s) (w' := w') h1 hv h2 h, ho => by
    obtain ⟨is, hi, rfl, hf⟩ := plainElements_items h fun e he => ho e (by simp [he])
    exact ⟨⟨w, true, s, w'⟩ :: is, by simp, by rw [List.map_cons, join_cons (by simpa using hi)]; simp,
      .cons ⟨⟨h1, h2, by simpa using (plainly_text hv).2 (ho _ (by simp))⟩, rfl, hv⟩ hf⟩

theorem plainly_items {s : Str} {l : List Json} (h : Plainly env s (.arr l)) (ho : ∀ e ∈ l, ∃ kvs, e = .obj kvs) :
    ∃ is : List Item, s = listText is ∧ List.Forall₂ (fun i e => i.Ok Nested ∧ i.isObject = true ∧ Plainly env i.text e) is l := by
  cases h with
  | noElements => exact ⟨[], rfl, .nil⟩
  | arr h =>
    obtain ⟨is, -, rfl, hf⟩ := plainElements_items h ho
    exact ⟨is, rfl, hf⟩

/-! ## Where paths lead -/

theorem leads_unique {d : Json} {p : List Step} {o o' : Option Json} (h : Leads d p o) (h' : Leads d p o') : o = o' := by
  induction h with
  | here => cases h'; rfl
  | field h _ ih =>
    cases h' with
    | field h2 h3 => rw [h] at h2; cases h2; exact ih h3
    | noField h2 => rw [h] at h2; cases h2
  | noField h =>
    cases h' with
    | field h2 h3 => rw [h] at h2; cases h2
    | noField => rfl
  | item h _ ih =>
    cases h' with
    | item h2 h3 => rw [h] at h2; cases h2; exact ih h3
    | noItem h2 => rw [h] at h2; cases h2
  | noItem h =>
    cases h' with
    | item h2 h3 => rw [h] at h2; cases h2
    | noItem => rfl

theorem path_unique {root : Json} {cur o o' : Option Json} (h : p.Leads root cur o) (h' : p.Leads root cur o') : o = o' := by
  cases h with
  | document hs h =>
    cases h' with
    | document _ h' => exact leads_unique h h'
    | element hs' => rw [hs] at hs'; cases hs'
  | element hs hc h =>
    cases h' with
    | document hs' h' => rw [hs] at hs'; cases hs'
    | element _ hc' h' => rw [hc] at hc'; cases hc'; exact leads_unique h h'

variable {base msg : Msg} {root : Json} {cur : Option Json}

/-- What the engine works on: the document that the path starts from. -/
theorem carries_document (hc : Carries env base root msg cur) {o : Option Json} (hl : p.Leads root cur o) :
    ∃ d, Leads d p.steps o ∧ ((msg.rawI.isSome ∧ (match p.start with | .document => msg.rawI = some d | .element => msg.rawIRel = some d)) ∨
      ∃ s, Plainly env s d ∧ msg.rawI = none ∧ (match p.start with | .document => msg.jsonRaw = some s | .element => msg.jsonRawRel = some s)) := by
  cases hl with
  | document hs h =>
    refine ⟨root, h, ?_⟩
    rw [hs]
    cases hc with
    | parsed hr => exact .inl ⟨rfl, rfl⟩
    | text ht hr => exact .inr ⟨_, ht, rfl, rfl⟩
  | element hs hcur h =>
    refine ⟨_, h, ?_⟩
    rw [hs]
    cases hc with
    | parsed hr => exact .inl ⟨rfl, hr _ hcur⟩
    | text ht hr =>
      obtain ⟨u, e, hu⟩ := hr _ hcur
      exact .inr ⟨u, hu, rfl, e⟩

theorem documentI {d : Json} (h : msg.rawI.isSome ∧ (match p.start with | .document => msg.rawI = some d | .element => msg.rawIRel = some d)) : DocumentI msg p.text d := by
  refine ⟨h.1, ?_⟩
  have h := h.2
  cases hs : p.start with
  | document => rw [hs] at h; rw [if_neg (by rw [path_rel, hs]; simp)]; exact h
  | element => rw [hs] at h; rw [if_pos (by rw [path_rel, hs])]; exact h

theorem documentB {s : Str} (hne : s ≠ []) (hI : msg.rawI = none)
    (h : match p.start with | .document => msg.jsonRaw = some s | .element => msg.jsonRawRel = some s) : DocumentB msg p.text s := by
  refine ⟨hI, hne, ?_⟩
  cases hs : p.start with
  | document => rw [hs] at h; rw [if_neg (by rw [path_rel, hs]; simp)]; exact h
  | element => rw [hs] at h; rw [if_pos (by rw [path_rel, hs])]; exact h

theorem path_found (hp : PathsOk env) (hpl : PlainSteps p.steps) (hc : Carries env base root msg cur) {v : Json} (hl : p.Leads root cur (some v)) :
    SelectsI env msg p.text (some v) ∨ ∃ u, SelectsB env msg p.text (u, false) ∧ Plainly env u v := by
  obtain ⟨d, hd, h | ⟨s, hs, hI, h⟩⟩ := carries_document hc hl
  · refine .inl (.path (path_not_entry p) (documentI h) (.found ?_))
    rw [path_queryText hpl]
    exact hp.found _ _ _ hpl hd
  · obtain ⟨u, h1, h2⟩ := hp.foundText _ _ _ _ hpl hs hd
    refine .inr ⟨u, .path (path_not_entry p) (documentB (plainly_ne hp hs) hI h) ?_, h2⟩
    rw [path_query hpl]
    exact h1

theorem path_absent (hp : PathsOk env) (hpl : PlainSteps p.steps) (hc : Carries env base root msg cur) (hl : p.Leads root cur none) :
    (∃ x, SelectsI env msg p.text x ∧ Spec.NoValue x) ∨ ∃ x, SelectsB env msg p.text x ∧ NoText x := by
  obtain ⟨d, hd, h | ⟨s, hs, hI, h⟩⟩ := carries_document hc hl
  · left
    obtain ⟨e, he⟩ := hp.absent _ _ hpl hd
    rw [← path_queryText hpl] at he
    by_cases hnf : ∃ a b, e = a ++ gs"not found in JSON object at" ++ b
    · exact ⟨_, .path (path_not_entry p) (documentI h) (.notFound he hnf), .null⟩
    · exact ⟨_, .path (path_not_entry p) (documentI h) (.failed he hnf), .failed⟩
  · refine .inr ⟨_, .path (path_not_entry p) (documentB (plainly_ne hp hs) hI h) rfl, ?_⟩
    rw [path_query hpl]
    rcases hp.absentText _ _ _ hpl hs hd with h | h
    · rw [h]; exact .nothing
    · generalize env.jsGet s ('$' :: stepsText p.steps) = x at h
      obtain ⟨a, b⟩ := x
      cases h
      exact .failed

theorem numMethod_not {m : Str} (hm : m ∈ [gs"EX", gs"ex", gs"NEX", gs"nex"]) : ¬ ∃ k : NumMethod, m ∈ k.spellings := by
  rintro ⟨k, hk⟩
  simp only [List.mem_cons, List.not_mem_nil, or_false] at hm
  rcases hm with rfl | rfl | rfl | rfl <;> cases k <;> revert hk <;> decide

/-- What is found is the value: itself in a parsed document; in a text a text for it, or without quotes if it is a text. -/
def SelectsValue (env : Ext) (msg : Msg) (q : Str) (v : Json) : Prop := SelectsI env msg q (some v) ∨ ∃ u, SelectsB env msg q (u, false) ∧ (Plainly env u v ∨ v = .str u)

/-- A value as the text that is compared. -/
theorem value_text {q : Str} {v : Json} {s : Str} (hp : PathsOk env) (hf : SelectsValue env msg q v) (hv : TextIn v s) : SelectsText env msg q s := by
  rcases hf with h | ⟨u, h, hu | rfl⟩
  · cases hv with
    | str hcl hn => exact .parsed h .string hcl hn
    | true => exact .parsed h .true ⟨by simp, by decide, by decide, by decide⟩ (by simp)
    | false => exact .parsed h .false ⟨by simp, by decide, by decide, by decide⟩ (by simp)
    | whole hn =>
      have hq := plainly_num hp (.whole hn)
      rw [← (hp.whole _ hn).2] at hq ⊢
      exact .parsed h .number hq.1 hq.2.1
  · cases hv with
    | str hcl hn => exact .text h (.inr (plainly_str hu)) hcl
    | true => exact .text h (.inl (plainly_bool hu)) ⟨by simp, by decide, by decide, by decide⟩
    | false => exact .text h (.inl (plainly_bool hu)) ⟨by simp, by decide, by decide, by decide⟩
    | whole hn => exact .text h (.inl (plainly_whole hn hu)) (plainly_num hp (.whole hn)).1
  · cases hv with
    | str hcl hn => exact .text h (.inl rfl) hcl

theorem value_number {q : Str} {v : Json} {y : F64} (hp : PathsOk env) (hf : SelectsValue env msg q v) (hv : NumberIn env v y) :
    ∃ s, SelectsText env msg q s ∧ parseNumber env s = some y := by
  cases hv with
  | num h =>
    rcases hf with h' | ⟨u, h', hu | hu⟩
    · obtain ⟨h1, h2, h3⟩ := hp.print _ h
      exact ⟨_, .parsed h' .number (number_clean h1).1 (number_clean h1).2, number_parse hp h1 h2 h3⟩
    · obtain ⟨h1, h2, h3⟩ := plainly_num hp hu
      exact ⟨u, .text h' (.inl rfl) h1, h3⟩
    · cases hu
  | @str s y hcl hnil h =>
    rcases hf with h' | ⟨u, h', hu | hu⟩
    · exact ⟨s, .parsed h' .string hcl hnil, h⟩
    · exact ⟨s, .text h' (.inr (plainly_str hu)) hcl, h⟩
    · cases hu
      exact ⟨s, .text h' (.inl rfl) hcl, h⟩

/-- What is said of a value is what the condition says of a message in which it is found. -/
theorem value_says {q m w : Str} {v : Json} {P : Prop} (hp : PathsOk env) (hf : SelectsValue env msg q v) (h : TestSays env (some v) m w P) :
    Says env msg (gs"jsonpath:" ++ q) m w P := by
  generalize ho : some v = o at h
  cases h with
  | missing => cases ho
  | emptyText =>
    cases ho
    rcases hf with h | ⟨u, h, hu | hu⟩
    · exact .missing h .text
    · exact .missingText h (by rw [plainly_str hu]; exact .text)
    · cases hu
      exact .missingText h .nothing
  | emptyList =>
    cases ho
    rcases hf with h | ⟨u, h, hu | hu⟩
    · exact .missing h .array
    · exact .missingText h (by rw [plainly_empty hu]; exact .array)
    · cases hu
  | number hm hw hv =>
    cases ho
    obtain ⟨s, h1, h2⟩ := value_number hp hf hv
    exact .number hm hw h1 h2
  | text hP hv hy =>
    cases ho
    exact .scalar hP (value_text hp hf hv) hy
  | there hm hq =>
    cases ho
    obtain ⟨s, h1, h2⟩ := value_number hp hf (.num hq)
    have hno := numMethod_not hm
    by_cases he : m ∈ [gs"EX", gs"ex"]
    · rw [show (m = gs"EX" ∨ m = gs"ex") = True by simpa using he]
      exact .scalar (P := fun _ => True) (.there he) h1 fun h => absurd h hno
    · rw [show (m = gs"EX" ∨ m = gs"ex") = False by simpa using he]
      exact .scalar (P := fun _ => False) (.notThere (by simp at hm he ⊢; tauto)) h1 fun h => absurd h hno

/-- What is said of the value in the document is what the condition says of the message. -/
theorem path_says (hp : PathsOk env) (hpl : PlainSteps p.steps) (hc : Carries env base root msg cur) {o : Option Json} {m w : Str} {P : Prop}
    (hl : p.Leads root cur o) (h : TestSays env o m w P) : Says env msg (gs"jsonpath:" ++ p.text) m w P := by
  cases o with
  | none =>
    cases h with
    | missing =>
      rcases path_absent hp hpl hc hl with ⟨x, h, hx⟩ | ⟨x, h, hx⟩
      · exact .missing h hx
      · exact .missingText h hx
  | some v => exact value_says hp ((path_found hp hpl hc hl).imp id fun ⟨u, h1, h2⟩ => ⟨u, h1, .inl h2⟩) h

theorem entry_scope {k : Str} {j : Json} (hc : Carries env base root msg (some (.obj [(k, j)]))) :
    (msg.rawI.isSome ∧ msg.rawIRel = some (.obj [(k, j)])) ∨ ∃ u, msg.rawI = none ∧ msg.jsonRawRel = some u ∧ Plainly env u (.obj [(k, j)]) := by
  cases hc with
  | parsed hr => exact .inl ⟨rfl, hr _ rfl⟩
  | text ht hr =>
    obtain ⟨u, e, hu⟩ := hr _ rfl
    exact .inr ⟨u, rfl, e, hu⟩

theorem entry_key {k : Str} {j : Json} (hp : PathsOk env) (hc : Carries env base root msg (some (.obj [(k, j)]))) : SelectsValue env msg gs"$KEY" (.str k) := by
  rcases entry_scope hc with ⟨h1, h2⟩ | ⟨u, h1, h2, h3⟩
  · exact .inl (.key rfl h1 h2)
  · exact .inr ⟨k, .key rfl h1 h2 (plainly_ne hp h3) (hp.read _ _ h3), .inr rfl⟩

theorem plainly_member {u k : Str} {j : Json} (h : Plainly env u (.obj [(k, j)])) : ∃ s, Plainly env s j := by
  generalize hj : Json.obj [(k, j)] = d at h
  cases h with
  | obj h hd =>
    cases hj
    cases h with
    | oneMember _ _ _ _ hv => exact ⟨_, hv⟩
    | moreMembers _ _ _ _ _ _ h => cases h
  | _ => cases hj

theorem entry_value {k : Str} {j : Json} (hp : PathsOk env) (hc : Carries env base root msg (some (.obj [(k, j)]))) (hj : ShownValue j) : SelectsValue env msg gs"$VALUE" j := by
  rcases entry_scope hc with ⟨h1, h2⟩ | ⟨u, h1, h2, h3⟩
  · exact .inl (.value rfl h1 h2)
  · obtain ⟨s, hs⟩ := plainly_member h3
    exact .inr ⟨_, .value rfl h1 h2 (plainly_ne hp h3) (hp.read _ _ h3), .inl (hp.written _ _ hs hj)⟩

/-- Conditions on attributes do not look at documents. -/
theorem attr_says {a m w : Str} {P : Prop} (hc : Carries env base root msg cur) (ha : ¬ ∃ q, a = gs"jsonpath:" ++ q) (h : Says env base a m w P) :
    Says env msg a m w P := by
  have ht : ∀ {f}, TextAttr a f → f msg = f base := fun {f} h => by cases h <;> cases hc <;> rfl
  have hlb : ∀ {f}, LabelAttr a f → f msg = f base := fun {f} h => by cases h <;> cases hc <;> rfl
  cases h with
  | yes h => exact .yes h
  | no h => exact .no h
  | size hm hw => cases hc <;> exact Says.size hm hw
  | hours hm hw => cases hc <;> exact Says.hours hm hw
  | version hm hw hy => cases hc <;> exact Says.version hm hw hy
  | text ha hP hn => rw [← ht ha]; exact .text ha hP hn
  | sameField hm => cases hc <;> exact Says.sameField hm
  | otherField hm => cases hc <;> exact Says.otherField hm
  | label ha hP hm hn => rw [← hlb ha]; exact .label ha hP hm hn
  | labelThere ha hm hn => rw [← hlb ha]; exact .labelThere ha hm hn
  | sameLabel hm => cases hc <;> exact Says.sameLabel hm
  | otherLabel hm => cases hc <;> exact Says.otherLabel hm
  | number => exact absurd ⟨_, rfl⟩ ha
  | scalar => exact absurd ⟨_, rfl⟩ ha
  | missing => exact absurd ⟨_, rfl⟩ ha
  | missingText => exact absurd ⟨_, rfl⟩ ha

/-! ## Ranges -/

theorem carries_parsed (hc : Carries env base root msg cur) (hI : msg.rawI.isSome) (e : Json) :
    Carries env base root { msg with rawIRel := some e } (some e) := by
  cases hc with
  | parsed hr => exact .parsed fun e' h => h
  | text => cases hI

theorem carries_text {s : Str} {e : Json} (hc : Carries env base root msg cur) (hI : msg.rawI = none) (hs : Plainly env s e) :
    Carries env base root { msg with jsonRawRel := some s } (some e) := by
  cases hc with
  | parsed hr => cases hI
  | text ht hr => exact .text ht fun e' h => ⟨s, rfl, by cases h; exact hs⟩

theorem elementsOf_objects {l : List Json} (h : ∀ e ∈ l, ∃ kvs, e = .obj kvs) : elementsOf (.arr l) = l := by
  cases l with
  | nil => rfl
  | cons e l =>
    obtain ⟨kvs, rfl⟩ := h e (by simp)
    rfl

theorem marked_text (p : ListPath) : gs"$." ++ (p.tail ++ p.mark.text) = '$' :: (stepsText p.steps ++ p.mark.text) := rfl

theorem list_found {p : ListPath} {d : Json} {l : List Json} (hp : PathsOk env) (hpl : PlainSteps p.steps) (hne : p.mark ≠ .none → l ≠ []) (hd : Leads d p.steps (some (.arr l))) :
    env.jpGet (gs"$." ++ (p.tail ++ p.mark.text)) d = (.arr l, none) := by
  rw [marked_text]
  by_cases hm : p.mark = .none
  · rw [hm, Mark.text, List.append_nil]; exact hp.found _ _ _ hpl hd
  · exact hp.listed _ _ _ _ hpl (hne hm) hd

theorem list_foundText {p : ListPath} {s : Str} {d : Json} {l : List Json} (hp : PathsOk env) (hpl : PlainSteps p.steps) (hne : p.mark ≠ .none → l ≠ []) (hs : Plainly env s d)
    (hd : Leads d p.steps (some (.arr l))) : ∃ u, env.jsGet s (gs"$." ++ (p.tail ++ p.mark.text)) = (u, false) ∧ Plainly env u (.arr l) := by
  rw [marked_text]
  by_cases hm : p.mark = .none
  · rw [hm, Mark.text, List.append_nil]; exact hp.foundText _ _ _ _ hpl hs hd
  · exact hp.listedText _ _ _ _ _ hpl (hne hm) hs hd

theorem carries_start (hc : Carries env base root msg cur) {st : Start} (h : st = .element → cur.isSome) :
    ∃ d, (∀ (p : Path) o, p.start = st → p.Leads root cur o → Leads d p.steps o) ∧
      ((msg.rawI.isSome ∧ (match st with | .document => msg.rawI = some d | .element => msg.rawIRel = some d)) ∨
      ∃ s, Plainly env s d ∧ msg.rawI = none ∧ (match st with | .document => msg.jsonRaw = some s | .element => msg.jsonRawRel = some s)) := by
  cases st with
  | document =>
    refine ⟨root, fun p o hs hl => ?_, ?_⟩
    · cases hl with
      | document _ h => exact h
      | element hs' => rw [hs] at hs'; cases hs'
    · cases hc with
      | parsed hr => exact .inl ⟨rfl, rfl⟩
      | text ht hr => exact .inr ⟨_, ht, rfl, rfl⟩
  | element =>
    obtain ⟨e, he⟩ := Option.isSome_iff_exists.1 (h rfl)
    refine ⟨e, fun p o hs hl => ?_, ?_⟩
    · cases hl with
      | document hs' => rw [hs] at hs'; cases hs'
      | element _ hcur h => rw [he] at hcur; cases hcur; exact h
    · cases hc with
      | parsed hr => exact .inl ⟨rfl, hr _ he⟩
      | text ht hr =>
        obtain ⟨u, e', hu⟩ := hr _ he
        exact .inr ⟨u, hu, rfl, e'⟩

theorem leads_start {p : Path} {o : Option Json} (h : p.Leads root cur o) : p.start = .element → cur.isSome := by
  intro hs
  cases h with
  | document hs' => rw [hs] at hs'; cases hs'
  | element _ hc => rw [hc]; rfl

theorem forall₂_pick {α β : Type} {R : α → β → Prop} : ∀ {l : List α}, (∀ a ∈ l, ∃ b, R a b) → ∃ l', List.Forall₂ R l l'
  | [], _ => ⟨[], .nil⟩
  | a :: l, h => by
    obtain ⟨b, hb⟩ := h a (by simp)
    obtain ⟨l', hl⟩ := forall₂_pick fun x hx => h x (.tail _ hx)
    exact ⟨b :: l', .cons hb hl⟩

theorem forall₂_append' {α β : Type} {R : α → β → Prop} {l1 l2 : List α} {l1' l2' : List β} (h1 : List.Forall₂ R l1 l1') (h2 : List.Forall₂ R l2 l2') :
    List.Forall₂ R (l1 ++ l2) (l1' ++ l2') := List.rel_append h1 h2

theorem parentOf_document {ps : List ListPath} (h : ∀ p ∈ ps, p.start = .document) : parentOf ps = .document (ps.map fun p => p.tail ++ p.mark.text) := by
  unfold parentOf
  cases ps with
  | nil => rfl
  | cons p ps => simp [h p (by simp)]

theorem parentOf_element {ps : List ListPath} (hne : ps ≠ []) (h : ∀ p ∈ ps, p.start = .element) : parentOf ps = .element (ps.map fun p => p.tail ++ p.mark.text) := by
  unfold parentOf
  cases ps with
  | nil => exact absurd rfl hne
  | cons p ps => simp [h p (by simp)]

theorem list_length {u : Str} {l : List Json} (h : Plainly env u (.arr l)) : 2 ≤ u.length := by
  generalize hj : Json.arr l = j at h
  cases h with
  | noElements => simp
  | arr => simp
  | _ => cases hj

theorem flatten_each {α β : Type} {R : α → List β → Prop} {P : β → Prop} {as : List α} {ls : List (List β)} (h : List.Forall₂ R as ls) (hR : ∀ a l, R a l → ∀ e ∈ l, P e) :
    ∀ e ∈ ls.flatten, P e := by
  induction h with
  | nil => simp
  | cons h _ ih =>
    intro e he
    rw [List.flatten_cons, List.mem_append] at he
    exact he.elim (hR _ _ h e) (ih e)

theorem flatten_flatMap {α β : Type} {f : α → List β} {as : List α} {ls : List (List β)} (h : List.Forall₂ (fun a l => f a = l) as ls) : as.flatMap f = ls.flatten := by
  induction h with
  | nil => rfl
  | cons h _ ih => rw [List.flatMap_cons, List.flatten_cons, ih, h]

theorem forall₂_mem {α β : Type} {R : α → β → Prop} {as : List α} {bs : List β} (h : List.Forall₂ R as bs) {a : α} (ha : a ∈ as) : ∃ b ∈ bs, R a b := by
  induction h with
  | nil => cases ha
  | cons h _ ih =>
    rcases List.mem_cons.1 ha with rfl | ha
    · exact ⟨_, .head _, h⟩
    · obtain ⟨b, hb, h⟩ := ih ha
      exact ⟨b, .tail _ hb, h⟩

theorem forall₂_imp_mem {α β : Type} {R S : α → β → Prop} {as : List α} {bs : List β} (h : List.Forall₂ R as bs) (hi : ∀ a ∈ as, ∀ b, R a b → S a b) : List.Forall₂ S as bs := by
  induction h with
  | nil => exact .nil
  | cons h _ ih => exact .cons (hi _ (.head _) _ h) (ih fun a ha => hi a (.tail _ ha))

theorem gathers_cases {p : ListPath} {l : List Json} (h : Gathers root cur p l) : (p.Leads root cur (some (.arr l)) ∧ (p.mark ≠ .none → l ≠ [])) ∨
    (l = [] ∧ ∀ {d : Json}, (∀ o, p.Leads root cur o → Leads d p.steps o) → NoItems d p.steps p.mark) := by
  cases h with
  | missing h => exact .inr ⟨rfl, fun hd => .missing (hd _ h)⟩
  | there h =>
    by_cases hm : p.mark ≠ .none → l ≠ []
    · exact .inl ⟨h, hm⟩
    · push Not at hm
      obtain ⟨hm, rfl⟩ := hm
      exact .inr ⟨rfl, fun hd => .empty (hd _ h) hm⟩

/-- The elements under a path of a parsed document. -/
theorem listed_found {p : ListPath} {d : Json} {l : List Json} (hp : PathsOk env) (hpl : PlainSteps p.steps) (hd : ∀ o, p.Leads root cur o → Leads d p.steps o)
    (hl : Gathers root cur p l) (ho : ∀ e ∈ l, ∃ kvs, e = .obj kvs) :
    Ranged (env.jpGet (gs"$." ++ (p.tail ++ p.mark.text)) d).1 ∧ elementsOf (env.jpGet (gs"$." ++ (p.tail ++ p.mark.text)) d).1 = l := by
  rcases gathers_cases hl with ⟨h, hm⟩ | ⟨rfl, h⟩
  · rw [list_found hp hpl hm (hd _ h)]
    exact ⟨.array _, elementsOf_objects ho⟩
  · rw [marked_text]
    rcases hp.unlisted _ p.mark _ hpl (h hd) with ⟨e, he⟩ | ⟨e, he⟩
    · rw [he]
      exact ⟨.null, rfl⟩
    · rw [he]
      exact ⟨.array _, rfl⟩

/-- The parts under several paths of a text. -/
theorem listed_parts {d : Json} {s : Str} (hp : PathsOk env) (hs : Plainly env s d) : ∀ {ps : List ListPath} {ls : List (List Json)},
    (∀ p ∈ ps, PlainSteps p.steps ∧ ∀ o, p.Leads root cur o → Leads d p.steps o) →
    List.Forall₂ (fun p l => Gathers root cur p l ∧ ∀ e ∈ l, ∃ kvs, e = .obj kvs) ps ls →
    ∃ (parts : List Str) (ls' : List (List Json)), List.Forall₂ (PathGives env s) (ps.map fun p => p.tail ++ p.mark.text) parts ∧
      List.Forall₂ (fun u l => Plainly env u (.arr l) ∧ ∀ e ∈ l, ∃ kvs, e = .obj kvs) (parts.filter (· ≠ [])) ls' ∧ ls'.flatten = ls.flatten
  | [], _, _, .nil => ⟨[], [], .nil, .nil, rfl⟩
  | p :: ps, _, hpl, .cons (b := l) (l₂ := ls) h hl => by
    obtain ⟨parts, ls', h1, h2, h3⟩ := listed_parts hp hs (fun p hp => hpl p (.tail _ hp)) hl
    obtain ⟨hplain, hd⟩ := hpl p (by simp)
    obtain ⟨h, ho⟩ := h
    rcases gathers_cases h with ⟨h, hm⟩ | ⟨rfl, hno⟩
    · obtain ⟨u, hu, hu'⟩ := list_foundText hp hplain hm hs (hd _ h)
      have hne : u ≠ [] := by
        rintro rfl
        exact absurd (list_length hu') (by simp)
      refine ⟨u :: parts, l :: ls', .cons (.part hu) h1, ?_, by simp [h3]⟩
      rw [List.filter_cons_of_pos (by simpa using hne)]
      exact .cons ⟨hu', ho⟩ h2
    · rcases hp.unlistedText _ p.mark _ _ hplain hs (hno hd) with ⟨u, hu, h⟩ | h
      · rw [← marked_text] at h
        simp only [List.mem_cons, List.not_mem_nil, or_false] at hu
        rcases hu with rfl | rfl
        · exact ⟨[] :: parts, ls', .cons (.part h) h1, by simpa using h2, by simpa using h3⟩
        · refine ⟨gs"[]" :: parts, [] :: ls', .cons (.part h) h1, ?_, by simpa using h3⟩
          rw [List.filter_cons_of_pos (by simp)]
          exact .cons ⟨.noElements, by simp⟩ h2
      · rw [← marked_text] at h
        exact ⟨[] :: parts, ls', .cons (.fails h) h1, by simpa using h2, by simpa using h3⟩

theorem item_first {i : Item} {is : List Item} (hok : i.Ok Nested) (hio : i.isObject = true) : ∃ r, listText (i :: is) = '[' :: (i.before ++ '{' :: r) := by
  have ht := hok.2.2
  rw [if_pos hio] at ht
  obtain ⟨t, ht, -⟩ := nested_object ht
  cases is with
  | nil => exact ⟨_, by simp [listText, join, ht]; rfl⟩
  | cons j is => exact ⟨_, by simp [listText, join, ht]; rfl⟩

theorem parts_elements {us : List Str} {ls : List (List Json)} (hp : PathsOk env) (hne : us ≠ [])
    (h : List.Forall₂ (fun u l => Plainly env u (.arr l) ∧ ∀ e ∈ l, ∃ kvs, e = .obj kvs) us ls) :
    ∃ ts, 2 ≤ (join gs"," us).length ∧ PartElements env (env.ugly (join gs"," us)) ts ∧ List.Forall₂ (fun e x => Plainly env x e) ls.flatten ts := by
  have hu : env.ugly (join gs"," us) = join gs"," (us.map env.ugly) := by
    refine hp.uglyParts us (ls.map .arr) ?_
    rw [List.forall₂_map_right_iff]
    exact h.imp fun _ _ h => h.1
  have hiss : ∃ iss : List (List Item), us.map env.ugly = iss.map listText ∧
      List.Forall₂ (fun is l => List.Forall₂ (fun (i : Item) e => i.Ok Nested ∧ i.isObject = true ∧ Plainly env i.text e) is l) iss ls := by
    clear hne hu
    induction h with
    | nil => exact ⟨[], rfl, .nil⟩
    | cons h _ ih =>
      obtain ⟨iss, h1, h2⟩ := ih
      obtain ⟨is, h3, h4⟩ := plainly_items (hp.ugly _ _ h.1) h.2
      exact ⟨is :: iss, by simp [h1, h3], .cons h4 h2⟩
  obtain ⟨iss, he, hf⟩ := hiss
  have hobj : ∀ is ∈ iss, ∀ i ∈ is, i.Ok Nested ∧ i.isObject = true := fun is his i hi => by
    obtain ⟨k, hk, rfl⟩ := List.getElem_of_mem his
    have h1 := hf.get hk (hf.length_eq ▸ hk)
    obtain ⟨j, hj, rfl⟩ := List.getElem_of_mem hi
    have := h1.get hj (h1.length_eq ▸ hj)
    exact ⟨this.1, this.2.1⟩
  refine ⟨iss.flatMap objects, ?_, ?_, ?_⟩
  · cases h with
    | nil => exact absurd rfl hne
    | @cons u l us ls h _ =>
      obtain ⟨r, hr⟩ := join_cons_append gs"," u us
      rw [hr, List.length_append]
      have := list_length h.1
      omega
  · rw [hu, he]
    refine PartElements.lists ?_ (fun is his i hi => ⟨(hobj is his i hi).1, fun h => by rw [(hobj is his i hi).2] at h; cases h⟩) ?_
    · rintro rfl
      cases hf
      cases h
      exact hne rfl
    · intro rest e
      cases iss with
      | nil => simp [join] at e
      | cons is iss =>
        rw [List.map_cons] at e
        obtain ⟨r, hr⟩ := join_cons_append gs"," (listText is) (iss.map listText)
        rw [hr] at e
        cases is with
        | nil => simp [listText, join] at e
        | cons i is =>
          obtain ⟨hok, hio⟩ := hobj _ (.head _) i (.head _)
          obtain ⟨r', hr'⟩ := item_first (is := is) hok hio
          rw [hr'] at e
          simp only [List.cons_append, List.nil_append, List.append_assoc, List.cons.injEq, true_and] at e
          cases hb : i.before with
          | nil => rw [hb] at e; simp at e
          | cons b bs =>
            rw [hb] at e
            simp only [List.cons_append, List.cons.injEq] at e
            have := hok.1 b (by rw [hb]; simp)
            rw [e.1] at this
            simp at this
  · clear hu he hne h
    induction hf with
    | nil => exact .nil
    | @cons is l iss ls h1 h2 ih =>
      rw [List.flatten_cons, List.flatMap_cons]
      refine forall₂_append' ?_ (ih fun is his => hobj is (.tail _ his))
      have hob : objects is = is.map (·.text) := by
        unfold objects
        rw [List.filter_eq_self.2 fun i hi => (hobj is (.head _) i hi).2]
      rw [hob, List.forall₂_map_right_iff]
      exact h1.flip.imp fun _ _ h => h.2.2

theorem parentOf_ne {e : Ext} {ps : List ListPath} (h : (parentOf ps).Ok e) : ps ≠ [] := by
  rintro rfl
  exact h.1 rfl

/-- What an ANY or ALL ranges over, for several paths. -/
theorem paths_ranges {ps : List ListPath} {st : Start} (hp : PathsOk env) (hpl : ∀ p ∈ ps, p.start = st ∧ PlainSteps p.steps) (hc : Carries env base root msg cur) {ls : List (List Json)}
    (hl : List.Forall₂ (fun p l => Gathers root cur p l ∧ ∀ e ∈ l, ∃ kvs, e = .obj kvs) ps ls) (hne : ps ≠ []) (hlast : (∃ p ∈ ps.getLast?, ∃ l, p.Leads root cur (some (.arr l)) ∧ (p.mark ≠ .none → l ≠ [])) ∨ QuietAbsent env) :
    ∃ ms, Ranges env msg (parentOf ps) ms ∧ List.Forall₂ (fun e m => Carries env base root m (some e)) ls.flatten ms := by
  obtain ⟨p0, hp0⟩ := List.exists_mem_of_ne_nil ps hne
  have hcur : st = .element → cur.isSome := by
    obtain ⟨l0, -, h0, -⟩ := forall₂_mem hl hp0
    intro e
    cases h0 with
    | there h => exact leads_start h ((hpl p0 hp0).1.trans e)
    | missing h => exact leads_start h ((hpl p0 hp0).1.trans e)
  obtain ⟨d, hlead, h | ⟨s, hs, hI, h⟩⟩ := carries_start hc hcur
  · have hel : ∀ p ∈ ps, Ranged (env.jpGet (gs"$." ++ (p.tail ++ p.mark.text)) d).1 := fun p hpm => by
      obtain ⟨l, -, h1⟩ := forall₂_mem hl hpm
      exact (listed_found hp (hpl _ hpm).2 (fun o => hlead _ o (hpl _ hpm).1) h1.1 h1.2).1
    have hflat : (ps.map fun p => p.tail ++ p.mark.text).flatMap (fun r => elementsOf (env.jpGet (gs"$." ++ r) d).1) = ls.flatten := by
      rw [List.flatMap_map]
      exact flatten_flatMap (forall₂_imp_mem hl fun p hpm l h1 => (listed_found hp (hpl p hpm).2 (fun o => hlead _ o (hpl p hpm).1) h1.1 h1.2).2)
    refine ⟨ls.flatten.map fun x => { msg with rawIRel := some x }, ?_, ?_⟩
    · cases st with
      | document =>
        have := Ranges.document (env := env) (rs := ps.map fun p => p.tail ++ p.mark.text) h.2 (by
          intro r hr
          obtain ⟨p, hpm, rfl⟩ := List.mem_map.1 hr
          exact hel p hpm)
        rw [hflat] at this
        rw [parentOf_document fun p hp => (hpl p hp).1]
        exact this
      | element =>
        have := Ranges.element (env := env) (rs := ps.map fun p => p.tail ++ p.mark.text) h.1 h.2 (by
          intro r hr
          obtain ⟨p, hpm, rfl⟩ := List.mem_map.1 hr
          exact hel p hpm)
        rw [hflat] at this
        rw [parentOf_element hne fun p hp => (hpl p hp).1]
        exact this
    · rw [List.forall₂_map_right_iff, List.forall₂_same]
      exact fun e _ => carries_parsed hc h.1 e
  · obtain ⟨parts, ls', h1, h2, h3⟩ := listed_parts hp hs (fun p hpm => ⟨(hpl p hpm).2, fun o => hlead _ o (hpl p hpm).1⟩) hl
    have hquiet : ∀ r ∈ (ps.map fun p => p.tail ++ p.mark.text).getLast?, (env.jsGet s (gs"$." ++ r)).2 = false := by
      intro r hr
      rw [List.getLast?_map, Option.mem_map] at hr
      obtain ⟨p, hpm, rfl⟩ := hr
      have hmem := List.mem_of_getLast? hpm
      obtain ⟨lk, -, h8, -⟩ := forall₂_mem hl hmem
      rcases gathers_cases h8 with ⟨h, hm⟩ | ⟨rfl, h⟩
      · obtain ⟨u, hu, -⟩ := list_foundText hp (hpl p hmem).2 hm hs (hlead _ _ (hpl p hmem).1 h)
        rw [hu]
      · rcases hlast with ⟨p', hp', l, hl', hm⟩ | hq
        · rw [Option.mem_def] at hp' hpm
          rw [hp'] at hpm
          cases hpm
          obtain ⟨u, hu, -⟩ := list_foundText hp (hpl p hmem).2 hm hs (hlead _ _ (hpl p hmem).1 hl')
          rw [hu]
        · rw [marked_text]
          exact hq _ p.mark _ _ (hpl p hmem).2 hs (h fun o => hlead _ o (hpl p hmem).1)
    have hpart : SelectsPart env msg (parentOf ps) (join gs"," (parts.filter (· ≠ []))) := by
      cases st with
      | document =>
        rw [parentOf_document fun p hp => (hpl p hp).1]
        exact .document h h1 hquiet
      | element =>
        rw [parentOf_element hne fun p hp => (hpl p hp).1]
        exact .element h h1 hquiet
    by_cases h4 : parts.filter (· ≠ []) = []
    · rw [h4] at hpart h2
      cases h2
      rw [← h3]
      exact ⟨[], .nothing hI hpart, .nil⟩
    · obtain ⟨ts, h5, h6, h7⟩ := parts_elements hp h4 h2
      refine ⟨_, Ranges.text hI hpart h5 h6, ?_⟩
      rw [List.forall₂_map_right_iff, ← h3]
      exact h7.imp fun _ _ h => carries_text hc hI h

theorem plainMembers_mem : ∀ {s : Str} {kvs : List (Str × Json)}, PlainMembers env s kvs → ∀ kv ∈ kvs, PlainString kv.1 ∧ ∃ u, Plainly env u kv.2
  | _, _, .oneMember _ hk _ _ hv _, kv, h => by rw [List.mem_singleton.1 h]; exact ⟨hk, _, hv⟩
  | _, _, .moreMembers _ hk _ _ hv _ ht, kv, h => by
    rcases List.mem_cons.1 h with rfl | h
    · exact ⟨hk, _, hv⟩
    · exact plainMembers_mem ht kv h

/-- The text of an object is that of its entries. -/
theorem plainly_entries {u : Str} {kvs : List (Str × Json)} (h : Plainly env u (.obj kvs)) :
    (∃ s, u = '{' :: (s ++ gs"}")) ∧ ∀ kv ∈ kvs, ∃ s, Plainly env s (.obj [kv]) := by
  generalize hj : Json.obj kvs = d at h
  cases h with
  | noMembers =>
    cases hj
    exact ⟨⟨[], rfl⟩, by simp⟩
  | obj h hd =>
    cases hj
    refine ⟨⟨_, rfl⟩, fun kv hkv => ?_⟩
    obtain ⟨hk, s, hs⟩ := plainMembers_mem h kv hkv
    exact ⟨_, .obj (.oneMember (w0 := []) (w1 := []) (w2 := []) (w3 := []) (by simp [Blank]) hk (by simp [Blank]) (by simp [Blank]) hs (by simp [Blank])) (by simp)⟩
  | _ => cases hj

/-- What an ANY or ALL ranges over, for an object. -/
theorem entries_range {p : Path} (hp : PathsOk env) (hpl : PlainSteps p.steps) (hc : Carries env base root msg cur) {kvs : List (Str × Json)}
    (hl : p.Leads root cur (some (.obj kvs))) (hk : ∀ kv ∈ kvs, ShownEntry kv) :
    ∃ ms, Ranges env msg (parentOf [{ p with }]) ms ∧ List.Forall₂ (fun kv m => Carries env base root m (some (.obj [kv]))) kvs ms := by
  have hparent : ∀ st, p.start = st → parentOf [{ p with }] = match st with | .document => .document [p.tail] | .element => .element [p.tail] := by
    intro st hst
    cases st with
    | document =>
      rw [parentOf_document (fun q hq => by rw [List.mem_singleton.1 hq]; exact hst)]
      simp [Mark.text, Path.tail]
    | element =>
      rw [parentOf_element (by simp) (fun q hq => by rw [List.mem_singleton.1 hq]; exact hst)]
      simp [Mark.text, Path.tail]
  obtain ⟨d, hlead, h | ⟨s, hs, hI, h⟩⟩ := carries_document hc hl
  · have hget : env.jpGet (gs"$." ++ p.tail) d = (.obj kvs, none) := hp.found _ _ _ hpl hlead
    have hflat : ([p.tail].flatMap fun r => elementsOf (env.jpGet (gs"$." ++ r) d).1) = kvs.map fun kv => .obj [kv] := by
      rw [List.flatMap_cons, List.flatMap_nil, hget, List.append_nil]
      rfl
    have hran : ∀ r ∈ [p.tail], Ranged (env.jpGet (gs"$." ++ r) d).1 := fun r hr => by
      rw [List.mem_singleton.1 hr, hget]
      exact .object _
    refine ⟨kvs.map fun kv => { msg with rawIRel := some (.obj [kv]) }, ?_, ?_⟩
    · rw [hparent _ rfl]
      cases hst : p.start with
      | document =>
        rw [hst] at h
        have := Ranges.document (env := env) (rs := [p.tail]) h.2 hran
        rw [hflat, List.map_map] at this
        exact this
      | element =>
        rw [hst] at h
        have := Ranges.element (env := env) (rs := [p.tail]) h.1 h.2 hran
        rw [hflat, List.map_map] at this
        exact this
    · rw [List.forall₂_map_right_iff, List.forall₂_same]
      exact fun kv _ => carries_parsed hc h.1 _
  · obtain ⟨u, hu, hu'⟩ := hp.foundText _ _ _ _ hpl hs hlead
    have hget : env.jsGet s (gs"$." ++ p.tail) = (u, false) := hu
    have hquiet : ∀ r ∈ [p.tail].getLast?, (env.jsGet s (gs"$." ++ r)).2 = false := fun r hr => by
      cases hr
      exact congrArg Prod.snd hget
    obtain ⟨x, rfl⟩ := (plainly_entries hu').1
    obtain ⟨⟨y, hy⟩, hent⟩ := plainly_entries (hp.ugly _ _ hu')
    have hpart : SelectsPart env msg (parentOf [{ p with }]) ('{' :: (x ++ gs"}")) := by
      rw [hparent _ rfl]
      cases hst : p.start with
      | document =>
        rw [hst] at h
        have := SelectsPart.document (env := env) (rs := [p.tail]) h (.cons (.part hget) .nil) hquiet
        simpa [join] using this
      | element =>
        rw [hst] at h
        have := SelectsPart.element (env := env) (rs := [p.tail]) h (.cons (.part hget) .nil) hquiet
        simpa [join] using this
    have hel : PartElements env (env.ugly ('{' :: (x ++ gs"}"))) (kvs.map fun kv => env.jsonMarshal (.obj [kv])) := by
      have := hp.read _ _ (hp.ugly _ _ hu')
      rw [hy] at this ⊢
      exact .object this
    refine ⟨_, Ranges.text hI hpart (by simp) hel, ?_⟩
    rw [List.map_map, List.forall₂_map_right_iff, List.forall₂_same]
    intro kv hkv
    obtain ⟨z, hz⟩ := hent kv hkv
    exact carries_text hc hI (hp.writtenEntry _ _ hz (hk kv hkv))

theorem listed_mem {ps : List ListPath} {ls : List (List Json)} (h : List.Forall₂ (fun p l => Gathers root cur p l) ps ls) (e : Json) :
    e ∈ ls.flatten ↔ ∃ p ∈ ps, ∃ l, p.Leads root cur (some (.arr l)) ∧ e ∈ l := by
  induction h with
  | nil => simp
  | @cons p l ps ls h _ ih =>
    rw [List.flatten_cons, List.mem_append, ih]
    simp only [List.exists_mem_cons_iff]
    refine or_congr_left ?_
    cases h with
    | there h =>
      constructor
      · exact fun he => ⟨_, h, he⟩
      · rintro ⟨l', hl', he⟩
        cases path_unique h hl'
        exact he
    | missing h =>
      constructor
      · simp
      · rintro ⟨l', hl', -⟩
        cases path_unique h hl'

theorem parent_unique {env : Env} {q : Parent} {l l' : List Msg} (ho : env.OrdOk) (hq : q.Ok env) (h : Ranges env msg q l) (h' : Ranges env msg q l') (P : Msg → Prop) :
    ((∃ m ∈ l, P m) ↔ ∃ m ∈ l', P m) ∧ ((∀ m ∈ l, P m) ↔ ∀ m ∈ l', P m) := by
  have hp := ranges_perm ho hq h h'
  simp [hp.mem_iff]

/-! ## Claims -/

mutual
/-- A clear claim is defined as a statement, and means the same. -/
theorem claim_meaning {env : Env} {t : Predef} (he : Assumed env) (hp : PathsOk env) : ∀ (f : Claim) (msg : Msg) (cur : Option Json), f.Plain → Sound env t f.statement →
    Carries env base root msg cur → f.Clear env t base root cur → Defined env t f.statement msg ∧ (Meaning env t f.statement msg ↔ f.Holds env t base root cur)
  | .attr a m v, msg, cur, hpl, hs, hc, hd => by
    rw [Claim.Plain] at hpl
    rw [Claim.statement] at hs ⊢
    rw [Claim.Clear] at hd
    obtain ⟨w, P, hv, hS⟩ := hd
    have hS' := attr_says hc hpl hS
    refine ⟨by rw [Defined]; exact ⟨w, P, hv, hS'⟩, ?_⟩
    have hm := meaning_cond he hs hv hS'
    rw [Claim.Holds]
    refine ⟨fun h => ⟨w, P, hv, hS, hm.1 h⟩, ?_⟩
    rintro ⟨w', P', hv', hS2, hP⟩
    exact (meaning_cond he hs hv' (attr_says hc hpl hS2)).2 hP
  | .test p m v, msg, cur, hpl, hs, hc, hd => by
    rw [Claim.Plain] at hpl
    rw [Claim.statement] at hs ⊢
    rw [Claim.Clear] at hd
    obtain ⟨o, w, P, hl, hv, hS⟩ := hd
    have hS' := path_says hp hpl hc hl hS
    refine ⟨by rw [Defined]; exact ⟨w, P, hv, hS'⟩, ?_⟩
    have hm := meaning_cond he hs hv hS'
    rw [Claim.Holds]
    refine ⟨fun h => ⟨o, w, P, hl, hv, hS, hm.1 h⟩, ?_⟩
    rintro ⟨o', w', P', hl', hv', hS2, hP⟩
    exact (meaning_cond he hs hv' (path_says hp hpl hc hl' hS2)).2 hP
  | .key m v, msg, cur, hpl, hs, hc, hd => by
    rw [Claim.statement] at hs ⊢
    rw [Claim.Clear] at hd
    obtain ⟨k, j, w, P, rfl, hv, hS⟩ := hd
    have hS' : Says env msg gs"jsonpath:$KEY" m w P := value_says hp (entry_key hp hc) hS
    refine ⟨by rw [Defined]; exact ⟨w, P, hv, hS'⟩, ?_⟩
    have hm := meaning_cond he hs hv hS'
    rw [Claim.Holds]
    refine ⟨fun h => ⟨k, j, w, P, rfl, hv, hS, hm.1 h⟩, ?_⟩
    rintro ⟨k', j', w', P', hcur, hv', hS2, hP⟩
    cases hcur
    exact (meaning_cond he hs hv' (show Says env msg gs"jsonpath:$KEY" m w' P' from value_says hp (entry_key hp hc) hS2)).2 hP
  | .value m v, msg, cur, hpl, hs, hc, hd => by
    rw [Claim.statement] at hs ⊢
    rw [Claim.Clear] at hd
    obtain ⟨k, j, w, P, rfl, hj, hv, hS⟩ := hd
    have hS' : Says env msg gs"jsonpath:$VALUE" m w P := value_says hp (entry_value hp hc hj) hS
    refine ⟨by rw [Defined]; exact ⟨w, P, hv, hS'⟩, ?_⟩
    have hm := meaning_cond he hs hv hS'
    rw [Claim.Holds]
    refine ⟨fun h => ⟨k, j, w, P, rfl, hv, hS, hm.1 h⟩, ?_⟩
    rintro ⟨k', j', w', P', hcur, hv', hS2, hP⟩
    cases hcur
    exact (meaning_cond he hs hv' (show Says env msg gs"jsonpath:$VALUE" m w' P' from value_says hp (entry_value hp hc hj) hS2)).2 hP
  | .and fs, msg, cur, hpl, hs, hc, hd => by
    rw [Claim.Plain] at hpl
    rw [Claim.statement, Sound] at hs
    rw [Claim.Clear] at hd
    rw [Claim.statement, Defined, Meaning, Claim.Holds]
    exact claims_inTurn he hp fs msg cur hpl hs.2 hc hd
  | .or fs, msg, cur, hpl, hs, hc, hd => by
    rw [Claim.Plain] at hpl
    rw [Claim.statement, Sound] at hs
    rw [Claim.Clear] at hd
    rw [Claim.statement, Defined, Meaning, Claim.Holds]
    exact claims_some he hp fs msg cur hpl hs.2 hc hd
  | .not f, msg, cur, hpl, hs, hc, hd => by
    rw [Claim.Plain] at hpl
    rw [Claim.statement, Sound] at hs
    rw [Claim.Clear] at hd
    rw [Claim.statement, Defined, Meaning, Claim.Holds]
    obtain ⟨h1, h2⟩ := claim_meaning he hp f msg cur hpl hs hc hd
    exact ⟨h1, not_congr h2⟩
  | .any ps f, msg, cur, hpl, hs, hc, hd => by
    rw [Claim.Plain] at hpl
    rw [Claim.statement, Sound] at hs
    rw [Claim.Clear] at hd
    rw [Claim.statement, Defined, Meaning, Claim.Holds]
    obtain ⟨hd, hlast⟩ := hd
    obtain ⟨⟨st, hst⟩, hpf⟩ := hpl
    obtain ⟨ls, hls⟩ := forall₂_pick hd
    obtain ⟨ms, hr, hf⟩ := paths_ranges hp hst hc (hls.imp fun _ _ h => ⟨h.1, fun e he => (h.2 e he).1⟩) (parentOf_ne hs.1) hlast
    have hmem : ∀ e, e ∈ ls.flatten ↔ ∃ p ∈ ps, ∃ l, p.Leads root cur (some (.arr l)) ∧ e ∈ l := listed_mem (hls.imp fun _ _ h => h.1)
    have clear : ∀ e ∈ ls.flatten, f.Clear env t base root (some e) := flatten_each hls fun _ _ h e he => (h.2 e he).2
    have each : ∀ e ∈ ls.flatten, ∀ m, Carries env base root m (some e) → Defined env t f.statement m ∧ (Meaning env t f.statement m ↔ f.Holds env t base root (some e)) :=
      fun e he' m hm => claim_meaning he hp f m (some e) hpf hs.2 hm (clear e he')
    have h1 := forall₂_exists (P := fun e => f.Holds env t base root (some e)) (Q := fun m => Meaning env t f.statement m) hf fun e he' m hm => (each e he' m hm).2.symm
    have h2 : (∃ e ∈ ls.flatten, f.Holds env t base root (some e)) ↔ ∃ p ∈ ps, ∃ l, p.Leads root cur (some (.arr l)) ∧ ∃ e ∈ l, f.Holds env t base root (some e) := by
      constructor
      · rintro ⟨e, he', h⟩
        obtain ⟨p, hpm, l, hl, hel⟩ := (hmem e).1 he'
        exact ⟨p, hpm, l, hl, e, hel, h⟩
      · rintro ⟨p, hpm, l, hl, e, hel, h⟩
        exact ⟨e, (hmem e).2 ⟨p, hpm, l, hl, hel⟩, h⟩
    refine ⟨⟨ms, hr, fun m hm => ?_⟩, ?_⟩
    · obtain ⟨k, hk, rfl⟩ := List.getElem_of_mem hm
      have hk' : k < ls.flatten.length := hf.length_eq ▸ hk
      exact (each _ (List.getElem_mem hk') _ (hf.get hk' hk)).1
    · rw [← h2, h1]
      constructor
      · rintro ⟨ms', hr', h⟩
        exact (parent_unique he.order hs.1 hr' hr _).1.1 h
      · exact fun h => ⟨ms, hr, h⟩
  | .all ps f, msg, cur, hpl, hs, hc, hd => by
    rw [Claim.Plain] at hpl
    rw [Claim.statement, Sound] at hs
    rw [Claim.Clear] at hd
    rw [Claim.statement, Defined, Meaning, Claim.Holds]
    obtain ⟨hd, hlast⟩ := hd
    obtain ⟨⟨st, hst⟩, hpf⟩ := hpl
    obtain ⟨ls, hls⟩ := forall₂_pick hd
    obtain ⟨ms, hr, hf⟩ := paths_ranges hp hst hc (hls.imp fun _ _ h => ⟨h.1, fun e he => (h.2 e he).1⟩) (parentOf_ne hs.1) hlast
    have hmem : ∀ e, e ∈ ls.flatten ↔ ∃ p ∈ ps, ∃ l, p.Leads root cur (some (.arr l)) ∧ e ∈ l := listed_mem (hls.imp fun _ _ h => h.1)
    have clear : ∀ e ∈ ls.flatten, f.Clear env t base root (some e) := flatten_each hls fun _ _ h e he => (h.2 e he).2
    have each : ∀ e ∈ ls.flatten, ∀ m, Carries env base root m (some e) → Defined env t f.statement m ∧ (Meaning env t f.statement m ↔ f.Holds env t base root (some e)) :=
      fun e he' m hm => claim_meaning he hp f m (some e) hpf hs.2 hm (clear e he')
    have h1 := forall₂_exists (P := fun e => ¬ f.Holds env t base root (some e)) (Q := fun m => ¬ Meaning env t f.statement m) hf
      fun e he' m hm => not_congr (each e he' m hm).2.symm
    have h2 : (∀ e ∈ ls.flatten, f.Holds env t base root (some e)) ↔ ∀ m ∈ ms, Meaning env t f.statement m := by
      have := not_congr h1
      push Not at this
      exact this
    have h3 : (∀ e ∈ ls.flatten, f.Holds env t base root (some e)) ↔ ∀ p ∈ ps, ∀ l, p.Leads root cur (some (.arr l)) → ∀ e ∈ l, f.Holds env t base root (some e) := by
      constructor
      · intro h p hpm l hl e hel
        exact h e ((hmem e).2 ⟨p, hpm, l, hl, hel⟩)
      · intro h e he'
        obtain ⟨p, hpm, l, hl, hel⟩ := (hmem e).1 he'
        exact h p hpm l hl e hel
    refine ⟨⟨ms, hr, fun m hm => ?_⟩, ?_⟩
    · obtain ⟨k, hk, rfl⟩ := List.getElem_of_mem hm
      have hk' : k < ls.flatten.length := hf.length_eq ▸ hk
      exact (each _ (List.getElem_mem hk') _ (hf.get hk' hk)).1
    · rw [← h3, h2]
      constructor
      · rintro ⟨ms', hr', h⟩
        exact (parent_unique he.order hs.1 hr' hr _).2.1 h
      · exact fun h => ⟨ms, hr, h⟩
  | .anyEntry p f, msg, cur, hpl, hs, hc, hd => by
    rw [Claim.Plain] at hpl
    rw [Claim.statement, Sound] at hs
    rw [Claim.Clear] at hd
    rw [Claim.statement, Defined, Meaning, Claim.Holds]
    rcases hd with ⟨kvs, hl, hd⟩ | ⟨hl, hq⟩
    · obtain ⟨ms, hr, hf⟩ := entries_range hp hpl.1 hc hl fun kv hkv => (hd kv hkv).1
      have each : ∀ kv ∈ kvs, ∀ m, Carries env base root m (some (.obj [kv])) →
          Defined env t f.statement m ∧ (Meaning env t f.statement m ↔ f.Holds env t base root (some (.obj [kv]))) :=
        fun kv hkv m hm => claim_meaning he hp f m _ hpl.2 hs.2 hm (hd kv hkv).2
      refine ⟨⟨ms, hr, fun m hm => ?_⟩, ?_⟩
      · obtain ⟨k, hk, rfl⟩ := List.getElem_of_mem hm
        have hk' : k < kvs.length := hf.length_eq ▸ hk
        exact (each _ (List.getElem_mem hk') _ (hf.get hk' hk)).1
      · have h1 := forall₂_exists (P := fun kv => f.Holds env t base root (some (.obj [kv]))) (Q := fun m => Meaning env t f.statement m) hf
          fun kv hkv m hm => (each kv hkv m hm).2.symm
        constructor
        · rintro ⟨ms', hr', h⟩
          exact ⟨kvs, hl, h1.2 ((parent_unique he.order hs.1 hr' hr _).1.1 h)⟩
        · rintro ⟨kvs', hl', h⟩
          cases path_unique hl hl'
          exact ⟨ms, hr, h1.1 h⟩
    · obtain ⟨ms, hr, hf⟩ := paths_ranges (ps := [{ p with }]) (ls := [[]]) hp (st := p.start) (fun q hqm => by rw [List.mem_singleton.1 hqm]; exact ⟨rfl, hpl.1⟩) hc
        (.cons ⟨.missing hl, by simp⟩ .nil) (by simp) (.inr hq)
      cases hf
      refine ⟨⟨[], hr, by simp⟩, ?_⟩
      constructor
      · rintro ⟨ms', hr', h⟩
        have := (parent_unique he.order hs.1 hr' hr _).1.1 h
        simp at this
      · rintro ⟨kvs', hl', h⟩
        cases path_unique hl hl'
  | .allEntries p f, msg, cur, hpl, hs, hc, hd => by
    rw [Claim.Plain] at hpl
    rw [Claim.statement, Sound] at hs
    rw [Claim.Clear] at hd
    rw [Claim.statement, Defined, Meaning, Claim.Holds]
    rcases hd with ⟨kvs, hl, hd⟩ | ⟨hl, hq⟩
    · obtain ⟨ms, hr, hf⟩ := entries_range hp hpl.1 hc hl fun kv hkv => (hd kv hkv).1
      have each : ∀ kv ∈ kvs, ∀ m, Carries env base root m (some (.obj [kv])) →
          Defined env t f.statement m ∧ (Meaning env t f.statement m ↔ f.Holds env t base root (some (.obj [kv]))) :=
        fun kv hkv m hm => claim_meaning he hp f m _ hpl.2 hs.2 hm (hd kv hkv).2
      refine ⟨⟨ms, hr, fun m hm => ?_⟩, ?_⟩
      · obtain ⟨k, hk, rfl⟩ := List.getElem_of_mem hm
        have hk' : k < kvs.length := hf.length_eq ▸ hk
        exact (each _ (List.getElem_mem hk') _ (hf.get hk' hk)).1
      · have h1 := forall₂_exists (P := fun kv => ¬ f.Holds env t base root (some (.obj [kv]))) (Q := fun m => ¬ Meaning env t f.statement m) hf
          fun kv hkv m hm => not_congr (each kv hkv m hm).2.symm
        have h2 : (∀ kv ∈ kvs, f.Holds env t base root (some (.obj [kv]))) ↔ ∀ m ∈ ms, Meaning env t f.statement m := by
          have := not_congr h1
          push Not at this
          exact this
        constructor
        · rintro ⟨ms', hr', h⟩ kvs' hl'
          cases path_unique hl hl'
          exact h2.2 ((parent_unique he.order hs.1 hr' hr _).2.1 h)
        · exact fun h => ⟨ms, hr, h2.1 (h _ hl)⟩
    · obtain ⟨ms, hr, hf⟩ := paths_ranges (ps := [{ p with }]) (ls := [[]]) hp (st := p.start) (fun q hqm => by rw [List.mem_singleton.1 hqm]; exact ⟨rfl, hpl.1⟩) hc
        (.cons ⟨.missing hl, by simp⟩ .nil) (by simp) (.inr hq)
      cases hf
      refine ⟨⟨[], hr, by simp⟩, ?_⟩
      constructor
      · rintro - kvs' hl'
        cases path_unique hl hl'
      · exact fun _ => ⟨[], hr, by simp⟩

theorem claims_inTurn {env : Env} {t : Predef} (he : Assumed env) (hp : PathsOk env) : ∀ (fs : List Claim) (msg : Msg) (cur : Option Json), Claim.AllPlain fs →
    SoundAll env t (Claim.statements fs) → Carries env base root msg cur → Claim.ClearInTurn env t base root fs cur →
    DefinedInTurn env t (Claim.statements fs) msg ∧ (MeaningAll env t (Claim.statements fs) msg ↔ Claim.AllHold env t base root fs cur)
  | [], msg, cur, _, _, _, _ => by
    rw [Claim.statements, DefinedInTurn, MeaningAll, Claim.AllHold]
    exact ⟨trivial, Iff.rfl⟩
  | f :: fs, msg, cur, hpl, hs, hc, hd => by
    rw [Claim.AllPlain] at hpl
    rw [Claim.statements, SoundAll] at hs
    rw [Claim.ClearInTurn] at hd
    rw [Claim.statements, DefinedInTurn, MeaningAll, Claim.AllHold]
    obtain ⟨h1, h2⟩ := claim_meaning he hp f msg cur hpl.1 hs.1 hc hd.1
    refine ⟨⟨h1, fun h => (claims_inTurn he hp fs msg cur hpl.2 hs.2 hc (hd.2 (h2.1 h))).1⟩, ?_⟩
    rw [h2]
    exact and_congr_right fun h => (claims_inTurn he hp fs msg cur hpl.2 hs.2 hc (hd.2 h)).2

theorem claims_some {env : Env} {t : Predef} (he : Assumed env) (hp : PathsOk env) : ∀ (fs : List Claim) (msg : Msg) (cur : Option Json), Claim.AllPlain fs →
    SoundAll env t (Claim.statements fs) → Carries env base root msg cur → Claim.AllClear env t base root fs cur →
    DefinedAll env t (Claim.statements fs) msg ∧ (MeaningSome env t (Claim.statements fs) msg ↔ Claim.SomeHolds env t base root fs cur)
  | [], msg, cur, _, _, _, _ => by
    rw [Claim.statements, DefinedAll, MeaningSome, Claim.SomeHolds]
    exact ⟨trivial, Iff.rfl⟩
  | f :: fs, msg, cur, hpl, hs, hc, hd => by
    rw [Claim.AllPlain] at hpl
    rw [Claim.statements, SoundAll] at hs
    rw [Claim.AllClear] at hd
    rw [Claim.statements, DefinedAll, MeaningSome, Claim.SomeHolds]
    obtain ⟨h1, h2⟩ := claim_meaning he hp f msg cur hpl.1 hs.1 hc hd.1
    obtain ⟨h3, h4⟩ := claims_some he hp fs msg cur hpl.2 hs.2 hc hd.2
    exact ⟨⟨h1, h3⟩, or_congr h2 h4⟩
end

/-! ## Rules -/

variable {env : Env} {g t : Predef}

theorem carries_msg {env : Ext} (hc : Carries env base root msg cur) (hm : MsgOk env base) : MsgOk env msg := by
  cases hc <;> exact ⟨hm.sourceNet, hm.destinationNet, hm.sourceService, hm.destinationService, hm.host, hm.method, hm.path, hm.port⟩

theorem carries_parts {env : Ext} {body : Rule} {s v : Str} (hc : Carries env base root msg cur) : WrittenParts body s v msg = WrittenParts body s v base := by
  cases hc <;> exact propext ⟨fun h => ⟨h.1, h.2, h.3, h.4⟩, fun h => ⟨h.1, h.2, h.3, h.4⟩⟩

theorem writtenClaims (he : Assumed env) (hp : PathsOk env) (hc : Carries env base root msg none) {body : Rule} {A : Prop} {d : Decision}
    (h : WrittenClaims env t base root body A d) : WrittenSays env t msg body A d := by
  cases h with
  | @mk c s v hcd hs hv ht hok hpl hd =>
    have key : ∀ f ∈ c, Defined env t f.statement msg ∧ (Meaning env t f.statement msg ↔ f.Holds env t base root none) := fun f hf =>
      claim_meaning he hp f msg none (hpl f hf) (hok f hf) hc (hd f hf)
    have hA : (WrittenParts body s v base ∧ ∀ f ∈ c, f.Holds env t base root none) =
        (WrittenParts body s v msg ∧ ∀ f ∈ c.map Claim.statement, Meaning env t f msg) := by
      rw [carries_parts hc]
      refine propext (and_congr_right fun _ => ?_)
      constructor
      · intro h f hf
        obtain ⟨f', hf', rfl⟩ := Option.mem_map.1 hf
        exact (key f' hf').2.2 (h f' hf')
      · exact fun h f hf => (key f hf).2.1 (h _ (Option.mem_map_of_mem _ hf))
    rw [hA]
    refine .mk (c := c.map Claim.statement) ?_ hs hv ht ?_ ?_
    · rw [hcd]; cases c <;> rfl
    · intro f hf
      obtain ⟨f', hf', rfl⟩ := Option.mem_map.1 hf
      exact hok f' hf'
    · intro f hf
      obtain ⟨f', hf', rfl⟩ := Option.mem_map.1 hf
      exact (key f' hf').1

end Mapl

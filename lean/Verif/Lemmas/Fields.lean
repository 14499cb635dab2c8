import Verif.Spec.Fields
import Verif.Lemmas.DecodeMessage
import Verif.Lemmas.Names
import Verif.Lemmas.Validate
import Verif.Lemmas.Leaf

/-! # Comparing the numbers of fields -/

namespace Mapl

open Spec

/-! ## Replacing line by line -/

theorem prefix_line {o l s : Str} (ho : '\n' ∉ o) : o.isPrefixOf (l ++ '\n' :: s) = o.isPrefixOf l := by
  rw [Bool.eq_iff_iff, List.isPrefixOf_iff_prefix, List.isPrefixOf_iff_prefix]
  constructor
  · rintro ⟨t, h⟩
    rcases List.append_eq_append_iff.1 h with ⟨a, h1, h2⟩ | ⟨a, h1, h2⟩
    · exact ⟨a, h1.symm⟩
    · cases a with
      | nil => exact ⟨[], by simpa using h1⟩
      | cons c a =>
        simp only [List.cons_append, List.cons.injEq] at h2
        rw [h1] at ho
        simp [← h2.1] at ho
  · rintro ⟨t, rfl⟩
    exact ⟨t ++ '\n' :: s, by simp⟩

theorem replace_line {old new s : Str} (h0 : old ≠ []) (ho : '\n' ∉ old) : ∀ (l : Str) (k : Nat), k ≤ l.length →
    replaceAux old new (l ++ '\n' :: s) k = replaceAux old new l k ++ '\n' :: replaceAux old new s 0
  | [], 0, _ => by
    have : ¬ old.isPrefixOf ('\n' :: s) = true := by
      rw [show ('\n' :: s) = [] ++ '\n' :: s from rfl, prefix_line ho]
      cases old with
      | nil => exact absurd rfl h0
      | cons => simp [List.isPrefixOf]
    rw [List.nil_append, show replaceAux old new ('\n' :: s) 0 = _ from by rw [replaceAux], if_neg this]
    rfl
  | [], k + 1, h => by simp at h
  | c :: l, k + 1, h => by
    rw [List.cons_append, replaceAux, replaceAux]
    exact replace_line h0 ho l k (by simpa using h)
  | c :: l, 0, _ => by
    have hp := prefix_line (l := c :: l) (s := s) ho
    rw [List.cons_append] at hp
    rw [List.cons_append, replaceAux, replaceAux, hp]
    split
    · next h =>
      have hlen := (List.isPrefixOf_iff_prefix.1 h).length_le
      rw [replace_line h0 ho l (old.length - 1) (by simp at hlen; omega), List.append_assoc]
    · rw [replace_line h0 ho l 0 (Nat.zero_le _), List.cons_append]

/-- The end of a line is replaced. -/
def chop (o n : Str) : Str → Str
  | [] => if o = [] then n else []
  | c :: l => if o = c :: l then n else c :: chop o n l

theorem prefix_end {o l s : Str} (ho : '\n' ∉ o) (hl : '\n' ∉ l) : (o ++ gs"\n").isPrefixOf (l ++ '\n' :: s) = true ↔ o = l := by
  rw [List.isPrefixOf_iff_prefix]
  constructor
  · rintro ⟨t, h⟩
    rw [List.append_assoc, List.singleton_append] at h
    rcases List.append_eq_append_iff.1 h with ⟨a, h1, h2⟩ | ⟨a, h1, h2⟩
    · cases a with
      | nil => simpa using h1.symm
      | cons c a =>
        simp only [List.cons_append, List.cons.injEq] at h2
        rw [h1] at hl
        simp [← h2.1] at hl
    · cases a with
      | nil => simpa using h1
      | cons c a =>
        simp only [List.cons_append, List.cons.injEq] at h2
        rw [h1] at ho
        simp [← h2.1] at ho
  · rintro rfl
    exact ⟨s, by simp⟩

theorem replaceAux_skip {old new : Str} : ∀ (l s : Str), replaceAux old new (l ++ s) l.length = replaceAux old new s 0
  | [], s => rfl
  | c :: l, s => by rw [List.cons_append, List.length_cons, replaceAux]; exact replaceAux_skip l s

theorem replace_end {o n s : Str} (ho : '\n' ∉ o) (h0 : o ≠ []) : ∀ (l : Str), '\n' ∉ l →
    replaceAux (o ++ gs"\n") (n ++ gs"\n") (l ++ '\n' :: s) 0 = chop o n l ++ '\n' :: replaceAux (o ++ gs"\n") (n ++ gs"\n") s 0
  | [], hl => by
    have : ¬ (o ++ gs"\n").isPrefixOf ([] ++ '\n' :: s) = true := by rw [prefix_end ho hl]; exact h0
    rw [List.nil_append] at this
    rw [List.nil_append, replaceAux, if_neg this, chop, if_neg h0]
    rfl
  | c :: l, hl => by
    have hp := prefix_end (s := s) ho hl
    rw [List.cons_append] at hp
    rw [List.cons_append, replaceAux, chop]
    by_cases h : o = c :: l
    · rw [if_pos (hp.2 h), if_pos h, List.append_assoc, List.singleton_append]
      have : l ++ '\n' :: s = (l ++ gs"\n") ++ s := by simp
      rw [this, show (o ++ gs"\n").length - 1 = (l ++ gs"\n").length by rw [h]; simp, replaceAux_skip]
    · rw [if_neg (fun h' => h (hp.1 h')), if_neg h, replace_end ho h0 l (fun h' => hl (List.mem_cons_of_mem _ h')), List.cons_append]

/-- One replacement in one line. -/
def stepLine (l : Str) (x : Str × Str) : Str := if '\n' ∈ x.1 then chop x.1.dropLast x.2.dropLast l else replaceAll l x.1 x.2

/-- All replacements in one line. -/
def cleanLine (l : Str) : Str := fieldReplacements.foldl stepLine l

/-- Lines, each with a line break. -/
def lines (ls : List Str) : Str := ls.flatMap (· ++ gs"\n")

/-- A replacement that keeps lines: it is in a line, or at the end of one. -/
def keepsLines (x : Str × Str) : Bool :=
  (x.1 ≠ [] ∧ '\n' ∉ x.1 ∧ '\n' ∉ x.2) ∨
    ('\n' ∈ x.1 ∧ x.1 = x.1.dropLast ++ gs"\n" ∧ x.2 = x.2.dropLast ++ gs"\n" ∧ '\n' ∉ x.1.dropLast ∧ '\n' ∉ x.2.dropLast ∧ x.1.dropLast ≠ [])

theorem replacements_keep : ∀ x ∈ fieldReplacements, keepsLines x = true ∧ replaceAll gs"}" x.1 x.2 = gs"}" := by decide +kernel

theorem mem_replaceAux {old new : Str} {c : Char} : ∀ {s : Str} {k : Nat}, c ∈ replaceAux old new s k → c ∈ new ∨ c ∈ s
  | [], _, h => by simp [replaceAux] at h
  | d :: s, k + 1, h => by
    rw [replaceAux] at h
    rcases mem_replaceAux h with h | h
    · exact .inl h
    · exact .inr (List.mem_cons_of_mem _ h)
  | d :: s, 0, h => by
    rw [replaceAux] at h
    split at h
    · rcases List.mem_append.1 h with h | h
      · exact .inl h
      · rcases mem_replaceAux h with h | h
        · exact .inl h
        · exact .inr (List.mem_cons_of_mem _ h)
    · rcases List.mem_cons.1 h with rfl | h
      · exact .inr (List.mem_cons_self ..)
      · rcases mem_replaceAux h with h | h
        · exact .inl h
        · exact .inr (List.mem_cons_of_mem _ h)

theorem mem_chop {o n : Str} {c : Char} : ∀ {l : Str}, c ∈ chop o n l → c ∈ n ∨ c ∈ l
  | [], h => by
    rw [chop] at h
    split at h
    · exact .inl h
    · exact .inr h
  | d :: l, h => by
    rw [chop] at h
    split at h
    · exact .inl h
    · rcases List.mem_cons.1 h with rfl | h
      · exact .inr (List.mem_cons_self ..)
      · rcases mem_chop h with h | h
        · exact .inl h
        · exact .inr (List.mem_cons_of_mem _ h)

theorem step_keeps {x : Str × Str} (hx : keepsLines x = true) {l : Str} (hl : '\n' ∉ l) : '\n' ∉ stepLine l x := by
  unfold keepsLines at hx
  simp only [Bool.decide_or, Bool.or_eq_true, decide_eq_true_eq] at hx
  unfold stepLine
  intro h
  rcases hx with ⟨-, h1, h2⟩ | ⟨h1, -, -, -, h2, -⟩
  · rw [if_neg h1] at h
    rcases mem_replaceAux h with h | h
    · exact h2 h
    · exact hl h
  · rw [if_pos h1] at h
    rcases mem_chop h with h | h
    · exact h2 h
    · exact hl h

theorem step_lines {x : Str × Str} (hx : keepsLines x = true) (ht : replaceAll gs"}" x.1 x.2 = gs"}") : ∀ {ls : List Str}, (∀ l ∈ ls, '\n' ∉ l) →
    replaceAll (lines ls ++ gs"}") x.1 x.2 = lines (ls.map (stepLine · x)) ++ gs"}"
  | [], _ => ht
  | l :: ls, h => by
    have ih := step_lines hx ht (ls := ls) fun l hl => h l (List.mem_cons_of_mem _ hl)
    have hl := h l (List.mem_cons_self ..)
    have e : lines (l :: ls) ++ gs"}" = l ++ '\n' :: (lines ls ++ gs"}") := by simp [lines]
    have e' : lines ((l :: ls).map (stepLine · x)) ++ gs"}" = stepLine l x ++ '\n' :: (lines (ls.map (stepLine · x)) ++ gs"}") := by simp [lines]
    rw [e, e', ← ih]
    unfold keepsLines at hx
    simp only [Bool.decide_or, Bool.or_eq_true, decide_eq_true_eq] at hx
    unfold stepLine
    rcases hx with ⟨h0, h1, h2⟩ | ⟨h1, h2, h3, h4, h5, h6⟩
    · rw [if_neg h1]
      exact replace_line h0 h1 l 0 (Nat.zero_le _)
    · rw [if_pos h1]
      have := replace_end (n := x.2.dropLast) (s := lines ls ++ gs"}") h4 h6 l hl
      rw [← h2, ← h3] at this
      exact this

theorem foldl_lines : ∀ {rs : List (Str × Str)}, (∀ x ∈ rs, keepsLines x = true ∧ replaceAll gs"}" x.1 x.2 = gs"}") → ∀ {ls : List Str}, (∀ l ∈ ls, '\n' ∉ l) →
    rs.foldl (fun s x => replaceAll s x.1 x.2) (lines ls ++ gs"}") = lines (ls.map fun l => rs.foldl stepLine l) ++ gs"}" ∧
      ∀ l ∈ ls, '\n' ∉ rs.foldl stepLine l
  | [], _, ls, h => by simpa using h
  | x :: rs, hr, ls, h => by
    have hx := hr x (List.mem_cons_self ..)
    have hk : ∀ l ∈ ls.map (stepLine · x), '\n' ∉ l := by
      intro l hl
      obtain ⟨l', h1, rfl⟩ := List.mem_map.1 hl
      exact step_keeps hx.1 (h l' h1)
    obtain ⟨i1, i2⟩ := foldl_lines (rs := rs) (fun y hy => hr y (List.mem_cons_of_mem _ hy)) hk
    constructor
    · rw [List.foldl_cons, step_lines hx.1 hx.2 h, i1, List.map_map]
      rfl
    · intro l hl
      exact i2 _ (List.mem_map_of_mem hl)

theorem replaceFields_lines {ls : List Str} (h : ∀ l ∈ ls, '\n' ∉ l) : replaceFields (lines ls ++ gs"}") = lines (ls.map cleanLine) ++ gs"}" ∧
    ∀ l ∈ ls, '\n' ∉ cleanLine l := foldl_lines replacements_keep h

theorem matches_lines : ∀ {ls : List Str}, (∀ l ∈ ls, '\n' ∉ l) → fieldMatches (lines ls ++ gs"}") = ls.filterMap fieldMatch
  | [], _ => by rfl
  | l :: ls, h => by
    have e : lines (l :: ls) ++ gs"}" = l ++ '\n' :: (lines ls ++ gs"}") := by simp [lines]
    rw [e, fieldMatches, split_part _ (h l (List.mem_cons_self ..)), List.filterMap_cons, List.filterMap_cons]
    have := matches_lines (ls := ls) fun l hl => h l (List.mem_cons_of_mem _ hl)
    rw [fieldMatches] at this
    rw [this]

/-! ## Matches -/

theorem match_some {c : Char} {y : Str} (hc : solid c = true) : ∀ (x : Str), (fieldMatch (x ++ ':' :: ' ' :: c :: y)).isSome = true
  | [] => by
    rw [List.nil_append, fieldMatch]
    split
    · rfl
    · simp [fieldAt, hc]
  | d :: x => by
    have := match_some (y := y) hc x
    obtain ⟨m, hm⟩ := Option.isSome_iff_exists.1 this
    rw [List.cons_append, fieldMatch, hm]
    rfl

theorem match_prefix : ∀ {l m : Str}, fieldMatch l = some m → m <+: l
  | [], m, h => by simp [fieldMatch] at h
  | c :: l, m, h => by
    rw [fieldMatch] at h
    split at h
    · next m' hm =>
      cases h
      obtain ⟨t, ht⟩ := match_prefix hm
      exact ⟨t, by rw [List.cons_append, ht]⟩
    · unfold fieldAt at h
      split at h
      · next d tail heq =>
        rw [heq]
        split at h
        · cases h
          obtain ⟨t, ht⟩ := List.takeWhile_prefix (l := d :: tail) solid
          exact ⟨t, by rw [List.cons_append, List.cons_append, ht]⟩
        · simp at h
      · simp at h

theorem filterMap_length {α β : Type} {f : α → Option β} : ∀ {l : List α}, (l.filterMap f).length = l.countP fun x => (f x).isSome
  | [] => rfl
  | x :: l => by
    rw [List.filterMap_cons, List.countP_cons, ← filterMap_length]
    split
    · next h => simp [h]
    · next h => simp [h]

/-! ## Words in a line -/

theorem infix_word {o p t : Str} (h : o <:+: p ++ t) : o <:+: p ∨ o <:+: t ∨ ∃ a b, a ≠ [] ∧ b ≠ [] ∧ o = a ++ b ∧ a <:+ p ∧ b <+: t := by
  obtain ⟨x, y, h⟩ := h
  rw [List.append_assoc] at h
  rcases List.append_eq_append_iff.1 h with ⟨a, h1, h2⟩ | ⟨a, h1, h2⟩
  · rcases List.append_eq_append_iff.1 h2 with ⟨c, h3, h4⟩ | ⟨c, h3, h4⟩
    · exact .inl ⟨x, c, by rw [h1, h3, List.append_assoc]⟩
    · by_cases ha : a = []
      · subst ha
        exact .inr (.inl ⟨[], y, by rw [h3, h4]; simp⟩)
      · by_cases hc : c = []
        · subst hc
          exact .inl ⟨x, [], by rw [h1, h3]; simp⟩
        · exact .inr (.inr ⟨a, c, ha, hc, h3, ⟨x, h1.symm⟩, ⟨y, h4.symm⟩⟩)
  · exact .inr (.inl ⟨a, y, by rw [h2, List.append_assoc]⟩)

theorem contains_infix {s o : Str} : contains s o = true ↔ o <:+: s := by
  rw [contains_iff]
  exact ⟨fun ⟨a, b, h⟩ => ⟨a, b, h.symm⟩, fun ⟨a, b, h⟩ => ⟨a, b, h.symm⟩⟩

theorem not_infix {s o : Str} (h : ¬ o <:+: s) : contains s o = false := by
  rw [← Bool.not_eq_true, contains_infix]
  exact h

/-- What is replaced in a line. -/
def core (x : Str × Str) : Str := if '\n' ∈ x.1 then x.1.dropLast else x.1

theorem chop_none {o n : Str} : ∀ {l : Str}, ¬ o <:+: l → chop o n l = l
  | [], h => by
    rw [chop, if_neg]
    rintro rfl
    exact h (List.infix_refl _)
  | c :: l, h => by
    rw [chop, if_neg, chop_none fun h' => h (h'.trans (List.suffix_cons ..).isInfix)]
    rintro rfl
    exact h (List.infix_refl _)

theorem step_fixed {x : Str × Str} {l : Str} (h : ¬ core x <:+: l) : stepLine l x = l := by
  unfold core at h
  unfold stepLine
  split
  · next hx => rw [if_pos hx] at h; exact chop_none h
  · next hx => rw [if_neg hx] at h; exact replaceAll_none (not_infix h)

theorem foldl_fixed : ∀ {rs : List (Str × Str)} {l : Str}, (∀ x ∈ rs, ¬ core x <:+: l) → rs.foldl stepLine l = l
  | [], _, _ => rfl
  | x :: rs, l, h => by
    rw [List.foldl_cons, step_fixed (h x (List.mem_cons_self ..))]
    exact foldl_fixed fun y hy => h y (List.mem_cons_of_mem _ hy)

theorem chop_comma : ∀ {l : Str}, ',' ∉ l → chop gs"," [] (l ++ gs",") = l
  | [], _ => rfl
  | c :: l, h => by
    rw [List.cons_append, chop, if_neg, chop_comma fun h' => h (List.mem_cons_of_mem _ h')]
    intro he
    simp only [List.cons.injEq] at he
    exact h (by simp [← he.1])

/-- A value that no replacement applies to. -/
structure Quiet (t : Str) : Prop where
  nonempty : t ≠ []
  chars : ∀ c ∈ t, solid c = true ∧ c ∉ ['"', '{', '}', '[', ']', ',']
  words : ∀ w ∈ specialWords, ¬ w <:+: t

theorem core_words : ∀ x ∈ fieldReplacements, (∃ c ∈ core x, c = ' ' ∨ c ∈ ['"', '{', '}', '[', ']', ',']) ∨ core x ∈ specialWords := by decide +kernel

theorem infix_mem {o t : Str} {c : Char} (h : o <:+: t) (hc : c ∈ o) : c ∈ t := h.subset hc

theorem quiet_core {t : Str} (ht : Quiet t) {x : Str × Str} (hx : x ∈ fieldReplacements) : ¬ core x <:+: t := by
  intro h
  rcases core_words x hx with ⟨c, hc, hc'⟩ | hw
  · obtain ⟨h1, h2⟩ := ht.chars c (infix_mem h hc)
    rcases hc' with rfl | hc'
    · simp [solid] at h1
    · exact h2 hc'
  · exact ht.words _ hw h

/-- What precedes the value in a line without quotes. -/
def lead (name : Str) : Str := gs"  " ++ name ++ gs": "

/-- A name that no replacement applies to, with an empty value that is not counted. -/
def safeName (name : Str) : Bool :=
  '"' ∉ name ∧ ',' ∉ name ∧
    (∀ x ∈ fieldReplacements, contains (lead name) (core x) = false ∧ ∀ i < (core x).length, 0 < i → ((core x).take i).isSuffixOf (lead name) = true → ' ' ∈ (core x).drop i) ∧
    (fieldMatch (cleanLine (memberLine (name, gs"\"\"") ++ gs","))).isSome = false

theorem take_append {a b o : Str} (h : o = a ++ b) (ha : a ≠ []) (hb : b ≠ []) : 0 < a.length ∧ a.length < o.length ∧ a = o.take a.length ∧ b = o.drop a.length := by
  subst h
  exact ⟨List.length_pos_iff.2 ha, by rw [List.length_append]; have := List.length_pos_iff.2 hb; omega, by simp, by simp⟩

theorem filter_quotes (s : Str) : replaceAll s gs"\"" [] = s.filter (· ≠ '"') := by
  rw [replaceAll_single]
  induction s with
  | nil => rfl
  | cons c s ih =>
    rw [List.flatMap_cons, ih]
    by_cases h : c = '"' <;> simp [h]

theorem lead_append (name t : Str) : lead name ++ t = (gs"  " ++ name) ++ ':' :: ' ' :: t := by simp [lead]

theorem clean_steps (l : Str) : cleanLine l =
    (fieldReplacements.drop 3).foldl stepLine (stepLine (stepLine (stepLine l (gs"\"", [])) (gs"null", [])) (gs",\n", gs"\n")) := by
  have h : ∀ {a b c : Str × Str} {rs rest : List (Str × Str)}, rs = a :: b :: c :: rest →
      rs.foldl stepLine l = (rs.drop 3).foldl stepLine (stepLine (stepLine (stepLine l a) b) c) := by
    rintro a b c rs rest rfl
    rfl
  exact h rfl

theorem step_quotes (l : Str) : stepLine l (gs"\"", []) = replaceAll l gs"\"" [] := by
  unfold stepLine
  rw [if_neg (by decide)]

theorem step_comma (l : Str) : stepLine l (gs",\n", gs"\n") = chop gs"," [] l := by
  unfold stepLine
  rw [if_pos (by decide)]
  rfl

/-- The line of a quiet value, cleaned: `h` says that no replacement applies across the blank. -/
theorem clean_line {name v t : Str} (hn : '"' ∉ name ∧ ',' ∉ name) (hp : ∀ x ∈ fieldReplacements, contains (lead name) (core x) = false) (ht : Quiet t)
    (hv : v.filter (· ≠ '"') = t)
    (h : ∀ x ∈ fieldReplacements, ∀ a b, a ≠ [] → b ≠ [] → core x = a ++ b → a <:+ lead name → ¬ b <+: t) :
    cleanLine (memberLine (name, v) ++ gs",") = lead name ++ t := by
  have hname : name.filter (· ≠ '"') = name := List.filter_eq_self.2 fun c hc => by
    simpa using fun h : c = '"' => hn.1 (h ▸ hc)
  have h1 : stepLine (memberLine (name, v) ++ gs",") (gs"\"", []) = lead name ++ t ++ gs"," := by
    rw [step_quotes, filter_quotes]
    simp only [memberLine, List.filter_append, hname, hv, lead]
    rfl
  have hnull : (gs"null", []) ∈ fieldReplacements := by decide
  have hfix : ∀ x ∈ fieldReplacements, ¬ core x <:+: lead name ++ t := by
    intro x hx hi
    rcases infix_word hi with hi | hi | ⟨a, b, ha, hb, hab, h1, h2⟩
    · rw [← contains_infix, hp x hx] at hi
      simp at hi
    · exact quiet_core ht hx hi
    · exact h x hx a b ha hb hab h1 h2
  have h2 : stepLine (lead name ++ t ++ gs",") (gs"null", []) = lead name ++ t ++ gs"," := by
    apply step_fixed
    intro hi
    rcases infix_word hi with hi | hi | ⟨a, b, ha, hb, hab, -, h2⟩
    · exact hfix _ hnull hi
    · exact absurd hi (by decide)
    · have : b = gs"," := by
        cases b with
        | nil => exact absurd rfl hb
        | cons c b =>
          obtain ⟨z, hz⟩ := h2
          simp at hz
          simp [hz]
      have hm : ',' ∈ core (gs"null", []) := by rw [hab, this]; simp
      exact absurd hm (by decide)
  have hcomma : ',' ∉ lead name ++ t := by
    intro hm
    rcases List.mem_append.1 hm with hm | hm
    · simp [lead, hn.2] at hm
    · exact absurd (ht.chars _ hm).2 (by simp)
  have h3 : stepLine (lead name ++ t ++ gs",") (gs",\n", gs"\n") = lead name ++ t := by
    rw [step_comma]
    exact chop_comma hcomma
  rw [clean_steps, h1, h2, h3]
  exact foldl_fixed fun x hx => hfix x (List.mem_of_mem_drop hx)

theorem line_some {name t : Str} (ht : Quiet t) : (fieldMatch (lead name ++ t)).isSome = true := by
  rw [lead_append]
  cases t with
  | nil => exact absurd rfl ht.nonempty
  | cons c t => exact match_some (ht.chars c (List.mem_cons_self ..)).1 _

theorem safe_across {name t : Str} (hn : safeName name = true) (ht : Quiet t) :
    ∀ x ∈ fieldReplacements, ∀ a b, a ≠ [] → b ≠ [] → core x = a ++ b → a <:+ lead name → ¬ b <+: t := by
  unfold safeName at hn
  simp only [decide_eq_true_eq] at hn
  intro x hx a b ha hb hab h1 h2
  obtain ⟨i1, i2, i3, i4⟩ := take_append hab ha hb
  have := (hn.2.2.1 x hx).2 _ i2 i1 (by rw [← i3, List.isSuffixOf_iff_suffix]; exact h1)
  rw [← i4] at this
  exact absurd (ht.chars ' ' (h2.subset this)).1 (by decide)

theorem quote_plain {t : Str} (ht : ∀ c ∈ t, quoteChar c = [c]) : quoteJson t = gs"\"" ++ t ++ gs"\"" := by
  have : t.flatMap quoteChar = t := by
    induction t with
    | nil => rfl
    | cons c t ih => rw [List.flatMap_cons, ht c (List.mem_cons_self ..), ih fun c hc => ht c (List.mem_cons_of_mem _ hc)]; rfl
  rw [quoteJson, this]

theorem filter_quoted {t : Str} (ht : Quiet t) : (gs"\"" ++ t ++ gs"\"").filter (· ≠ '"') = t := by
  have : t.filter (· ≠ '"') = t := List.filter_eq_self.2 fun c hc => by
    have := (ht.chars c hc).2
    simpa using fun h : c = '"' => this (by simp [h])
  rw [List.filter_append, List.filter_append, this]
  simp

/-- The line of a text is counted exactly if the text is not empty. -/
theorem text_counts {name t : Str} (hn : safeName name = true) (ht : t ≠ [] → Quiet t ∧ ∀ c ∈ t, quoteChar c = [c]) :
    (fieldMatch (cleanLine (memberLine (name, quoteJson t) ++ gs","))).isSome = decide (t ≠ []) := by
  have hn' := hn
  unfold safeName at hn'
  simp only [decide_eq_true_eq] at hn'
  by_cases h : t = []
  · subst h
    simpa [quoteJson] using hn'.2.2.2
  · obtain ⟨hq, hc⟩ := ht h
    rw [quote_plain hc, clean_line ⟨hn'.1, hn'.2.1⟩ (fun x hx => (hn'.2.2.1 x hx).1) hq (filter_quoted hq) (safe_across hn hq), line_some hq]
    simp [h]

/-! ## Numbers -/

theorem number_quiet {t : Str} (h0 : t ≠ []) (h : ∀ c ∈ t, c ∈ gs"0123456789+-.eE") : Quiet t := by
  have hc : ∀ c ∈ gs"0123456789+-.eE", solid c = true ∧ c ∉ ['"', '{', '}', '[', ']', ','] := by decide +kernel
  have hw : ∀ w ∈ specialWords, ∃ c ∈ w, c ∉ gs"0123456789+-.eE" := by decide +kernel
  refine ⟨h0, fun c hm => hc c (h c hm), fun w hm hi => ?_⟩
  obtain ⟨c, h1, h2⟩ := hw w hm
  exact h2 (h c (hi.subset h1))

theorem number_filter {t : Str} (h : ∀ c ∈ t, c ∈ gs"0123456789+-.eE") : t.filter (· ≠ '"') = t :=
  List.filter_eq_self.2 fun c hc => by
    have := h c hc
    simpa using fun h' : c = '"' => by simp [h'] at this

theorem version_counts {t : Str} (h0 : t ≠ []) (h : ∀ c ∈ t, c ∈ gs"0123456789+-.eE") :
    (fieldMatch (cleanLine (memberLine (gs"EncryptionVersion", t) ++ gs","))).isSome = true := by
  have hn : safeName gs"EncryptionVersion" = true := by decide +kernel
  have hn' := hn
  unfold safeName at hn'
  simp only [decide_eq_true_eq] at hn'
  have hq := number_quiet h0 h
  rw [clean_line ⟨hn'.1, hn'.2.1⟩ (fun x hx => (hn'.2.2.1 x hx).1) hq (number_filter h) (safe_across hn hq), line_some hq]

theorem digits_head : ∀ {n : Nat}, n ≠ 0 → ∃ c t, Nat.toDigits 10 n = c :: t ∧ c ≠ '0' := by
  intro n
  induction n using Nat.strongRecOn with
  | ind n ih =>
    intro hn
    by_cases h : n < 10
    · refine ⟨Nat.digitChar n, [], Nat.toDigits_of_lt_base h, ?_⟩
      have : ∀ n, n < 10 → n ≠ 0 → Nat.digitChar n ≠ '0' := by decide
      exact this n h hn
    · obtain ⟨c, t, h1, h2⟩ := ih (n / 10) (by omega) (by omega)
      refine ⟨c, t ++ [Nat.digitChar (n % 10)], ?_, h2⟩
      rw [Nat.toDigits_of_base_le (by decide) (by omega), h1]
      rfl

theorem fmtInt_chars (n : Int) : ∀ c ∈ fmtInt n, c ∈ gs"0123456789+-.eE" := by
  have hd : ∀ m : Nat, ∀ c ∈ Nat.toDigits 10 m, c ∈ gs"0123456789+-.eE" := by
    intro m c hc
    have := Nat.isDigit_of_mem_toDigits (by decide) (by decide) hc
    rw [Char.isDigit, Bool.and_eq_true, decide_eq_true_eq, decide_eq_true_eq] at this
    obtain ⟨h1, h2⟩ := this
    have h1 : 48 ≤ c.toNat := h1
    have h2 : c.toNat ≤ 57 := h2
    have : c = Char.ofNat c.toNat := by simp
    have hk : ∀ k, k ≤ 57 → 48 ≤ k → Char.ofNat k ∈ gs"0123456789+-.eE" := by decide
    rw [this]
    exact hk _ h2 h1
  intro c hc
  unfold fmtInt at hc
  split at hc
  · rcases List.mem_cons.1 hc with rfl | hc
    · decide
    · exact hd _ c hc
  · exact hd _ c hc

theorem size_counts {n : Int} (h0 : n ≠ 0) : (fieldMatch (cleanLine (memberLine (gs"RequestSize", fmtInt n) ++ gs","))).isSome = true := by
  obtain ⟨d, t, h1, h2⟩ := digits_head (n := n.natAbs) (by omega)
  have hne : ∃ d t, fmtInt n = d :: t ∧ d ≠ '0' := by
    unfold fmtInt
    split
    · exact ⟨'-', _, rfl, by decide⟩
    · exact ⟨d, t, h1, h2⟩
  obtain ⟨d, t, h1, h2⟩ := hne
  have hq := number_quiet (by simp [h1]) (fmtInt_chars n)
  have hp : ∀ x ∈ fieldReplacements, contains (lead gs"RequestSize") (core x) = false ∧ ∀ i < (core x).length, 0 < i →
      ((core x).take i).isSuffixOf (lead gs"RequestSize") = true → ' ' ∈ (core x).drop i ∨ (core x).drop i = gs"0" := by decide +kernel
  rw [clean_line (by decide) (fun x hx => (hp x hx).1) hq (number_filter (fmtInt_chars n)) ?_, line_some hq]
  intro x hx a b ha hb hab g1 g2
  obtain ⟨i1, i2, i3, i4⟩ := take_append hab ha hb
  have := (hp x hx).2 _ i2 i1 (by rw [← i3, List.isSuffixOf_iff_suffix]; exact g1)
  rw [← i4] at this
  rcases this with this | this
  · exact absurd (hq.chars ' ' (g2.subset this)).1 (by decide)
  · rw [this, h1] at g2
    obtain ⟨z, hz⟩ := g2
    simp at hz
    exact h2 hz.1.symm

/-! ## The entries of a document -/

variable {env : Ext} {l : List Entry} {m : Msg} {k s : Str}

/-- The entries of the mapping. -/
def lineEntries (l : List Entry) : List (Str × Yaml) := l.map fun e => (e.key, .scalar e.value e.kind)

theorem lineEntries_keys : (lineEntries l).map (·.1) = l.map (·.key) := by simp [lineEntries]

theorem plain_solid {v : Str} (h : OneWord v) : Quiet v ∧ ∀ c ∈ v, quoteChar c = [c] := by
  refine ⟨⟨h.nonempty, fun c hc => ?_, fun w hw hi => ?_⟩, fun c hc => ?_⟩
  · obtain ⟨h1, -, -, h4⟩ := h.chars c hc
    have n1 : c ≠ ' ' := by rintro rfl; exact absurd h1 (by decide)
    have n2 : c ≠ '\t' := by rintro rfl; exact absurd h1 (by decide)
    have n3 : c ≠ '\n' := by rintro rfl; exact absurd h1 (by decide)
    have n4 : c ≠ '\r' := by rintro rfl; exact absurd h1 (by decide)
    refine ⟨by simp [solid, n1, n2, n3, n4]; omega, fun hm => h4 ?_⟩
    simp only [List.mem_cons, List.not_mem_nil, or_false] at hm ⊢
    tauto
  · obtain ⟨a, b, h'⟩ := hi
    exact h.words w hw ⟨a, b, h'.symm⟩
  · obtain ⟨h1, h2, h3, h4⟩ := h.chars c hc
    have n2 : c ≠ '\t' := by rintro rfl; exact absurd h1 (by decide)
    have n3 : c ≠ '\n' := by rintro rfl; exact absurd h1 (by decide)
    have n4 : c ≠ '\r' := by rintro rfl; exact absurd h1 (by decide)
    simp only [List.mem_cons, List.not_mem_nil, or_false, not_or] at h4
    have n5 : ¬ c.toNat < 0x20 := by omega
    simp [quoteChar, h4, n2, n3, n4, n5, h2, h3]

theorem text_member (hl : ∀ e ∈ l, PlainEntry env e) (h : TextUnder (lineEntries l) k s) :
    decide (s ≠ []) = decide (k ∈ l.map (·.key)) ∧ (s ≠ [] → Quiet s ∧ ∀ c ∈ s, quoteChar c = [c]) := by
  by_cases hk : k ∈ l.map (·.key)
  · obtain ⟨e, he, rfl⟩ := List.mem_map.1 hk
    have hw := h.1 (.scalar e.value e.kind) (List.mem_map.2 ⟨e, he, rfl⟩)
    have hk' := (hl e he).kind
    have hv := (hl e he).value
    generalize e.kind = kind at hw hk'
    cases hw with
    | null => exact absurd rfl hk'
    | text => exact ⟨by simp [hv.nonempty, hk], fun _ => plain_solid hv⟩
  · have : s = [] := h.2 fun ⟨y, hy⟩ => hk (by
      obtain ⟨e, he, h'⟩ := List.mem_map.1 hy
      exact List.mem_map.2 ⟨e, he, (Prod.mk.inj h').1⟩)
    subst this
    simp [hk]

/-- The line of a member is counted as often as it should. -/
structure Counted (l : List Entry) (x : Str × Str) (k : Option Str) : Prop where
  line : '\n' ∉ memberLine x ++ gs","
  count : (fieldMatch (cleanLine (memberLine x ++ gs","))).isSome = match k with | none => false | some k => decide (k ∈ l.map (·.key))

theorem line_free {a b : Str} (h1 : '\n' ∉ a) (h2 : '\n' ∉ b) : '\n' ∉ memberLine (a, b) ++ gs"," := by
  simp [memberLine, h1, h2]

theorem counted_text {name : Str} (hl : ∀ e ∈ l, PlainEntry env e) (h : TextUnder (lineEntries l) k s) (hn : safeName name = true) (hname : '\n' ∉ name) :
    Counted l (name, quoteJson s) (some k) := by
  obtain ⟨h1, h2⟩ := text_member hl h
  refine ⟨line_free hname ?_, by rw [text_counts hn h2]; exact h1⟩
  by_cases hs : s = []
  · subst hs; simp [quoteJson]
  · obtain ⟨hq, hc⟩ := h2 hs
    rw [quote_plain hc]
    simp only [List.mem_append, not_or]
    exact ⟨⟨by decide, fun hm => absurd (hq.chars _ hm).1 (by decide)⟩, by decide⟩

theorem number_free {t : Str} (h : ∀ c ∈ t, c ∈ gs"0123456789+-.eE") : '\n' ∉ t := fun hm => absurd (h _ hm) (by decide)

theorem counted_size (hl : ∀ e ∈ l, PlainEntry env e) (hm : MessageDoc env (lineEntries l) m) : Counted l (gs"RequestSize", fmtInt m.requestSize) (some gs"request_size") := by
  refine ⟨line_free (by decide) (number_free (fmtInt_chars _)), ?_⟩
  by_cases hk : gs"request_size" ∈ l.map (·.key)
  · obtain ⟨e, he, hk'⟩ := List.mem_map.1 hk
    obtain ⟨n, h0, hw⟩ := (hl e he).size hk'
    have := hm.requestSize.1 (.scalar e.value e.kind) (List.mem_map.2 ⟨e, he, by rw [hk']⟩)
    have hn : m.requestSize = n := by
      generalize m.requestSize = z at this
      generalize hy : Yaml.scalar e.value e.kind = y at this hw
      cases hw <;> cases this <;> rfl
    rw [hn, size_counts h0]
    simp [hk]
  · have : m.requestSize = 0 := hm.requestSize.2 fun ⟨y, hy⟩ => hk (by
      obtain ⟨e, he, h'⟩ := List.mem_map.1 hy
      exact List.mem_map.2 ⟨e, he, (Prod.mk.inj h').1⟩)
    rw [this]
    simp only [hk, decide_false]
    decide +kernel

theorem counted_version (hl : ∀ e ∈ l, PlainEntry env e) (hm : MessageDoc env (lineEntries l) m) :
    Counted l (gs"EncryptionVersion", match m.encryptionVersion with | none => gs"null" | some x => env.jsonMarshal (.num x)) (some gs"encryption_version") ∧
      finite m.encryptionVersion = true := by
  by_cases hk : gs"encryption_version" ∈ l.map (·.key)
  · obtain ⟨e, he, hk'⟩ := List.mem_map.1 hk
    obtain ⟨q, hw, h0, hc⟩ := (hl e he).version hk'
    have := hm.encryptionVersion.1 (.scalar e.value e.kind) (List.mem_map.2 ⟨e, he, by rw [hk']⟩)
    have hn : m.encryptionVersion = some (.fin q) := by
      generalize m.encryptionVersion = z at this
      generalize hz : some (F64.fin q) = w at hw
      have hk' := (hl e he).kind
      generalize e.kind = kind at hw hk' this
      cases hw with
      | null => simp at hz
      | int =>
        cases this with
        | null h => obtain ⟨t, -, h⟩ := h; simp at h
        | int => rfl
      | float =>
        cases this with
        | null h => obtain ⟨t, -, h⟩ := h; simp at h
        | float => rfl
    rw [hn]
    refine ⟨⟨line_free (by decide) (number_free hc), ?_⟩, rfl⟩
    dsimp only
    rw [version_counts h0 hc]
    simp [hk]
  · have : m.encryptionVersion = none := hm.encryptionVersion.2 fun ⟨y, hy⟩ => hk (by
      obtain ⟨e, he, h'⟩ := List.mem_map.1 hy
      exact List.mem_map.2 ⟨e, he, (Prod.mk.inj h').1⟩)
    rw [this]
    have h1 : '\n' ∉ memberLine (gs"EncryptionVersion", gs"null") ++ gs"," := by decide
    have h2 : (fieldMatch (cleanLine (memberLine (gs"EncryptionVersion", gs"null") ++ gs","))).isSome = false := by decide +kernel
    refine ⟨⟨h1, ?_⟩, rfl⟩
    dsimp only
    rw [h2]
    simp [hk]

/-- The keys of the members of the text, all but the last. -/
def memberKeys : List (Option Str) := [
  some gs"sender_ip", some gs"sender_namespace", some gs"sender_cluster", some gs"receiver_ip", some gs"receiver_port", some gs"receiver_namespace", some gs"receiver_cluster",
  some gs"request_path", some gs"request_host", some gs"request_method", some gs"request_size", some gs"request_time", some gs"request_user_agent", some gs"request_protocol",
  some gs"message_id", some gs"sender_service", some gs"receiver_service", some gs"sender_labels", some gs"receiver_labels", none, some gs"encryption_type", some gs"encryption_version",
  none, none, none, none, some gs"domain", none, none, none, none, none, none]

theorem counted_constant {x : Str × Str} (h1 : '\n' ∉ memberLine x ++ gs",") (h2 : (fieldMatch (cleanLine (memberLine x ++ gs","))).isSome = false) : Counted l x none := ⟨h1, h2⟩

set_option maxRecDepth 20000 in
theorem counted_members (hl : ∀ e ∈ l, PlainEntry env e) (hm : MessageDoc env (lineEntries l) m) :
    List.Forall₂ (Counted l) (messageMembers env m).dropLast memberKeys := by
  have hv := (counted_version hl hm).1
  have hs := counted_size hl hm
  have hct : m.contextType = [] := hm.contextType.2 fun ⟨y, hy⟩ => by
    obtain ⟨e, he, h'⟩ := List.mem_map.1 hy
    have := (hl e he).key.2
    rw [(Prod.mk.inj h').1] at this
    simp at this
  have ht : ∀ {name k s}, TextUnder (lineEntries l) k s → safeName name = true → '\n' ∉ name → Counted l (name, quoteJson s) (some k) := fun h a b => counted_text hl h a b
  simp only [messageMembers, List.dropLast, memberKeys, hct]
  refine .cons (ht hm.sourceIp ?_ ?_) (.cons (ht hm.sourceNamespace ?_ ?_) (.cons (ht hm.sourceCluster ?_ ?_) (.cons (ht hm.destinationIp ?_ ?_) (.cons (ht hm.destinationPort ?_ ?_)
    (.cons (ht hm.destinationNamespace ?_ ?_) (.cons (ht hm.destinationCluster ?_ ?_) (.cons (ht hm.requestPath ?_ ?_) (.cons (ht hm.requestHost ?_ ?_) (.cons (ht hm.requestMethod ?_ ?_)
    (.cons hs (.cons (ht hm.requestTime ?_ ?_) (.cons (ht hm.requestUseragent ?_ ?_) (.cons (ht hm.contextProtocol ?_ ?_) (.cons (ht hm.messageID ?_ ?_) (.cons (ht hm.sourceService ?_ ?_)
    (.cons (ht hm.destinationService ?_ ?_) (.cons (ht hm.sourceLabelsJson ?_ ?_) (.cons (ht hm.destinationLabelsJson ?_ ?_) (.cons (counted_constant ?_ ?_)
    (.cons (ht hm.encryptionType ?_ ?_) (.cons hv (.cons (counted_constant ?_ ?_) (.cons (counted_constant ?_ ?_) (.cons (counted_constant ?_ ?_) (.cons (counted_constant ?_ ?_)
    (.cons (ht hm.domain ?_ ?_) (.cons (counted_constant ?_ ?_) (.cons (counted_constant ?_ ?_) (.cons (counted_constant ?_ ?_) (.cons (counted_constant ?_ ?_)
    (.cons (counted_constant ?_ ?_) (.cons (counted_constant ?_ ?_) .nil)))))))))))))))))))))))))))))))) <;> decide +kernel

/-! ## Counting -/

theorem join_lines : ∀ (ls : List Str) (x : Str), join gs",\n" (ls ++ [x]) ++ gs"\n" = lines (ls.map (· ++ gs",") ++ [x])
  | [], x => by simp [join, lines]
  | [y], x => by simp [join, lines]
  | y :: z :: ls, x => by
    have := join_lines (z :: ls) x
    simp only [List.cons_append] at this ⊢
    rw [join, List.append_assoc, this]
    simp [lines]

theorem counted_sum {xs : List (Str × Str)} {ks : List (Option Str)} (h : List.Forall₂ (Counted l) xs ks) :
    (xs.map fun x => memberLine x ++ gs",").countP (fun x => (fieldMatch (cleanLine x)).isSome) = (ks.filterMap id).countP (· ∈ l.map (·.key)) := by
  induction h with
  | nil => simp only [List.map_nil, List.filterMap_nil, List.countP_nil]
  | @cons x k xs ks h hs ih =>
    rw [List.map_cons, List.countP_cons, ih, h.count]
    cases k with
    | none => simp
    | some k => simp [List.countP_cons]

theorem counted_free : ∀ {xs : List (Str × Str)} {ks : List (Option Str)}, List.Forall₂ (Counted l) xs ks → ∀ y ∈ xs.map fun x => memberLine x ++ gs",", '\n' ∉ y
  | _, _, .nil => by simp
  | x :: xs, k :: ks, .cons h hs => by
    intro y hy
    rcases List.mem_cons.1 hy with rfl | hy
    · exact h.line
    · exact counted_free hs y hy

/-- The keys of a message that the comparison counts. -/
def countedKeys : List Str := memberKeys.filterMap id

theorem json_count (hl : ∀ e ∈ l, PlainEntry env e) (hm : MessageDoc env (lineEntries l) m) :
    ∃ json, messageToJson env m = .ok json ∧ (fieldMatches (replaceFields json)).length = countedKeys.countP (· ∈ l.map (·.key)) := by
  have hc := counted_members hl hm
  refine ⟨_, by rw [messageToJson, if_pos (counted_version hl hm).2], ?_⟩
  have hlast : messageMembers env m = (messageMembers env m).dropLast ++ [(gs"DestinationLabels", gs"null")] := rfl
  have htext : gs"{\n" ++ join gs",\n" ((messageMembers env m).map memberLine) ++ gs"\n}" =
      lines (gs"{" :: ((messageMembers env m).dropLast.map (fun x => memberLine x ++ gs",") ++ [memberLine (gs"DestinationLabels", gs"null")])) ++ gs"}" := by
    have := join_lines ((messageMembers env m).dropLast.map memberLine) (memberLine (gs"DestinationLabels", gs"null"))
    rw [List.map_map] at this
    conv_lhs => rw [hlast, List.map_append, List.map_singleton]
    have e : ∀ a : Str, gs"{\n" ++ a ++ gs"\n}" = gs"{\n" ++ (a ++ gs"\n") ++ gs"}" := by simp
    rw [e, this]
    simp [lines, Function.comp_def]
  have hfree : ∀ y ∈ gs"{" :: ((messageMembers env m).dropLast.map (fun x => memberLine x ++ gs",") ++ [memberLine (gs"DestinationLabels", gs"null")]), '\n' ∉ y := by
    intro y hy
    rcases List.mem_cons.1 hy with rfl | hy
    · decide
    · rcases List.mem_append.1 hy with hy | hy
      · exact counted_free hc y hy
      · rw [List.mem_singleton.1 hy]; decide
  obtain ⟨h1, h2⟩ := replaceFields_lines hfree
  rw [htext, h1, matches_lines fun y hy => by obtain ⟨z, hz, rfl⟩ := List.mem_map.1 hy; exact h2 z hz, filterMap_length, List.countP_map]
  have c1 : (fieldMatch (cleanLine gs"{")).isSome = false := by decide +kernel
  have c2 : (fieldMatch (cleanLine (memberLine (gs"DestinationLabels", gs"null")))).isSome = false := by decide +kernel
  have := counted_sum hc
  simp only [List.countP_cons, List.countP_append, List.countP_nil, Function.comp_def, c1, c2]
  rw [this]
  rfl

end Mapl

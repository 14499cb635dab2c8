import Verif.Spec.Regex
import Verif.Model.Net

/-! # The patterns built from names and lists mean globbing -/

namespace Mapl

open Spec

/-! ## Substitutions -/

theorem replaceAux_single (c : Char) (new : Str) : ∀ s, replaceAux [c] new s 0 = s.flatMap fun x => if x = c then new else [x]
  | [] => rfl
  | x :: xs => by
    unfold replaceAux
    by_cases h : x = c
    · subst h
      have : [x].isPrefixOf (x :: xs) = true := by simp [List.isPrefixOf]
      rw [if_pos this]
      simp [replaceAux_single x new xs]
    · have : [c].isPrefixOf (x :: xs) = false := by simp [List.isPrefixOf, Ne.symm h]
      rw [this]
      simp [replaceAux_single c new xs, h]

theorem replaceAll_single (c : Char) (new s : Str) : replaceAll s [c] new = s.flatMap fun x => if x = c then new else [x] :=
  replaceAux_single c new s

/-- What `escapeWild` does to one character. -/
def escapeChar (c : Char) : Str :=
  if c = '.' then gs"[.]" else if c = '$' then gs"\\$" else if c = '^' then gs"\\^" else if c = '*' then gs".*"
  else if c = '?' then gs"." else if c = '/' then gs"\\/" else [c]

theorem escapeWild_eq (s : Str) : escapeWild s = s.flatMap escapeChar := by
  unfold escapeWild
  simp only [replaceAll_single, List.flatMap_assoc]
  congr 1
  funext c
  unfold escapeChar
  by_cases h1 : c = '.'
  · subst h1; decide
  by_cases h2 : c = '$'
  · subst h2; decide
  by_cases h3 : c = '^'
  · subst h3; decide
  by_cases h4 : c = '*'
  · subst h4; decide
  by_cases h5 : c = '?'
  · subst h5; decide
  by_cases h6 : c = '/'
  · subst h6; decide
  simp [h1, h2, h3, h4, h5, h6]

/-! ## Tokens of a glob -/

/-- Tokens of one glob character. -/
def globTok (c : Char) : List Tok := if c = '*' then [.dot, .star] else if c = '?' then [.dot] else [.chr c]

theorem tokens_char {c : Char} (h : c ∉ special) (cs : Str) : tokens (c :: cs) = (tokens cs).map (Tok.chr c :: ·) := by
  simp only [special, List.mem_cons, List.not_mem_nil, or_false, not_or] at h
  obtain ⟨h1, h2, h3, h4, h5, h6, h7, h8, h9, h10, h11, h12, h13, h14⟩ := h
  rw [tokens]
  all_goals first
    | (rw [if_neg]; simp [special, *]; done)
    | (intros; simp_all; done)

theorem tokens_escapeChar {c : Char} (h : c ∉ ['+', '(', ')', '[', ']', '{', '}', '|', '\\']) (rest : Str) :
    tokens (escapeChar c ++ rest) = (tokens rest).map (globTok c ++ ·) := by
  unfold escapeChar globTok
  by_cases h1 : c = '.'
  · subst h1; simp [tokens]
  by_cases h2 : c = '$'
  · subst h2; simp [tokens, escapable]
  by_cases h3 : c = '^'
  · subst h3; simp [tokens, escapable]
  by_cases h4 : c = '*'
  · subst h4
    simp [tokens]
    rfl
  by_cases h5 : c = '?'
  · subst h5; simp [tokens]
  by_cases h6 : c = '/'
  · subst h6; simp [tokens, escapable]
  simp only [h1, h2, h3, h4, h5, h6, if_false, List.cons_append, List.nil_append]
  apply tokens_char
  simp only [special, List.mem_cons, List.not_mem_nil, or_false, not_or] at h ⊢
  simp_all

theorem tokens_escapeWild : ∀ {p : Str}, PlainPattern p → ∀ rest,
    tokens (escapeWild p ++ rest) = (tokens rest).map (p.flatMap globTok ++ ·)
  | [], _, rest => by
    rw [escapeWild_eq]
    simp
  | c :: p, h, rest => by
    have ih := tokens_escapeWild (p := p) (fun d hd => h d (List.mem_cons_of_mem _ hd)) rest
    rw [escapeWild_eq] at ih ⊢
    simp only [List.flatMap_cons, List.append_assoc]
    rw [tokens_escapeChar (h c List.mem_cons_self), ih]
    cases tokens rest <;> simp

/-! ## Inversion of matching -/

theorem matchesAt_eps {pre x post : Str} : MatchesAt .eps pre x post ↔ x = [] := by
  constructor
  · intro h; cases h; rfl
  · rintro rfl; exact .eps

theorem matchesAt_chr {c : Char} {pre x post : Str} : MatchesAt (.chr c) pre x post ↔ x = [c] := by
  constructor
  · intro h; cases h; rfl
  · rintro rfl; exact .chr

theorem matchesAt_dot {pre x post : Str} : MatchesAt .dot pre x post ↔ ∃ c, c ≠ '\n' ∧ x = [c] := by
  constructor
  · intro h; cases h with | dot h => exact ⟨_, h, rfl⟩
  · rintro ⟨c, h, rfl⟩; exact .dot h

theorem matchesAt_bol {pre x post : Str} : MatchesAt .bol pre x post ↔ pre = [] ∧ x = [] := by
  constructor
  · intro h; cases h; exact ⟨rfl, rfl⟩
  · rintro ⟨rfl, rfl⟩; exact .bol

theorem matchesAt_eol {pre x post : Str} : MatchesAt .eol pre x post ↔ x = [] ∧ post = [] := by
  constructor
  · intro h; cases h; exact ⟨rfl, rfl⟩
  · rintro ⟨rfl, rfl⟩; exact .eol

theorem matchesAt_seq {a b : RE} {pre x post : Str} :
    MatchesAt (.seq a b) pre x post ↔ ∃ y z, x = y ++ z ∧ MatchesAt a pre y (z ++ post) ∧ MatchesAt b (pre ++ y) z post := by
  constructor
  · intro h; cases h with | seq ha hb => exact ⟨_, _, rfl, ha, hb⟩
  · rintro ⟨y, z, rfl, ha, hb⟩; exact .seq ha hb

theorem matchesAt_alt {a b : RE} {pre x post : Str} :
    MatchesAt (.alt a b) pre x post ↔ MatchesAt a pre x post ∨ MatchesAt b pre x post := by
  constructor
  · intro h
    cases h with
    | altL h => exact .inl h
    | altR h => exact .inr h
  · rintro (h | h)
    · exact .altL h
    · exact .altR h

theorem matchesAt_star_dot {pre x post : Str} : MatchesAt (.star .dot) pre x post ↔ '\n' ∉ x := by
  constructor
  · intro h
    generalize hr : RE.star .dot = r at h
    induction h with
    | starNil => simp
    | starCons ha hb _ ih =>
      obtain rfl := RE.star.inj hr
      obtain ⟨c, hc, rfl⟩ := matchesAt_dot.1 ha
      simp [Ne.symm hc, ih rfl]
    | _ => simp at hr
  · intro h
    induction x generalizing pre with
    | nil => exact .starNil
    | cons c x ih =>
      simp only [List.mem_cons, not_or] at h
      exact .starCons (x := [c]) (.dot (Ne.symm h.1)) (ih h.2)

/-! ## Reading a glob -/

/-- Globbing in which wild cards do not match a newline. -/
def GlobN : Str → Str → Prop
  | [], s => s = []
  | c :: p, s =>
    if c = '*' then ∃ x y, s = x ++ y ∧ '\n' ∉ x ∧ GlobN p y
    else if c = '?' then ∃ d y, s = d :: y ∧ d ≠ '\n' ∧ GlobN p y
    else ∃ y, s = c :: y ∧ GlobN p y

theorem globN_iff : ∀ (p : Str) {s : Str}, '\n' ∉ s → (GlobN p s ↔ Glob p s)
  | [], s, _ => Iff.rfl
  | c :: p, s, h => by
    unfold GlobN Glob
    split
    · constructor
      · rintro ⟨x, y, rfl, hx, hg⟩
        exact ⟨x, y, rfl, (globN_iff p fun hy => h (by simp [hy])).1 hg⟩
      · rintro ⟨x, y, rfl, hg⟩
        exact ⟨x, y, rfl, fun hx => h (by simp [hx]), (globN_iff p fun hy => h (by simp [hy])).2 hg⟩
    · split
      · constructor
        · rintro ⟨x, y, rfl, hx, hg⟩
          exact ⟨x, y, rfl, (globN_iff p fun hy => h (by simp [hy])).1 hg⟩
        · rintro ⟨x, y, rfl, hg⟩
          exact ⟨x, y, rfl, fun hx => h (by simp [hx]), (globN_iff p fun hy => h (by simp [hy])).2 hg⟩
      · constructor
        · rintro ⟨y, rfl, hg⟩
          exact ⟨y, rfl, (globN_iff p fun hy => h (by simp [hy])).1 hg⟩
        · rintro ⟨y, rfl, hg⟩
          exact ⟨y, rfl, (globN_iff p fun hy => h (by simp [hy])).2 hg⟩

theorem read_glob : ∀ (p : Str) (st : List Reading) (g : Reading) (rest : List Tok), ∃ cur last,
    readToks st g (p.flatMap globTok ++ rest) = readToks st ⟨g.alts, cur, last⟩ rest ∧
    ∀ pre x post, MatchesAt (Reading.flush ⟨g.alts, cur, last⟩) pre x post ↔
      ∃ y z, x = y ++ z ∧ MatchesAt g.flush pre y (z ++ post) ∧ GlobN p z
  | [], st, g, rest => by
    refine ⟨g.cur, g.last, rfl, fun pre x post => ?_⟩
    simp [GlobN]
  | c :: p, st, g, rest => by
    by_cases h1 : c = '*'
    · subst h1
      obtain ⟨cur, last, h, hm⟩ := read_glob p st ⟨g.alts, .seq g.flush (.star .dot), none⟩ rest
      refine ⟨cur, last, ?_, fun pre x post => ?_⟩
      · rw [← h]
        simp [globTok, readToks]
      · rw [hm]
        simp only [Reading.flush, matchesAt_seq, matchesAt_star_dot, GlobN, if_true]
        constructor
        · rintro ⟨y, z, rfl, ⟨y1, y2, rfl, h2, h3⟩, h4⟩
          exact ⟨y1, y2 ++ z, by simp, by simpa using h2, y2, z, rfl, h3, h4⟩
        · rintro ⟨y, z, rfl, h2, y2, z2, rfl, h3, h4⟩
          exact ⟨y ++ y2, z2, by simp, ⟨y, y2, rfl, by simpa using h2, h3⟩, h4⟩
    by_cases h2 : c = '?'
    · subst h2
      obtain ⟨cur, last, h, hm⟩ := read_glob p st ⟨g.alts, g.flush, some .dot⟩ rest
      refine ⟨cur, last, ?_, fun pre x post => ?_⟩
      · rw [← h]
        simp [globTok, readToks]
      · rw [hm]
        simp only [Reading.flush, matchesAt_seq, matchesAt_dot, GlobN]
        constructor
        · rintro ⟨y, z, rfl, ⟨y1, y2, rfl, h2, d, hd, rfl⟩, h4⟩
          exact ⟨y1, d :: z, by simp, by simpa using h2, by
            rw [if_neg (by decide), if_pos trivial]; exact ⟨d, z, rfl, hd, h4⟩⟩
        · rintro ⟨y, z, rfl, h2, h3⟩
          rw [if_neg (by decide), if_pos trivial] at h3
          obtain ⟨d, z, rfl, hd, h4⟩ := h3
          exact ⟨y ++ [d], z, by simp, ⟨y, [d], rfl, by simpa using h2, d, hd, rfl⟩, h4⟩
    · obtain ⟨cur, last, h, hm⟩ := read_glob p st ⟨g.alts, g.flush, some (.chr c)⟩ rest
      refine ⟨cur, last, ?_, fun pre x post => ?_⟩
      · rw [← h]
        simp [globTok, readToks, h1, h2]
      · rw [hm]
        simp only [Reading.flush, matchesAt_seq, matchesAt_chr, GlobN, h1, h2, if_false]
        constructor
        · rintro ⟨y, z, rfl, ⟨y1, y2, rfl, h2, rfl⟩, h4⟩
          exact ⟨y1, c :: z, by simp, by simpa using h2, z, rfl, h4⟩
        · rintro ⟨y, z, rfl, h2, z, rfl, h4⟩
          exact ⟨y ++ [c], z, by simp, ⟨y, [c], rfl, by simpa using h2, rfl⟩, h4⟩

/-! ## Reading alternatives -/

/-- Tokens of anchored alternatives. -/
def altToks : List Str → List Tok
  | [] => []
  | [p] => .bol :: (p.flatMap globTok ++ [.eol])
  | p :: q :: ps => .bol :: (p.flatMap globTok ++ .eol :: .bar :: altToks (q :: ps))

theorem read_anchored (p : Str) (st : List Reading) (alts : Option RE) (rest : List Tok) : ∃ cur,
    readToks st ⟨alts, .eps, none⟩ (.bol :: (p.flatMap globTok ++ .eol :: rest)) = readToks st ⟨alts, cur, none⟩ rest ∧
    ∀ pre x post, MatchesAt cur pre x post ↔ pre = [] ∧ post = [] ∧ GlobN p x := by
  obtain ⟨cur, last, h, hm⟩ := read_glob p st ⟨alts, .seq .eps .bol, none⟩ (.eol :: rest)
  refine ⟨.seq (Reading.flush ⟨alts, cur, last⟩) .eol, ?_, fun pre x post => ?_⟩
  · rw [readToks, Reading.flush, h, readToks]
  · rw [matchesAt_seq]
    simp only [hm, matchesAt_eol]
    constructor
    · rintro ⟨y, z, rfl, ⟨y1, y2, rfl, h2, h3⟩, rfl, rfl⟩
      simp only [Reading.flush, matchesAt_seq, matchesAt_eps, matchesAt_bol] at h2
      obtain ⟨_, _, rfl, rfl, h4, rfl⟩ := h2
      simp at h4
      simp [h4, h3]
    · rintro ⟨rfl, rfl, h3⟩
      refine ⟨x, [], by simp, ⟨[], x, rfl, ?_, h3⟩, rfl, rfl⟩
      simp [Reading.flush, matchesAt_seq, matchesAt_eps, matchesAt_bol]

theorem read_alternatives : ∀ (p : Str) (ps : List Str) (st : List Reading) (alts : Option RE) (rest : List Tok), ∃ g,
    readToks st ⟨alts, .eps, none⟩ (altToks (p :: ps) ++ rest) = readToks st g rest ∧
    ∀ pre x post, MatchesAt g.close pre x post ↔
      (∃ a, alts = some a ∧ MatchesAt a pre x post) ∨ (pre = [] ∧ post = [] ∧ ∃ q ∈ p :: ps, GlobN q x)
  | p, [], st, alts, rest => by
    obtain ⟨cur, h, hm⟩ := read_anchored p st alts rest
    refine ⟨_, by simpa [altToks] using h, fun pre x post => ?_⟩
    cases alts with
    | none => simp [Reading.close, Reading.flush, hm]
    | some a => simp [Reading.close, Reading.flush, hm, matchesAt_alt]
  | p, q :: ps, st, alts, rest => by
    obtain ⟨cur, h, hm⟩ := read_anchored p st alts (.bar :: (altToks (q :: ps) ++ rest))
    obtain ⟨g, h', hm'⟩ := read_alternatives q ps st (some (Reading.close ⟨alts, cur, none⟩)) rest
    refine ⟨g, ?_, fun pre x post => ?_⟩
    · rw [← h']
      simp only [altToks, List.cons_append, List.append_assoc]
      rw [h, readToks]
    · rw [hm']
      cases alts with
      | none =>
        simp only [Reading.close, Reading.flush, Option.some.injEq, exists_eq_left', hm]
        constructor
        · rintro (⟨h1, h2, h3⟩ | ⟨h1, h2, r, hr, h3⟩)
          · exact .inr ⟨h1, h2, p, by simp, h3⟩
          · exact .inr ⟨h1, h2, r, by simp [List.mem_cons.1 hr], h3⟩
        · rintro (⟨a, ha, _⟩ | ⟨h1, h2, r, hr, h3⟩)
          · simp at ha
          · rcases List.mem_cons.1 hr with rfl | hr
            · exact .inl ⟨h1, h2, h3⟩
            · exact .inr ⟨h1, h2, r, hr, h3⟩
      | some a =>
        simp only [Reading.close, Reading.flush, Option.some.injEq, exists_eq_left', matchesAt_alt, hm]
        constructor
        · rintro ((h0 | ⟨h1, h2, h3⟩) | ⟨h1, h2, r, hr, h3⟩)
          · exact .inl h0
          · exact .inr ⟨h1, h2, p, by simp, h3⟩
          · exact .inr ⟨h1, h2, r, by simp [List.mem_cons.1 hr], h3⟩
        · rintro (h0 | ⟨h1, h2, r, hr, h3⟩)
          · exact .inl (.inl h0)
          · rcases List.mem_cons.1 hr with rfl | hr
            · exact .inl (.inr ⟨h1, h2, h3⟩)
            · exact .inr ⟨h1, h2, r, hr, h3⟩

/-! ## The patterns of the engine -/

theorem tokens_anchored {p : Str} (hp : PlainPattern p) (rest : Str) :
    tokens (gs"^" ++ escapeWild p ++ gs"$" ++ rest) = (tokens rest).map fun ts => .bol :: (p.flatMap globTok ++ .eol :: ts) := by
  simp only [List.append_assoc, List.cons_append, List.nil_append, tokens, tokens_escapeWild hp]
  cases tokens rest <;> simp

theorem finds_whole {r : RE} {L : Str → Prop} (h : ∀ pre x post, MatchesAt r pre x post ↔ pre = [] ∧ post = [] ∧ L x) (s : Str) :
    Finds r s ↔ L s := by
  unfold Finds
  simp only [h]
  constructor
  · rintro ⟨pre, x, post, rfl, rfl, rfl, hl⟩; simpa using hl
  · intro hl; exact ⟨[], s, [], by simp, rfl, rfl, hl⟩

/-- The pattern of one name. -/
theorem readPattern_name {p : Str} (hp : PlainPattern p) : ∃ r, readPattern (gs"^" ++ escapeWild p ++ gs"$") = some r ∧
    ∀ s, Finds r s ↔ GlobN p s := by
  have ht := tokens_anchored hp []
  simp only [tokens, Option.map_some, List.append_nil] at ht
  obtain ⟨cur, h, hm⟩ := read_anchored p [] none []
  refine ⟨cur, ?_, finds_whole hm⟩
  rw [readPattern, ht, Option.bind_some]
  exact h

theorem tokens_wildAlternatives : ∀ (l : List Str), (∀ p ∈ l, PlainPattern (trimSpace p)) → ∀ rest,
    tokens (wildAlternatives l ++ rest) = (tokens rest).map (altToks (l.map trimSpace) ++ ·)
  | [], _, rest => by simp [wildAlternatives, altToks]
  | [p], h, rest => by
    rw [wildAlternatives, tokens_anchored (h p (by simp))]
    simp [altToks]
  | p :: q :: ps, h, rest => by
    rw [wildAlternatives, List.append_assoc, List.append_assoc, tokens_anchored (h p (by simp))]
    rw [List.cons_append, List.nil_append, tokens, tokens_wildAlternatives (q :: ps) (fun r hr => h r (by simp [List.mem_cons.1 hr]))]
    cases tokens rest <;> simp [altToks]

/-- The pattern of a list of alternatives in a group. -/
theorem readPattern_alternatives {l : List Str} (hl : l ≠ []) (h : ∀ p ∈ l, PlainPattern (trimSpace p)) :
    ∃ r, readPattern (gs"(" ++ wildAlternatives l ++ gs")") = some r ∧ ∀ s, Finds r s ↔ ∃ p ∈ l, GlobN (trimSpace p) s := by
  match l, hl with
  | p :: ps, _ =>
    have ht := tokens_wildAlternatives (p :: ps) h gs")"
    simp only [tokens, Option.map_some] at ht
    obtain ⟨g, h1, hm⟩ := read_alternatives (trimSpace p) (ps.map trimSpace) [{}] none [.rp]
    refine ⟨.seq .eps g.close, ?_, ?_⟩
    · rw [readPattern, List.append_assoc, List.cons_append, List.nil_append, tokens, ht]
      simp only [Option.map_some, Option.bind_some, readToks]
      rw [List.map_cons, h1]
      rfl
    · apply finds_whole (L := fun x => ∃ q ∈ p :: ps, GlobN (trimSpace q) x)
      intro pre x post
      rw [matchesAt_seq]
      simp only [matchesAt_eps, hm]
      constructor
      · rintro ⟨y, z, rfl, rfl, ⟨a, ha, _⟩ | ⟨h1, h2, q, hq, h3⟩⟩
        · simp at ha
        · rw [← List.map_cons, List.mem_map] at hq
          obtain ⟨q, hq, rfl⟩ := hq
          exact ⟨by simpa using h1, h2, q, hq, h3⟩
      · rintro ⟨rfl, rfl, q, hq, h3⟩
        refine ⟨[], x, rfl, rfl, .inr ⟨rfl, rfl, trimSpace q, ?_, h3⟩⟩
        rw [← List.map_cons]
        exact List.mem_map_of_mem hq

end Mapl

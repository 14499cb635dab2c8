import Verif.Lemmas.Regex
import Verif.Spec.Validate

/-! # Lists of plain words as patterns -/

namespace Mapl

open Spec

/-- A word without characters that mean something in patterns or lists. -/
def Spec.PlainWord (p : Str) : Prop := ∀ c ∈ p, c ∉ special ∧ c ≠ ','

theorem globTok_plain {p : Str} (h : PlainWord p) : p.flatMap globTok = p.map Tok.chr := by
  induction p with
  | nil => rfl
  | cons c p ih =>
    have hc := (h c (by simp)).1
    rw [List.flatMap_cons, ih (fun d hd => h d (by simp [hd])), List.map_cons]
    unfold globTok
    rw [if_neg (by rintro rfl; simp [special] at hc), if_neg (by rintro rfl; simp [special] at hc)]
    rfl

theorem globN_plain {p : Str} (h : PlainWord p) (x : Str) : GlobN p x ↔ x = p := by
  induction p generalizing x with
  | nil => simp [GlobN]
  | cons c p ih =>
    have hc := (h c (by simp)).1
    have ih' := ih (fun d hd => h d (by simp [hd]))
    unfold GlobN
    rw [if_neg (by rintro rfl; simp [special] at hc), if_neg (by rintro rfl; simp [special] at hc)]
    simp only [ih']
    constructor
    · rintro ⟨y, rfl, rfl⟩; rfl
    · rintro rfl; exact ⟨p, rfl, rfl⟩

theorem tokens_plain : ∀ {p : Str}, PlainWord p → ∀ rest, tokens (p ++ rest) = (tokens rest).map (p.map Tok.chr ++ ·)
  | [], _, rest => by simp
  | c :: p, h, rest => by
    rw [List.cons_append, tokens_char (h c (by simp)).1, tokens_plain (fun d hd => h d (by simp [hd]))]
    cases tokens rest <;> simp

/-- What is put between the anchors. -/
def barred (s : Str) : Str := s.flatMap fun c => if c = ',' then gs"$|^" else [c]

theorem barred_plain {p : Str} (h : PlainWord p) (rest : Str) : barred (p ++ rest) = p ++ barred rest := by
  induction p with
  | nil => rfl
  | cons c p ih =>
    have := ih (fun d hd => h d (by simp [hd]))
    unfold barred at this ⊢
    rw [List.cons_append, List.flatMap_cons, this, if_neg (h c (by simp)).2]
    rfl

theorem tokens_words : ∀ (l : List Str), (∀ p ∈ l, PlainWord p) → l ≠ [] →
    tokens (gs"^" ++ barred (join gs"," l) ++ gs"$") = some (altToks l)
  | [], _, h => absurd rfl h
  | [p], h, _ => by
    have hp := h p (by simp)
    have := barred_plain hp []
    simp only [List.append_nil] at this
    rw [show join gs"," [p] = p from rfl, this]
    simp only [List.cons_append, List.nil_append, tokens, tokens_plain hp, barred, List.flatMap_nil, List.append_nil, Option.map_some, altToks,
      globTok_plain hp]
  | p :: q :: ps, h, _ => by
    have hp := h p (by simp)
    have ih := tokens_words (q :: ps) (fun r hr => h r (by simp [List.mem_cons.1 hr])) (by simp)
    have hj : join gs"," (p :: q :: ps) = p ++ (gs"," ++ join gs"," (q :: ps)) := by simp [join]
    rw [hj, barred_plain hp]
    have hb : ∀ y, barred (gs"," ++ y) = gs"$|^" ++ barred y := fun y => by simp [barred]
    rw [hb]
    simp only [List.append_assoc, List.cons_append, List.nil_append, tokens, tokens_plain hp]
    simp only [List.append_assoc, List.cons_append, List.nil_append, tokens] at ih
    rw [ih]
    simp [altToks, globTok_plain hp]

/-- `l` written with commas, possibly in brackets. -/
def Spec.Written (l : List Str) (w : Str) : Prop := w = join gs"," l ∨ w = gs"[" ++ join gs"," l ++ gs"]"

theorem mem_join {sep : Str} {c : Char} : ∀ {l : List Str}, c ∈ join sep l → c ∈ sep ∨ ∃ p ∈ l, c ∈ p
  | [], h => by simp [join] at h
  | [p], h => .inr ⟨p, by simp, by simpa [join] using h⟩
  | p :: q :: ps, h => by
    have hj : join sep (p :: q :: ps) = p ++ (sep ++ join sep (q :: ps)) := by simp [join]
    rw [hj, List.mem_append, List.mem_append] at h
    rcases h with h | h | h
    · exact .inr ⟨p, by simp, h⟩
    · exact .inl h
    · rcases mem_join h with h | ⟨r, hr, h⟩
      · exact .inl h
      · exact .inr ⟨r, by simp [List.mem_cons.1 hr], h⟩

theorem join_clean {l : List Str} (hl : ∀ p ∈ l, PlainWord p) {c : Char} (hc : c ∈ special) : c ∉ join gs"," l := by
  intro h
  rcases mem_join h with h | ⟨p, hp, h⟩
  · simp at h; subst h; simp [special] at hc
  · exact (hl p hp c h).1 hc

theorem listPattern_words {l : List Str} {w : Str} (hl : ∀ p ∈ l, PlainWord p) (hw : Written l w) :
    listPattern w = gs"^" ++ barred (join gs"," l) ++ gs"$" := by
  have hf : (join gs"," l).filter (fun c => c ≠ '[' ∧ c ≠ ']') = join gs"," l := by
    rw [List.filter_eq_self]
    intro c hc
    have h1 : c ≠ '[' := by rintro rfl; exact join_clean hl (by simp [special]) hc
    have h2 : c ≠ ']' := by rintro rfl; exact join_clean hl (by simp [special]) hc
    simp [h1, h2]
  unfold listPattern barred
  rcases hw with rfl | rfl
  · rw [hf]
  · rw [List.filter_append, List.filter_append, hf]
    simp

/-- The pattern of a list of plain words finds exactly the words. -/
theorem readPattern_words {l : List Str} {w : Str} (hl : ∀ p ∈ l, PlainWord p) (hn : l ≠ []) (hw : Written l w) :
    ∃ r, readPattern (listPattern w) = some r ∧ ∀ s, Finds r s ↔ s ∈ l := by
  match l, hn with
  | p :: ps, _ =>
    obtain ⟨g, h1, hm⟩ := read_alternatives p ps [] none []
    refine ⟨g.close, ?_, ?_⟩
    · rw [readPattern, listPattern_words hl hw, tokens_words _ hl (by simp), Option.bind_some]
      rw [List.append_nil] at h1
      exact h1
    · apply finds_whole
      intro pre x post
      rw [hm]
      constructor
      · rintro (⟨a, ha, _⟩ | ⟨h1, h2, q, hq, h3⟩)
        · simp at ha
        · rw [globN_plain (hl q hq)] at h3
          exact ⟨h1, h2, h3 ▸ hq⟩
      · rintro ⟨h1, h2, h3⟩
        exact .inr ⟨h1, h2, x, h3, (globN_plain (hl x h3) x).2 rfl⟩

end Mapl

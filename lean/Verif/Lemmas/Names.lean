import Verif.Spec.Names
import Verif.Lemmas.Covers
import Verif.Lemmas.Regex
import Verif.Lemmas.Match

/-! # From written texts to compiled entries -/

namespace Mapl

open Spec

theorem mapM_forall₂ {α β : Type} {f : α → Go β} : ∀ {l : List α} {es : List β}, l.mapM f = .ok es →
    List.Forall₂ (fun x e => f x = .ok e) l es
  | [], es, h => by simp at h; subst h; exact .nil
  | x :: l, es, h => by
    simp only [List.mapM_cons, Go.bind_eq_ok] at h
    obtain ⟨e, he, es', hes, h⟩ := h
    simp at h; subst h
    exact .cons he (mapM_forall₂ hes)

theorem forall₂_exists {α β : Type} {R : α → β → Prop} {P : α → Prop} {Q : β → Prop} :
    ∀ {l : List α} {es : List β}, List.Forall₂ R l es → (∀ x ∈ l, ∀ e, R x e → (P x ↔ Q e)) → ((∃ x ∈ l, P x) ↔ ∃ e ∈ es, Q e)
  | _, _, .nil, _ => by simp
  | _, _, .cons (a := x) (b := e) hr hs, h => by
    have := forall₂_exists hs fun y hy f hf => h y (by simp [hy]) f hf
    have h0 := h x (by simp) e hr
    simp only [List.mem_cons, exists_eq_or_imp, this, h0]

theorem replaceAll_blanks (s : Str) : replaceAll s gs" " [] = noBlanks s := by
  rw [replaceAll_single]
  unfold noBlanks
  induction s with
  | nil => rfl
  | cons c s ih =>
    rw [List.flatMap_cons, ih]
    by_cases h : c = ' ' <;> simp [h]

theorem mem_split {sep : Char} : ∀ {s p : Str}, p ∈ split sep s → ∀ c ∈ p, c ∈ s ∧ c ≠ sep
  | [], p, h => by simp [split] at h; subst h; simp
  | x :: s, p, h => by
    unfold split at h
    split at h
    · rcases List.mem_cons.1 h with rfl | h
      · simp
      · intro c hc
        have := mem_split h c hc
        simp [this]
    · next hx =>
      split at h
      · simp at h; subst h
        intro c hc
        simp at hc; subst hc; simp [hx]
      · next y ys hs =>
        rcases List.mem_cons.1 h with rfl | h
        · intro c hc
          rcases List.mem_cons.1 hc with rfl | hc
          · simp [hx]
          · have := mem_split (s := s) (p := y) (by rw [hs]; simp) c hc
            simp [this]
        · intro c hc
          have := mem_split (s := s) (p := p) (by rw [hs]; simp [h]) c hc
          simp [this]

theorem split_ne_nil {sep : Char} : ∀ s : Str, split sep s ≠ []
  | [] => by simp [split]
  | c :: s => by
    unfold split
    split
    · simp
    · split <;> simp

theorem split_part {sep : Char} : ∀ {x : Str} (rest : Str), sep ∉ x → split sep (x ++ sep :: rest) = x :: split sep rest
  | [], _, _ => by rw [List.nil_append, split, if_pos rfl]
  | c :: x, rest, h => by
    simp only [List.mem_cons, not_or] at h
    rw [List.cons_append, split, if_neg (Ne.symm h.1), split_part rest h.2]

theorem split_last {sep : Char} : ∀ {x : Str}, sep ∉ x → split sep x = [x]
  | [], _ => rfl
  | c :: x, h => by
    simp only [List.mem_cons, not_or] at h
    rw [split, if_neg (Ne.symm h.1), split_last h.2]

theorem listed_last {x p : Str} (h : ',' ∉ x) : Listed x p ↔ p = x := by
  constructor
  · rintro ⟨-, a, b, rfl, ha, hb⟩
    simp only [List.mem_append, not_or] at h
    rcases ha with rfl | ⟨y, rfl⟩
    · rcases hb with rfl | ⟨z, rfl⟩
      · simp
      · simp at h
    · simp at h
  · rintro rfl
    exact ⟨h, [], [], by simp, .inl rfl, .inl rfl⟩

theorem listed_part {x rest p : Str} (h : ',' ∉ x) : Listed (x ++ ',' :: rest) p ↔ p = x ∨ Listed rest p := by
  constructor
  · rintro ⟨h0, a, b, hs, ha, hb⟩
    rcases ha with rfl | ⟨z, rfl⟩
    · rw [List.nil_append] at hs
      rcases hb with rfl | ⟨y, rfl⟩
      · rw [List.append_nil] at hs
        simp [← hs] at h0
      · rcases List.append_eq_append_iff.1 hs with ⟨c, rfl, hc⟩ | ⟨c, rfl, hc⟩
        · cases c with
          | nil => simp
          | cons d c => simp only [List.cons_append, List.cons.injEq] at hc; simp [← hc.1] at h0
        · cases c with
          | nil => simp
          | cons d c => simp only [List.cons_append, List.cons.injEq] at hc; simp [← hc.1] at h
    · right
      have hs' : x ++ ',' :: rest = z ++ ',' :: (p ++ b) := by simpa using hs
      rcases List.append_eq_append_iff.1 hs' with ⟨c, rfl, hc⟩ | ⟨c, rfl, hc⟩
      · cases c with
        | nil =>
          simp at hc
          exact ⟨h0, [], b, by simpa using hc, .inl rfl, hb⟩
        | cons d c =>
          simp only [List.cons_append, List.cons.injEq] at hc
          exact ⟨h0, c ++ gs",", b, by simp [hc.2], .inr ⟨c, rfl⟩, hb⟩
      · cases c with
        | nil =>
          simp at hc
          exact ⟨h0, [], b, by simpa using hc.symm, .inl rfl, hb⟩
        | cons d c => simp only [List.cons_append, List.cons.injEq] at hc; simp [← hc.1] at h
  · rintro (rfl | ⟨h0, a, b, rfl, ha, hb⟩)
    · exact ⟨h, [], ',' :: rest, by simp, .inl rfl, .inr ⟨_, rfl⟩⟩
    · refine ⟨h0, x ++ ',' :: a, b, by simp, .inr ?_, hb⟩
      rcases ha with rfl | ⟨y, rfl⟩
      · exact ⟨x, by simp⟩
      · exact ⟨x ++ ',' :: y, by simp⟩

/-- The parts that splitting at commas gives. -/
theorem mem_split_iff {s p : Str} : p ∈ split ',' s ↔ Listed s p := by
  by_cases h : ',' ∈ s
  · obtain ⟨x, rest, hs, hx⟩ := List.eq_append_cons_of_mem h
    have ih := mem_split_iff (s := rest) (p := p)
    rw [hs, split_part _ hx, listed_part hx, List.mem_cons, ih]
  · rw [split_last h, listed_last h, List.mem_singleton]
termination_by s.length
decreasing_by rw [hs, List.length_append, List.length_cons]; omega

theorem white_iff (c : Char) : isSpace c = true ↔ c.toNat ∈ white := by
  simp only [isSpace, white, List.mem_cons, List.not_mem_nil, Bool.or_eq_true, Bool.and_eq_true, decide_eq_true_eq, beq_iff_eq, or_false]
  omega

theorem dropWhile_inv (f : Char → Bool) : ∀ l : Str, ∃ a, l = a ++ l.dropWhile f ∧ (∀ c ∈ a, f c = true) ∧
    ∀ c x, l.dropWhile f = c :: x → ¬ f c = true
  | [] => ⟨[], rfl, by simp, by simp⟩
  | d :: l => by
    by_cases hd : f d = true
    · obtain ⟨a, h1, h2, h3⟩ := dropWhile_inv f l
      rw [List.dropWhile_cons_of_pos hd]
      exact ⟨d :: a, by rw [List.cons_append, ← h1], by simpa using ⟨hd, h2⟩, h3⟩
    · rw [List.dropWhile_cons_of_neg hd]
      exact ⟨[], rfl, by simp, fun c x hx => by rw [List.cons.injEq] at hx; exact hx.1 ▸ hd⟩

theorem trimmed_iff {s t : Str} : Trimmed s t ↔ t = trimSpace s := by
  have drop : ∀ (a : Str) (u : Str), (∀ c ∈ a, isSpace c = true) → (∀ c x, u = c :: x → ¬ isSpace c = true) → (a ++ u).dropWhile isSpace = u := by
    intro a u ha hu
    rw [List.dropWhile_append_of_pos ha]
    cases u with
    | nil => rfl
    | cons c u => rw [List.dropWhile_cons_of_neg (hu c u rfl)]
  unfold Trimmed
  simp only [← white_iff]
  constructor
  · rintro ⟨⟨a, b, rfl, ha, hb⟩, h1, h2⟩
    unfold trimSpace
    cases t with
    | nil =>
      have : (a ++ [] ++ b).dropWhile isSpace = [] := by
        have h0 : ∀ c ∈ a ++ [] ++ b, isSpace c = true := by
          intro c hc
          simp at hc
          rcases hc with hc | hc
          · exact ha c hc
          · exact hb c hc
        rw [← List.append_nil (a ++ [] ++ b), List.dropWhile_append_of_pos h0]
        rfl
      rw [this]; rfl
    | cons c t =>
      rw [List.append_assoc, drop a _ ha (fun d x hx => ?_)]
      · rw [List.reverse_append, drop _ _ (by simpa using hb) (fun d x hx => ?_), List.reverse_reverse]
        refine h2 d x.reverse ?_
        rw [← List.reverse_reverse (c :: t), hx, List.reverse_cons]
      · simp only [List.cons_append, List.cons.injEq] at hx
        exact hx.1 ▸ h1 c t rfl
  · rintro rfl
    obtain ⟨a, h1, h2, h3⟩ := dropWhile_inv isSpace s
    obtain ⟨b, h4, h5, h6⟩ := dropWhile_inv isSpace (s.dropWhile isSpace).reverse
    have h7 : s.dropWhile isSpace = trimSpace s ++ b.reverse := by
      rw [trimSpace, ← List.reverse_append, ← h4, List.reverse_reverse]
    refine ⟨⟨a, b.reverse, ?_, h2, by simpa using h5⟩, fun c x hx => ?_, fun c x hx => ?_⟩
    · rw [List.append_assoc, ← h7]; exact h1
    · exact h3 c (x ++ b.reverse) (by rw [h7, hx]; rfl)
    · refine h6 c x.reverse ?_
      rw [← List.reverse_reverse (List.dropWhile isSpace _), ← trimSpace, hx]
      simp

theorem noBlanks_subset (s : Str) : ∀ c ∈ noBlanks s, c ∈ s := fun c hc => (List.mem_filter.1 hc).1

theorem trimSpace_subset (s : Str) : ∀ c ∈ trimSpace s, c ∈ s := by
  intro c hc
  unfold trimSpace at hc
  rw [List.mem_reverse] at hc
  have h1 := (List.dropWhile_sublist isSpace).subset hc
  rw [List.mem_reverse] at h1
  exact (List.dropWhile_sublist isSpace).subset h1

theorem plain_mono {p q : Str} (h : PlainPattern q) (hs : ∀ c ∈ p, c ∈ q) : PlainPattern p := fun c hc => h c (hs c hc)

theorem compile_some {env : Ext} {p : Str} {re : Re} (h : compile env p = some re) : re = ⟨p⟩ := by
  unfold compile at h
  split at h
  · simpa using h.symm
  · simp at h

theorem expandOne_ok {env : Ext} {ty s : Str} {e : ExpandedSR} (h : expandOne env ty s = .ok e) :
    e.name = s ∧ e.type = ty ∧
    e.regexp = some ⟨gs"^" ++ escapeWild (noBlanks (if ty = gs"subnet" ∧ s = gs"*" then gs"0.0.0.0/0" else s)) ++ gs"$"⟩ ∧
    (ty = gs"subnet" → (e.isIP, e.isCIDR, e.ip, e.cidr) = isIpCIDR env (if s = gs"*" then gs"0.0.0.0/0" else s)) := by
  simp only [expandOne] at h
  refine ite_elim h (fun _ h => by simp at h) fun _ h => ?_
  clear * - h
  split at h
  · simp at h
  · next re hre =>
    simp only [Except.ok.injEq] at h
    subst h
    obtain rfl := compile_some hre
    refine ⟨rfl, rfl, ?_, ?_⟩
    · simp only [replaceAll_blanks]
    · rintro rfl
      simp

/-- A compiled name accepts what its glob describes. -/
theorem accepts_name {env : Ext} (hok : RegexpOk env) {ty s : Str} {e : ExpandedSR} (h : expandOne env ty s = .ok e)
    (hty : ty ≠ gs"subnet") (hp : PlainPattern s) {name : Str} (hn : OneLine name) :
    Accepts env e.regexp name ↔ Glob (noBlanks s) name := by
  obtain ⟨_, _, h3, _⟩ := expandOne_ok h
  rw [if_neg (by simp [hty])] at h3
  obtain ⟨r, hr, hf⟩ := readPattern_name (plain_mono hp (noBlanks_subset s))
  rw [← globN_iff _ hn, ← hf, ← (hok _ _ hr).2, h3]
  simp [Accepts]

theorem text_injective {x y : V4} (h : x.text = y.text) : x = y := by
  have h1 := parseIPv4_text x
  rw [h, parseIPv4_text y] at h1
  obtain ⟨a, b, c, d⟩ := x
  obtain ⟨a', b', c', d'⟩ := y
  simp [Fin.val_inj] at h1
  obtain ⟨rfl, rfl, rfl, rfl⟩ := h1
  rfl

theorem text_ne_star (x : V4) : x.text ≠ gs"*" := by
  intro h
  have := (text_chars x '*' (by rw [h]; simp)).2.2.1
  exact this rfl

/-- Entries that are compiled are subnets or addresses. -/
theorem expandOne_entry {env : Ext} {s : Str} {e : ExpandedSR} (h : expandOne env gs"subnet" s = .ok e) :
    (isIpCIDR env (if s = gs"*" then gs"0.0.0.0/0" else s)).1 = true ∨ (isIpCIDR env (if s = gs"*" then gs"0.0.0.0/0" else s)).2.1 = true := by
  simp only [expandOne, true_and, if_true] at h
  refine ite_elim h (fun _ h => by simp at h) fun hn _ => ?_
  simp only [not_and, Bool.not_eq_true, Bool.not_eq_false] at hn
  cases h1 : (isIpCIDR env (if s = gs"*" then gs"0.0.0.0/0" else s)).1 with
  | true => exact .inl rfl
  | false => exact .inr (hn h1)

/-- A compiled subnet entry accepts the addresses that it covers. -/
theorem address_covers {env : Ext} {s : Str} {e : ExpandedSR} (h : expandOne env gs"subnet" s = .ok e) (text : Str) :
    AddressMatches e text (parseIP env text) ↔ Covers s text := by
  have hent := (expandOne_entry h)
  obtain ⟨h1, _, _, h4⟩ := expandOne_ok h
  have h4 := h4 rfl
  unfold AddressMatches
  cases hc : parseCIDR env (if s = gs"*" then gs"0.0.0.0/0" else s) with
  | some net =>
    simp only [isIpCIDR, hc, Prod.mk.injEq] at h4
    obtain ⟨_, h5, _, h6⟩ := h4
    rw [if_pos h5, h6]
    exact covers_net env hc text
  | none =>
    have hs : s ≠ gs"*" := by
      rintro rfl
      exact absurd hc (by rw [if_pos rfl, show gs"0.0.0.0/0" = (Subnet.net ⟨0, 0, 0, 0⟩ 0).text from rfl, parseCIDR_net]; simp)
    rw [if_neg hs] at hc
    rw [if_neg hs] at h4 hent
    simp only [isIpCIDR, hc] at h4 hent
    by_cases hp : parseIP env s = []
    · simp [hp] at hent
    · rw [if_pos hp] at h4
      simp only [Prod.mk.injEq] at h4
      obtain ⟨h5, h6, _, _⟩ := h4
      rw [if_neg (by simp [h6]), h1, h5]
      simp only [true_and]
      exact covers_address env hp text

/-- IPv4 subnets and addresses. -/
theorem covers_subnet (env : Ext) (x : Subnet) (y : V4) : Covers x.text y.text ↔ x.Covers y := by
  cases x with
  | net x n =>
    have hs : (Subnet.net x n).text ≠ gs"*" := by
      intro hc
      have : '/' ∈ (Subnet.net x n).text := by simp [Subnet.text]
      rw [hc] at this
      simp at this
    rw [← covers_net env (s := (Subnet.net x n).text) (by rw [if_neg hs]; exact parseCIDR_net env x n), parseIP_text]
    exact contains_net x y n
  | addr x =>
    rw [Subnet.text, ← covers_address env (by rw [parseIP_text]; simp [v4Prefix])]
    exact ⟨text_injective, fun h => h ▸ rfl⟩
  | all =>
    have := covers_net env (s := gs"*") (by rw [if_pos rfl]; exact parseCIDR_net env ⟨0, 0, 0, 0⟩ 0) y.text
    rw [Subnet.text, ← this, parseIP_text, contains_net]
    have h1 := y.a.isLt
    have h2 := y.b.isLt
    have h3 := y.c.isLt
    have h4 := y.d.isLt
    simp only [Subnet.Covers, V4.val]
    simp
    omega

/-- A compiled subnet entry accepts the addresses it stands for. -/
theorem address_subnet {env : Ext} {x : Subnet} {e : ExpandedSR} (h : expandOne env gs"subnet" x.text = .ok e) (y : V4) :
    AddressMatches e y.text (parseIP env y.text) ↔ x.Covers y := by
  rw [address_covers h, covers_subnet env]

theorem sender_text {env : Ext} (hok : RegexpOk env) {ty name : Str} {sl : List ExpandedSR} {m : Msg} (hm : MsgOk env m)
    (h : convertStringToExpandedSenderReceiver env name ty = .ok sl) (hn : NameOk ty name) :
    (∃ e ∈ sl, SenderEntry env e m) ↔ SenderText ty name m := by
  have hf := mapM_forall₂ h
  unfold NameOk at hn
  unfold SenderText
  by_cases hs : ty = gs"subnet"
  · subst hs
    rw [if_pos rfl] at hn ⊢
    simp only [← mem_split_iff]
    rw [← forall₂_exists (P := fun s => Covers s m.sourceIp) hf]
    intro s hs e he
    have ht := (expandOne_ok he).2.1
    simp only [SenderEntry, ht, true_and, hm.sourceNet]
    rw [address_covers he]
    simp
  · rw [if_neg hs] at hn ⊢
    by_cases ht : ty = gs"*" ∨ ty = gs"workload"
    · simp only [ht, true_and]
      unfold NameMatches
      simp only [← mem_split_iff]
      rw [← forall₂_exists (P := fun s => Glob (noBlanks s) m.sourceService) hf]
      intro s hs' e he
      have hte := (expandOne_ok he).2.1
      simp only [SenderEntry, hte, hs, false_and, ht, true_and, false_or]
      exact (accepts_name hok he hs (plain_mono hn fun c hc => (mem_split hs' c hc).1) hm.sourceService).symm
    · simp only [ht, false_and, iff_false]
      rintro ⟨e, he, hse⟩
      have hte := mapM_expandOne h e he
      simp only [SenderEntry, hte, hs, ht, false_and, or_self] at hse

theorem receiver_text {env : Ext} (hok : RegexpOk env) {ty name : Str} {rl : List ExpandedSR} {m : Msg} (hm : MsgOk env m)
    (h : convertStringToExpandedSenderReceiver env name ty = .ok rl) (hn : NameOk ty name) :
    (∃ e ∈ rl, ReceiverEntry env e m) ↔ ReceiverText ty name m := by
  have hf := mapM_forall₂ h
  unfold NameOk at hn
  unfold ReceiverText
  by_cases hs : ty = gs"subnet"
  · subst hs
    rw [if_pos rfl] at hn ⊢
    simp only [← mem_split_iff]
    rw [← forall₂_exists (P := fun s => Covers s m.destinationIp) hf]
    intro s hs e he
    have ht := (expandOne_ok he).2.1
    simp only [ReceiverEntry, ht, true_and, hm.destinationNet]
    rw [address_covers he]
    simp
  · rw [if_neg hs] at hn ⊢
    by_cases hh : ty = gs"hostname"
    · subst hh
      rw [if_pos rfl]
      unfold NameMatches
      simp only [← mem_split_iff]
      rw [← forall₂_exists (P := fun s => Glob (noBlanks s) m.requestHost) hf]
      intro s hs' e he
      have hte := (expandOne_ok he).2.1
      simp only [ReceiverEntry, hte, true_and]
      rw [← accepts_name hok he (by simp) (plain_mono hn fun c hc => (mem_split hs' c hc).1) hm.host]
      simp
    · rw [if_neg hh]
      by_cases ht : ty = gs"*" ∨ ty = gs"workload"
      · simp only [ht, true_and]
        unfold NameMatches
        simp only [← mem_split_iff]
        rw [← forall₂_exists (P := fun s => Glob (noBlanks s) m.destinationService) hf]
        intro s hs' e he
        have hte := (expandOne_ok he).2.1
        simp only [ReceiverEntry, hte, hs, hh, false_and, ht, true_and, false_or]
        exact (accepts_name hok he hs (plain_mono hn fun c hc => (mem_split hs' c hc).1) hm.destinationService).symm
      · simp only [ht, false_and, iff_false]
        rintro ⟨e, he, hse⟩
        have hte := mapM_expandOne h e he
        simp only [ReceiverEntry, hte, hs, hh, ht, false_and, or_self] at hse

/-- Compiled patterns of resources and operations. -/
theorem accepts_text {env : Ext} (hok : RegexpOk env) {s : Str} {re : Re}
    (h : compile env (convertStringToRegex s gs"WithWildcards") = some re) (hp : PlainPattern s) {text : Str} (hn : OneLine text) :
    Accepts env (some re) text ↔ TextMatches s text := by
  obtain rfl := compile_some h
  have hpat : convertStringToRegex s gs"WithWildcards" = gs"(" ++ wildAlternatives (split ',' s) ++ gs")" := by
    simp [convertStringToRegex]
  rw [hpat]
  obtain ⟨r, hr, hf⟩ := readPattern_alternatives (split_ne_nil (sep := ',') s)
    (fun p hp' => plain_mono hp fun c hc => (mem_split hp' c (trimSpace_subset p c hc)).1)
  have : Accepts env (some ⟨gs"(" ++ wildAlternatives (split ',' s) ++ gs")"⟩) text ↔ Finds r text := by
    rw [← (hok _ _ hr).2]
    simp [Accepts]
  rw [this, hf]
  unfold TextMatches
  constructor
  · rintro ⟨p, hp, hg⟩; exact ⟨p, _, mem_split_iff.1 hp, trimmed_iff.2 rfl, (globN_iff _ hn).1 hg⟩
  · rintro ⟨p, q, hp, hq, hg⟩; exact ⟨p, mem_split_iff.2 hp, (globN_iff _ hn).2 (trimmed_iff.1 hq ▸ hg)⟩

/-- Glob patterns without wild cards match themselves only. -/
theorem globN_word : ∀ {w s : Str}, '*' ∉ w → '?' ∉ w → (GlobN w s ↔ s = w)
  | [], s, _, _ => Iff.rfl
  | c :: w, s, h1, h2 => by
    simp only [List.mem_cons, not_or] at h1 h2
    rw [GlobN, if_neg (Ne.symm h1.1), if_neg (Ne.symm h2.1)]
    simp only [globN_word h1.2 h2.2]
    constructor
    · rintro ⟨y, rfl, rfl⟩; rfl
    · rintro rfl; exact ⟨w, rfl, rfl⟩

/-- Keyword patterns of the engine. -/
theorem finds_words {l : List Str} (hl : l ≠ []) (h : ∀ w ∈ l, PlainPattern w ∧ '*' ∉ w ∧ '?' ∉ w ∧ trimSpace w = w) :
    ∃ r, readPattern (gs"(" ++ wildAlternatives l ++ gs")") = some r ∧ ∀ s, Finds r s ↔ s ∈ l := by
  obtain ⟨r, hr, hf⟩ := readPattern_alternatives hl (fun p hp => by rw [(h p hp).2.2.2]; exact (h p hp).1)
  refine ⟨r, hr, fun s => ?_⟩
  rw [hf]
  constructor
  · rintro ⟨p, hp, hg⟩
    obtain ⟨_, h2, h3, h4⟩ := h p hp
    rw [h4, globN_word h2 h3] at hg
    exact hg ▸ hp
  · intro hs
    obtain ⟨_, h2, h3, h4⟩ := h s hs
    exact ⟨s, hs, by rw [h4, globN_word h2 h3]⟩

instance (p : Str) : Decidable (PlainPattern p) := by unfold PlainPattern; infer_instance

theorem accepts_keywords {env : Ext} (hok : RegexpOk env) {s : Str} {re : Re}
    (h : compile env (convertOperationStringToRegex s) = some re) (text : Str) :
    (s = gs"*" → Accepts env (some re) text) ∧
    (s = gs"read" ∨ s = gs"READ" → (Accepts env (some re) text ↔
      text = gs"GET" ∨ text = gs"HEAD" ∨ text = gs"OPTIONS" ∨ text = gs"TRACE" ∨ text = gs"read" ∨ text = gs"READ")) ∧
    (s = gs"write" ∨ s = gs"WRITE" → (Accepts env (some re) text ↔ text = gs"POST" ∨ text = gs"PUT" ∨ text = gs"DELETE")) := by
  refine ⟨?_, fun h2 => ?_, fun h3 => ?_⟩
  · rintro rfl
    obtain rfl := compile_some h
    have hr : readPattern gs".*" = some (.seq .eps (.star .dot)) := by simp [readPattern, tokens, readToks, Reading.flush, Reading.close]
    refine ⟨_, rfl, ((hok _ _ hr).2 text).2 ⟨[], [], text, rfl, ?_⟩⟩
    exact .seq (x := []) (y := []) .eps .starNil
  · have hs : convertOperationStringToRegex s = gs"(" ++ wildAlternatives
        [gs"GET", gs"HEAD", gs"OPTIONS", gs"TRACE", gs"read", gs"READ"] ++ gs")" := by
      rcases h2 with rfl | rfl <;> decide
    rw [hs] at h
    obtain rfl := compile_some h
    obtain ⟨r, hr, hf⟩ := finds_words (l := [gs"GET", gs"HEAD", gs"OPTIONS", gs"TRACE", gs"read", gs"READ"]) (by simp) (by decide)
    have := hf text
    simp only [List.mem_cons, List.not_mem_nil, or_false] at this
    rw [← this, ← (hok _ _ hr).2]
    simp [Accepts]
  · have hs : convertOperationStringToRegex s = gs"(" ++ wildAlternatives [gs"POST", gs"PUT", gs"DELETE"] ++ gs")" := by
      rcases h3 with rfl | rfl <;> decide
    rw [hs] at h
    obtain rfl := compile_some h
    obtain ⟨r, hr, hf⟩ := finds_words (l := [gs"POST", gs"PUT", gs"DELETE"]) (by simp) (by decide)
    have := hf text
    simp only [List.mem_cons, List.not_mem_nil, or_false] at this
    rw [← this, ← (hok _ _ hr).2]
    simp [Accepts]

theorem accepts_operation {env : Ext} (hok : RegexpOk env) {s : Str} {re : Re}
    (h : compile env (convertOperationStringToRegex s) = some re) (hp : PlainPattern s) {text : Str} (hn : OneLine text) :
    Accepts env (some re) text ↔ OperationMatches s text := by
  obtain ⟨k1, k2, k3⟩ := accepts_keywords hok h text
  unfold OperationMatches
  simp only [List.mem_cons, List.not_mem_nil, or_false]
  by_cases h1 : s = gs"*"
  · rw [if_pos h1, iff_true]; exact k1 h1
  rw [if_neg h1]
  by_cases h2 : s = gs"read" ∨ s = gs"READ"
  · rw [if_pos h2]; exact k2 h2
  rw [if_neg h2]
  by_cases h3 : s = gs"write" ∨ s = gs"WRITE"
  · rw [if_pos h3]; exact k3 h3
  · rw [if_neg h3]
    rw [convertOperationStringToRegex, if_neg h1, if_neg h3, if_neg h2] at h
    exact accepts_text hok h hp hn

/-- Subnets contain IPv4 addresses only. -/
theorem address_not_v4 {env : Ext} {x : Subnet} (hx : ∀ a, x ≠ .addr a) {e : ExpandedSR}
    (h : expandOne env gs"subnet" x.text = .ok e) (text : Str) {ip : IP} (hip : to4 ip = none) : ¬ AddressMatches e text ip := by
  have hlen : ip.length ≠ 4 := by
    intro hl
    simp [to4, hl] at hip
  obtain ⟨h1, _, _, h4⟩ := expandOne_ok h
  have h4 := h4 rfl
  unfold AddressMatches
  cases x with
  | net x n =>
    have hs : (Subnet.net x n).text ≠ gs"*" := by
      intro hc
      have : '/' ∈ (Subnet.net x n).text := by simp [Subnet.text]
      rw [hc] at this
      simp at this
    rw [if_neg hs] at h4
    simp only [isIpCIDR, parseCIDR_net] at h4
    simp only [Prod.mk.injEq] at h4
    obtain ⟨_, h5, _, h6⟩ := h4
    rw [if_pos h5, h6]
    have hm := mask_length n
    match hc : cidrMask n 4, hm with
    | [m1, m2, m3, m4], _ =>
      have hz : ∀ a b c d : Nat, to4 [a, b, c, d] = some [a, b, c, d] := fun _ _ _ _ => rfl
      simp [IPNet.contains, networkNumberAndMask, hz, andBytes, hip, hlen]
  | addr x => exact absurd rfl (hx x)
  | all =>
    rw [Subnet.text, if_pos rfl] at h4
    have hz : isIpCIDR env gs"0.0.0.0/0" = (false, true, [], ⟨[0, 0, 0, 0], [0, 0, 0, 0]⟩) := rfl
    rw [hz] at h4
    simp only [Prod.mk.injEq] at h4
    obtain ⟨_, h5, _, h6⟩ := h4
    rw [if_pos h5, h6]
    have : to4 [0, 0, 0, 0] = some [0, 0, 0, 0] := rfl
    simp [IPNet.contains, networkNumberAndMask, this, hip, hlen]

end Mapl

namespace Mapl

open Spec

theorem hasPrefix_hash {x : Str} : hasPrefix x gs"#" = true ↔ ∃ k, x = '#' :: k := by
  cases x with
  | nil => simp [hasPrefix]
  | cons c x =>
    simp only [hasPrefix, List.isPrefixOf, Bool.and_true, beq_iff_eq, List.cons.injEq]
    constructor
    · rintro rfl; exact ⟨x, rfl, rfl⟩
    · rintro ⟨_, rfl, _⟩; rfl

theorem replaceFirst_hash (k : Str) : replaceFirst gs"#" [] ('#' :: k) = k := by
  simp [replaceFirst]

theorem replaceName_iff {t : Predef} {x s : Str} : replaceName x t = .ok s ↔ Resolves t x s := by
  unfold replaceName isReplaceableList isReplaceableString
  by_cases hx : ∃ k, x = '#' :: k
  · obtain ⟨k, rfl⟩ := hx
    have hh : hasPrefix ('#' :: k) gs"#" = true := hasPrefix_hash.2 ⟨k, rfl⟩
    simp only [hh, if_true, replaceFirst_hash]
    cases hl : lookup k t.listsNoRefs with
    | some l =>
      simp only [convertListToString, Except.ok.injEq]
      constructor
      · rintro rfl; exact .list hl
      · intro h
        cases h with
        | plain h => exact absurd rfl (h k)
        | list h => rw [hl] at h; simp at h; rw [h]
        | string h _ => rw [hl] at h; simp at h
    | none =>
      simp only
      cases hs : lookup k t.strings with
      | some v =>
        simp only [Except.ok.injEq]
        constructor
        · rintro rfl; exact .string hl hs
        · intro h
          cases h with
          | plain h => exact absurd rfl (h k)
          | list h => rw [hl] at h; simp at h
          | string _ h => rw [hs] at h; simpa using h
      | none =>
        simp only
        constructor
        · intro h; simp at h
        · intro h
          cases h with
          | plain h => exact absurd rfl (h k)
          | list h => rw [hl] at h; simp at h
          | string _ h => rw [hs] at h; simp at h
  · have hh : ¬ hasPrefix x gs"#" = true := fun h => hx (hasPrefix_hash.1 h)
    simp only [hh, if_false, Bool.false_eq_true, Except.ok.injEq]
    constructor
    · rintro rfl; exact .plain fun k hk => hx ⟨k, hk⟩
    · intro h
      cases h with
      | plain _ => rfl
      | list _ => exact absurd ⟨_, rfl⟩ hx
      | string _ _ => exact absurd ⟨_, rfl⟩ hx

/-- The parts of a prepared rule in terms of the written texts. -/
theorem parts_text {env : Env} (hok : RegexpOk env) {m : Msg} (hm : MsgOk env m) {r r' : RuleObj} {rule : Rule} {t : Predef}
    {p : List Nat} (hc : r.body.converted = false) (h : r.setPredefined env p t = .ok (r', none))
    (hp : r'.prepared = some rule) {s v : Str} (hs : Resolves t r.body.senderName s) (hv : Resolves t r.body.receiverName v)
    (ht : TextsOk r.body s v) :
    ((∃ e ∈ rule.senderList, SenderEntry env e m) ↔ SenderText r.body.senderType s m) ∧
    ((∃ e ∈ rule.receiverList, ReceiverEntry env e m) ↔ ReceiverText r.body.receiverType v m) ∧
    (Accepts env rule.operationRegex m.requestMethod ↔ OperationMatches r.body.operation m.requestMethod) ∧
    (ResourceMatches env rule m ↔ ResourceText r.body m) := by
  obtain ⟨copy, rule', c1, c2, rfl⟩ := setPredefined_ok h
  simp at hp; subst hp
  obtain ⟨c, c3, rfl⟩ := copyRule_ok c1
  obtain ⟨s', v', sl, rl, op, re, h1, h2, h3, h4, h5, h6, _, h8⟩ := prepareOneRule_ok (by simpa using hc) c2
  simp only at h1 h2 h3 h4 h5 h6
  rw [replaceName_iff.2 hs] at h1
  rw [replaceName_iff.2 hv] at h2
  simp only [Except.ok.injEq] at h1 h2
  subst h1 h2
  rw [h8]
  refine ⟨sender_text hok hm h3 ht.sender, receiver_text hok hm h4 ht.receiver,
    accepts_operation hok h5 ht.operation hm.method, ?_⟩
  unfold ResourceMatches ResourceText
  simp only [accepts_text hok h6 ht.resource hm.port, accepts_text hok h6 ht.resource hm.path]

end Mapl

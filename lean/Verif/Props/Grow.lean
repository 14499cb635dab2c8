import Verif.Spec.Grow
import Verif.Lemmas.Refactor
import Verif.Lemmas.Place
import Verif.Props.Narrow

/-!
# C107: more entries in a predefined list

In full: adding entries to a list never makes a rule stop applying that uses the list for its senders, its receivers or with IN, and never makes a rule start applying that
uses it with NIN.
-/

namespace Mapl.Props

open Spec

variable {env : Env} {g g' t t' : Predef} {msg : Msg}

/-! ## Names -/

theorem split_joined : ∀ {l : List Str}, l ≠ [] → split ',' (join gs"," l) = l.flatMap (split ',')
  | [], h => absurd rfl h
  | [x], _ => by simp [join]
  | x :: y :: l, _ => by
    rw [join_cons (by simp), List.append_assoc, show gs"," ++ join gs"," (y :: l) = ',' :: join gs"," (y :: l) from rfl, split_append, split_joined (by simp)]
    simp

/-- The entries of a list that is written with commas. -/
theorem listed_joined {l : List Str} {p : Str} (h : l ≠ []) : Listed (join gs"," l) p ↔ ∃ x ∈ l, Listed x p := by
  rw [← mem_split_iff, split_joined h, List.mem_flatMap]
  simp only [mem_split_iff]

/-- With more entries a name stands for more. -/
theorem resolves_grown {n s s' p : Str} (ht : Grown t t') (h : Resolves t n s) (h' : Resolves t' n s') (hp : Listed s p) : Listed s' p := by
  cases h with
  | plain h =>
    cases h' with
    | plain => exact hp
    | list => exact absurd rfl (h _)
    | string => exact absurd rfl (h _)
  | @list k l h =>
    rcases ht.lists k with ⟨e, -⟩ | ⟨l1, l', e1, e2, hne, hsub⟩
    · rw [h] at e; cases e
    · rw [h] at e1; cases e1
      cases h' with
      | plain h' => exact absurd rfl (h' _)
      | list h' =>
        rw [e2] at h'; cases h'
        obtain ⟨x, hx, hp⟩ := (listed_joined hne).1 hp
        exact (listed_joined (List.ne_nil_of_mem (hsub x hx))).2 ⟨x, hsub x hx, hp⟩
      | string h' => rw [e2] at h'; cases h'
  | @string k v h hs =>
    rcases ht.lists k with ⟨-, e⟩ | ⟨l1, l', e1, -, -, -⟩
    · cases h' with
      | plain h' => exact absurd rfl (h' _)
      | list h' => rw [e] at h'; cases h'
      | string h' hs' =>
        rw [ht.strings, hs] at hs'; cases hs'
        exact hp
    · rw [h] at e1; cases e1

/-- Names that do not refer to lists stand for the same. -/
theorem resolves_same {n s s' : Str} (ht : Grown t t') (hn : ¬ RefersToList t n) (h : Resolves t n s) (h' : Resolves t' n s') : s' = s := by
  cases h with
  | plain h =>
    cases h' with
    | plain => rfl
    | list => exact absurd rfl (h _)
    | string => exact absurd rfl (h _)
  | @list k l h => exact absurd ⟨k, l, rfl, h⟩ hn
  | @string k v h hs =>
    rcases ht.lists k with ⟨-, e⟩ | ⟨l1, l', e1, -, -, -⟩
    · cases h' with
      | plain h' => exact absurd rfl (h' _)
      | list h' => rw [e] at h'; cases h'
      | string h' hs' => rw [ht.strings, hs] at hs'; cases hs'; rfl
    · rw [h] at e1; cases e1

theorem matches_grown {s s' name : Str} (h : ∀ p, Listed s p → Listed s' p) (hm : NameMatches s name) : NameMatches s' name := by
  obtain ⟨p, hp, hg⟩ := hm
  exact ⟨p, h p hp, hg⟩

theorem sender_grown {ty s s' : Str} (h : ∀ p, Listed s p → Listed s' p) (hm : SenderText ty s msg) : SenderText ty s' msg := by
  unfold SenderText at hm ⊢
  split
  · rename_i ht
    rw [if_pos ht] at hm
    obtain ⟨e, he, hc⟩ := hm
    exact ⟨e, h e he, hc⟩
  · rename_i ht
    rw [if_neg ht] at hm
    exact ⟨hm.1, matches_grown h hm.2⟩

theorem receiver_grown {ty s s' : Str} (h : ∀ p, Listed s p → Listed s' p) (hm : ReceiverText ty s msg) : ReceiverText ty s' msg := by
  unfold ReceiverText at hm ⊢
  split
  · rename_i ht
    rw [if_pos ht] at hm
    obtain ⟨e, he, hc⟩ := hm
    exact ⟨e, h e he, hc⟩
  · rename_i ht
    rw [if_neg ht] at hm
    split
    · rename_i ht
      rw [if_pos ht] at hm
      exact matches_grown h hm
    · rename_i ht
      rw [if_neg ht] at hm
      exact ⟨hm.1, matches_grown h hm.2⟩

/-! ## Conditions -/

theorem in_not_number {m : Str} (hm : m ∈ [gs"IN", gs"IS", gs"NIN"]) (k : NumMethod) : m ∉ k.spellings := by
  revert m
  cases k <;> decide

theorem written_words {l words : List Str} (hl : ∀ x ∈ l, PlainWord x) (hn : l ≠ []) (hw : ∀ x ∈ words, PlainWord x) (hn' : words ≠ []) (h : Written words (join gs"," l)) (s : Str) :
    s ∈ words ↔ s ∈ l := by
  obtain ⟨r, h1, h2⟩ := readPattern_words hl hn (.inl rfl)
  obtain ⟨r', h1', h2'⟩ := readPattern_words hw hn' h
  rw [h1] at h1'
  cases h1'
  rw [← h2, ← h2']

theorem joined_not {l : List Str} (hl : ∀ x ∈ l, PlainWord x) : (¬ ∃ y, join gs"," l = gs"$receiver." ++ y) ∧ ¬ ∃ y, join gs"," l = gs"receiverLabel[" ++ y := by
  constructor <;> rintro ⟨y, h⟩
  · exact join_clean hl (c := '$') (by decide) (h ▸ by simp)
  · exact join_clean hl (c := '[') (by decide) (h ▸ by simp)

/-- What IN says with a list, it says with every larger list. -/
theorem says_in {a m : Str} {l l' : List Str} {P : Prop} (hm : m ∈ [gs"IN", gs"IS"]) (hl : ∀ x ∈ l, PlainWord x) (hn : l ≠ []) (hl' : ∀ x ∈ l', PlainWord x)
    (hsub : ∀ x ∈ l, x ∈ l') (h : Says env msg a m (join gs"," l) P) (hP : P) : ∃ P', Says env msg a m (join gs"," l') P' ∧ P' := by
  have hn' : l' ≠ [] := by
    obtain ⟨x, hx⟩ := List.exists_mem_of_ne_nil _ hn
    exact List.ne_nil_of_mem (hsub x hx)
  have hnum := in_not_number (m := m) (by simp only [List.mem_cons, List.not_mem_nil, or_false] at hm ⊢; tauto)
  have hno : ∀ x ∈ [gs"EQ", gs"eq", gs"NEQ", gs"neq", gs"NE", gs"ne", gs"EX", gs"ex", gs"NEX", gs"nex", gs"RE", gs"re", gs"NRE", gs"nre", gs"NIN"], m ≠ x := by
    clear h hnum; revert m; decide
  simp only [List.forall_mem_cons] at hno
  obtain ⟨n1, n2, n3, n4, n5, n6, n7, n8, n9, n10, n11, n12, n13, n14, n15, -⟩ := hno
  obtain ⟨j1, j2⟩ := joined_not hl'
  generalize hj : join gs"," l = w at h
  cases h with
  | yes ha => exact ⟨_, .yes ha, trivial⟩
  | no ha => exact hP.elim
  | size hk => exact absurd hk (hnum _)
  | hours hk => exact absurd hk (hnum _)
  | version hk => exact absurd hk (hnum _)
  | text ha hT hr =>
    cases hT with
    | isIn _ h1 h2 h3 =>
      subst hj
      exact ⟨_, .text ha (.isIn hm hl' hn' (.inl rfl)) (fun _ => j1), hsub _ ((written_words hl hn h1 h2 h3 _).1 hP)⟩
    | notIn hk => exact absurd hk n15
    | _ hk => simp_all
  | sameField hk => simp_all
  | otherField hk => simp_all
  | label ha hT hk hr =>
    obtain ⟨x, hx, hP⟩ := hP
    cases hT with
    | isIn _ h1 h2 h3 =>
      subst hj
      exact ⟨_, .label ha (.isIn hm hl' hn' (.inl rfl)) hk (fun _ => j2), x, hx, hsub _ ((written_words hl hn h1 h2 h3 _).1 hP)⟩
    | notIn hk => exact absurd hk n15
    | _ hk => simp_all
  | labelThere ha hk => simp_all
  | sameLabel hk => simp_all
  | otherLabel hk => simp_all
  | number hk => exact absurd hk (hnum _)
  | scalar hT hs hy =>
    cases hT with
    | isIn _ h1 h2 h3 =>
      subst hj
      exact ⟨_, .scalar (.isIn hm hl' hn' (.inl rfl)) hs (fun ⟨k, hk⟩ => absurd hk (hnum k)), hsub _ ((written_words hl hn h1 h2 h3 _).1 hP)⟩
    | notIn hk => exact absurd hk n15
    | _ hk => simp_all
  | missing => simp_all
  | missingText => simp_all

/-- What NIN says with a list, it says with every smaller list. -/
theorem says_notIn {a : Str} {l l' : List Str} {P : Prop} (hl : ∀ x ∈ l, PlainWord x) (hn : l ≠ []) (hl' : ∀ x ∈ l', PlainWord x)
    (hsub : ∀ x ∈ l, x ∈ l') (h : Says env msg a gs"NIN" (join gs"," l') P) (hP : P) : ∃ P', Says env msg a gs"NIN" (join gs"," l) P' ∧ P' := by
  have hn' : l' ≠ [] := by
    obtain ⟨x, hx⟩ := List.exists_mem_of_ne_nil _ hn
    exact List.ne_nil_of_mem (hsub x hx)
  have hnum := in_not_number (m := gs"NIN") (by simp)
  obtain ⟨j1, j2⟩ := joined_not hl
  generalize hj : join gs"," l' = w at h
  generalize hM : gs"NIN" = m at h
  cases h with
  | yes ha => exact ⟨_, .yes ha, trivial⟩
  | no ha => exact hP.elim
  | size hk => subst hM; exact absurd hk (hnum _)
  | hours hk => subst hM; exact absurd hk (hnum _)
  | version hk => subst hM; exact absurd hk (hnum _)
  | text ha hT hr =>
    cases hT with
    | notIn _ h1 h2 h3 =>
      subst hj
      exact ⟨_, .text ha (.notIn hM.symm hl hn (.inl rfl)) (fun _ => j1), fun hx => hP ((written_words hl' hn' h1 h2 h3 _).2 (hsub _ hx))⟩
    | _ hk => subst hM; exact absurd hk (by decide)
  | sameField hk => subst hM; exact absurd hk (by decide)
  | otherField hk => subst hM; exact absurd hk (by decide)
  | label ha hT hk hr =>
    obtain ⟨x, hx, hP⟩ := hP
    cases hT with
    | notIn _ h1 h2 h3 =>
      subst hj
      exact ⟨_, .label ha (.notIn hM.symm hl hn (.inl rfl)) hk (fun _ => j2), x, hx, fun hx => hP ((written_words hl' hn' h1 h2 h3 _).2 (hsub _ hx))⟩
    | _ hk => subst hM; exact absurd hk (by decide)
  | labelThere ha hk => subst hM; exact absurd hk (by decide)
  | sameLabel hk => subst hM; exact absurd hk (by decide)
  | otherLabel hk => subst hM; exact absurd hk (by decide)
  | number hk => subst hM; exact absurd hk (hnum _)
  | scalar hT hs hy =>
    cases hT with
    | notIn _ h1 h2 h3 =>
      subst hj
      exact ⟨_, .scalar (.notIn hM.symm hl hn (.inl rfl)) hs hy, fun hx => hP ((written_words hl' hn' h1 h2 h3 _).2 (hsub _ hx))⟩
    | _ hk => subst hM; exact absurd hk (by decide)
  | missing => subst hM; exact absurd hP (by decide)
  | missingText => subst hM; exact absurd hP (by decide)

/-- Values that do not refer to lists stand for the same. -/
theorem value_same {m v w : Str} (ht : Grown t t') (hn : ¬ RefersToList t v) : ValueResolves env t m v w ↔ ValueResolves env t' m v w := by
  constructor
  · intro h
    cases h with
    | plain h => exact .plain h
    | list h => exact absurd ⟨_, _, rfl, h⟩ hn
    | alternatives h => exact absurd ⟨_, _, rfl, h⟩ hn
    | @string k v h hs =>
      rcases ht.lists k with ⟨-, e⟩ | ⟨l, l', e1, -, -, -⟩
      · exact .string e (by rw [ht.strings]; exact hs)
      · rw [h] at e1; cases e1
  · intro h
    have none : ∀ {k l'}, lookup k t'.listsNoRefs = some l' → v = '#' :: k → False := by
      intro k l' h e
      rcases ht.lists k with ⟨-, e'⟩ | ⟨l, l'', e1, -, -, -⟩
      · rw [h] at e'; cases e'
      · exact hn ⟨k, l, e, e1⟩
    cases h with
    | plain h => exact .plain h
    | list h => exact (none h rfl).elim
    | alternatives h => exact (none h rfl).elim
    | @string k v h hs =>
      rcases ht.lists k with ⟨e, -⟩ | ⟨l, l', -, e2, -, -⟩
      · exact .string e (by rw [← ht.strings]; exact hs)
      · rw [h] at e2; cases e2

/-- A value that refers to a list. -/
theorem value_list {m v w k : Str} {l : List Str} (hm : m ∉ [gs"RE", gs"NRE"]) (hk : v = '#' :: k) (hl : lookup k t.listsNoRefs = some l) :
    ValueResolves env t m v w ↔ w = join gs"," l := by
  subst hk
  constructor
  · intro h
    generalize hv : '#' :: k = v at h
    cases h with
    | plain h => exact absurd hv.symm (h _)
    | list h =>
      cases hv
      rw [hl] at h; cases h; rfl
    | alternatives _ h => exact absurd h hm
    | string h => cases hv; rw [hl] at h; cases h
  · rintro rfl
    exact .list hl hm

/-- Statements that follow the lists hold for more messages, or for fewer. -/
theorem follows_meaning (ht : Grown t t') {up : Bool} {f : Statement} (h : Follows t t' up f) :
    ∀ msg, (up = true → Meaning env t f msg → Meaning env t' f msg) ∧ (up = false → Meaning env t' f msg → Meaning env t f msg) := by
  induction h with
  | @plain up a m v h =>
    intro msg
    simp only [Meaning, value_same (env := env) ht h]
    exact ⟨fun _ h => h, fun _ h => h⟩
  | @isIn a m v hm hw hw' =>
    intro msg
    refine ⟨fun _ => ?_, nofun⟩
    have hre : m ∉ [gs"RE", gs"NRE"] := by revert m; decide
    by_cases hr : RefersToList t v
    · obtain ⟨k, l, e, hl⟩ := hr
      rcases ht.lists k with ⟨e', -⟩ | ⟨l1, l', e1, e2, hne, hsub⟩
      · rw [hl] at e'; cases e'
      · rw [hl] at e1; cases e1
        simp only [Meaning, value_list (env := env) hre e hl, value_list (env := env) hre e e2]
        rintro ⟨w, P, rfl, h1, h2⟩
        obtain ⟨P', h3, h4⟩ := says_in hm (hw k l e hl) hne (hw' k l' e e2) hsub h1 h2
        exact ⟨_, P', rfl, h3, h4⟩
    · simp only [Meaning, value_same (env := env) ht hr]
      exact fun h => h
  | @notIn a v hw hw' =>
    intro msg
    refine ⟨nofun, fun _ => ?_⟩
    by_cases hr : RefersToList t v
    · obtain ⟨k, l, e, hl⟩ := hr
      rcases ht.lists k with ⟨e', -⟩ | ⟨l1, l', e1, e2, hne, hsub⟩
      · rw [hl] at e'; cases e'
      · rw [hl] at e1; cases e1
        simp only [Meaning, value_list (env := env) (m := gs"NIN") (by decide) e hl, value_list (env := env) (m := gs"NIN") (by decide) e e2]
        rintro ⟨w, P, rfl, h1, h2⟩
        obtain ⟨P', h3, h4⟩ := says_notIn (hw k l e hl) hne (hw' k l' e e2) hsub h1 h2
        exact ⟨_, P', rfl, h3, h4⟩
    · simp only [Meaning, value_same (env := env) ht hr]
      exact fun h => h
  | and _ ih =>
    intro msg
    simp only [Meaning, meaningAll_iff]
    exact ⟨fun hu h f hf => (ih f hf msg).1 hu (h f hf), fun hu h f hf => (ih f hf msg).2 hu (h f hf)⟩
  | or _ ih =>
    intro msg
    simp only [Meaning, meaningSome_iff]
    exact ⟨fun hu ⟨f, hf, h⟩ => ⟨f, hf, (ih f hf msg).1 hu h⟩, fun hu ⟨f, hf, h⟩ => ⟨f, hf, (ih f hf msg).2 hu h⟩⟩
  | not _ ih =>
    intro msg
    simp only [Meaning]
    exact ⟨fun hu h h' => h ((ih msg).2 (by simp [hu]) h'), fun hu h h' => h ((ih msg).1 (by simp [hu]) h')⟩
  | any q _ ih =>
    intro msg
    simp only [Meaning]
    exact ⟨fun hu ⟨l, hl, m, hm, h⟩ => ⟨l, hl, m, hm, (ih m).1 hu h⟩, fun hu ⟨l, hl, m, hm, h⟩ => ⟨l, hl, m, hm, (ih m).2 hu h⟩⟩
  | all q _ ih =>
    intro msg
    simp only [Meaning]
    exact ⟨fun hu ⟨l, hl, h⟩ => ⟨l, hl, fun m hm => (ih m).1 hu (h m hm)⟩, fun hu ⟨l, hl, h⟩ => ⟨l, hl, fun m hm => (ih m).2 hu (h m hm)⟩⟩

/-! ## Tables -/

theorem stands_unique {strings : List (Str × Str)} {x y y' : Str} (h : Stands strings x y) (h' : Stands strings x y') : y = y' := by
  cases h with
  | reference h =>
    cases h' with
    | reference h' => rw [h] at h'; cases h'; rfl
    | text h' => exact absurd rfl (h' _)
  | text h =>
    cases h' with
    | reference h' => exact absurd rfl (h _)
    | text => rfl

theorem resolved_lookup {strings : List (Str × Str)} {k : Str} {ls rs : List (Str × List Str)}
    (h : List.Forall₂ (fun l l' => l'.1 = l.1 ∧ List.Forall₂ (Stands strings) l.2 l'.2) ls rs) :
    (lookup k ls = none ∧ lookup k rs = none) ∨ ∃ l r, lookup k ls = some l ∧ lookup k rs = some r ∧ List.Forall₂ (Stands strings) l r := by
  induction h with
  | nil => exact .inl ⟨rfl, rfl⟩
  | @cons a b ls rs h _ ih =>
    obtain ⟨k1, l⟩ := a
    obtain ⟨k2, r⟩ := b
    obtain ⟨rfl, h⟩ := h
    simp only [lookup]
    split
    · exact .inr ⟨_, _, rfl, rfl, h⟩
    · exact ih

/-- **C107.** If a table as written has more entries, so has the table that is used. -/
theorem C107_tables {w w' : Predef} (h : MoreWritten w w') (hv : Validated w t) (hv' : Validated w' t') : Grown t t' := by
  refine ⟨by rw [hv.strings, hv'.strings, h.strings], fun k => ?_⟩
  have r := resolved_lookup (k := k) hv.resolved
  have r' := resolved_lookup (k := k) hv'.resolved
  rcases h.lists k with ⟨e, e'⟩ | ⟨l, l', e, e', hne, hsub⟩
  · rcases r with ⟨-, r⟩ | ⟨_, _, r, -⟩
    · rcases r' with ⟨-, r'⟩ | ⟨_, _, r', -⟩
      · exact .inl ⟨r, r'⟩
      · rw [e'] at r'; cases r'
    · rw [e] at r; cases r
  · rcases r with ⟨r, -⟩ | ⟨l1, s, r, rs, hs⟩
    · rw [e] at r; cases r
    rcases r' with ⟨r', -⟩ | ⟨l1', s', r', rs', hs'⟩
    · rw [e'] at r'; cases r'
    rw [e] at r; cases r
    rw [e'] at r'; cases r'
    rw [h.strings] at hs'
    refine .inr ⟨s, s', rs, rs', ?_, ?_⟩
    · rintro rfl
      cases hs
      exact hne rfl
    · intro x hx
      obtain ⟨i, hi, rfl⟩ := List.getElem_of_mem hx
      have hi' : i < l.length := hs.length_eq ▸ hi
      have hst := hs.get hi' hi
      obtain ⟨j, hj, e⟩ := List.getElem_of_mem (hsub _ (List.getElem_mem hi'))
      have hj' : j < s'.length := hs'.length_eq ▸ hj
      have hst' := hs'.get hj hj'
      simp only [List.get_eq_getElem] at hst hst'
      rw [e] at hst'
      have : s'[j] = s[i] := stands_unique hst' hst
      exact this ▸ List.getElem_mem hj'

/-! ## Rules and policies -/

theorem sameRule_holds {up : Bool} {x x' : Wording} (hx : x.Ok env t) (hx' : x'.Ok env t') (hb : x'.body = x.body) (hc : x'.conditions = x.conditions) (ht : Grown t t')
    (hf : RuleFollows t t' up x) : (up = true → x.Holds env t msg → x'.Holds env t' msg) ∧ (up = false → x'.Holds env t' msg → x.Holds env t msg) := by
  have s' := hx'.sender
  have v' := hx'.receiver
  rw [hb] at s' v'
  unfold Wording.Holds
  rw [hb, hc]
  constructor
  · rintro hu ⟨⟨h1, h2, h3, h4⟩, h5⟩
    exact ⟨⟨sender_grown (fun p => resolves_grown ht hx.sender s') h1, receiver_grown (fun p => resolves_grown ht hx.receiver v') h2, h3, h4⟩,
      fun f hm => (follows_meaning ht (hf.conditions f hm) msg).1 hu (h5 f hm)⟩
  · rintro hu ⟨⟨h1, h2, h3, h4⟩, h5⟩
    have e1 : x'.sender = x.sender := resolves_same ht (hf.sender.resolve_left (by simp [hu])) hx.sender s'
    have e2 : x'.receiver = x.receiver := resolves_same ht (hf.receiver.resolve_left (by simp [hu])) hx.receiver v'
    rw [e1] at h1
    rw [e2] at h2
    exact ⟨⟨h1, h2, h3, h4⟩, fun f hm => (follows_meaning ht (hf.conditions f hm) msg).2 hu (h5 f hm)⟩

theorem decides_le {xs ys : List (Prop × Decision)} {out out' : CheckOut} (h : List.Forall₂ (fun x y => (x.1 → y.1) ∧ x.2 = y.2) xs ys) (hx : Decides xs out) (hy : Decides ys out') :
    out.decision ≤ out'.decision ∧ ∀ (k : Nat) (d d' : Nat), out.results[k]? = some d → out'.results[k]? = some d' → d ≤ d' := by
  obtain ⟨d, e1, -, e2, -, e3, e4⟩ := hx
  obtain ⟨d', e1', -, -, e2', e3', e4'⟩ := hy
  constructor
  · rw [e1, e1']
    rcases e2 with rfl | ⟨x, hm, hh, rfl⟩
    · cases d' <;> decide
    · obtain ⟨i, hi, rfl⟩ := List.getElem_of_mem hm
      have hi' : i < ys.length := h.length_eq ▸ hi
      have hr := h.get hi hi'
      simp only [List.get_eq_getElem] at hr
      rw [hr.2]
      exact e2' _ (List.getElem_mem hi') (hr.1 hh)
  · intro k c c' hk hk'
    have l1 : k < xs.length := by
      obtain ⟨h, -⟩ := List.getElem?_eq_some_iff.1 hk
      omega
    have l2 : k < ys.length := h.length_eq ▸ l1
    have hr := h.get l1 l2
    simp only [List.get_eq_getElem] at hr
    obtain ⟨a1, a2⟩ := e4 k _ (List.getElem?_eq_getElem l1)
    obtain ⟨b1, b2⟩ := e4' k _ (List.getElem?_eq_getElem l2)
    by_cases hx : xs[k].1
    · rw [a1 hx] at hk
      rw [b1 (hr.1 hx), ← hr.2] at hk'
      cases hk; cases hk'
      exact le_refl _
    · rw [a2 hx] at hk
      cases hk
      by_cases hy : ys[k].1
      · rw [b1 hy] at hk'; cases hk'; cases ys[k].2 <;> decide
      · rw [b2 hy] at hk'; cases hk'; exact le_refl _

theorem sameRules_says {up : Bool} {rs rs' : List RuleObj} (h : List.Forall₂ (StillSaid env g g' msg up) rs rs') :
    ∃ xs ys : List (Prop × Decision), List.Forall₂ (fun r x => RuleSays env g msg r x.1 x.2) rs xs ∧ List.Forall₂ (fun r x => RuleSays env g' msg r x.1 x.2) rs' ys ∧
      (up = true → List.Forall₂ (fun x y => (x.1 → y.1) ∧ x.2 = y.2) xs ys) ∧ (up = false → List.Forall₂ (fun x y => (x.1 → y.1) ∧ x.2 = y.2) ys xs) := by
  induction h with
  | nil => exact ⟨[], [], .nil, .nil, fun _ => .nil, fun _ => .nil⟩
  | cons h _ ih =>
    obtain ⟨xs, ys, h1, h2, h3, h4⟩ := ih
    obtain ⟨hs, hs', hb, hc, ht, hf⟩ := h
    have hd := sameRule_holds (msg := msg) hs.ok hs'.ok hb hc ht hf
    refine ⟨(_, _) :: xs, (_, _) :: ys, .cons (standsFor_says hs) h1, .cons (standsFor_says hs') h2, fun hu => .cons ⟨hd.1 hu, ?_⟩ (h3 hu), fun hu => .cons ⟨hd.2 hu, ?_⟩ (h4 hu)⟩
    · exact (congrArg (fun b => decisionOf b.decision) hb).symm
    · exact congrArg (fun b => decisionOf b.decision) hb

/-- **C107**, partial: with more entries in lists that had some, rules that use these lists for senders, receivers or with IN (or with NIN under a negation) do at least what they did,
and the decision is at least as severe. (The full statement includes lists that were empty.) -/
theorem C107_partial (he : Assumed env) (hm : MsgOk env msg) {rs rs' : List RuleObj} (h : List.Forall₂ (StillSaid env g g' msg true) rs rs') :
    ∃ out out', check env g msg rs = .ok out ∧ check env g' msg rs' = .ok out' ∧ out.decision ≤ out'.decision ∧
      ∀ (k : Nat) (d d' : Nat), out.results[k]? = some d → out'.results[k]? = some d' → d ≤ d' := by
  obtain ⟨xs, ys, h1, h2, h3, -⟩ := sameRules_says h
  obtain ⟨out, o1, o2⟩ := C74_policy he hm h1
  obtain ⟨out', o1', o2'⟩ := C74_policy he hm h2
  exact ⟨out, out', o1, o1', decides_le (h3 rfl) o2 o2'⟩

/-- **C107**, partial: rules that use the lists with NIN only (or with IN under a negation) do at most what they did. -/
theorem C107_less_partial (he : Assumed env) (hm : MsgOk env msg) {rs rs' : List RuleObj} (h : List.Forall₂ (StillSaid env g g' msg false) rs rs') :
    ∃ out out', check env g msg rs = .ok out ∧ check env g' msg rs' = .ok out' ∧ out'.decision ≤ out.decision ∧
      ∀ (k : Nat) (d d' : Nat), out.results[k]? = some d → out'.results[k]? = some d' → d' ≤ d := by
  obtain ⟨xs, ys, h1, h2, -, h3⟩ := sameRules_says h
  obtain ⟨out, o1, o2⟩ := C74_policy he hm h1
  obtain ⟨out', o1', o2'⟩ := C74_policy he hm h2
  obtain ⟨e1, e2⟩ := decides_le (h3 rfl) o2' o2
  exact ⟨out, out', o1, o1', e1, fun k d d' hd hd' => e2 k d' d hd' hd⟩

/-- **C107 fails** for lists that were empty: a rule for the senders `#clients` blocks a message without a sender if there are no clients, and no longer blocks it if there is one. -/
theorem C107_violated_empty : ∃ (env : Env) (w w' t t' : Predef) (r : RuleObj) (m : Msg), env.OrdOk ∧ Validated w t ∧ Validated w' t' ∧ w'.strings = w.strings ∧
    w.lists = [(gs"clients", [])] ∧ w'.lists = [(gs"clients", [gs"shop"])] ∧ r.body.senderName = gs"#clients" ∧ r.body.conditions = none ∧
    (check env t m [r]).map (·.decision) = .ok Decision.block.rank ∧ (check env t' m [r]).map (·.decision) = .ok Decision.default.rank := by
  refine ⟨Demo.env, { lists := [(gs"clients", [])] }, { lists := [(gs"clients", [gs"shop"])] }, _, _,
    { body := { (Demo.rule gs"block").body with senderName := gs"#clients", senderType := gs"workload" } }, { Demo.msgI with sourceService := [] }, Demo.env_ordOk,
    (C36_accepted _ { lists := [(gs"clients", [])], listsNoRefs := [(gs"clients", [])] }).1 rfl,
    (C36_accepted _ { lists := [(gs"clients", [gs"shop"])], listsNoRefs := [(gs"clients", [gs"shop"])] }).1 rfl, rfl, rfl, rfl, rfl, rfl, ?_, ?_⟩ <;> decide +kernel

/-! ## An example -/

/-- One client and one agent. -/
def fewTables : Predef :=
  { lists := [(gs"clients", [gs"b"]), (gs"agents", [gs"curl"])], listsNoRefs := [(gs"clients", [gs"b"]), (gs"agents", [gs"curl"])] }

/-- Some more. -/
def moreTables : Predef :=
  { lists := [(gs"clients", [gs"a", gs"b"]), (gs"agents", [gs"curl", gs"wget"])], listsNoRefs := [(gs"clients", [gs"a", gs"b"]), (gs"agents", [gs"curl", gs"wget"])] }

theorem few_more : MoreWritten fewTables moreTables := by
  refine ⟨rfl, fun k => ?_⟩
  simp only [fewTables, moreTables, lookup]
  split
  · exact .inr ⟨_, _, rfl, rfl, by simp, by simp⟩
  · split
    · exact .inr ⟨_, _, rfl, rfl, by simp, by simp⟩
    · exact .inl ⟨rfl, rfl⟩

/-- Block the clients if they use one of the agents. -/
noncomputable def clientsWording (sender : Str) : Wording :=
  { body := { (Demo.rule gs"block").body with senderName := gs"#clients", senderType := gs"workload",
                                              conditions := some ((Statement.cond gs"requestUseragent" gs"IN" gs"#agents").tree policyEnv) },
    conditions := some (.cond gs"requestUseragent" gs"IN" gs"#agents"), sender := sender, receiver := gs"*" }

theorem clients_stands {t : Predef} {l : List Str} {ws : List Str} {msg : Msg} (h : lookup gs"clients" t.listsNoRefs = some l) (ha : lookup gs"agents" t.listsNoRefs = some ws)
    (hp : PlainPattern (join gs"," l)) (hw : ∀ x ∈ ws, PlainWord x) (hn : ws ≠ []) (hs : Sound policyEnv t (.cond gs"requestUseragent" gs"IN" gs"#agents")) :
    StandsFor policyEnv t t msg (parsedRule (clientsWording (join gs"," l)).body) (clientsWording (join gs"," l)) where
  loaded := .parsed ⟨rfl, rfl, rfl⟩
  ok := {
    conditions := rfl
    sender := .list h
    receiver := .plain (by simp [clientsWording, Demo.rule])
    texts := ⟨hp, by show PlainPattern gs"*"; decide, by show PlainPattern gs"*"; decide, by show PlainPattern gs"*"; decide⟩
    sound := by
      intro f hf
      obtain rfl : Statement.cond gs"requestUseragent" gs"IN" gs"#agents" = f := by simpa [clientsWording] using hf
      exact hs }
  defined := by
    intro f hf
    obtain rfl : Statement.cond gs"requestUseragent" gs"IN" gs"#agents" = f := by simpa [clientsWording] using hf
    rw [Defined]
    exact ⟨_, _, .list ha (by decide), .text .agent (.isIn (by decide) hw hn (.inl rfl)) (by rintro ⟨x, h⟩; cases h)⟩

theorem few_sound : Sound policyEnv fewTables (.cond gs"requestUseragent" gs"IN" gs"#agents") := by
  rw [Sound]
  exact ⟨(C42_accepted_iff { attr := _, method := _, value := _ }).1 ⟨_, rfl⟩, by unfold NoControl; decide, by unfold NoControl; decide,
    C42_prepared_iff (r := none) |>.1 ⟨_, rfl⟩⟩

theorem more_sound : Sound policyEnv moreTables (.cond gs"requestUseragent" gs"IN" gs"#agents") := by
  rw [Sound]
  exact ⟨(C42_accepted_iff { attr := _, method := _, value := _ }).1 ⟨_, rfl⟩, by unfold NoControl; decide, by unfold NoControl; decide,
    C42_prepared_iff (r := none) |>.1 ⟨_, rfl⟩⟩

/-- The hypotheses of `C107_partial` hold for these tables, and the decision does become more severe: a message from `a` by `wget` is not blocked with the few entries. -/
example : ∃ out out', check policyEnv fewTables { policyMsg with requestUseragent := gs"wget" } [parsedRule (clientsWording gs"b").body] = .ok out ∧
    check policyEnv moreTables { policyMsg with requestUseragent := gs"wget" } [parsedRule (clientsWording gs"a,b").body] = .ok out' ∧
    out.decision ≤ out'.decision ∧ out.decision = 0 ∧ out'.decision = 3 := by
  have hm : MsgOk policyEnv { policyMsg with requestUseragent := gs"wget" } := ⟨rfl, rfl, policyMsg_ok.3, policyMsg_ok.4, policyMsg_ok.5, policyMsg_ok.6, policyMsg_ok.7, policyMsg_ok.8⟩
  have p1 : ∀ x ∈ [gs"curl"], PlainWord x := by unfold PlainWord; decide
  have p2 : ∀ x ∈ [gs"curl", gs"wget"], PlainWord x := by unfold PlainWord; decide
  have s1 := clients_stands (msg := { policyMsg with requestUseragent := gs"wget" }) (t := fewTables) (l := [gs"b"]) (ws := [gs"curl"]) rfl rfl (by decide) p1 (by simp) few_sound
  have s2 := clients_stands (msg := { policyMsg with requestUseragent := gs"wget" }) (t := moreTables) (l := [gs"a", gs"b"]) (ws := [gs"curl", gs"wget"]) rfl rfl (by decide) p2
    (by simp) more_sound
  have hg : Grown fewTables moreTables := C107_tables few_more ((C36_accepted _ _).1 rfl) ((C36_accepted _ _).1 rfl)
  have hf : RuleFollows fewTables moreTables true (clientsWording gs"b") := by
    refine ⟨.inl rfl, .inl rfl, fun f hf => ?_⟩
    obtain rfl : Statement.cond gs"requestUseragent" gs"IN" gs"#agents" = f := by simpa [clientsWording] using hf
    refine .isIn (by decide) ?_ ?_
    · rintro k l ⟨⟩ h
      cases (show some [gs"curl"] = some l from h)
      exact p1
    · rintro k l ⟨⟩ h
      cases (show some [gs"curl", gs"wget"] = some l from h)
      exact p2
  obtain ⟨out, out', h1, h2, h3, -⟩ := C107_partial policyEnv_ok hm (.cons (.mk s1 s2 rfl rfl hg hf) .nil)
  refine ⟨out, out', h1, h2, h3, ?_, ?_⟩
  · obtain ⟨o, e, d, e1, -, e2, -⟩ := decided policyEnv_ok hm (.cons s1 .nil)
    rw [show check policyEnv fewTables _ _ = .ok out from h1] at e
    cases e
    rw [e1]
    rcases e2 with rfl | ⟨x, hx, hh, -⟩
    · rfl
    · simp only [List.mem_cons, List.not_mem_nil, or_false] at hx
      subst hx
      obtain ⟨p, hp, hg⟩ := hh.1.sender.2
      have := mem_split_iff.2 hp
      rw [show split ',' (clientsWording (join gs"," [gs"b"])).sender = [gs"b"] from rfl] at this
      simp only [List.mem_cons, List.not_mem_nil, or_false] at this
      subst this
      have : Glob gs"b" gs"a" := hg
      simp [Glob] at this
  · obtain ⟨o, e, d, e1, -, -, e2⟩ := decided policyEnv_ok hm (.cons s2 .nil)
    rw [show check policyEnv moreTables _ _ = .ok out' from h2] at e
    cases e
    have := e2 _ (.head _) ⟨⟨⟨.inr rfl, gs"a", mem_split_iff.1 (by decide), ?_⟩, ⟨.inl rfl, gs"*", mem_split_iff.1 (by decide), ?_⟩, ?_, ?_⟩, ?_⟩
    · rw [e1]
      revert this
      cases d <;> decide
    · show Glob gs"a" gs"a"; simp [Glob]
    · show Glob gs"*" gs"b"; simp [Glob]
    · show OperationMatches gs"*" _
      simp [OperationMatches]
    · show ResourceText _ _
      unfold ResourceText
      rw [if_neg (by decide)]
      exact (if_pos (c := gs"*" = gs"*") rfl).symm ▸ trivial
    · intro f hf
      obtain rfl : Statement.cond gs"requestUseragent" gs"IN" gs"#agents" = f := by simpa [clientsWording] using hf
      rw [Meaning]
      exact ⟨_, _, .list (l := [gs"curl", gs"wget"]) rfl (by decide), .text .agent (.isIn (by decide) p2 (by simp) (.inl rfl)) (by rintro ⟨x, h⟩; cases h),
        by show gs"wget" ∈ [gs"curl", gs"wget"]; decide⟩

end Mapl.Props

import Verif.Spec.Narrow
import Verif.Props.Policy

/-!
# C95: a rule made more specific

`Within` says, part by part and in terms of the texts, that one rule is more specific than another.
-/

namespace Mapl.Props

open Spec

variable {env : Env} {g t : Predef} {msg : Msg}

/-! ## Patterns -/

theorem glob_star {p s : Str} : Glob ('*' :: p) s ↔ ∃ x y, s = x ++ y ∧ Glob p y := by simp [Glob]

theorem glob_append : ∀ {p q s : Str}, Glob (p ++ q) s → ∃ x y, s = x ++ y ∧ Glob p x ∧ Glob q y
  | [], q, s, h => ⟨[], s, rfl, by simp [Glob], h⟩
  | c :: p, q, s, h => by
    rw [List.cons_append, Glob] at h
    split at h
    · rename_i hc
      obtain ⟨x, y, rfl, h⟩ := h
      obtain ⟨y1, y2, rfl, h1, h2⟩ := glob_append h
      exact ⟨x ++ y1, y2, by simp, by rw [Glob, if_pos hc]; exact ⟨x, y1, rfl, h1⟩, h2⟩
    · rename_i hc
      split at h
      · rename_i hq
        obtain ⟨d, y, rfl, h⟩ := h
        obtain ⟨y1, y2, rfl, h1, h2⟩ := glob_append h
        exact ⟨d :: y1, y2, rfl, by rw [Glob, if_neg hc, if_pos hq]; exact ⟨d, y1, rfl, h1⟩, h2⟩
      · rename_i hq
        obtain ⟨y, rfl, h⟩ := h
        obtain ⟨y1, y2, rfl, h1, h2⟩ := glob_append h
        exact ⟨c :: y1, y2, rfl, by rw [Glob, if_neg hc, if_neg hq]; exact ⟨y1, rfl, h1⟩, h2⟩

/-- What a pattern stands for that is filled in, the pattern stands for. -/
theorem filledIn_glob {p p' : Str} (h : FilledIn p p') : ∀ {s : Str}, Glob p' s → Glob p s := by
  induction h with
  | nil => exact fun h => h
  | @same c p p' _ ih =>
    intro s hs
    rw [Glob] at hs ⊢
    split
    · rename_i hc
      rw [if_pos hc] at hs
      obtain ⟨x, y, rfl, hs⟩ := hs
      exact ⟨x, y, rfl, ih hs⟩
    · rename_i hc
      rw [if_neg hc] at hs
      split
      · rename_i hq
        rw [if_pos hq] at hs
        obtain ⟨d, y, rfl, hs⟩ := hs
        exact ⟨d, y, rfl, ih hs⟩
      · rename_i hq
        rw [if_neg hq] at hs
        obtain ⟨y, rfl, hs⟩ := hs
        exact ⟨y, rfl, ih hs⟩
  | @star x p p' _ ih =>
    intro s hs
    obtain ⟨y, z, rfl, -, h2⟩ := glob_append hs
    exact glob_star.2 ⟨y, z, rfl, ih h2⟩
  | @one c p p' hc _ ih =>
    intro s hs
    rw [Glob, if_neg hc] at hs
    have : ∃ d y, s = d :: y ∧ Glob p' y := by
      split at hs
      · exact hs
      · obtain ⟨y, rfl, hs⟩ := hs; exact ⟨c, y, rfl, hs⟩
    obtain ⟨d, y, rfl, hs'⟩ := this
    rw [Glob, if_neg (by decide), if_pos rfl]
    exact ⟨d, y, rfl, ih hs'⟩

theorem filledIn_refl : ∀ p : Str, FilledIn p p
  | [] => .nil
  | _ :: p => .same (filledIn_refl p)

theorem namesWithin_matches {s' s name : Str} (h : NamesWithin s' s) (hm : NameMatches s' name) : NameMatches s name := by
  obtain ⟨q, hq, hg⟩ := hm
  obtain ⟨p, hp, hf⟩ := h q hq
  exact ⟨p, hp, filledIn_glob hf hg⟩

theorem textsWithin_matches {s' s text : Str} (h : TextsWithin s' s) (hm : TextMatches s' text) : TextMatches s text := by
  obtain ⟨e, q, he, hq, hg⟩ := hm
  obtain ⟨d, p, hd, hp, hf⟩ := h e q he hq
  exact ⟨d, p, hd, hp, filledIn_glob hf hg⟩

/-! ## Subnets -/

theorem netText_bits {e : Str} {x n : Nat} (h : NetText e x n) : n ≤ 128 := by
  cases h <;> omega

theorem div_coarser {a b n n' : Nat} (hn : n ≤ n') (hn' : n' ≤ 128) (h : a / 2 ^ (128 - n') = b / 2 ^ (128 - n')) : a / 2 ^ (128 - n) = b / 2 ^ (128 - n) := by
  have e : 128 - n = (128 - n') + (n' - n) := by omega
  rw [e, Nat.pow_add, ← Nat.div_div_eq_div_mul, ← Nat.div_div_eq_div_mul, h]

theorem slash_parts {a b t u : Str} (ha : '/' ∉ a) (hb : '/' ∉ b) (h : a ++ gs"/" ++ t = b ++ gs"/" ++ u) : a = b ∧ t = u := by
  have e : ∀ x y : Str, x ++ gs"/" ++ y = x ++ '/' :: y := fun x y => by simp
  rw [e, e] at h
  have h1 := index_append (t := t) ha
  rw [h, index_append hb] at h1
  obtain ⟨rfl, h2⟩ := List.append_inj h (by simpa using h1.symm)
  exact ⟨rfl, by simpa using h2⟩

theorem bits_unique {t : Str} {n n' : Nat} (h : WrittenIn 10 Digit10 t n) (h' : WrittenIn 10 Digit10 t n') (hn : n ≤ 128) (hn' : n' ≤ 128) : n = n' := by
  have a := (bits_iff (by omega)).2 h
  have b := (bits_iff (by omega)).2 h'
  rw [a] at b
  simpa using b

/-- A text is read as a subnet in one way. -/
theorem net_unique (env : Ext) {s : Str} {x n x' n' : Nat} (h : NetText s x n) (h' : NetText s x' n') : x = x' ∧ n = n' := by
  have star : ∀ {a t : Str}, gs"*" ≠ a ++ gs"/" ++ t := by
    intro a t h
    have : '/' ∈ gs"*" := h ▸ (by simp)
    simp at this
  have v4s : ∀ y : V4, '/' ∉ y.text := fun y h => (text_chars y _ h).1 rfl
  have mixed : ∀ {y : V4} {ns : List Nat}, ¬ V6Text y.text ns := by
    intro y ns h
    have a := parseIPv4_v6 h
    rw [parseIPv4_text] at a
    cases a
  generalize hs : s = s' at h'
  cases h with
  | @v4 t n y hw hn =>
    cases h' with
    | @v4 t' n' y' hw' hn' =>
      obtain ⟨e1, rfl⟩ := slash_parts (v4s y) (v4s y') hs
      have e2 := address_unique env (.v4 y) (e1.symm ▸ AddressText.v4 y')
      exact ⟨e2, by rw [bits_unique hw hw' (by omega) (by omega)]⟩
    | @v6 s' t' ns' n' hv' hw' hn' =>
      obtain ⟨e1, rfl⟩ := slash_parts (v4s y) (address_no_slash (.v6 hv')) hs
      exact absurd (e1 ▸ hv') mixed
    | all => exact absurd hs.symm star
  | @v6 s t ns n hv hw hn =>
    cases h' with
    | @v4 t' n' y' hw' hn' =>
      obtain ⟨e1, rfl⟩ := slash_parts (address_no_slash (.v6 hv)) (v4s y') hs
      exact absurd (e1 ▸ hv) mixed
    | @v6 s' t' ns' n' hv' hw' hn' =>
      obtain ⟨rfl, rfl⟩ := slash_parts (address_no_slash (.v6 hv)) (address_no_slash (.v6 hv')) hs
      exact ⟨address_unique env (.v6 hv) (.v6 hv'), bits_unique hw hw' hn hn'⟩
    | all => exact absurd hs.symm star
  | all =>
    cases h' with
    | v4 y' hw' hn' => exact absurd hs star
    | v6 hv' hw' hn' => exact absurd hs star
    | all => exact ⟨rfl, rfl⟩

theorem entryWithin_covers (env : Ext) {e' e address : Str} (h : EntryWithin e' e) (hc : Covers e' address) : Covers e address := by
  cases h with
  | same => exact hc
  | @net _ x' n' x n h' h hn hx hv =>
    rcases hc with ⟨a, b, y, h1, h2, h3, h4⟩ | ⟨-, y, h1⟩
    · obtain ⟨rfl, rfl⟩ := net_unique env h1 h'
      refine .inl ⟨x, n, y, h, h2, by rw [← hx]; exact div_coarser hn (netText_bits h') h3, fun h5 => hv ?_⟩
      have := div_coarser (h4 h5) (netText_bits h') h3
      unfold IsV4 at *
      rw [show 128 - 96 = 32 from rfl] at this
      omega
    · exact absurd h1 (net_not_address h')
  | @address _ y x n h' h hx hv =>
    rcases hc with ⟨a, b, z, h1, -⟩ | ⟨rfl, -⟩
    · exact absurd h' (net_not_address h1)
    · exact .inl ⟨x, n, y, h, h', hx.symm, hv⟩

theorem subnetsWithin_covers (env : Ext) {l' l address : Str} (h : SubnetsWithin l' l) (hc : ∃ e, Listed l' e ∧ Covers e address) : ∃ e, Listed l e ∧ Covers e address := by
  obtain ⟨e', he', hc⟩ := hc
  obtain ⟨e, he, hw⟩ := h e' he'
  exact ⟨e, he, entryWithin_covers env hw hc⟩

/-! ## Parts -/

theorem sender_within (env : Ext) {t' s' t s : Str} (h : PartyWithin t' s' t s) (hm : SenderText t' s' msg) : SenderText t s msg := by
  cases h with
  | subnet h =>
    rw [SenderText, if_pos rfl] at *
    exact subnetsWithin_covers env h hm
  | service ht' ht h =>
    rw [SenderText, if_neg (by rcases ht' with rfl | rfl <;> decide)] at hm
    rw [SenderText, if_neg (by rcases ht with rfl | rfl <;> decide)]
    exact ⟨ht, namesWithin_matches h hm.2⟩
  | host h =>
    rw [SenderText, if_neg (by decide)] at hm
    exact absurd hm.1 (by decide)

theorem receiver_within (env : Ext) {t' s' t s : Str} (h : PartyWithin t' s' t s) (hm : ReceiverText t' s' msg) : ReceiverText t s msg := by
  cases h with
  | subnet h =>
    rw [ReceiverText, if_pos rfl] at *
    exact subnetsWithin_covers env h hm
  | service ht' ht h =>
    rw [ReceiverText, if_neg (by rcases ht' with rfl | rfl <;> decide), if_neg (by rcases ht' with rfl | rfl <;> decide)] at hm
    rw [ReceiverText, if_neg (by rcases ht with rfl | rfl <;> decide), if_neg (by rcases ht with rfl | rfl <;> decide)]
    exact ⟨ht, namesWithin_matches h hm.2⟩
  | host h =>
    rw [ReceiverText, if_neg (by decide), if_pos rfl] at *
    exact namesWithin_matches h hm

theorem operation_plain {o x : Str} (h : o ∉ operationKeywords) : OperationMatches o x ↔ TextMatches o x := by
  simp only [operationKeywords, List.mem_cons, List.not_mem_nil, or_false, not_or] at h
  rw [OperationMatches, if_neg h.1, if_neg (by tauto), if_neg (by tauto)]

/-- A word without commas, white space and wildcards stands for itself. -/
theorem textMatches_word {o x : Str} (h : ∀ c ∈ o, c ≠ ',' ∧ c ≠ '*' ∧ c ≠ '?' ∧ c.toNat ∉ white) (hm : TextMatches o x) : x = o := by
  obtain ⟨p, q, h1, h2, h3⟩ := hm
  obtain rfl := (listed_last (fun hc => (h _ hc).1 rfl)).1 h1
  obtain ⟨⟨b, a, e, hb, ha⟩, -, -⟩ := h2
  have hb0 : b = [] := by
    cases b with
    | nil => rfl
    | cons c b => exact absurd (hb c (by simp)) (h c (by rw [e]; simp)).2.2.2
  have ha0 : a = [] := by
    cases a with
    | nil => rfl
    | cons c a => exact absurd (ha c (by simp)) (h c (by rw [e]; simp)).2.2.2
  subst hb0 ha0
  simp only [List.nil_append, List.append_nil] at e
  subst e
  clear h1 hb ha
  induction p generalizing x with
  | nil => simpa [Glob] using h3
  | cons c p ih =>
    rw [Glob, if_neg (h c (by simp)).2.1, if_neg (h c (by simp)).2.2.1] at h3
    obtain ⟨y, rfl, h3⟩ := h3
    rw [ih (fun c hc => h c (by simp [hc])) h3]

theorem operation_within {o' o x : Str} (h : OperationWithin o' o) (hm : OperationMatches o' x) : OperationMatches o x := by
  cases h with
  | all => rw [OperationMatches, if_pos rfl]; trivial
  | same => exact hm
  | read h' h =>
    have hx : x = o' := by
      simp only [reading, List.mem_cons, List.not_mem_nil, or_false] at h'
      rcases h' with rfl | rfl | rfl | rfl <;> exact textMatches_word (by decide) ((operation_plain (by decide)).1 hm)
    subst hx
    rw [OperationMatches, if_neg (by rcases h with rfl | rfl <;> decide), if_pos h]
    simp only [reading, List.mem_cons, List.not_mem_nil, or_false] at h' ⊢
    tauto
  | write h' h =>
    have hx : x = o' := by
      simp only [writing, List.mem_cons, List.not_mem_nil, or_false] at h'
      rcases h' with rfl | rfl | rfl <;> exact textMatches_word (by decide) ((operation_plain (by decide)).1 hm)
    subst hx
    rw [OperationMatches, if_neg (by rcases h with rfl | rfl <;> decide), if_neg (by rcases h with rfl | rfl <;> decide), if_pos h]
    exact h'
  | listed h' ho h => exact (operation_plain ho).2 (textsWithin_matches h ((operation_plain h').1 hm))

theorem resource_within {r' r : Rule} (h : ResourceWithin r' r) (hm : ResourceText r' msg) : ResourceText r msg := by
  cases h with
  | all h => rw [ResourceText, if_neg (by rw [h]; decide), if_pos h]; trivial
  | port h' h hn =>
    rw [ResourceText, if_pos h'] at hm
    rw [ResourceText, if_pos h]
    exact textsWithin_matches hn hm
  | path h ht hs hn =>
    rw [ResourceText, h, if_neg ht] at hm
    rw [ResourceText, if_neg ht]
    split
    · trivial
    · rename_i hp
      rw [if_neg hp] at hm
      refine ⟨hm.1, ?_, textsWithin_matches hn hm.2.2⟩
      rcases hs with hs | hs
      · exact .inl hs
      · rw [hs]; exact hm.2.1

/-! ## Conditions -/

theorem meaningAll_iff {fs : List Statement} : MeaningAll env t fs msg ↔ ∀ f ∈ fs, Meaning env t f msg := by
  induction fs with
  | nil => simp [MeaningAll]
  | cons f fs ih => simp [MeaningAll, ih]

theorem meaningSome_iff {fs : List Statement} : MeaningSome env t fs msg ↔ ∃ f ∈ fs, Meaning env t f msg := by
  induction fs with
  | nil => simp [MeaningSome]
  | cons f fs ih => simp [MeaningSome, ih]

theorem spelling_unique {k k' : NumMethod} {m : Str} (h : m ∈ k.spellings) (h' : m ∈ k'.spellings) : k = k' := by
  cases k <;> simp only [NumMethod.spellings, List.mem_cons, List.not_mem_nil, or_false] at h <;> rcases h with rfl | rfl | rfl | rfl <;>
    revert h' <;> cases k' <;> decide

theorem textAttr_path {q : Str} {f : Msg → Str} (h : TextAttr (gs"jsonpath:" ++ q) f) : False := by
  generalize ha : gs"jsonpath:" ++ q = a at h
  cases h <;> simp at ha

theorem labelAttr_path {q : Str} {f : Msg → Option Str} (h : LabelAttr (gs"jsonpath:" ++ q) f) : False := by
  generalize ha : gs"jsonpath:" ++ q = a at h
  cases h <;> simp at ha

theorem not_num {m : Str} (h : m ∈ [gs"RE", gs"re", gs"NRE", gs"nre", gs"EX", gs"ex", gs"NEX", gs"nex", gs"IN", gs"IS", gs"NIN"]) : ¬ ∃ k : NumMethod, m ∈ k.spellings := by
  rintro ⟨k, hk⟩
  revert hk
  simp only [List.mem_cons, List.not_mem_nil, or_false] at h
  rcases h with rfl | rfl | rfl | rfl | rfl | rfl | rfl | rfl | rfl | rfl | rfl <;> cases k <;> decide

/-- A comparison with a number, other than NEQ, holds only for numbers. -/
theorem number_says {k : NumMethod} {q m w : Str} {x : F64} {P : Prop} (hm : m ∈ k.spellings) (hk : k ≠ .ne) (hw : parseNumber env w = some x)
    (h : Says env msg (gs"jsonpath:" ++ q) m w P) (hP : P) : ∃ s y, SelectsText env msg q s ∧ parseNumber env s = some y ∧ k.holdsF y x := by
  generalize ha : gs"jsonpath:" ++ q = a at h
  cases h with
  | yes h => subst ha; simp at h
  | no h => subst ha; simp at h
  | size => simp at ha
  | hours => simp at ha
  | version => simp at ha
  | text h => exact absurd h (ha ▸ textAttr_path)
  | sameField => simp at ha
  | otherField => simp at ha
  | label h => exact absurd h (ha ▸ labelAttr_path)
  | labelThere h => exact absurd h (ha ▸ labelAttr_path)
  | sameLabel => simp at ha
  | otherLabel => simp at ha
  | @number k' _ _ q' s x' y hm' hw' hs hy =>
    obtain rfl : q = q' := by simpa using ha
    obtain rfl := spelling_unique hm hm'
    rw [hw] at hw'
    cases hw'
    exact ⟨s, y, hs, hy, hP⟩
  | @scalar _ _ q' s P hp hs hy =>
    have hy := hy ⟨k, hm⟩
    cases hp with
    | eq hm' _ =>
      rw [hP, hw] at hy
      cases hy
    | ne hm' _ => exact absurd (spelling_unique hm (k' := .ne) (by revert hm'; simp only [NumMethod.spellings, List.mem_cons, List.not_mem_nil, or_false]; tauto)) hk
    | found hm' _ => exact absurd ⟨k, hm⟩ (not_num (by simp only [List.mem_cons, List.not_mem_nil, or_false] at hm' ⊢; tauto))
    | notFound hm' _ => exact absurd ⟨k, hm⟩ (not_num (by simp only [List.mem_cons, List.not_mem_nil, or_false] at hm' ⊢; tauto))
    | there hm' => exact absurd ⟨k, hm⟩ (not_num (by simp only [List.mem_cons, List.not_mem_nil, or_false] at hm' ⊢; tauto))
    | notThere hm' => exact absurd ⟨k, hm⟩ (not_num (by simp only [List.mem_cons, List.not_mem_nil, or_false] at hm' ⊢; tauto))
    | isIn hm' => exact absurd ⟨k, hm⟩ (not_num (by simp only [List.mem_cons, List.not_mem_nil, or_false] at hm' ⊢; tauto))
    | notIn hm' => exact absurd ⟨k, hm⟩ (not_num (by simp only [List.mem_cons, List.not_mem_nil, or_false] at hm' ⊢; tauto))
  | missing => exact absurd ⟨k, hm⟩ (not_num (by rcases hP with rfl | rfl <;> decide))
  | missingText => exact absurd ⟨k, hm⟩ (not_num (by rcases hP with rfl | rfl <;> decide))

/-- What follows from a condition holds when it does. -/
theorem implies_meaning (he : Assumed env) {f g : Statement} (h : Implies env t f g) : ∀ msg, Meaning env t f msg → Meaning env t g msg := by
  induction h with
  | refl f => exact fun _ h => h
  | trans _ _ ih1 ih2 => exact fun msg h => ih2 msg (ih1 msg h)
  | part hf =>
    intro msg h
    rw [Meaning, meaningAll_iff] at h
    exact h _ hf
  | parts _ ih =>
    intro msg h
    rw [Meaning, meaningAll_iff]
    exact fun g hg => ih g hg msg h
  | case hf =>
    intro msg h
    rw [Meaning, meaningSome_iff]
    exact ⟨_, hf, h⟩
  | cases _ ih =>
    intro msg h
    rw [Meaning, meaningSome_iff] at h
    obtain ⟨f, hf, h⟩ := h
    exact ih f hf msg h
  | not _ ih =>
    intro msg h
    rw [Meaning] at *
    exact fun hf => h (ih msg hf)
  | any q _ ih =>
    intro msg h
    rw [Meaning] at *
    obtain ⟨l, hl, m, hm, h⟩ := h
    exact ⟨l, hl, m, hm, ih m h⟩
  | all q _ ih =>
    intro msg h
    rw [Meaning] at *
    obtain ⟨l, hl, h⟩ := h
    exact ⟨l, hl, fun m hm => ih m (h m hm)⟩
  | size hok hm' hv' hw' hm hv hw h =>
    intro msg hM
    rw [meaning_cond he hok hv' (.size hm' hw')] at hM
    rw [Meaning]
    exact ⟨_, _, hv, .size hm hw, h _ hM⟩
  | number hm' hk hv' hw' hm hv hw h =>
    intro msg hM
    rw [Meaning] at *
    obtain ⟨w, P, h1, h2, h3⟩ := hM
    obtain rfl := resolves_unique h1 hv'
    obtain ⟨s, y, h4, h5, h6⟩ := number_says hm' hk hw' h2 h3
    exact ⟨_, _, hv, .number hm hw h4 h5, h _ h6⟩
  | text ha hok hv' hP' hn' hv hP hn h =>
    intro msg hM
    rw [meaning_cond he hok hv' (.text ha hP' hn')] at hM
    rw [Meaning]
    exact ⟨_, _, hv, .text ha hP hn, h _ hM⟩

/-! ## Rules and policies -/

/-- **C95.** A message that the more specific rule speaks of is one that the less specific rule speaks of. -/
theorem C95_rule (he : Assumed env) {x' x : Wording} (h : x'.Within env t x) (hx : x'.Holds env t msg) : x.Holds env t msg := by
  refine ⟨⟨sender_within env h.sender hx.1.sender, receiver_within env h.receiver hx.1.receiver, operation_within h.operation hx.1.operation,
    resource_within h.resource hx.1.resource⟩, fun f hf => ?_⟩
  obtain ⟨f', hf', hi⟩ := h.conditions f hf
  exact implies_meaning he hi msg (hx.2 f' hf')

theorem standsFor_says {x : Wording} (h : StandsFor env g t msg r x) : RuleSays env g msg r (x.Holds env t msg) x.decision :=
  ⟨_, t, h.loaded, .mk h.ok.conditions h.ok.sender h.ok.receiver h.ok.texts h.ok.sound h.defined⟩

theorem decided (he : Assumed env) (hm : MsgOk env msg) {rs : List RuleObj} {xs : List Wording} (h : List.Forall₂ (StandsFor env g t msg) rs xs) :
    ∃ out, check env g msg rs = .ok out ∧ ∃ d : Decision, out.decision = d.rank ∧ out.decisionString = d.text ∧
      (d = .default ∨ ∃ x ∈ xs, x.Holds env t msg ∧ x.decision = d) ∧ ∀ x ∈ xs, x.Holds env t msg → x.decision.rank ≤ d.rank := by
  obtain ⟨out, h1, d, h2, h3, h4, h5, -⟩ := C74_policy he hm (xs := xs.map fun x => (x.Holds env t msg, x.decision)) (by
    rw [List.forall₂_map_right_iff]
    exact h.imp fun r x => standsFor_says)
  refine ⟨out, h1, d, h2, h3, ?_, fun x hx => h5 _ (List.mem_map_of_mem hx)⟩
  rcases h4 with h4 | ⟨y, hy, h4⟩
  · exact .inl h4
  · obtain ⟨x, hx, rfl⟩ := List.mem_map.1 hy
    exact .inr ⟨x, hx, h4⟩

/-- **C95.** Rules that are more specific than others and not more severe lead to no more severe decision. -/
theorem C95_check (he : Assumed env) (hm : MsgOk env msg) {rs' rs : List RuleObj} {xs' xs : List Wording} (h' : List.Forall₂ (StandsFor env g t msg) rs' xs')
    (h : List.Forall₂ (StandsFor env g t msg) rs xs) (hw : ∀ x' ∈ xs', ∃ x ∈ xs, x'.Within env t x ∧ x'.decision.rank ≤ x.decision.rank) :
    ∃ out' out, check env g msg rs' = .ok out' ∧ check env g msg rs = .ok out ∧ out'.decision ≤ out.decision := by
  obtain ⟨out', h1', d', h2', -, h3', -⟩ := decided he hm h'
  obtain ⟨out, h1, d, h2, -, -, h4⟩ := decided he hm h
  refine ⟨out', out, h1', h1, ?_⟩
  rw [h2', h2]
  rcases h3' with rfl | ⟨x', hx', hh, rfl⟩
  · cases d <;> decide
  · obtain ⟨x, hx, hw, hr⟩ := hw x' hx'
    exact le_trans hr (h4 x hx (C95_rule he hw hh))

/-- **C95.** A rule that is more specific than another and not more severe can be dropped: the decision is the same. -/
theorem C95_redundant (he : Assumed env) (hm : MsgOk env msg) {before after : List RuleObj} {xs ys : List Wording} {r : RuleObj} {x' : Wording}
    (hb : List.Forall₂ (StandsFor env g t msg) before xs) (hr : StandsFor env g t msg r x') (ha : List.Forall₂ (StandsFor env g t msg) after ys)
    (hw : ∃ x ∈ xs ++ ys, x'.Within env t x ∧ x'.decision.rank ≤ x.decision.rank) :
    ∃ out out', check env g msg (before ++ r :: after) = .ok out ∧ check env g msg (before ++ after) = .ok out' ∧
      out.decision = out'.decision ∧ out.decisionString = out'.decisionString := by
  obtain ⟨out, h1, d, h2, h3, h4, h5⟩ := decided he hm (List.rel_append hb (.cons hr ha))
  obtain ⟨out', h1', d', h2', h3', h4', h5'⟩ := decided he hm (List.rel_append hb ha)
  obtain ⟨x, hx, hw, hrank⟩ := hw
  have le1 : d.rank ≤ d'.rank := by
    rcases h4 with rfl | ⟨y, hy, hh, rfl⟩
    · cases d' <;> decide
    · rw [List.mem_append, List.mem_cons] at hy
      rcases hy with hy | rfl | hy
      · exact h5' y (List.mem_append_left _ hy) hh
      · exact le_trans hrank (h5' x hx (C95_rule he hw hh))
      · exact h5' y (List.mem_append_right _ hy) hh
  have le2 : d'.rank ≤ d.rank := by
    rcases h4' with rfl | ⟨y, hy, hh, rfl⟩
    · cases d <;> decide
    · refine h5 y ?_ hh
      rw [List.mem_append] at hy
      rw [List.mem_append, List.mem_cons]
      tauto
  have e : d = d' := by
    revert le1 le2
    cases d <;> cases d' <;> decide
  exact ⟨out, out', h1, h1', by rw [h2, h2', e], by rw [h3, h3', e]⟩

/-! ## An example -/

/-- Reading below `/x` by `a…` and `b`, with a payload larger than 10. -/
noncomputable def wideWording : Wording :=
  { body := { (Demo.rule gs"block").body with senderName := gs"#clients", senderType := gs"workload", operation := gs"read", resourceName := gs"/x*", protocol := gs"http",
                                              conditions := some ((Statement.cond gs"payloadSize" gs"GT" gs"10").tree policyEnv) },
    conditions := some (.cond gs"payloadSize" gs"GT" gs"10"), sender := gs"a*,b", receiver := gs"*" }

/-- GET of `/x/y` or `/x` by `a` or `a1…`, with a payload larger than 15 and some container with the bad image. -/
noncomputable def narrowStatement : Statement :=
  .and [.cond gs"payloadSize" gs"GE" gs"15", .any (.document [gs"containers"]) (.cond gs"jsonpath:$RELATIVE.image" gs"EQ" gs"#bad")]

noncomputable def narrowWording : Wording :=
  { body := { (Demo.rule gs"alert").body with senderName := gs"a,a1*", senderType := gs"workload", operation := gs"GET", resourceName := gs"/x/y,/x", protocol := gs"http",
                                              conditions := some (narrowStatement.tree policyEnv) },
    conditions := some narrowStatement, sender := gs"a,a1*", receiver := gs"*" }

theorem narrow_size : Sound policyEnv policyTables (.cond gs"payloadSize" gs"GE" gs"15") := by
  rw [Sound]
  exact ⟨(C42_accepted_iff { attr := _, method := _, value := _ }).1 ⟨_, rfl⟩, by unfold NoControl; decide, by unfold NoControl; decide,
    C42_prepared_iff (r := none) |>.1 ⟨_, rfl⟩⟩

theorem narrow_within : narrowWording.Within policyEnv policyTables wideWording where
  sender := .service (.inr rfl) (.inr rfl) fun q hq => by
    have : q ∈ [gs"a", gs"a1*"] := by have := mem_split_iff.2 hq; revert this; exact fun h => h
    simp only [List.mem_cons, List.not_mem_nil, or_false] at this
    rcases this with rfl | rfl
    · exact ⟨gs"a*", mem_split_iff.1 (by decide), .same (.star [] .nil)⟩
    · exact ⟨gs"a*", mem_split_iff.1 (by decide), .same (.star gs"1*" .nil)⟩
  receiver := .service (.inl rfl) (.inl rfl) fun q hq => ⟨q, hq, filledIn_refl _⟩
  operation := .read (by decide) (.inl rfl)
  resource := .path rfl (by decide) (.inl rfl) fun e q he hq => by
    have : e ∈ [gs"/x/y", gs"/x"] := by have := mem_split_iff.2 he; revert this; exact fun h => h
    simp only [List.mem_cons, List.not_mem_nil, or_false] at this
    rcases this with rfl | rfl
    · obtain rfl := trimmed_iff.1 hq
      exact ⟨gs"/x*", gs"/x*", mem_split_iff.1 (by decide), trimmed_iff.2 (by decide), .same (.same (.star gs"/y" .nil))⟩
    · obtain rfl := trimmed_iff.1 hq
      exact ⟨gs"/x*", gs"/x*", mem_split_iff.1 (by decide), trimmed_iff.2 (by decide), .same (.same (.star [] .nil))⟩
  conditions := by
    intro f hf
    obtain rfl : Statement.cond gs"payloadSize" gs"GT" gs"10" = f := by simpa [wideWording] using hf
    refine ⟨narrowStatement, rfl, .trans (.part (.head _)) (.size (k' := .ge) (k := .gt) (x' := 15) (x := 10) narrow_size (by decide) (.plain (by simp)) (intText_iff.2 rfl)
      (by decide) (.plain (by simp)) (intText_iff.2 rfl) ?_)⟩
    intro n (h : (15 : Int) ≤ n)
    show (10 : Int) < n
    omega

/-- A smaller subnet, and an address in it. -/
example : EntryWithin gs"10.1.0.0/16" gs"10.0.0.0/8" ∧ EntryWithin gs"10.1.2.3" gs"10.0.0.0/8" := by
  have h8 : NetText gs"10.0.0.0/8" (V4.wide ⟨10, 0, 0, 0⟩) 104 := .v4 ⟨10, 0, 0, 0⟩ (t := gs"8") (n := 8) (.one rfl) (by decide)
  have h16 : NetText gs"10.1.0.0/16" (V4.wide ⟨10, 1, 0, 0⟩) 112 := .v4 ⟨10, 1, 0, 0⟩ (t := gs"16") (n := 16) (.more (s := gs"1") (n := 1) (c := '6') (d := 6) (.one rfl) rfl) (by decide)
  exact ⟨.net h16 h8 (by decide) (by decide) (fun _ => by decide), .address (.v4 ⟨10, 1, 2, 3⟩) h8 (by decide) (fun _ => by decide)⟩

theorem wide_stands : StandsFor policyEnv policyTables policyTables policyMsg (parsedRule wideWording.body) wideWording where
  loaded := .parsed ⟨rfl, rfl, rfl⟩
  ok := {
    conditions := rfl
    sender := .list (l := [gs"a*", gs"b"]) rfl
    receiver := .plain (by simp [wideWording, Demo.rule])
    texts := ⟨by show PlainPattern _; decide, by show PlainPattern _; decide, by show PlainPattern gs"read"; decide, by show PlainPattern gs"/x*"; decide⟩
    sound := by
      intro f hf
      obtain rfl : Statement.cond gs"payloadSize" gs"GT" gs"10" = f := by simpa [wideWording] using hf
      have := policy_sound
      rw [policyStatement, Sound, SoundAll] at this
      exact this.2.1 }
  defined := by
    intro f hf
    obtain rfl : Statement.cond gs"payloadSize" gs"GT" gs"10" = f := by simpa [wideWording] using hf
    rw [Defined]
    exact ⟨_, _, policy_size⟩

theorem narrow_stands : StandsFor policyEnv policyTables policyTables policyMsg (parsedRule narrowWording.body) narrowWording where
  loaded := .parsed ⟨rfl, rfl, rfl⟩
  ok := {
    conditions := rfl
    sender := .plain (by simp [narrowWording])
    receiver := .plain (by simp [narrowWording, Demo.rule])
    texts := ⟨by show PlainPattern _; decide, by show PlainPattern _; decide, by show PlainPattern gs"GET"; decide, by show PlainPattern gs"/x/y,/x"; decide⟩
    sound := by
      intro f hf
      obtain rfl : narrowStatement = f := by simpa [narrowWording] using hf
      have := policy_sound
      rw [policyStatement, Sound, SoundAll] at this
      rw [narrowStatement, Sound, SoundAll]
      exact ⟨by simp, narrow_size, this.2.2⟩ }
  defined := by
    intro f hf
    obtain rfl : narrowStatement = f := by simpa [narrowWording] using hf
    have := policy_defined
    rw [policyStatement, Defined, DefinedInTurn, DefinedInTurn, DefinedInTurn] at this
    rw [narrowStatement, Defined, DefinedInTurn, DefinedInTurn, DefinedInTurn]
    refine ⟨?_, fun _ => this.2 ?_⟩
    · rw [Defined]
      exact ⟨_, _, .plain (by simp), Says.size (env := policyEnv.toExt) (msg := policyMsg) (k := .ge) (m := gs"GE") (w := gs"15") (x := 15) (by decide) (intText_iff.2 rfl)⟩
    · have := policy_meaning
      rw [policyStatement, Meaning, MeaningAll] at this
      exact this.1

theorem narrow_holds : narrowWording.Holds policyEnv policyTables policyMsg := by
  refine ⟨⟨⟨.inr rfl, gs"a", mem_split_iff.1 (by decide), ?_⟩, ⟨.inl rfl, gs"*", mem_split_iff.1 (by decide), ?_⟩, ?_, ?_⟩, ?_⟩
  · show Glob gs"a" gs"a"; simp [Glob]
  · show Glob gs"*" gs"b"; simp [Glob]
  · exact (operation_plain (o := gs"GET") (by decide)).2 ⟨gs"GET", gs"GET", mem_split_iff.1 (by decide), trimmed_iff.2 (by decide), by show Glob gs"GET" gs"GET"; simp [Glob]⟩
  · exact ⟨by show List.map _ _ = List.map _ _; decide, .inl rfl, gs"/x", gs"/x", mem_split_iff.1 (by decide), trimmed_iff.2 (by decide), by show Glob gs"/x" gs"/x"; simp [Glob]⟩
  · intro f hf
    obtain rfl : narrowStatement = f := by simpa [narrowWording] using hf
    have := policy_meaning
    rw [policyStatement, Meaning, MeaningAll] at this
    rw [narrowStatement, Meaning, MeaningAll]
    refine ⟨?_, this.2⟩
    rw [Meaning]
    exact ⟨_, _, .plain (by simp), Says.size (env := policyEnv.toExt) (msg := policyMsg) (k := .ge) (m := gs"GE") (w := gs"15") (x := 15) (by decide) (intText_iff.2 rfl),
      by show (15 : Int) ≤ 20; decide⟩

/-- The narrower rule applies to the message; with the wider rule beside it, it makes no difference. -/
example : narrowWording.Holds policyEnv policyTables policyMsg ∧ wideWording.Holds policyEnv policyTables policyMsg ∧
    ∃ out out', check policyEnv policyTables policyMsg [parsedRule narrowWording.body, parsedRule wideWording.body] = .ok out ∧
      check policyEnv policyTables policyMsg [parsedRule wideWording.body] = .ok out' ∧ out.decision = out'.decision ∧ out.decisionString = out'.decisionString :=
  ⟨narrow_holds, C95_rule policyEnv_ok narrow_within narrow_holds,
    C95_redundant policyEnv_ok policyMsg_ok (before := []) .nil narrow_stands (.cons wide_stands .nil) ⟨_, .head _, narrow_within, by decide⟩⟩

example : ∃ out' out, check policyEnv policyTables policyMsg [parsedRule narrowWording.body] = .ok out' ∧
    check policyEnv policyTables policyMsg [parsedRule wideWording.body] = .ok out ∧ out'.decision ≤ out.decision :=
  C95_check policyEnv_ok policyMsg_ok (.cons narrow_stands .nil) (.cons wide_stands .nil) (by
    simp only [List.mem_cons, List.not_mem_nil, or_false]
    rintro x' rfl
    exact ⟨_, rfl, narrow_within, by decide⟩)

end Mapl.Props

import Verif.Spec.Hours
import Verif.Props.Policy
import Verif.Props.Messages
import Verif.Props.Units
import Verif.Props.Narrow

/-!
# C103: rules for hours of the day
-/

namespace Mapl.Props

open Spec

variable {env : Env} {parse : Str → Option Clock} {m m' : Msg} {g t : Predef} {c : Clock} {r : RuleObj} {rs : List RuleObj} {body : Rule}

/-! ## The clock -/

/-- The hours of a message and a number of minutes stand to each other as the clock does, to the nanosecond. -/
theorem hours_order {e : Ext} (hr : RoundOk e) (hc : parse m.requestTime = some c) {x : Msg} (h : addTimeInfo e parse m = .ok x) {n : Nat} (hn : n ≤ 1440) {y : Rat}
    (hy : e.rnd ((n : Rat) / 60) = .fin y) : ∃ ho, x.hoursFromMidnight = .fin ho ∧ (c.seconds < 60 * n → ho < y) ∧ (c.seconds = 60 * n → ho = y) ∧ (60 * n < c.seconds → y < ho) := by
  obtain ⟨s, mi, ho, h1, s0, s1, m0, m1, -, -, hs, hm, hh, hnano⟩ := C56_time hr hc
  rw [h1] at h
  cases h
  refine ⟨ho, rfl, ?_⟩
  obtain ⟨hh0, hm0, hs0, hn0⟩ := And.intro c.hour.isLt (And.intro c.minute.isLt (And.intro c.second.isLt c.nano.isLt))
  -- in whole nanoseconds
  obtain ⟨N, hN, hN0, hN1, hN2⟩ : ∃ N : Int, (N : Rat) = c.seconds * 10 ^ 9 ∧ 0 ≤ N ∧ N ≤ 86399999999999 ∧
      N = ((c.hour.val * 60 + c.minute.val) * 60 + c.second.val) * 1000000000 + c.nano.val :=
    ⟨_, by rw [Clock.seconds]; push_cast; ring, by omega, by omega, rfl⟩
  have hS0 : (0 : Rat) ≤ c.seconds := by
    have : (0 : Rat) ≤ N := by exact_mod_cast hN0
    rw [hN] at this
    linarith
  have hS1 : c.seconds ≤ 86400 := by
    have : (N : Rat) ≤ 86399999999999 := by exact_mod_cast hN1
    rw [hN] at this
    linarith
  have hnr : (n : Rat) ≤ 1440 := by exact_mod_cast hn
  have hn0 : (0 : Rat) ≤ n := by positivity
  have hyb : |y - n / 60| ≤ (n / 60 : Rat) / 2 ^ 53 := by
    by_cases h0 : n = 0
    · subst h0
      have := hr.whole 0 (by norm_num)
      simp at hy this
      rw [hy] at this
      cases this
      simp
    · have h1 : (1 : Rat) ≤ n := by exact_mod_cast Nat.one_le_iff_ne_zero.2 h0
      have h3 : (2 : Rat) ^ 64 ≤ 2 ^ 1022 := pow_le_pow_right₀ (by norm_num) (by norm_num)
      have h4 : (2 : Rat) ^ 64 ≤ 2 ^ 1023 := pow_le_pow_right₀ (by norm_num) (by norm_num)
      obtain ⟨z, hz, hb⟩ := hr.near ((n : Rat) / 60) (le_trans (one_div_le_one_div_of_le (by norm_num) (le_trans (by norm_num) h3)) (show (1 : Rat) / 2 ^ 64 ≤ _ by linarith))
        (le_trans (show (n : Rat) / 60 ≤ 2 ^ 64 by linarith) h4)
      rw [hy] at hz
      cases hz
      exact hb
  rw [abs_le] at hs hm hh hyb
  refine ⟨fun hlt => ?_, fun heq => ?_, fun hlt => ?_⟩
  · have : N + 1 ≤ 60 * n * 10 ^ 9 := by
      have : (N : Rat) < ((60 * n * 10 ^ 9 : Int) : Rat) := by push_cast; rw [hN]; linarith
      exact_mod_cast this
    have : (N : Rat) + 1 ≤ 60 * n * 10 ^ 9 := by exact_mod_cast this
    rw [hN] at this
    linarith [hs.1, hs.2, hm.1, hm.2, hh.1, hh.2, hyb.1, hyb.2]
  · have hN3 : N = 60 * n * 10 ^ 9 := by
      have : (N : Rat) = ((60 * n * 10 ^ 9 : Int) : Rat) := by push_cast; rw [hN, heq]; norm_num
      exact_mod_cast this
    unfold addTimeInfo at h1
    rw [hc] at h1
    have hho : fdiv e (fdiv e (fdiv e (e.rnd N) 1000000000) 60) 60 = .fin ho := by
      rw [hN2]
      exact congrArg Msg.hoursFromMidnight (Except.ok.inj h1)
    have w1 : e.rnd N = .fin N := hr.whole N (by rw [abs_of_nonneg hN0]; omega)
    have w2 : e.rnd ((N : Rat) / 1000000000) = .fin (60 * n) := by
      have := hr.whole (60 * n) (by rw [abs_of_nonneg (by omega)]; omega)
      have h2 : (N : Rat) / 1000000000 = ((60 * n : Int) : Rat) := by rw [hN, heq]; push_cast; ring
      rw [h2, this]
      push_cast
      rfl
    have w3 : e.rnd ((60 * n : Rat) / 60) = .fin n := by
      have := hr.whole n (by rw [abs_of_nonneg (by omega)]; omega)
      have h2 : (60 * n : Rat) / 60 = ((n : Int) : Rat) := by push_cast; ring
      rw [h2, this]
      push_cast
      rfl
    rw [w1, fdiv, w2, fdiv, w3, fdiv, hy] at hho
    exact (F64.fin.inj hho).symm
  · have : 60 * n * 10 ^ 9 + 1 ≤ N := by
      have : ((60 * n * 10 ^ 9 : Int) : Rat) < (N : Rat) := by push_cast; rw [hN]; linarith
      exact_mod_cast this
    have : 60 * n * 10 ^ 9 + 1 ≤ (N : Rat) := by exact_mod_cast this
    rw [hN] at this
    linarith [hs.1, hs.2, hm.1, hm.2, hh.1, hh.2, hyb.1, hyb.2]

theorem holdsF_fin (k : NumMethod) (a b : Rat) : k.holdsF (.fin a) (.fin b) ↔ k.holds a b := by
  unfold NumMethod.holdsF place
  cases k <;> simp [NumMethod.holds]

theorem holds_order {k : NumMethod} {a b a' b' : Rat} (h1 : a < b → a' < b') (h2 : a = b → a' = b') (h3 : b < a → b' < a') : k.holds a' b' ↔ k.holds a b := by
  rcases lt_trichotomy a b with h | h | h
  · have := h1 h
    cases k <;> simp [NumMethod.holds, h, this, h.le, this.le, h.ne, this.ne, h.not_gt, this.not_gt, h.not_ge, this.not_ge]
  · have := h2 h
    subst h this
    cases k <;> simp [NumMethod.holds]
  · have := h3 h
    cases k <;> simp [NumMethod.holds, h, this, h.le, this.le, h.ne', this.ne', h.not_gt, this.not_gt, h.not_ge, this.not_ge]

/-! ## Formulas -/

theorem numeral_plain {e : Ext} {v : Str} (h : NumeralText e v) : (∀ k, v ≠ '#' :: k) ∧ NoControl v ∧ (∀ r, v ≠ gs"receiverLabel[" ++ r) ∧ ∀ u ∈ units, ¬ u.1 <:+ v := by
  refine ⟨fun k hk => ?_, fun c hc => ?_, fun r hr => ?_, fun u hu hs => ?_⟩
  · exact absurd (h.chars '#' (by simp [hk])) (by decide)
  · have := h.chars c hc
    simp only [List.mem_cons, List.not_mem_nil, or_false] at this
    rcases this with rfl | rfl | rfl | rfl | rfl | rfl | rfl | rfl | rfl | rfl | rfl | rfl <;> decide
  · exact absurd (h.chars 'r' (by simp [hr])) (by decide)
  · have : ∃ c ∈ u.1, c ∉ gs"0123456789.-" := by
      clear hs
      revert u
      decide
    obtain ⟨c, hc, hn⟩ := this
    exact hn (h.chars c (hs.subset hc))

theorem minutes_read {e : Ext} (hr : RoundOk e) {v : Str} {n : Nat} (h : WritesMinutes e v n) : ∃ x, parseNumber e v = some (.fin x) ∧ e.rnd ((n : Rat) / 60) = .fin x := by
  obtain ⟨x, h1, h2, h3⟩ := h.value
  refine ⟨x, ?_, h2⟩
  rw [C31_plain_exact (numeral_plain h.text).2.2.2 (by simpa using hr.whole 1 (by norm_num)) fun q hq => by rw [h1] at hq; cases hq; exact h3, h1]

theorem spelling_method {k : NumMethod} {s : Str} (h : s ∈ k.spellings) :
    s ∈ allMethods ∧ s ∉ patternMethods ∧ s ≠ gs"IN" ∧ s ≠ gs"NIN" ∧ s ≠ gs"IS" := by
  cases k <;> revert s <;> decide

theorem numeral_sound {e : Ext} {a s v : Str} {k : NumMethod} (ha : a = gs"utcHoursFromMidnight" ∨ a = gs"payloadSize") (hm : s ∈ k.spellings) (hv : NumeralText e v)
    (hn : (∃ x, parseNumber e v = some x) ∨ ∃ n, IntText v n) : Sound e t (.cond a s v) := by
  obtain ⟨p1, p2, p3, -⟩ := numeral_plain hv
  obtain ⟨m1, m2, m3, m4, m5⟩ := spelling_method hm
  have acc : Acceptable e a s v := by
    refine ⟨.simple ?_ ?_, m1, fun _ => hn, fun h => absurd h m2, fun h => ?_, fun ⟨r, hr⟩ => absurd hr (p3 r)⟩
    · rcases ha with rfl | rfl <;> decide
    · rcases ha with rfl | rfl <;> decide
    · rcases h with h | h
      · exact absurd h m3
      · exact absurd h m4
  have path : ∀ q, a ≠ gs"jsonpath:" ++ q := by
    rintro q rfl
    rcases ha with h | h <;> simp at h
  refine ⟨acc, ?_, p2, v, .plain p1, acc, fun h => absurd h m5, fun _ => ?_, fun q hq => absurd hq (path q)⟩
  · rcases ha with rfl | rfl <;> · unfold NoControl; decide
  · rw [if_neg (by simp [m3, m4]), if_neg m5]
    exact hv.pattern

mutual
theorem claim_sound (hr : RoundOk env.toExt) : ∀ {f : ClockClaim}, f.Ok env.toExt → Sound env.toExt t f.statement
  | .time k s v n, h => by
    obtain ⟨x, hx, -⟩ := minutes_read hr h.2
    exact numeral_sound (.inl rfl) h.1 h.2.text (.inl ⟨_, hx⟩)
  | .size k s v n, h => numeral_sound (.inr rfl) h.1 h.2.1 (.inr ⟨_, h.2.2⟩)
  | .and l, h => ⟨by cases l <;> simp_all [ClockClaim.Ok, ClockClaim.statements], claims_sound hr h.2⟩
  | .or l, h => ⟨by cases l <;> simp_all [ClockClaim.Ok, ClockClaim.statements], claims_sound hr h.2⟩
  | .not f, h => claim_sound (f := f) hr h

theorem claims_sound (hr : RoundOk env.toExt) : ∀ {l : List ClockClaim}, ClockClaim.AllOk env.toExt l → SoundAll env.toExt t (ClockClaim.statements l)
  | [], _ => trivial
  | _ :: _, h => ⟨claim_sound hr h.1, claims_sound hr h.2⟩
end

/-- A single condition has one meaning. -/
theorem cond_meaning {e : Ext} {msg : Msg} {a s v : Str} {P : Prop} (hp : ∀ k, v ≠ '#' :: k) (h : ∀ Q, Says e msg a s v Q → (Q ↔ P)) (h0 : Says e msg a s v P) :
    Meaning e t (.cond a s v) msg ↔ P := by
  constructor
  · rintro ⟨w, Q, hw, hs, hQ⟩
    have : w = v := by
      cases hw with
      | plain => rfl
      | list h => exact absurd rfl (hp _)
      | alternatives h => exact absurd rfl (hp _)
      | string h => exact absurd rfl (hp _)
    subst this
    exact (h Q hs).1 hQ
  · exact fun h1 => ⟨v, P, .plain hp, h0, h1⟩

theorem says_hours {e : Ext} {msg : Msg} {s v : Str} {k : NumMethod} {x : F64} (hm : s ∈ k.spellings) (hx : parseNumber e v = some x) {Q : Prop}
    (h : Says e msg gs"utcHoursFromMidnight" s v Q) : Q ↔ k.holdsF msg.hoursFromMidnight x := by
  generalize ha : gs"utcHoursFromMidnight" = a at h
  cases h with
  | yes h => rw [← ha] at h; exact absurd h (by decide)
  | no h => rw [← ha] at h; exact absurd h (by decide)
  | size => exact absurd ha (by decide)
  | hours hm' hw =>
    rw [hx] at hw
    cases hw
    rw [spelling_unique hm hm']
  | version => exact absurd ha (by decide)
  | text h => cases h <;> simp at ha
  | sameField => simp at ha
  | otherField => simp at ha
  | label h => cases h <;> simp at ha
  | labelThere h => cases h <;> simp at ha
  | sameLabel => simp at ha
  | otherLabel => simp at ha
  | number => simp at ha
  | scalar => simp at ha
  | missing => simp at ha
  | missingText => simp at ha

theorem says_size {e : Ext} {msg : Msg} {s v : Str} {k : NumMethod} {x : Int} (hm : s ∈ k.spellings) (hx : IntText v x) {Q : Prop}
    (h : Says e msg gs"payloadSize" s v Q) : Q ↔ k.holds msg.requestSize x := by
  generalize ha : gs"payloadSize" = a at h
  cases h with
  | yes h => rw [← ha] at h; exact absurd h (by decide)
  | no h => rw [← ha] at h; exact absurd h (by decide)
  | size hm' hw =>
    rw [intText_iff] at hx hw
    rw [hx] at hw
    cases hw
    rw [spelling_unique hm hm']
  | hours => exact absurd ha (by decide)
  | version => exact absurd ha (by decide)
  | text h => cases h <;> simp at ha
  | sameField => simp at ha
  | otherField => simp at ha
  | label h => cases h <;> simp at ha
  | labelThere h => cases h <;> simp at ha
  | sameLabel => simp at ha
  | otherLabel => simp at ha
  | number => simp at ha
  | scalar => simp at ha
  | missing => simp at ha
  | missingText => simp at ha

/-- What is known of the message: it has the clock `c`. -/
def HasClock (e : Ext) (c : Clock) (msg : Msg) : Prop := ∃ parse m x, parse m.requestTime = some c ∧ addTimeInfo e parse m = .ok x ∧ msg.hoursFromMidnight = x.hoursFromMidnight

theorem time_says {e : Ext} (hr : RoundOk e) {msg : Msg} (hc : HasClock e c msg) {k : NumMethod} {s v : Str} {n : Nat} (hm : s ∈ k.spellings) (hv : WritesMinutes e v n) :
    ∃ P, Says e msg gs"utcHoursFromMidnight" s v P ∧ (P ↔ k.holds c.seconds (60 * n)) := by
  obtain ⟨x, hx, hy⟩ := minutes_read hr hv
  obtain ⟨parse, m, z, h1, h2, h3⟩ := hc
  obtain ⟨ho, h4, h5, h6, h7⟩ := hours_order hr h1 h2 hv.day hy
  refine ⟨_, .hours hm hx, ?_⟩
  rw [h3, h4, holdsF_fin]
  exact holds_order h5 h6 h7

mutual
theorem claim_defined {e : Ext} (hr : RoundOk e) {msg : Msg} (hc : HasClock e c msg) : ∀ {f : ClockClaim}, f.Ok e →
    Defined e t f.statement msg ∧ (Meaning e t f.statement msg ↔ f.holds c.seconds msg.requestSize)
  | .time k s v n, h => by
    obtain ⟨P, h1, h2⟩ := time_says hr hc h.1 h.2
    obtain ⟨x, hx, -⟩ := minutes_read hr h.2
    have hp := (numeral_plain h.2.text).1
    refine ⟨⟨v, P, .plain hp, h1⟩, ?_⟩
    refine (cond_meaning hp (fun Q hQ => ?_) h1).trans h2
    rw [says_hours h.1 hx hQ, says_hours h.1 hx h1]
  | .size k s v n, h => by
    have hp := (numeral_plain h.2.1).1
    have h1 : Says e msg gs"payloadSize" s v _ := .size h.1 h.2.2
    exact ⟨⟨v, _, .plain hp, h1⟩, cond_meaning hp (fun Q hQ => says_size h.1 h.2.2 hQ) h1⟩
  | .and l, h => by
    obtain ⟨h1, h2, h3⟩ := claims_defined hr hc h.2
    exact ⟨h1, h3.1⟩
  | .or l, h => by
    obtain ⟨h1, h2, h3⟩ := claims_defined hr hc h.2
    exact ⟨h2, h3.2⟩
  | .not f, h => by
    obtain ⟨h1, h2⟩ := claim_defined hr hc (f := f) h
    exact ⟨h1, not_congr h2⟩

theorem claims_defined {e : Ext} (hr : RoundOk e) {msg : Msg} (hc : HasClock e c msg) : ∀ {l : List ClockClaim}, ClockClaim.AllOk e l →
    DefinedInTurn e t (ClockClaim.statements l) msg ∧ DefinedAll e t (ClockClaim.statements l) msg ∧
      (MeaningAll e t (ClockClaim.statements l) msg ↔ ClockClaim.allHold c.seconds msg.requestSize l) ∧
      (MeaningSome e t (ClockClaim.statements l) msg ↔ ClockClaim.someHolds c.seconds msg.requestSize l)
  | [], _ => ⟨trivial, trivial, Iff.rfl, Iff.rfl⟩
  | f :: l, h => by
    obtain ⟨h1, h2⟩ := claim_defined hr hc (f := f) h.1
    obtain ⟨k1, k2, k3, k4⟩ := claims_defined hr hc h.2
    exact ⟨⟨h1, fun _ => k1⟩, ⟨h1, k2⟩, and_congr h2 k3, or_congr h2 k4⟩
end

/-! ## Rules -/

/-- Loading gives a message the clock of its time stamp, and keeps its size. -/
theorem loaded_clock {e : Ext} {ms out : List Msg} (h : loadMessages e parse ms = .ok out) {k : Nat} (h1 : ms[k]? = some m) (h2 : out[k]? = some m') (hc : parse m.requestTime = some c) :
    HasClock e c m' ∧ m'.requestSize = m.requestSize ∧ m'.sourceNetIp = parseIP e m'.sourceIp ∧ m'.destinationNetIp = parseIP e m'.destinationIp ∧
      m'.sourceService = m.sourceService ∧ m'.destinationService = m.destinationService ∧ m'.requestHost = m.requestHost ∧ m'.requestMethod = m.requestMethod ∧
      m'.requestPath = m.requestPath ∧ m'.destinationPort = m.destinationPort := by
  obtain ⟨l1, rfl⟩ := List.getElem?_eq_some_iff.1 h1
  obtain ⟨l2, rfl⟩ := List.getElem?_eq_some_iff.1 h2
  obtain ⟨-, n1, n2, -, -, ⟨x, hx, -, -, hh⟩, he⟩ := (C64_fields h).get l1 l2
  simp only [List.get_eq_getElem] at n1 n2 hx hh he
  refine ⟨⟨parse, _, x, hc, hx, hh⟩, ?_, ?_, ?_, ?_, ?_, ?_, ?_, ?_, ?_⟩
  · rw [he]
  · rw [n1]; conv_rhs => rw [he]
  · rw [n2]; conv_rhs => rw [he]
  all_goals rw [he]

/-- **C103.** A rule with a formula about the time of day and the size, checked on a loaded message, says what the formula says of the clock of the time stamp and of the size; to the nanosecond,
whatever is rounded. -/
theorem C103_rule (hr : RoundOk env.toExt) {ms out : List Msg} (hload : loadMessages env.toExt parse ms = .ok out) {k : Nat} (h1 : ms[k]? = some m) (h2 : out[k]? = some m')
    (hc : parse m.requestTime = some c) {f : ClockClaim} (hf : f.Ok env.toExt) (hl : Loaded env g r body t) (hb : body.conditions = some (f.statement.tree env.toExt)) {s v : Str}
    (hs : Resolves t body.senderName s) (hv : Resolves t body.receiverName v) (ht : TextsOk body s v) :
    RuleSays env g m' r (WrittenParts body s v m' ∧ f.holds c.seconds m.requestSize) (decisionOf body.decision) := by
  obtain ⟨hk, hz, -⟩ := loaded_clock hload h1 h2 hc
  obtain ⟨d1, d2⟩ := claim_defined (t := t) hr hk hf
  have := WrittenSays.mk (env := env) (t := t) (msg := m') (body := body) (c := some f.statement) hb hs hv ht (by rintro _ ⟨⟩; exact claim_sound hr hf) (by rintro _ ⟨⟩; exact d1)
  refine ⟨body, t, hl, ?_⟩
  have e : (WrittenParts body s v m' ∧ ∀ f' ∈ some f.statement, Meaning env.toExt t f' m') = (WrittenParts body s v m' ∧ f.holds c.seconds m.requestSize) := by
    rw [← hz, ← d2]
    simp
  rwa [e] at this

/-- **C103.** A policy of such rules decides every loaded message by the clock of its time stamp and its size. -/
theorem C103_policy (he : Assumed env) (hr : RoundOk env.toExt) {ms out : List Msg} (hload : loadMessages env.toExt parse ms = .ok out) {k : Nat} (h1 : ms[k]? = some m)
    (h2 : out[k]? = some m') (hc : parse m.requestTime = some c)
    (hm : ∀ x ∈ [m.sourceService, m.destinationService, m.requestHost, m.requestMethod, m.requestPath, m.destinationPort], OneLine x) {xs : List (Prop × Decision)}
    (h : List.Forall₂ (fun r x => ∃ body t s v f, Loaded env g r body t ∧ body.conditions = some (ClockClaim.statement f |>.tree env.toExt) ∧ f.Ok env.toExt ∧
      Resolves t body.senderName s ∧ Resolves t body.receiverName v ∧ TextsOk body s v ∧
      x = (WrittenParts body s v m' ∧ f.holds c.seconds m.requestSize, decisionOf body.decision)) rs xs) :
    ∃ o, check env g m' rs = .ok o ∧ Decides xs o := by
  obtain ⟨-, -, k1, k2, k3, k4, k5, k6, k7, k8⟩ := loaded_clock hload h1 h2 hc
  refine C74_policy he ⟨k1, k2, hm _ (by simp [k3]), hm _ (by simp [k4]), hm _ (by simp [k5]), hm _ (by simp [k6]), hm _ (by simp [k7]), hm _ (by simp [k8])⟩ ?_
  clear k1 k2 k3 k4 k5 k6 k7 k8
  induction h with
  | nil => exact .nil
  | cons hx _ ih =>
    obtain ⟨body, t, s, v, f, a1, a2, a3, a4, a5, a6, rfl⟩ := hx
    exact .cons (C103_rule hr hload h1 h2 hc a3 a1 a2 a4 a5 a6) ih

/-- **C103, violated for UTC.** The hours are called UTC but are those of the zone of the time stamp: for every time stamp of a whole minute whose zone is not UTC, the condition that the time is this
one holds, though it is another time in UTC. -/
theorem C103_violated_utc (h0 : c.second = 0 ∧ c.nano = 0) (hz : ¬ (86400 : Int) ∣ c.zone) (s v : Str) (bytes : Int) :
    (ClockClaim.time .eq s v (60 * c.hour.val + c.minute.val)).holds c.seconds bytes ∧ ¬ (ClockClaim.time .eq s v (60 * c.hour.val + c.minute.val)).holds c.utc bytes := by
  simp only [ClockClaim.holds, NumMethod.holds, Clock.seconds, Clock.utc, h0.1, h0.2]
  refine ⟨by push_cast; simp; ring, fun h => hz ?_⟩
  have h1 := c.hour.isLt
  have h2 := c.minute.isLt
  have : ((3600 * c.hour.val + 60 * c.minute.val + (0 : Fin 60).val - c.zone) % 86400 : Int) = 60 * (60 * c.hour.val + c.minute.val) := by
    have : (((3600 * c.hour.val + 60 * c.minute.val + (0 : Fin 60).val - c.zone) % 86400 : Int) : Rat) = ((60 * (60 * c.hour.val + c.minute.val) : Int) : Rat) := by
      push_cast at h ⊢
      exact h
    exact_mod_cast this
  simp at this
  omega

/-! ## The example of the manual -/

/-- The conditions of rule 5 in the manual: the size is between 1024 and 4096 or between 16384 and 20000, or it is between 14 and 16 o'clock. -/
def manualClock : ClockClaim := .or [
  .and [.size .le gs"LE" gs"4096" 4096, .size .ge gs"GE" gs"1024" 1024],
  .and [.size .le gs"LE" gs"20000" 20000, .size .ge gs"GE" gs"16384" 16384],
  .and [.time .le gs"LE" gs"16" 960, .time .ge gs"GE" gs"14" 840]]

theorem manualClock_ok : manualClock.Ok policyEnv.toExt := by
  have num : ∀ v : Str, (∀ c ∈ v, c ∈ gs"0123456789") → v ≠ [] → NumeralText policyEnv.toExt v := by
    intro v hv h0
    refine ⟨fun c hc => ?_, ?_⟩
    · have := hv c hc
      simp only [List.mem_cons, List.not_mem_nil, or_false] at this ⊢
      tauto
    · have hw : PlainWord v := by
        intro c hc
        have := hv c hc
        simp only [List.mem_cons, List.not_mem_nil, or_false] at this
        rcases this with rfl | rfl | rfl | rfl | rfl | rfl | rfl | rfl | rfl | rfl <;> decide
      obtain ⟨re, h1, -⟩ := readPattern_word hw
      exact (policyEnv_ok.regexp _ _ h1).1
  have min : ∀ (v : Str) (n : Nat), (∀ c ∈ v, c ∈ gs"0123456789") → v ≠ [] → n ≤ 1440 → parseInt v = some ((n : Int) / 60) → 60 ∣ n → WritesMinutes policyEnv.toExt v n := by
    intro v n hv h0 hn hp hd
    refine ⟨num v hv h0, hn, (n : Rat) / 60, ?_, rfl, rfl⟩
    have e : policyEnv.parseFloat v = Demo.parseNum v := rfl
    rw [e, Demo.parseNum, hp]
    obtain ⟨k, rfl⟩ := hd
    simp
  refine ⟨by simp, ⟨by simp, ⟨by decide, num _ (by decide) (by decide), intText_iff.2 (by decide)⟩, ⟨by decide, num _ (by decide) (by decide), intText_iff.2 (by decide)⟩, trivial⟩,
    ⟨by simp, ⟨by decide, num _ (by decide) (by decide), intText_iff.2 (by decide)⟩, ⟨by decide, num _ (by decide) (by decide), intText_iff.2 (by decide)⟩, trivial⟩,
    ⟨by simp, ⟨by decide, min _ _ (by decide) (by decide) (by decide) (by decide) (by decide)⟩, ⟨by decide, min _ _ (by decide) (by decide) (by decide) (by decide) (by decide)⟩, trivial⟩, trivial⟩

/-- It says what the manual says. -/
theorem manualClock_holds {seconds : Rat} {bytes : Int} : manualClock.holds seconds bytes ↔
    (1024 ≤ bytes ∧ bytes ≤ 4096) ∨ (16384 ≤ bytes ∧ bytes ≤ 20000) ∨ (14 * 3600 ≤ seconds ∧ seconds ≤ 16 * 3600) := by
  simp only [manualClock, ClockClaim.holds, ClockClaim.someHolds, ClockClaim.allHold, NumMethod.holds, and_true, or_false]
  norm_num
  tauto

theorem policy_round : RoundOk policyEnv.toExt where
  whole n _ := rfl
  near q h _ := ⟨q, rfl, by
    have : (0 : Rat) ≤ q := le_trans (by positivity) h
    simp; positivity⟩

/-- **C103, violated for UTC.** The rule of the manual with these conditions blocks a message of 15:30 in a zone seven hours behind UTC: in UTC it is 22:30, and what the rule says is false. -/
theorem C103_violated_manual : ∃ m', loadMessages policyEnv.toExt (fun _ => some ⟨15, 30, 0, 0, -25200⟩) [policyMsg] = .ok [m'] ∧
    (∃ o, check policyEnv {} m' [Demo.rule gs"block" (some (manualClock.statement.tree policyEnv.toExt))] = .ok o ∧ o.decision = Decision.block.rank) ∧
    ¬ manualClock.holds (Clock.utc ⟨15, 30, 0, 0, -25200⟩) m'.requestSize := by
  have star : ∀ {t : Predef}, Resolves t gs"*" gs"*" := .plain (by intro k h; cases h)
  have ht : TextsOk (Demo.rule gs"block" (some (manualClock.statement.tree policyEnv.toExt))).body gs"*" gs"*" := by
    refine ⟨?_, ?_, ?_, ?_⟩ <;> (show PlainPattern gs"*"; decide)
  refine ⟨_, rfl, ?_, by
    rw [manualClock_holds]
    show ¬ ((1024 ≤ (20 : Int) ∧ _) ∨ (16384 ≤ (20 : Int) ∧ _) ∨ _)
    norm_num [Clock.utc]⟩
  obtain ⟨o, ho, d, e1, e2, e3, e4, -⟩ := C103_policy (g := {}) (parse := fun _ => some ⟨15, 30, 0, 0, -25200⟩) (ms := [policyMsg]) (k := 0) policyEnv_ok policy_round rfl rfl rfl rfl
    (by simp only [List.forall_mem_cons]; refine ⟨?_, ?_, ?_, ?_, ?_, ?_, by simp⟩ <;> (show '\n' ∉ _; decide))
    (rs := [Demo.rule gs"block" (some (manualClock.statement.tree policyEnv.toExt))])
    (.cons ⟨_, {}, gs"*", gs"*", manualClock, .parsed ⟨rfl, rfl, rfl⟩, rfl, manualClock_ok, star, star, ht, rfl⟩ .nil)
  refine ⟨o, ho, ?_⟩
  have := e4 _ (.head _) ⟨⟨⟨.inl rfl, gs"*", mem_split_iff.1 (by decide), by show Glob gs"*" gs"a"; simp [Glob]⟩, ⟨.inl rfl, gs"*", mem_split_iff.1 (by decide), by show Glob gs"*" gs"b"; simp [Glob]⟩,
    trivial, trivial⟩, manualClock_holds.2 (.inr (.inr (by norm_num [Clock.seconds])))⟩
  rw [e1]
  cases d with
  | block => rfl
  | _ => exact absurd this (by decide)

end Mapl.Props

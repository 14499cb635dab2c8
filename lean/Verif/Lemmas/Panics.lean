import Verif.Spec.Panics
import Verif.Lemmas.Crash
import Verif.Props.Crash
import Verif.Lemmas.Mongo

/-! # When evaluation crashes -/

namespace Mapl

open Mapl.Spec Mapl.Props

/-- The call fails. -/
def Errs {α : Type} (x : Go α) : Prop := ∃ e, x = .error e

theorem errs_ok {α : Type} (a : α) : ¬ Errs (.ok a : Go α) := fun ⟨_, h⟩ => by cases h

theorem errs_pure {α : Type} (a : α) : ¬ Errs (pure a : Go α) := errs_ok a

theorem errs_error {α : Type} (e : Fail) : Errs (.error e : Go α) := ⟨e, rfl⟩

theorem errs_deref {α : Type} (x : Option α) : Errs (deref x) ↔ x = none := by
  cases x with
  | none => exact ⟨fun _ => rfl, fun _ => ⟨_, rfl⟩⟩
  | some a => exact ⟨(fun ⟨_, h⟩ => by cases h), fun h => by cases h⟩

theorem errs_bind {α β : Type} (x : Go α) (f : α → Go β) : Errs (x >>= f) ↔ Errs x ∨ ∃ a, x = .ok a ∧ Errs (f a) := by
  cases x with
  | error e => exact ⟨fun _ => .inl ⟨e, rfl⟩, fun _ => ⟨e, rfl⟩⟩
  | ok a => exact ⟨fun h => .inr ⟨a, rfl, h⟩, fun h => h.elim (fun h => absurd h (errs_ok a)) fun ⟨b, hb, h⟩ => by cases hb; exact h⟩

theorem errs_returns {α : Type} (x : Go α) : ¬ Errs x ↔ Returns x := by
  cases x with
  | error e => exact ⟨fun h => absurd ⟨e, rfl⟩ h, fun ⟨_, h⟩ => by cases h⟩
  | ok a => exact ⟨fun _ => ⟨a, rfl⟩, fun _ => errs_ok a⟩

theorem errs_bind_pure {α β : Type} (x : Go α) (f : α → β) : Errs (x >>= fun a => pure (f a)) ↔ Errs x := by
  rw [errs_bind]
  exact ⟨fun h => h.elim id fun ⟨_, _, h⟩ => absurd h (errs_pure _), .inl⟩

theorem errs_map {α β : Type} (x : Go α) (f : α → β) : Errs (x.map f) ↔ Errs x := by
  cases x with
  | error e => exact ⟨fun _ => ⟨e, rfl⟩, fun _ => ⟨e, rfl⟩⟩
  | ok a => exact ⟨fun h => absurd h (errs_ok _), fun h => absurd h (errs_ok _)⟩

variable {env : Env} {c : Condition} {msg : Msg} {p : List Nat} {m v w : Str} {r : Option (List RetVal)} {t : Predef}

/-! ## Conditions -/

theorem errs_compareInt {a : Int} {x : Option Int} : Errs (compareInt a m x) ↔ Compares m ∧ x = none := by
  constructor
  · intro h
    by_contra hc
    refine (errs_returns _).2 (returns_compareInt fun hm => ?_) h
    cases x with
    | none => exact absurd ⟨hm, rfl⟩ hc
    | some x => rfl
  · rintro ⟨h, rfl⟩
    exact ⟨_, compareInt_crash h a⟩

theorem errs_compareFloat {a : F64} {x : Option F64} : Errs (compareFloat a m x) ↔ Compares m ∧ x = none := by
  constructor
  · intro h
    by_contra hc
    refine (errs_returns _).2 (returns_compareFloat fun hm => ?_) h
    cases x with
    | none => exact absurd ⟨hm, rfl⟩ hc
    | some x => rfl
  · rintro ⟨h, rfl⟩
    exact ⟨_, compareFloat_crash h a⟩

theorem compares_final_iff : Compares (finalMethod m) ↔ Compares m := by
  refine ⟨compares_final, fun h => ?_⟩
  obtain ⟨k, hk⟩ := h
  rw [(spelling_final hk).1]
  exact ⟨k, hk⟩

theorem leaf_noInt {a : Str} (h : Leaf env a m v w r c) (hw : ValueResolves env t m v w) (hm : Compares m) : c.valueInt = none ↔ ∀ n, ¬ IntText w n := by
  obtain ⟨k, hk⟩ := hm
  rw [h.valueInt, (spelling_final hk).2, intText_none]
  constructor
  · intro h
    cases hp : parseInt w with
    | none => rfl
    | some x => rw [hp] at h; simp at h
  · intro hn
    have hv : parseInt v = none := by
      cases hw with
      | plain _ => exact hn
      | list => rfl
      | alternatives => rfl
      | string => rfl
    rw [hn, hv]; rfl

theorem leaf_noFloat {a : Str} (hnum : NumbersOk env) (h : Leaf env a m v w r c) (hw : ValueResolves env t m v w) (hm : Compares m) :
    c.valueFloat = none ↔ parseNumber env w = none := by
  obtain ⟨k, hk⟩ := hm
  rw [h.valueFloat, (spelling_final hk).2]
  constructor
  · intro h
    cases hp : parseNumber env w with
    | none => rfl
    | some x => rw [hp] at h; simp at h
  · intro hn
    obtain ⟨-, -, g3⟩ := hnum.value hw hn
    rw [hn, g3]; rfl

theorem errs_bytesText {s : Str} : Errs (compareBytesText env c s) ↔ Compares c.method ∧ c.valueFloat = none ∧ ∃ x, parseNumber env s = some x := by
  constructor
  · intro h
    by_contra hc
    refine (errs_returns _).2 (returns_bytesText fun hm => ?_) h
    cases hs : parseNumber env s with
    | none => exact .inr rfl
    | some x =>
      refine .inl ?_
      cases hf : c.valueFloat with
      | none => exact absurd ⟨hm, hf, x, hs⟩ hc
      | some _ => rfl
  · rintro ⟨⟨k, hk⟩, hf, x, hx⟩
    unfold compareBytesText
    dsimp only
    rw [hx, hf, if_pos]
    · exact ⟨_, compareFloat_crash ⟨k, hk⟩ x⟩
    · generalize c.method = m at hk
      clear hx hf
      cases k <;> simp only [NumMethod.spellings, List.mem_cons, List.not_mem_nil, or_false] at hk <;>
        rcases hk with rfl | rfl | rfl | rfl <;> simp [toUpper]

theorem errs_judgeBytes {x : Str × Bool} : Errs (judgeBytesValue env c x) ↔ Compares c.method ∧ c.valueFloat = none ∧ FoundNumber env x := by
  unfold judgeBytesValue FoundNumber
  obtain ⟨s, b⟩ := x
  dsimp only
  cases b with
  | true => simp only [if_true]; exact ⟨fun h => absurd h (errs_ok _), fun ⟨_, _, h, _⟩ => by cases h⟩
  | false =>
    rw [if_neg (by simp)]
    by_cases h0 : s.length = 0
    · rw [if_pos h0]
      have : s = [] := List.length_eq_zero_iff.1 h0
      subst this
      exact ⟨fun h => absurd h (errs_ok _), fun ⟨_, _, _, h, _⟩ => absurd rfl h⟩
    · rw [if_neg h0]
      by_cases h1 : (removeQuotesAndBrackets s).length = 0
      · rw [if_pos h1]
        exact ⟨fun h => absurd h (errs_ok _), fun ⟨_, _, _, h, _⟩ => absurd (List.length_eq_zero_iff.1 h1) h⟩
      · rw [if_neg h1]
        have h1' : removeQuotesAndBrackets s ≠ [] := fun h => h1 (by rw [h]; rfl)
        cases hs : removeQuotesFromResult (removeQuotesAndBrackets s) with
        | none => exact ⟨fun h => absurd h (errs_ok _), fun ⟨_, _, _, _, s, h, _⟩ => by cases h⟩
        | some s' =>
          dsimp only
          rw [errs_bytesText]
          exact ⟨fun ⟨a, b, x⟩ => ⟨a, b, rfl, h1', s', rfl, x⟩, fun ⟨a, b, _, _, _, h, x⟩ => by cases h; exact ⟨a, b, x⟩⟩

theorem errs_extraInterface {ret : List RetVal} : Errs (extraFromInterface env msg ret) ↔ ∃ r ∈ ret, ReportFails true msg r := by
  induction ret with
  | nil => exact ⟨fun h => absurd h (errs_ok _), fun ⟨_, h, _⟩ => by cases h⟩
  | cons r rs ih =>
    have key : Errs (extraEntryInterface env msg r) ↔ ReportFails true msg r := by
      unfold extraEntryInterface ReportFails pick
      simp only [if_true]
      by_cases hq : r.query = gs"$*"
      · rw [if_pos hq, errs_bind_pure, errs_deref]
        simp [hq]
      · rw [if_neg hq]
        cases hp : r.prepared with
        | none => exact ⟨fun h => absurd h (errs_pure _), fun ⟨_, h⟩ => by simp [hq] at h⟩
        | some q => dsimp only; rw [errs_bind_pure, errs_deref]; simp
    rw [extraFromInterface, errs_bind, key]
    constructor
    · rintro (h | ⟨a, -, h⟩)
      · exact ⟨r, by simp, h⟩
      · rw [errs_bind_pure, ih] at h
        obtain ⟨r', h1, h2⟩ := h
        exact ⟨r', by simp [h1], h2⟩
    · rintro ⟨r', h1, h2⟩
      rcases List.mem_cons.1 h1 with rfl | h1
      · exact .inl h2
      · cases hx : extraEntryInterface env msg r with
        | error e => exact .inl (key.1 ⟨e, hx⟩)
        | ok a => exact .inr ⟨a, rfl, by rw [errs_bind_pure, ih]; exact ⟨r', h1, h2⟩⟩

theorem errs_extraBytes {ret : List RetVal} : Errs (extraFromBytes env msg ret) ↔ ∃ r ∈ ret, ReportFails false msg r := by
  induction ret with
  | nil => exact ⟨fun h => absurd h (errs_ok _), fun ⟨_, h, _⟩ => by cases h⟩
  | cons r rs ih =>
    have key : Errs (pick r.rel msg.jsonRaw msg.jsonRawRel) ↔ ReportFails false msg r := by
      unfold ReportFails pick
      rw [errs_deref]; simp
    rw [extraFromBytes, errs_bind, key]
    constructor
    · rintro (h | ⟨a, -, h⟩)
      · exact ⟨r, by simp, h⟩
      · rw [errs_bind_pure, ih] at h
        obtain ⟨r', h1, h2⟩ := h
        exact ⟨r', by simp [h1], h2⟩
    · rintro ⟨r', h1, h2⟩
      rcases List.mem_cons.1 h1 with rfl | h1
      · exact .inl h2
      · cases hx : pick r.rel msg.jsonRaw msg.jsonRawRel with
        | error e => exact .inl (key.1 ⟨e, hx⟩)
        | ok a => exact .inr ⟨a, rfl, by rw [errs_bind_pure, ih]; exact ⟨r', h1, h2⟩⟩

theorem errs_extra {ret : List RetVal} : Errs (getExtraData env msg ret) ↔ ∃ r ∈ ret, ReportFails msg.rawI.isSome msg r := by
  unfold getExtraData
  cases hI : msg.rawI with
  | none => exact errs_extraBytes
  | some d => exact errs_extraInterface

/-- The key or value of the object in scope. -/
theorem getKeyValue_text (raw a : Str) : EntryText env raw (a = gs"$KEY") (getKeyValue env raw a) := by
  unfold getKeyValue unmarshalMap
  cases hj : env.jsonUnmarshal raw with
  | none => exact .other (by simp [hj]) (by simp [hj])
  | some j =>
    cases j with
    | null => exact .null hj
    | obj kvs =>
      match kvs, hj with
      | [], hj => exact .several hj (by simp)
      | [(k, v)], hj =>
        dsimp only
        split
        · exact .key hj ‹_›
        · exact .value hj ‹_›
      | _ :: _ :: _, hj => exact .several hj (by simp)
    | _ => exact .other (by simp [hj]) (by simp [hj])

theorem entryText_unique {raw : Str} {P : Prop} {x y : Str × Bool} (h1 : EntryText env raw P x) (h2 : EntryText env raw P y) : x = y := by
  cases h1 <;> cases h2 <;> simp_all <;> rename_i hj hl _ _ <;> subst hj <;> simp at hl

/-- What happens with a document given as text. -/
theorem flag_found {q : Str} (h : Leaf env (gs"jsonpath:" ++ q) m v w r c) (hI : msg.rawI = none) :
    ((∀ d, ¬ DocumentB msg q d) ∧ testJsonpathFlag env p c msg = .ok false) ∨ ∃ x, (∀ y, Found env msg q y ↔ y = x) ∧ testJsonpathFlag env p c msg = judgeBytesValue env c x := by
  obtain ⟨hok, -, h2, h3, h4, j, h5, hj⟩ := leafAttr_path h.attr
  unfold testJsonpathFlag testJsonpath
  rw [hI, if_neg (by simp), h2, if_neg (by simp), h3, h4]
  have huniq : ∀ d d', DocumentB msg q d → DocumentB msg q d' → d = d' := by
    rintro d d' ⟨_, _, k1⟩ ⟨_, _, k2⟩
    exact Option.some.inj (by cases hr : pathRel q <;> simp only [hr] at k1 k2 <;> exact k1.symm.trans k2)
  cases hr : pathRel q with
  | false =>
    rw [if_neg (by simp)]
    cases hd : msg.jsonRaw with
    | none => exact .inl ⟨fun d ⟨_, _, h⟩ => by rw [hr] at h; simp [hd] at h, rfl⟩
    | some raw =>
      dsimp only
      by_cases hl : raw.length = 0
      · rw [if_pos hl]
        exact .inl ⟨fun d ⟨_, hne, h⟩ => by rw [hr] at h; simp [hd] at h; exact hne (List.length_eq_zero_iff.1 (h ▸ hl)), rfl⟩
      · rw [if_neg hl]
        have hD : DocumentB msg q raw := ⟨hI, fun h => hl (by rw [h]; rfl), by rw [hr]; simpa using hd⟩
        refine .inr ⟨_, fun y => ⟨fun hy => ?_, ?_⟩, rfl⟩
        · cases hy with
          | path _ hd' => rw [huniq _ _ hD hd']
          | entry hr' => rw [hr] at hr'; cases hr'
          | field hr' => rw [hr] at hr'; cases hr'
        · rintro rfl
          exact .path (fun ⟨h, _⟩ => by rw [hr] at h; cases h) hD
  | true =>
    rw [if_pos rfl]
    cases hd : msg.jsonRawRel with
    | none => exact .inl ⟨fun d ⟨_, _, h⟩ => by rw [hr] at h; simp [hd] at h, rfl⟩
    | some raw =>
      dsimp only
      by_cases hl : raw.length = 0
      · rw [if_pos hl]
        exact .inl ⟨fun d ⟨_, hne, h⟩ => by rw [hr] at h; simp [hd] at h; exact hne (List.length_eq_zero_iff.1 (h ▸ hl)), rfl⟩
      · rw [if_neg hl]
        have hD : DocumentB msg q raw := ⟨hI, fun h => hl (by rw [h]; rfl), by rw [hr]; simpa using hd⟩
        have hask : AsksEntry q ↔ (pathQuery q = gs"$KEY" ∨ hasPrefix (pathQuery q) gs"$VALUE" = true) := by rw [AsksEntry, hasPrefix_iff]
        by_cases hq : AsksEntry q
        · rw [if_pos (hask.1 hq)]
          by_cases hv : hasPrefix (pathQuery q) gs"$VALUE." = true
          · rw [if_pos hv]
            obtain ⟨y, hy⟩ := hasPrefix_iff.1 hv
            have e1 : replaceFirst gs"$VALUE." gs"$." (pathQuery q) = gs"$." ++ y := by rw [hy]; exact replaceFirst_prefix
            have e2 : (pathQuery q = gs"$KEY") ↔ False := ⟨fun h => by rw [hy] at h; simp at h, False.elim⟩
            have e3 := getKeyValue_text (env := env) raw (pathQuery q)
            rw [propext e2] at e3
            refine .inr ⟨_, fun z => ⟨fun hz => ?_, ?_⟩, rfl⟩
            · cases hz with
              | path hn _ => exact absurd ⟨hr, hq⟩ hn
              | entry _ _ hn => exact absurd ⟨y, hy⟩ hn
              | field _ hq' hd' he =>
                rw [hy] at hq'
                have := List.append_cancel_left hq'
                subst this
                have hdd := huniq _ _ hD hd'
                subst hdd
                rw [e1, entryText_unique he e3]
            · rintro rfl
              rw [e1]
              exact .field hr hy hD e3
          · rw [if_neg hv]
            refine .inr ⟨_, fun z => ⟨fun hz => ?_, ?_⟩, rfl⟩
            · cases hz with
              | path hn _ => exact absurd ⟨hr, hq⟩ hn
              | entry _ _ _ hd' he =>
                have hdd := huniq _ _ hD hd'
                subst hdd
                exact entryText_unique he (getKeyValue_text _ _)
              | field _ hq' => exact absurd (hasPrefix_iff.2 ⟨_, hq'⟩) hv
            · rintro rfl
              exact .entry hr hq (fun hy => hv (hasPrefix_iff.2 hy)) hD (getKeyValue_text _ _)
        · rw [if_neg fun h => hq (hask.2 h)]
          refine .inr ⟨_, fun z => ⟨fun hz => ?_, ?_⟩, rfl⟩
          · cases hz with
            | path _ hd' => rw [huniq _ _ hD hd']
            | entry _ h => exact absurd h hq
            | field _ h => exact absurd (.inr ⟨gs"." ++ _, by rw [h]; rfl⟩) hq
          · rintro rfl
            exact .path (fun ⟨_, h⟩ => hq h) hD

/-- A condition on a document crashes: the key or value of something that is no object is asked for, or a number in a text is compared with a text. -/
def PathCrashes (env : Ext) (q m w : Str) (msg : Msg) : Prop :=
  (pathRel q = true ∧ AsksEntry q ∧ msg.rawI.isSome ∧ ∃ d, msg.rawIRel = some d ∧ ∀ kvs, d ≠ .obj kvs) ∨
  (Compares m ∧ parseNumber env w = none ∧ ∃ x, Found env msg q x ∧ FoundNumber env x)

theorem found_text {q : Str} {x : Str × Bool} (h : Found env msg q x) : msg.rawI = none := by
  cases h with
  | path _ hd => exact hd.1
  | entry _ _ _ hd => exact hd.1
  | field _ _ hd => exact hd.1

theorem errs_flag {q : Str} (hnum : NumbersOk env) (h : Leaf env (gs"jsonpath:" ++ q) m v w r c) (hw : ValueResolves env t m v w) :
    Errs (testJsonpathFlag env p c msg) ↔ PathCrashes env q m w msg := by
  obtain ⟨hok, -, h2, h3, h4, j, h5, hj⟩ := leafAttr_path h.attr
  cases hI : msg.rawI with
  | none =>
    have e1 : PathCrashes env q m w msg ↔ (Compares m ∧ parseNumber env w = none ∧ ∃ x, Found env msg q x ∧ FoundNumber env x) := by
      unfold PathCrashes
      rw [hI]; simp
    rw [e1]
    rcases flag_found (p := p) h hI with ⟨k1, k2⟩ | ⟨x, k1, k2⟩
    · rw [k2]
      refine ⟨fun h => absurd h (errs_ok _), ?_⟩
      rintro ⟨-, -, x, hx, -⟩
      cases hx with
      | path _ hd => exact absurd hd (k1 _)
      | entry _ _ _ hd => exact absurd hd (k1 _)
      | field _ _ hd => exact absurd hd (k1 _)
    · rw [k2, errs_judgeBytes, h.method, compares_final_iff]
      constructor
      · rintro ⟨a, b, d⟩
        exact ⟨a, (leaf_noFloat hnum h hw a).1 b, x, (k1 x).2 rfl, d⟩
      · rintro ⟨a, b, y, hy, d⟩
        rw [k1] at hy
        subst hy
        exact ⟨a, (leaf_noFloat hnum h hw a).2 b, d⟩
  | some d0 =>
    have e1 : PathCrashes env q m w msg ↔ (pathRel q = true ∧ AsksEntry q ∧ ∃ d, msg.rawIRel = some d ∧ ∀ kvs, d ≠ .obj kvs) := by
      unfold PathCrashes
      constructor
      · rintro (⟨a, b, -, c⟩ | ⟨-, -, x, hx, -⟩)
        · exact ⟨a, b, c⟩
        · rw [found_text hx] at hI; cases hI
      · rintro ⟨a, b, c⟩
        exact .inl ⟨a, b, by rw [hI]; rfl, c⟩
    rw [e1]
    have hf := leaf_float hnum h
    have nj : ∀ x, ¬ Errs (judgeInterfaceValue env c x) := fun x => (errs_returns _).2 (returns_judgeInterface hf x)
    unfold testJsonpathFlag testJsonpathOnInterface
    rw [hI, h5, if_pos ⟨rfl, rfl⟩, h2, if_neg (by simp), h3, h4]
    cases hr : pathRel q with
    | false =>
      rw [if_neg (by simp)]
      refine ⟨fun he => ?_, fun ⟨h, _⟩ => by cases h⟩
      simp only [deref, Go.ok_bind] at he
      exact absurd he (nj _)
    | true =>
      rw [if_pos rfl]
      cases hd : msg.rawIRel with
      | none => exact ⟨fun h => absurd h (errs_ok _), fun ⟨_, _, _, h, _⟩ => by cases h⟩
      | some d =>
        dsimp only
        have hask : AsksEntry q ↔ (pathQuery q = gs"$KEY" ∨ hasPrefix (pathQuery q) gs"$VALUE" = true) := by rw [AsksEntry, hasPrefix_iff]
        by_cases hq : AsksEntry q
        · rw [if_pos (hask.1 hq), errs_bind]
          have key : Errs (getKeyValueFromInterface env p c d) ↔ ∀ kvs, d ≠ .obj kvs := by
            unfold getKeyValueFromInterface
            cases d with
            | obj kvs =>
              refine ⟨fun he => ?_, fun h => absurd rfl (h kvs)⟩
              dsimp only at he
              rw [h5] at he
              refine absurd he ((errs_returns _).2 ?_)
              split
              · exact .ok _
              · exact .ite (fun _ => .ok _) fun _ => .ite (fun _ => .ok _) fun _ => .bind (.deref rfl) fun _ _ => .pure _
            | _ => exact ⟨fun _ _ h => (by cases h), fun _ => ⟨_, rfl⟩⟩
          rw [key]
          constructor
          · rintro (h | ⟨x, -, h⟩)
            · exact ⟨rfl, hq, d, rfl, h⟩
            · exact absurd h (nj _)
          · rintro ⟨-, -, d', h, hn⟩
            cases h
            exact .inl hn
        · rw [if_neg fun h => hq (hask.2 h)]
          refine ⟨fun he => ?_, fun ⟨_, h, _⟩ => absurd h hq⟩
          simp only [deref, Go.ok_bind] at he
          exact absurd he (nj _)

/-- Exactly when the evaluation of a prepared condition fails. -/
theorem errs_condition (hnum : NumbersOk env) (hc : FromText env c) : Errs (testOneCondition env p c msg) ↔ Crashes env p c msg := by
  obtain ⟨t, a, m, v, r, hp⟩ := hc
  obtain ⟨hw, ha, hm⟩ := prepared_origin hp
  have h := prepare_leaf hp hw
  have hattr := h.attr
  have no : ∀ {x : Bool × List Extra}, a ∉ [gs"payloadSize", gs"utcHoursFromMidnight", gs"encryptionVersion"] → (∀ q, a ≠ gs"jsonpath:" ++ q) → testOneCondition env p c msg = .ok x →
      (Errs (testOneCondition env p c msg) ↔ Crashes env p c msg) := by
    intro x h1 h2 h3
    rw [h3]
    simp only [List.mem_cons, List.not_mem_nil, or_false, not_or] at h1
    refine ⟨fun h => absurd h (errs_ok _), fun h => ?_⟩
    rw [← ha] at h1 h2
    cases h with
    | size h => exact absurd h h1.1
    | hours h => exact absurd h h1.2.1
    | noVersion h => exact absurd h h1.2.2
    | version h => exact absurd h h1.2.2
    | entry h => exact absurd h (h2 _)
    | number h => exact absurd h (h2 _)
    | report h => exact absurd h (h2 _)
  cases hattr with
  | simple hmem hc =>
    simp only [simpleAttributes, List.mem_cons, List.not_mem_nil, or_false] at hmem
    rcases hmem with rfl | rfl | rfl | rfl | rfl | rfl | rfl | rfl | rfl | rfl
    · exact no (by decide) (by simp) (by unfold testOneCondition; rw [hc]; simp; rfl)
    · exact no (by decide) (by simp) (by unfold testOneCondition; rw [hc]; simp; rfl)
    · exact no (by decide) (by simp) (by unfold testOneCondition; rw [hc]; simp; rfl)
    · exact no (by decide) (by simp) (by unfold testOneCondition; rw [hc]; simp; rfl)
    · rw [test_payload h, errs_bind_pure, errs_compareInt, compares_final_iff]
      constructor
      · rintro ⟨k1, k2⟩
        exact .size ha (by rw [hm]; exact k1) ((leaf_noInt h hw k1).1 k2)
      · intro hx
        cases hx with
        | size _ k1 k2 => rw [hm] at k1; exact ⟨k1, (leaf_noInt h hw k1).2 k2⟩
        | hours h => rw [ha] at h; simp at h
        | noVersion h => rw [ha] at h; simp at h
        | version h => rw [ha] at h; simp at h
        | entry h => rw [ha] at h; simp at h
        | number h => rw [ha] at h; simp at h
        | report h => rw [ha] at h; simp at h
    · exact no (by decide) (by simp) (by unfold testOneCondition; rw [hc]; simp; rfl)
    · rw [test_hours h, errs_bind_pure, errs_compareFloat, compares_final_iff]
      constructor
      · rintro ⟨k1, k2⟩
        exact .hours ha (by rw [hm]; exact k1) ((leaf_noFloat hnum h hw k1).1 k2)
      · intro hx
        cases hx with
        | hours _ k1 k2 => rw [hm] at k1; exact ⟨k1, (leaf_noFloat hnum h hw k1).2 k2⟩
        | size h => rw [ha] at h; simp at h
        | noVersion h => rw [ha] at h; simp at h
        | version h => rw [ha] at h; simp at h
        | entry h => rw [ha] at h; simp at h
        | number h => rw [ha] at h; simp at h
        | report h => rw [ha] at h; simp at h
    · exact no (by decide) (by simp) (by unfold testOneCondition; rw [hc]; simp; rfl)
    · rw [test_version h, errs_bind, errs_deref]
      constructor
      · rintro (hv | ⟨x, -, hx⟩)
        · exact .noVersion ha hv
        · rw [errs_bind_pure, errs_compareFloat, compares_final_iff] at hx
          exact .version ha (by rw [hm]; exact hx.1) ((leaf_noFloat hnum h hw hx.1).1 hx.2)
      · intro hx
        cases hv : msg.encryptionVersion with
        | none => exact .inl rfl
        | some x =>
          refine .inr ⟨x, rfl, ?_⟩
          rw [errs_bind_pure, errs_compareFloat, compares_final_iff]
          cases hx with
          | version _ k1 k2 => rw [hm] at k1; exact ⟨k1, (leaf_noFloat hnum h hw k1).2 k2⟩
          | noVersion _ h => rw [hv] at h; cases h
          | size h => rw [ha] at h; simp at h
          | hours h => rw [ha] at h; simp at h
          | entry h => rw [ha] at h; simp at h
          | number h => rw [ha] at h; simp at h
          | report h => rw [ha] at h; simp at h
    · exact no (by decide) (by simp) (by unfold testOneCondition; rw [hc]; simp; rfl)
  | senderField hc hx => exact no (by simp) (by simp) (by unfold testOneCondition; rw [hc]; simp; rfl)
  | receiverField hc hx => exact no (by simp) (by simp) (by unfold testOneCondition; rw [hc]; simp; rfl)
  | senderLabel hc hf hx => exact no (by simp) (by simp) (by unfold testOneCondition; rw [hc]; simp; rfl)
  | receiverLabel hc hf hx => exact no (by simp) (by simp) (by unfold testOneCondition; rw [hc]; simp; rfl)
  | @path q j hok hc =>
    have e0 : ∀ c' : Condition, c'.attr = gs"jsonpath" → testOneCondition env p c' msg = (do
        let flag ← testJsonpathFlag env p c' msg
        match flag, c'.ret with
        | true, some ret => do let e ← getExtraData env msg ret; pure (true, [e])
        | f, _ => pure (f, [])) := by
      intro c' hc
      unfold testOneCondition
      rw [hc]
      simp only [reduceIte, List.cons.injEq, reduceCtorEq, and_false, or_self, Char.reduceEq]
      rfl
    have e1 : testJsonpathFlag env p { c with ret := none } msg = testJsonpathFlag env p c msg := rfl
    have e2 : (∃ e, testOneCondition env p { c with ret := none } msg = .ok (true, e)) ↔ testJsonpathFlag env p c msg = .ok true := by
      rw [e0 _ (by exact hc), e1]
      cases testJsonpathFlag env p c msg with
      | error e => exact ⟨fun ⟨_, h⟩ => (by cases h), fun h => (by cases h)⟩
      | ok b =>
        cases b with
        | true => exact ⟨fun _ => rfl, fun _ => ⟨[], rfl⟩⟩
        | false => exact ⟨fun ⟨_, h⟩ => (by cases h), fun h => (by cases h)⟩
    have e3 : Crashes env p c msg ↔ PathCrashes env q m c.origValue msg ∨ testJsonpathFlag env p c msg = .ok true ∧ ∃ ret, c.ret = some ret ∧ ∃ r ∈ ret, ReportFails msg.rawI.isSome msg r := by
      constructor
      · intro hx
        cases hx with
        | size h => rw [ha] at h; simp at h
        | hours h => rw [ha] at h; simp at h
        | noVersion h => rw [ha] at h; simp at h
        | version h => rw [ha] at h; simp at h
        | entry h k1 k2 k3 k4 k5 =>
          rw [ha] at h
          have := List.append_cancel_left h
          subst this
          exact .inl (.inl ⟨k1, k2, k3, _, k4, k5⟩)
        | number h k1 k2 k3 k4 =>
          rw [ha] at h
          have := List.append_cancel_left h
          subst this
          exact .inl (.inr ⟨by rw [hm] at k1; exact k1, k2, _, k3, k4⟩)
        | report h k1 k2 k3 k4 => exact .inr ⟨e2.1 k2, _, k1, _, k3, k4⟩
      · rintro ((⟨k1, k2, k3, d, k4, k5⟩ | ⟨k1, k2, x, k3, k4⟩) | ⟨k1, ret, k2, r, k3, k4⟩)
        · exact .entry ha k1 k2 k3 k4 k5
        · exact .number ha (by rw [hm]; exact k1) k2 k3 k4
        · exact .report ha k2 (e2.2 k1) k3 k4
    rw [e3, e0 _ hc, errs_bind, errs_flag hnum h hw]
    refine or_congr Iff.rfl ?_
    constructor
    · rintro ⟨b, k1, k2⟩
      cases b with
      | false => exact absurd k2 (errs_pure _)
      | true =>
        cases hret : c.ret with
        | none => rw [hret] at k2; exact absurd k2 (errs_pure _)
        | some ret =>
          rw [hret] at k2
          dsimp only at k2
          rw [errs_bind_pure, errs_extra] at k2
          exact ⟨k1, ret, rfl, k2⟩
    · rintro ⟨k1, ret, k2, k3⟩
      refine ⟨true, k1, ?_⟩
      rw [k2]
      dsimp only
      rw [errs_bind_pure, errs_extra]
      exact k3

/-! ## Trees -/

theorem errs_arrange {d : Json} : Errs (arrangeArray env p d) ↔ ¬ Ranged d := by
  constructor
  · intro h hr
    exact (errs_returns _).2 (returns_arrange hr) h
  · intro h
    cases d with
    | null => exact absurd .null h
    | arr l => exact absurd (.array l) h
    | obj l => exact absurd (.object l) h
    | _ => exact ⟨_, rfl⟩

theorem errs_elements {d : Option Json} {qs : List JPath} {j : Nat} (hq : qs ≠ []) :
    Errs (queryElements env p d j qs) ↔ ∀ x, d = some x → ∃ q ∈ qs, ¬ Ranged (env.jpGet q.src x).1 := by
  cases d with
  | none =>
    refine ⟨fun _ _ h => (by cases h), fun _ => ?_⟩
    cases qs with
    | nil => exact absurd rfl hq
    | cons q qs => exact ⟨_, rfl⟩
  | some x =>
    constructor
    · intro h y hy
      cases hy
      by_contra hc
      push Not at hc
      exact (errs_returns _).2 (returns_elements ⟨x, rfl, hc⟩) h
    · intro h
      exact ⟨_, Props.elements_crash (h x rfl)⟩

theorem errs_collect : ∀ {qs : List Str} {data : Str} {e : Bool},
    Errs (collectJsons env msg data e qs) ↔ ∃ q ∈ qs, (if isRelativeParent q then msg.jsonRawRel else msg.jsonRaw) = none
  | [], _, _ => by simp [collectJsons, errs_ok]
  | q :: qs, data, e => by
    unfold collectJsons
    have ih : ∀ d e, Errs (collectJsons env msg d e qs) ↔ _ := fun d e => errs_collect
    simp only [List.mem_cons, exists_eq_or_imp]
    by_cases hr : isRelativeParent q = true
    · simp only [hr, if_true, errs_bind, errs_deref, errs_pure, ih]
      cases hd : msg.jsonRawRel with
      | none => simp
      | some raw => simp [deref, Go.pure_eq]
    · simp only [hr, if_false, errs_bind, errs_deref, errs_pure, ih, Bool.false_eq_true]
      cases hd : msg.jsonRaw with
      | none => simp
      | some raw => simp [deref, Go.pure_eq]

theorem errs_flatten {env : Ext} {data : Str} : Errs (getArrayFromArrayOfArrays env data) ↔ 2 ≤ data.length ∧ (env.ugly data = [] ∨ env.ugly data = gs"[") := by
  unfold getArrayFromArrayOfArrays
  by_cases hl : data.length < 2
  · rw [if_pos hl]
    exact ⟨fun h => absurd h (errs_ok _), fun h => absurd h.1 (by omega)⟩
  · rw [if_neg hl]
    dsimp only
    have hl' : 2 ≤ data.length := by omega
    match hu : env.ugly data with
    | [] => exact ⟨fun _ => ⟨hl', .inl rfl⟩, fun _ => ⟨_, rfl⟩⟩
    | [c] =>
      by_cases hc : c = '['
      · subst hc
        exact ⟨fun _ => ⟨hl', .inr rfl⟩, fun _ => ⟨_, rfl⟩⟩
      · dsimp only
        rw [if_pos hc]
        refine ⟨fun h => absurd h (errs_ok _), fun h => ?_⟩
        rcases h.2 with h | h
        · cases h
        · exact absurd (List.cons.inj h).1 hc
    | c :: c' :: rest =>
      refine ⟨fun h => absurd h ((errs_returns _).2 ?_), fun h => ?_⟩
      · exact .ite (fun _ => .ok _) fun _ => .ite (fun _ => .ok _) fun _ => .ite (fun _ => .ok _) fun _ => .ok _
      · rcases h.2 with h | h
        · cases h
        · cases (List.cons.inj h).2

theorem errs_interfaces {a : AnyAll} (hu : usesParsed a msg = true) : Errs (getArrayOfInterfaces env p a msg) ↔ SelectFails env a msg := by
  have hq := (usesParsed_iff.1 hu).2
  unfold SelectFails getArrayOfInterfaces
  rw [if_pos hu]
  by_cases hs : a.parent = gs"$RELATIVE*"
  · have hr : isRelativeParent a.parent = true := by rw [hs]; rfl
    rw [if_pos hr, if_pos hs, if_pos hs]
    cases hd : msg.rawIRel with
    | none => exact ⟨fun _ _ h => (by cases h), fun _ => ⟨_, rfl⟩⟩
    | some d =>
      cases d with
      | obj kvs => exact ⟨fun h => absurd h (errs_ok _), fun h => absurd rfl (h kvs)⟩
      | _ => exact ⟨fun _ _ h => (by cases h), fun _ => ⟨_, rfl⟩⟩
  · unfold parentDoc
    by_cases hr : isRelativeParent a.parent = true
    · rw [if_pos hr, if_neg hs, if_neg hs, if_pos hr]
      exact errs_elements hq
    · rw [if_neg hr, if_neg hr, if_neg hs]
      exact errs_elements hq

theorem errs_jsons {a : AnyAll} (hu : usesParsed a msg = false) : Errs (getArrayOfJsons env p a msg) ↔ SelectFails env a msg := by
  unfold SelectFails getArrayOfJsons
  rw [if_neg (by simp [hu]), errs_bind, errs_collect]
  refine or_congr Iff.rfl ?_
  constructor
  · rintro ⟨d, hd, h⟩
    cases d with
    | none => exact absurd h (errs_pure _)
    | some data =>
      dsimp only at h
      rw [errs_bind] at h
      rcases h with h | ⟨s, -, h⟩
      · exact ⟨data, hd, errs_flatten.1 h⟩
      · refine absurd h ((errs_returns _).2 ?_)
        cases s with
        | none => exact .pure _
        | some s =>
          dsimp only
          split
          · exact .pure _
          · exact .pure _
  · rintro ⟨data, hd, h⟩
    refine ⟨some data, hd, ?_⟩
    dsimp only
    rw [errs_bind]
    exact .inl (errs_flatten.2 h)

/-- The first element at which the loop of ANY fails, if it fails. -/
theorem anyLoop_errs {α : Type} {child : Nat → Msg → Go EvalOut} {set : α → Msg → Msg} {reset : Msg → Msg}
    {ret : Msg → Go (List Extra)} {checkAll : Bool} {m : Msg}
    (hmsg : ∀ i m o, child i m = .ok o → o.msg = m) (hset : ∀ v w, set v (set w m) = set v m) :
    ∀ (l : List α) (i : Nat) (result : Bool) (acc : List Extra) (m1 : Msg), (m1 = m ∨ ∃ w, m1 = set w m) →
      (Errs (anyLoop child set reset ret checkAll i result acc m1 l) ↔
        ∃ k v, l[k]? = some v ∧ (∀ j w, j < k → l[j]? = some w → ∃ o, child (i + j) (set w m) = .ok o ∧ (checkAll = false → o.flag = false)) ∧
          (Errs (child (i + k) (set v m)) ∨ ∃ o, child (i + k) (set v m) = .ok o ∧ o.flag = true ∧ Errs (ret (set v m))))
  | [], _, _, _, _, _ => by simp [anyLoop, errs_ok]
  | v :: vs, i, result, acc, m1, hm1 => by
    have hs : set v m1 = set v m := by
      rcases hm1 with rfl | ⟨w, rfl⟩
      · rfl
      · exact hset v w
    unfold anyLoop
    rw [hs]
    have next : ∀ o, child i (set v m) = .ok o → (checkAll = false → o.flag = false) →
        ∀ result acc, (Errs (anyLoop child set reset ret checkAll (i + 1) result acc (set v m) vs) →
          ∃ k v', (v :: vs)[k]? = some v' ∧ (∀ j w, j < k → (v :: vs)[j]? = some w → ∃ o, child (i + j) (set w m) = .ok o ∧ (checkAll = false → o.flag = false)) ∧
          (Errs (child (i + k) (set v' m)) ∨ ∃ o, child (i + k) (set v' m) = .ok o ∧ o.flag = true ∧ Errs (ret (set v' m)))) := by
      intro o ho hf result acc h
      obtain ⟨k, v', h1, h2, h3⟩ := (anyLoop_errs hmsg hset vs _ _ _ _ (.inr ⟨v, rfl⟩)).1 h
      refine ⟨k + 1, v', by simpa using h1, ?_, ?_⟩
      · intro j w hj hw
        cases j with
        | zero => simp at hw; subst hw; exact ⟨o, ho, hf⟩
        | succ j =>
          obtain ⟨o', h⟩ := h2 j w (by omega) (by simpa using hw)
          exact ⟨o', by rw [show i + (j + 1) = i + 1 + j by omega]; exact h⟩
      · rw [show i + (k + 1) = i + 1 + k by omega]; exact h3
    have back : ∀ {k v'}, (v :: vs)[k + 1]? = some v' → (∀ j w, j < k + 1 → (v :: vs)[j]? = some w → ∃ o, child (i + j) (set w m) = .ok o ∧ (checkAll = false → o.flag = false)) →
          (Errs (child (i + (k + 1)) (set v' m)) ∨ ∃ o, child (i + (k + 1)) (set v' m) = .ok o ∧ o.flag = true ∧ Errs (ret (set v' m))) →
          ∀ result acc, Errs (anyLoop child set reset ret checkAll (i + 1) result acc (set v m) vs) := by
      intro k v' h1 h2 h3 result acc
      refine (anyLoop_errs hmsg hset vs _ _ _ _ (.inr ⟨v, rfl⟩)).2 ⟨k, v', by simpa using h1, ?_, ?_⟩
      · intro j w hj hw
        obtain ⟨o', h⟩ := h2 (j + 1) w (by omega) (by simpa using hw)
        exact ⟨o', by rw [show i + (j + 1) = i + 1 + j by omega] at h; exact h⟩
      · rw [show i + (k + 1) = i + 1 + k by omega] at h3; exact h3
    cases hc : child i (set v m) with
    | error e =>
      refine ⟨fun _ => ⟨0, v, rfl, fun j _ hj => by omega, .inl ?_⟩, fun _ => ⟨e, rfl⟩⟩
      exact ⟨e, hc⟩
    | ok o =>
      have hm := hmsg _ _ _ hc
      simp only [Go.ok_bind]
      rw [hm]
      cases hf : o.flag with
      | false =>
        rw [if_neg (by simp)]
        constructor
        · exact next o hc (fun _ => hf) _ _
        · rintro ⟨k, v', h1, h2, h3⟩
          cases k with
          | zero =>
            simp at h1; subst h1
            rcases h3 with ⟨e, h3⟩ | ⟨o', h3, h4, -⟩
            · rw [Nat.add_zero, hc] at h3; cases h3
            · rw [Nat.add_zero, hc] at h3; cases h3; rw [hf] at h4; cases h4
          | succ k => exact back h1 h2 h3 _ _
      | true =>
        rw [if_pos rfl, errs_bind]
        cases hr : ret (set v m) with
        | error e =>
          exact ⟨fun _ => ⟨0, v, rfl, fun j _ hj => by omega, .inr ⟨o, hc, hf, e, hr⟩⟩, fun _ => .inl ⟨e, rfl⟩⟩
        | ok ex =>
          have e1 : ∀ f : List Extra → Go EvalOut, ((Errs (Except.ok ex : Go (List Extra)) ∨ ∃ a, (Except.ok ex : Go (List Extra)) = Except.ok a ∧ Errs (f a)) ↔ Errs (f ex)) := by
            intro f
            constructor
            · rintro (h | ⟨a, ha, h⟩)
              · exact absurd h (errs_ok _)
              · cases ha; exact h
            · exact fun h => .inr ⟨ex, rfl, h⟩
          rw [e1]
          cases checkAll with
          | true =>
            rw [if_pos rfl]
            constructor
            · exact next o hc (by simp) _ _
            · rintro ⟨k, v', h1, h2, h3⟩
              cases k with
              | zero =>
                simp at h1; subst h1
                rcases h3 with ⟨e, h3⟩ | ⟨o', h3, h4, h5⟩
                · rw [Nat.add_zero, hc] at h3; cases h3
                · rw [hr] at h5; exact absurd h5 (errs_ok _)
              | succ k => exact back h1 h2 h3 _ _
          | false =>
            rw [if_neg (by simp)]
            refine ⟨fun h => absurd h (errs_pure _), ?_⟩
            rintro ⟨k, v', h1, h2, h3⟩
            cases k with
            | zero =>
              simp at h1; subst h1
              rcases h3 with ⟨e, h3⟩ | ⟨o', h3, h4, h5⟩
              · rw [Nat.add_zero, hc] at h3; cases h3
              · rw [hr] at h5; exact absurd h5 (errs_ok _)
            | succ k =>
              obtain ⟨o', h4, h5⟩ := h2 0 v (by omega) rfl
              rw [Nat.add_zero, hc] at h4
              cases h4
              rw [hf] at h5
              exact absurd (h5 rfl) (by simp)

theorem allLoop_errs {α : Type} {child : Nat → Msg → Go EvalOut} {set : α → Msg → Msg} {reset : Msg → Msg} {m : Msg}
    (hmsg : ∀ i m o, child i m = .ok o → o.msg = m) (hset : ∀ v w, set v (set w m) = set v m) :
    ∀ (l : List α) (i : Nat) (m1 : Msg), (m1 = m ∨ ∃ w, m1 = set w m) →
      (Errs (allLoop child set reset i m1 l) ↔
        ∃ k v, l[k]? = some v ∧ (∀ j w, j < k → l[j]? = some w → ∃ o, child (i + j) (set w m) = .ok o ∧ o.flag = true) ∧ Errs (child (i + k) (set v m)))
  | [], _, _, _ => by simp [allLoop, errs_ok]
  | v :: vs, i, m1, hm1 => by
    have hs : set v m1 = set v m := by
      rcases hm1 with rfl | ⟨w, rfl⟩
      · rfl
      · exact hset v w
    unfold allLoop
    rw [hs]
    cases hc : child i (set v m) with
    | error e =>
      refine ⟨fun _ => ⟨0, v, rfl, fun j _ hj => by omega, ?_⟩, fun _ => ⟨e, rfl⟩⟩
      exact ⟨e, hc⟩
    | ok o =>
      have hm := hmsg _ _ _ hc
      simp only [Go.ok_bind]
      rw [hm]
      cases hf : o.flag with
      | false =>
        rw [if_neg (by simp)]
        refine ⟨fun h => absurd h (errs_pure _), ?_⟩
        rintro ⟨k, v', h1, h2, h3⟩
        cases k with
        | zero =>
          simp at h1; subst h1
          rw [Nat.add_zero, hc] at h3; exact absurd h3 (errs_ok _)
        | succ k =>
          obtain ⟨o', h4, h5⟩ := h2 0 v (by omega) rfl
          rw [Nat.add_zero, hc] at h4
          cases h4
          rw [hf] at h5
          cases h5
      | true =>
        rw [if_pos rfl, allLoop_errs hmsg hset vs _ _ (.inr ⟨v, rfl⟩)]
        constructor
        · rintro ⟨k, v', h1, h2, h3⟩
          refine ⟨k + 1, v', by simpa using h1, ?_, ?_⟩
          · intro j w hj hw
            cases j with
            | zero => simp at hw; subst hw; exact ⟨o, hc, hf⟩
            | succ j =>
              obtain ⟨o', h⟩ := h2 j w (by omega) (by simpa using hw)
              exact ⟨o', by rw [show i + (j + 1) = i + 1 + j by omega]; exact h⟩
          · rw [show i + (k + 1) = i + 1 + k by omega]; exact h3
        · rintro ⟨k, v', h1, h2, h3⟩
          cases k with
          | zero =>
            simp at h1; subst h1
            rw [Nat.add_zero, hc] at h3; exact absurd h3 (errs_ok _)
          | succ k =>
            refine ⟨k, v', by simpa using h1, ?_, ?_⟩
            · intro j w hj hw
              obtain ⟨o', h⟩ := h2 (j + 1) w (by omega) (by simpa using hw)
              exact ⟨o', by rw [show i + (j + 1) = i + 1 + j by omega] at h; exact h⟩
            · rw [show i + (k + 1) = i + 1 + k by omega] at h3; exact h3

/-- An ANY fails, in terms of its child. -/
theorem errs_evalAny {a : AnyAll} {child : Nat → Msg → Go EvalOut} {T C : Nat → Msg → Prop} (hmsg : ∀ i m o, child i m = .ok o → o.msg = m)
    (hT : ∀ i m o, child i m = .ok o → (o.flag = true ↔ T i m)) (hC : ∀ i m, Errs (child i m) ↔ C i m) :
    Errs (evalAny env p a child msg) ↔ SelectFails env a msg ∨ ∃ l, scopes env p a msg = .ok (some l) ∧ ∃ i m', l[i]? = some m' ∧
      (a.ret = [] → ∀ j m'', j < i → l[j]? = some m'' → ¬ T (j + 1) m'') ∧
      (C (i + 1) m' ∨ T (i + 1) m' ∧ ∃ r ∈ a.ret, ReportFails (usesParsed a msg) m' r) := by
  -- what the loop gives, in terms of the messages with the elements in scope
  have loop : ∀ {α : Type} {set : α → Msg → Msg} {reset : Msg → Msg} {ret : Msg → Go (List Extra)} {l : List α},
      (∀ v w, set v (set w msg) = set v msg) → (∀ m', Errs (ret m') ↔ ∃ r ∈ a.ret, ReportFails (usesParsed a msg) m' r) →
      (Errs (anyLoop child set reset ret (decide (a.ret ≠ [])) 1 false [] msg l) ↔ ∃ i m', (l.map fun v => set v msg)[i]? = some m' ∧
        (a.ret = [] → ∀ j m'', j < i → (l.map fun v => set v msg)[j]? = some m'' → ¬ T (j + 1) m'') ∧
        (C (i + 1) m' ∨ T (i + 1) m' ∧ ∃ r ∈ a.ret, ReportFails (usesParsed a msg) m' r)) := by
    intro α set reset ret l hset hret
    rw [anyLoop_errs hmsg hset l _ _ _ _ (.inl rfl)]
    constructor
    · rintro ⟨k, v, h1, h2, h3⟩
      refine ⟨k, set v msg, by simp [h1], ?_, ?_⟩
      · intro hr j m'' hj hm ht
        simp only [List.getElem?_map, Option.map_eq_some_iff] at hm
        obtain ⟨w, hw, rfl⟩ := hm
        obtain ⟨o, ho, hf⟩ := h2 j w hj hw
        rw [Nat.add_comm] at ho
        have := (hT _ _ _ ho).2 ht
        rw [hf (by simp [hr])] at this
        cases this
      · rw [Nat.add_comm 1 k] at h3
        rcases h3 with h | ⟨o, ho, hf, h⟩
        · exact .inl ((hC _ _).1 h)
        · exact .inr ⟨(hT _ _ _ ho).1 hf, (hret _).1 h⟩
    · rintro ⟨k, m', h1, h2, h3⟩
      simp only [List.getElem?_map, Option.map_eq_some_iff] at h1
      obtain ⟨v, hv, rfl⟩ := h1
      -- the first element at which something fails
      have key : ∀ k v, l[k]? = some v → (a.ret = [] → ∀ j m'', j < k → (l.map fun v => set v msg)[j]? = some m'' → ¬ T (j + 1) m'') →
          (C (k + 1) (set v msg) ∨ T (k + 1) (set v msg) ∧ ∃ r ∈ a.ret, ReportFails (usesParsed a msg) (set v msg) r) →
          ∃ k v, l[k]? = some v ∧ (∀ j w, j < k → l[j]? = some w → ∃ o, child (1 + j) (set w msg) = .ok o ∧ (decide (a.ret ≠ []) = false → o.flag = false)) ∧
          (Errs (child (1 + k) (set v msg)) ∨ ∃ o, child (1 + k) (set v msg) = .ok o ∧ o.flag = true ∧ Errs (ret (set v msg))) := by
        intro k
        induction k using Nat.strong_induction_on with
        | _ k ih =>
          intro v hv h2 h3
          by_cases hx : ∃ j w, j < k ∧ l[j]? = some w ∧ Errs (child (j + 1) (set w msg))
          · obtain ⟨j, w, hj, hw, he⟩ := hx
            exact ih j hj w hw (fun hr j' m'' hj' => h2 hr j' m'' (by omega)) (.inl ((hC _ _).1 he))
          · push Not at hx
            refine ⟨k, v, hv, ?_, ?_⟩
            · intro j w hj hw
              obtain ⟨o, ho⟩ := (errs_returns _).1 (hx j w hj hw)
              rw [Nat.add_comm 1 j]
              refine ⟨o, ho, fun hd => ?_⟩
              have hr : a.ret = [] := by simpa using hd
              have := h2 hr j (set w msg) hj (by simp [hw])
              rw [← hT _ _ _ ho] at this
              simpa using this
            · rw [Nat.add_comm 1 k]
              by_cases he : Errs (child (k + 1) (set v msg))
              · exact .inl he
              · obtain ⟨o, ho⟩ := (errs_returns _).1 he
                rcases h3 with h3 | ⟨h3, h4⟩
                · exact absurd ((hC _ _).2 h3) he
                · exact .inr ⟨o, ho, (hT _ _ _ ho).2 h3, (hret _).2 h4⟩
      exact key k v hv h2 h3
  unfold evalAny
  by_cases hc : msg.rawI.isSome ∧ a.queries ≠ []
  · have hu := usesParsed_iff.2 hc
    have hret : ∀ m', Errs (if a.ret = [] then (pure [] : Go (List Extra)) else do let e ← extraFromInterface env m' a.ret; pure [e]) ↔ ∃ r ∈ a.ret, ReportFails (usesParsed a msg) m' r := by
      intro m'
      rw [hu]
      by_cases hr : a.ret = []
      · rw [if_pos hr, hr]; exact ⟨fun h => absurd h (errs_pure _), fun ⟨_, h, _⟩ => by cases h⟩
      · rw [if_neg hr, errs_bind_pure, errs_extraInterface]
    rw [if_pos hc, errs_bind, errs_interfaces hu]
    refine or_congr Iff.rfl ?_
    have hs : ∀ {x}, scopes env p a msg = .ok (some x) ↔ ∃ l, getArrayOfInterfaces env p a msg = .ok l ∧ x = l.map fun v => setRawIRel v msg := by
      intro x
      rw [scopes, if_pos hc]
      cases getArrayOfInterfaces env p a msg with
      | error e => exact ⟨fun h => (by cases h), fun ⟨_, h, _⟩ => (by cases h)⟩
      | ok l =>
        constructor
        · intro h
          cases h
          exact ⟨l, rfl, rfl⟩
        · rintro ⟨_, h, rfl⟩
          cases h
          rfl
    constructor
    · rintro ⟨l, hl, h⟩
      exact ⟨_, hs.2 ⟨l, hl, rfl⟩, (loop (fun _ _ => rfl) hret).1 h⟩
    · rintro ⟨x, hx, h⟩
      obtain ⟨l, hl, rfl⟩ := hs.1 hx
      exact ⟨l, hl, (loop (fun _ _ => rfl) hret).2 h⟩
  · have hu : usesParsed a msg = false := by rw [← Bool.not_eq_true, usesParsed_iff]; exact hc
    have hret : ∀ m', Errs (if a.ret = [] then (pure [] : Go (List Extra)) else do let e ← extraFromBytes env m' a.ret; pure [e]) ↔ ∃ r ∈ a.ret, ReportFails (usesParsed a msg) m' r := by
      intro m'
      rw [hu]
      by_cases hr : a.ret = []
      · rw [if_pos hr, hr]; exact ⟨fun h => absurd h (errs_pure _), fun ⟨_, h, _⟩ => by cases h⟩
      · rw [if_neg hr, errs_bind_pure, errs_extraBytes]
    rw [if_neg hc, errs_bind, errs_jsons hu]
    refine or_congr Iff.rfl ?_
    have hs : ∀ {x}, scopes env p a msg = .ok (some x) ↔ ∃ l, getArrayOfJsons env p a msg = .ok (some l) ∧ x = l.map fun v => setJsonRawRel v msg := by
      intro x
      rw [scopes, if_neg hc]
      cases getArrayOfJsons env p a msg with
      | error e => exact ⟨fun h => (by cases h), fun ⟨_, h, _⟩ => (by cases h)⟩
      | ok l =>
        cases l with
        | none => exact ⟨fun h => (by cases h), fun ⟨_, h, _⟩ => (by cases h)⟩
        | some l =>
          constructor
          · intro h
            cases h
            exact ⟨l, rfl, rfl⟩
          · rintro ⟨_, h, rfl⟩
            cases h
            rfl
    constructor
    · rintro ⟨l, hl, h⟩
      cases l with
      | none => exact absurd h (errs_pure _)
      | some l => exact ⟨_, hs.2 ⟨l, hl, rfl⟩, (loop (fun _ _ => rfl) hret).1 h⟩
    · rintro ⟨x, hx, h⟩
      obtain ⟨l, hl, rfl⟩ := hs.1 hx
      exact ⟨some l, hl, (loop (fun _ _ => rfl) hret).2 h⟩

/-- An ALL fails, in terms of its child. -/
theorem errs_evalAll {a : AnyAll} {child : Nat → Msg → Go EvalOut} {T C : Nat → Msg → Prop} (hmsg : ∀ i m o, child i m = .ok o → o.msg = m)
    (hT : ∀ i m o, child i m = .ok o → (o.flag = true ↔ T i m)) (hC : ∀ i m, Errs (child i m) ↔ C i m) :
    Errs (evalAll env p a child msg) ↔ SelectFails env a msg ∨ ∃ l, scopes env p a msg = .ok (some l) ∧ ∃ i m', l[i]? = some m' ∧
      (∀ j m'', j < i → l[j]? = some m'' → T (j + 1) m'') ∧ C (i + 1) m' := by
  have loop : ∀ {α : Type} {set : α → Msg → Msg} {reset : Msg → Msg} {l : List α}, (∀ v w, set v (set w msg) = set v msg) →
      (Errs (allLoop child set reset 1 msg l) ↔ ∃ i m', (l.map fun v => set v msg)[i]? = some m' ∧
        (∀ j m'', j < i → (l.map fun v => set v msg)[j]? = some m'' → T (j + 1) m'') ∧ C (i + 1) m') := by
    intro α set reset l hset
    rw [allLoop_errs hmsg hset l _ _ (.inl rfl)]
    constructor
    · rintro ⟨k, v, h1, h2, h3⟩
      refine ⟨k, set v msg, by simp [h1], ?_, by rw [Nat.add_comm 1 k] at h3; exact (hC _ _).1 h3⟩
      intro j m'' hj hm
      simp only [List.getElem?_map, Option.map_eq_some_iff] at hm
      obtain ⟨w, hw, rfl⟩ := hm
      obtain ⟨o, ho, hf⟩ := h2 j w hj hw
      rw [Nat.add_comm] at ho
      exact (hT _ _ _ ho).1 hf
    · rintro ⟨k, m', h1, h2, h3⟩
      simp only [List.getElem?_map, Option.map_eq_some_iff] at h1
      obtain ⟨v, hv, rfl⟩ := h1
      have key : ∀ k v, l[k]? = some v → (∀ j m'', j < k → (l.map fun v => set v msg)[j]? = some m'' → T (j + 1) m'') → C (k + 1) (set v msg) →
          ∃ k v, l[k]? = some v ∧ (∀ j w, j < k → l[j]? = some w → ∃ o, child (1 + j) (set w msg) = .ok o ∧ o.flag = true) ∧ Errs (child (1 + k) (set v msg)) := by
        intro k
        induction k using Nat.strong_induction_on with
        | _ k ih =>
          intro v hv h2 h3
          by_cases hx : ∃ j w, j < k ∧ l[j]? = some w ∧ Errs (child (j + 1) (set w msg))
          · obtain ⟨j, w, hj, hw, he⟩ := hx
            exact ih j hj w hw (fun j' m'' hj' => h2 j' m'' (by omega)) ((hC _ _).1 he)
          · push Not at hx
            refine ⟨k, v, hv, ?_, by rw [Nat.add_comm 1 k]; exact (hC _ _).2 h3⟩
            intro j w hj hw
            obtain ⟨o, ho⟩ := (errs_returns _).1 (hx j w hj hw)
            rw [Nat.add_comm 1 j]
            exact ⟨o, ho, (hT _ _ _ ho).2 (h2 j (set w msg) hj (by simp [hw]))⟩
      exact key k v hv h2 h3
  unfold evalAll
  by_cases hc : msg.rawI.isSome ∧ a.queries ≠ []
  · rw [if_pos hc, errs_bind, errs_interfaces (usesParsed_iff.2 hc)]
    refine or_congr Iff.rfl ?_
    rw [scopes, if_pos hc]
    cases getArrayOfInterfaces env p a msg with
    | error e => exact ⟨fun ⟨_, h, _⟩ => (by cases h), fun ⟨_, h, _⟩ => (by cases h)⟩
    | ok l =>
      constructor
      · rintro ⟨_, h, h'⟩
        cases h
        exact ⟨_, rfl, (loop fun _ _ => rfl).1 h'⟩
      · rintro ⟨x, h, h'⟩
        cases h
        exact ⟨l, rfl, (loop fun _ _ => rfl).2 h'⟩
  · have hu : usesParsed a msg = false := by rw [← Bool.not_eq_true, usesParsed_iff]; exact hc
    rw [if_neg hc, errs_bind, errs_jsons hu]
    refine or_congr Iff.rfl ?_
    rw [scopes, if_neg hc]
    cases getArrayOfJsons env p a msg with
    | error e => exact ⟨fun ⟨_, h, _⟩ => (by cases h), fun ⟨_, h, _⟩ => (by cases h)⟩
    | ok l =>
      cases l with
      | none =>
        constructor
        · rintro ⟨_, h, h'⟩
          cases h
          exact absurd h' (errs_pure _)
        · rintro ⟨_, h, -⟩
          cases h
      | some l =>
        constructor
        · rintro ⟨_, h, h'⟩
          cases h
          exact ⟨_, rfl, (loop fun _ _ => rfl).1 h'⟩
        · rintro ⟨x, h, h'⟩
          cases h
          exact ⟨some l, rfl, (loop fun _ _ => rfl).2 h'⟩

mutual
/-- Exactly when the evaluation of a prepared tree fails. -/
theorem errs_eval (env : Env) (hn : NumbersOk env) : ∀ (n : Node) (p : List Nat) (m : Msg), (∀ c ∈ leaves n, FromText env c) →
    (Errs (eval env n p m) ↔ CrashesAt env n p m)
  | .nil, _, _, _ => by rw [CrashesAt, eval]; exact ⟨fun _ => trivial, fun _ => ⟨_, rfl⟩⟩
  | .and ns, p, m, hl => by
    rw [CrashesAt, eval]; exact errs_evalAnd env hn ns p 1 [] m (by simpa [leaves] using hl)
  | .or ns, p, m, hl => by
    rw [CrashesAt, eval]; exact errs_evalOr env hn ns p 1 false [] m (by simpa [leaves] using hl)
  | .not n, p, m, hl => by
    rw [CrashesAt, eval, errs_bind_pure]
    exact errs_eval env hn n _ _ (by simpa [leaves] using hl)
  | .any a n, p, m, hl => by
    rw [CrashesAt, eval]
    exact errs_evalAny (T := fun i m' => Holds env n (i :: p) m') (C := fun i m' => CrashesAt env n (i :: p) m') (fun i m o h => eval_msg env n _ m o h)
      (fun i m' o h => eval_holds env n (i :: p) m' o h) fun i m' => errs_eval env hn n (i :: p) m' (by simpa [leaves] using hl)
  | .all a n, p, m, hl => by
    rw [CrashesAt, eval]
    exact errs_evalAll (T := fun i m' => Holds env n (i :: p) m') (C := fun i m' => CrashesAt env n (i :: p) m') (fun i m o h => eval_msg env n _ m o h)
      (fun i m' o h => eval_holds env n (i :: p) m' o h) fun i m' => errs_eval env hn n (i :: p) m' (by simpa [leaves] using hl)
  | .tt, _, _, _ => by rw [CrashesAt, eval]; exact ⟨fun h => errs_ok _ h, fun h => h.elim⟩
  | .ff, _, _, _ => by rw [CrashesAt, eval]; exact ⟨fun h => errs_ok _ h, fun h => h.elim⟩
  | .cond c, p, m, hl => by
    rw [CrashesAt, eval, errs_bind_pure]
    exact errs_condition hn (hl c (by simp [leaves]))

theorem errs_evalAnd (env : Env) (hn : NumbersOk env) : ∀ (ns : List Node) (p : List Nat) (i : Nat) (acc : List Extra) (m : Msg),
    (∀ c ∈ leavesOf ns, FromText env c) → (Errs (evalAnd env ns p i acc m) ↔ AndCrashes env ns p i m)
  | [], _, _, _, _, _ => by rw [AndCrashes, evalAnd]; exact ⟨fun h => errs_ok _ h, fun h => h.elim⟩
  | n :: ns, p, i, acc, m, hl => by
    rw [AndCrashes, evalAnd, errs_bind, errs_eval env hn n _ _ fun c hc => hl c (by simp [leavesOf, hc])]
    by_cases hx : CrashesAt env n (i :: p) m
    · simp [hx]
    · refine or_congr Iff.rfl ?_
      obtain ⟨o, ho⟩ := (errs_returns _).1 fun h => hx ((errs_eval env hn n _ _ fun c hc => hl c (by simp [leavesOf, hc])).1 h)
      have hf := eval_holds env n _ _ _ ho
      have hm := eval_msg env n _ _ _ ho
      have ih := fun acc => errs_evalAnd env hn ns p (i + 1) acc m fun c hc => hl c (by simp [leavesOf, hc])
      constructor
      · rintro ⟨o', ho', h⟩
        rw [ho] at ho'; cases ho'
        dsimp only at h
        cases hfl : o.flag with
        | false => rw [if_pos hfl] at h; exact absurd h (errs_pure _)
        | true =>
          rw [if_neg (by simp [hfl]), hm, ih] at h
          exact ⟨hf.1 hfl, h⟩
      · rintro ⟨h1, h2⟩
        refine ⟨o, ho, ?_⟩
        dsimp only
        rw [if_neg (by simp [hf.2 h1]), hm, ih]
        exact h2

theorem errs_evalOr (env : Env) (hn : NumbersOk env) : ∀ (ns : List Node) (p : List Nat) (i : Nat) (f : Bool) (acc : List Extra) (m : Msg),
    (∀ c ∈ leavesOf ns, FromText env c) → (Errs (evalOr env ns p i f acc m) ↔ OrCrashes env ns p i m)
  | [], _, _, _, _, _, _ => by rw [OrCrashes, evalOr]; exact ⟨fun h => errs_ok _ h, fun h => h.elim⟩
  | n :: ns, p, i, f, acc, m, hl => by
    rw [OrCrashes, evalOr, errs_bind, errs_eval env hn n _ _ fun c hc => hl c (by simp [leavesOf, hc])]
    by_cases hx : CrashesAt env n (i :: p) m
    · simp [hx]
    · refine or_congr Iff.rfl ?_
      obtain ⟨o, ho⟩ := (errs_returns _).1 fun h => hx ((errs_eval env hn n _ _ fun c hc => hl c (by simp [leavesOf, hc])).1 h)
      have hm := eval_msg env n _ _ _ ho
      have ih := fun f acc => errs_evalOr env hn ns p (i + 1) f acc m fun c hc => hl c (by simp [leavesOf, hc])
      constructor
      · rintro ⟨o', ho', h⟩
        rw [ho] at ho'; cases ho'
        rw [hm, ih] at h
        exact h
      · intro h
        refine ⟨o, ho, ?_⟩
        rw [hm, ih]
        exact h
end

/-! ## Rules -/

theorem errs_prepared {g : Predef} {r : RuleObj} {rule : Rule} (hr : r.ready = true) (hp : r.prepared = some rule) (hx : Expanded rule)
    (a1 : ∀ e ∈ rule.senderList, e.regexp.isSome) (a2 : ∀ e ∈ rule.receiverList, e.regexp.isSome)
    (a3 : rule.operationRegex.isSome) (a4 : rule.resourceNameRegex.isSome) :
    Errs (r.check env g p msg) ↔ PartsMatch env rule msg ∧ ∃ n, rule.conditions = some n ∧ Errs (eval env n (1 :: 1 :: p) msg) := by
  have a5 := hx.converted
  obtain ⟨b1, k1⟩ : Returns (testSender env rule msg) := by unfold testSender; rw [convertOnUse_converted a5]; exact returns_senderLoop a1
  obtain ⟨b2, k2⟩ : Returns (testReceiver env rule msg) := by unfold testReceiver; rw [convertOnUse_converted a5]; exact returns_receiverLoop a2
  obtain ⟨b3, k3⟩ := returns_match (env := env.toExt) (s := msg.requestMethod) a3
  obtain ⟨b4, k4⟩ : Returns (testResource env rule msg) :=
    .ite (fun _ => returns_match a4) fun _ => .ite (fun _ => .ite (fun _ => .ok _) fun _ => .ite (fun _ => .ok _) fun _ => returns_match a4) fun _ => .ok _
  have e1 : b1 = true ↔ ∃ e ∈ rule.senderList, SenderEntry env e msg := by
    simp only [testSender, convertOnUse_converted a5] at k1
    exact senderLoop_iff hx.sender k1
  have e2 : b2 = true ↔ ∃ e ∈ rule.receiverList, ReceiverEntry env e msg := by
    simp only [testReceiver, convertOnUse_converted a5] at k2
    exact receiverLoop_iff hx.receiver k2
  have e3 : b3 = true ↔ Accepts env rule.operationRegex msg.requestMethod := matchPtr_ok k3
  have e4 : b4 = true ↔ ResourceMatches env rule msg := testResource_iff k4
  have hm : PartsMatch env rule msg ↔ b1 = true ∧ b2 = true ∧ b3 = true ∧ b4 = true := by
    rw [e1, e2, e3, e4]
    exact ⟨fun ⟨a, b, c, d⟩ => ⟨a, b, c, d⟩, fun ⟨a, b, c, d⟩ => ⟨a, b, c, d⟩⟩
  rw [hm]
  unfold RuleObj.check
  rw [ensure_of_ready hr, Go.ok_bind, hp]
  simp only [deref, Go.ok_bind, convertOnUse_converted a5]
  rw [k1, k2, k3, k4]
  simp only [Go.ok_bind]
  cases b1 with
  | false => simp [errs_ok]
  | true =>
  cases b2 with
  | false => simp [errs_ok]
  | true =>
  cases b3 with
  | false => simp [errs_ok]
  | true =>
  cases b4 with
  | false => simp [errs_ok]
  | true =>
  simp only [not_true, if_false, true_and]
  cases hc : rule.conditions with
  | none =>
    rw [errs_bind]
    constructor
    · rintro (h | ⟨o, -, h⟩)
      · exact absurd h (errs_pure _)
      · exact absurd h (by split <;> exact errs_pure _)
    · rintro ⟨n, h, -⟩
      cases h
  | some n =>
    rw [errs_bind]
    have e5 : Errs (RuleObj.testConditions env g (1 :: p) { r with prepared := some rule } msg) ↔ Errs (eval env n (1 :: 1 :: p) msg) := by
      unfold RuleObj.testConditions
      rw [ensure_of_ready (by exact hr), Go.ok_bind, errs_bind_pure]
      simp only [testPreparedConditions, deref, Go.ok_bind, hc]
    rw [e5]
    constructor
    · rintro (h | ⟨o, -, h⟩)
      · exact ⟨n, rfl, h⟩
      · exact absurd h (by split <;> exact errs_pure _)
    · rintro ⟨n', h, h'⟩
      cases h
      exact .inl h'

/-- Exactly when checking a prepared rule fails. -/
theorem errs_rule (ho : env.OrdOk) (hn : NumbersOk env) {g : Predef} {r : RuleObj} {rule : Rule} (h : ReadyAs env r rule) :
    Errs (r.check env g p msg) ↔ PreparedCrashes env rule p msg := by
  have hl := fun n hn => ready_leaves ho h (n := n) hn
  obtain ⟨r0, p0, t, hc, hr⟩ := h.made
  have hx := prepared_expanded hc hr h.prepared
  obtain ⟨copy, rule', h1, h2, rfl⟩ := setPredefined_ok hr
  have := h.prepared
  simp at this; subst this
  obtain ⟨ct, hct, rfl⟩ := copyRule_ok h1
  obtain ⟨s, v, sl, rl, op, re, _, _, h3, h4, _, _, -, h8⟩ := prepareOneRule_ok (by simpa using hc) h2
  rw [errs_prepared (rule := rule') rfl rfl hx (by rw [h8]; exact expand_regexp h3) (by rw [h8]; exact expand_regexp h4) (by rw [h8]; rfl) (by rw [h8]; rfl), PreparedCrashes]
  refine and_congr Iff.rfl (exists_congr fun n => and_congr_right fun hcond => ?_)
  exact errs_eval env hn n _ _ (hl n hcond)

/-- Exactly when checking a rule of the list fails. -/
theorem errs_ruleAt (ho : env.OrdOk) (hn : NumbersOk env) {g : Predef} {r : RuleObj} {k : Nat} (h : Fresh r ∨ ∃ rule, ReadyAs env r rule) :
    Errs (r.check env g [k] msg) ↔ RuleCrashes env g k msg r := by
  have apart : ∀ {rule}, ReadyAs env r rule → ¬ Fresh r := by
    intro rule h hf
    have := h.prepared
    rw [hf.prepared] at this
    cases this
  rcases h with h | ⟨rule, h⟩
  · by_cases hs : ∃ r', r.setPredefined env [0, k] g = .ok (r', none)
    · obtain ⟨r', hs⟩ := hs
      have hp : ∃ rule, r'.prepared = some rule := by
        obtain ⟨_, rule, _, _, rfl⟩ := setPredefined_ok hs
        exact ⟨rule, rfl⟩
      obtain ⟨rule, hp⟩ := hp
      have hr : ReadyAs env r' rule := ⟨hp, r, _, _, h.converted, hs⟩
      rw [check_unready h.ready hs (setPredefined_ready hs), errs_rule ho hn hr]
      constructor
      · exact fun hc => .fresh h hs hp hc
      · intro hc
        cases hc with
        | prepared h' => exact absurd h (apart h')
        | refused _ h' => exact absurd ⟨r', hs⟩ h'
        | fresh _ hs' hp' hc =>
          rw [hs] at hs'
          cases hs'
          rw [hp] at hp'
          cases hp'
          exact hc
    · refine ⟨fun _ => .refused h hs, fun _ => ?_⟩
      by_contra hc
      obtain ⟨o, ho'⟩ := (errs_returns _).1 hc
      obtain ⟨r1, _, h1, _⟩ := fresh_check h ho'
      exact hs ⟨r1, h1⟩
  · rw [errs_rule ho hn h]
    constructor
    · exact fun hc => .prepared h hc
    · intro hc
      cases hc with
      | prepared h' hc =>
        have := h.prepared
        rw [h'.prepared] at this
        cases this
        exact hc
      | refused h' => exact absurd h' (apart h)
      | fresh h' => exact absurd h' (apart h)

theorem errs_check {g : Predef} {rs : List RuleObj} :
    Errs (check env g msg rs) ↔ ∃ (k : Nat) (r : RuleObj), rs[k]? = some r ∧ Errs (r.check env g [k] msg) := by
  rw [← not_iff_not, errs_returns, returns_check]
  constructor
  · rintro h ⟨k, r, hr, he⟩
    exact (errs_returns _).2 (h k r hr) he
  · intro h k r hr
    exact (errs_returns _).1 fun he => h ⟨k, r, hr, he⟩

end Mapl

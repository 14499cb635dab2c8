import Verif.Spec.DecodeMessage
import Verif.Lemmas.Decode

/-!
# Decoding of messages, key by key
-/

namespace Mapl

open Spec

variable {env : Ext} {wild : F64 → Int} {kvs : List (Str × Yaml)} {k s : Str} {y : Yaml} {m : Msg}

/-! ## The fields that hold texts -/

theorem messageTexts_get : ∀ f ∈ messageTexts, ∀ m s, f.get (f.set m s) = s := by
  simp only [messageTexts, List.forall_mem_cons]
  refine ⟨?_, ?_, ?_, ?_, ?_, ?_, ?_, ?_, ?_, ?_, ?_, ?_, ?_, ?_, ?_, ?_, ?_, ?_, ?_, ?_, ?_, by simp⟩ <;> (intros; trivial)

theorem messageTexts_other : ∀ f ∈ messageTexts, ∀ g ∈ messageTexts, f.key ≠ g.key → ∀ m s, f.get (g.set m s) = f.get m := by
  have key : ∀ g ∈ messageTexts, ∀ m s, ∀ f ∈ messageTexts, f.key ≠ g.key → f.get (g.set m s) = f.get m := by
    simp only [messageTexts, List.forall_mem_cons]
    refine ⟨?_, ?_, ?_, ?_, ?_, ?_, ?_, ?_, ?_, ?_, ?_, ?_, ?_, ?_, ?_, ?_, ?_, ?_, ?_, ?_, ?_, by simp⟩ <;>
    · intro m s
      refine ⟨?_, ?_, ?_, ?_, ?_, ?_, ?_, ?_, ?_, ?_, ?_, ?_, ?_, ?_, ?_, ?_, ?_, ?_, ?_, ?_, ?_, by simp⟩ <;>
        (intro h; first | exact absurd rfl h | trivial | rfl)
  exact fun f hf g hg h m s => key g hg m s f hf h

theorem messageTexts_rest {β : Type} (π : Msg → β) (h : ∀ f ∈ messageTexts, ∀ m s, π (f.set m s) = π m) (m : Msg) (k : Str) (y : Yaml)
    (hs : ∀ (m : Msg) n, π { m with requestSize := n } = π m) (hv : ∀ (m : Msg) n, π { m with encryptionVersion := n } = π m) :
    π (messageField env wild m k y).1 = π m := by
  unfold messageField
  split
  · next f hf => exact h f (List.mem_of_find?_eq_some hf) _ _
  · split
    · exact hs _ _
    · split
      · exact hv _ _
      · rfl

theorem messageTexts_keys : (messageTexts.map (·.key)).Nodup := by decide +kernel

theorem messageTexts_find {f : TextField} (hf : f ∈ messageTexts) : messageTexts.find? (fun g => g.key = f.key) = some f := by
  have key : ∀ (l : List TextField), (l.map (·.key)).Nodup → f ∈ l → l.find? (fun g => g.key = f.key) = some f := by
    intro l
    induction l with
    | nil => intro _ h; cases h
    | cons x xs ih =>
      intro hn h
      simp only [List.map_cons, List.nodup_cons] at hn
      rcases List.mem_cons.1 h with rfl | h
      · simp
      · have : x.key ≠ f.key := fun e => hn.1 (e ▸ List.mem_map.2 ⟨f, h, rfl⟩)
        rw [List.find?_cons_of_neg (by simpa using this)]
        exact ih hn.2 h
  exact key _ messageTexts_keys hf

theorem messageTexts_find_none : messageTexts.find? (fun g => g.key = k) = none ↔ k ∉ messageTexts.map (·.key) := by
  rw [List.find?_eq_none]
  simp only [decide_eq_true_eq, List.mem_map, not_exists, not_and]

/-- A field that holds a text depends only on its key. -/
theorem messageField_text {f : TextField} (hf : f ∈ messageTexts) (r : Msg) (k : Str) (y : Yaml) :
    f.get (messageField env wild r k y).1 = if k = f.key then (decodeText (f.get r) y).1 else f.get r := by
  by_cases h : k = f.key
  · subst h
    simp only [messageField, messageTexts_find hf, if_true]
    exact messageTexts_get f hf _ _
  · rw [if_neg h]
    unfold messageField
    split
    · next g hg =>
      have hm := List.mem_of_find?_eq_some hg
      have hk : g.key = k := by simpa using List.find?_some hg
      exact messageTexts_other f hf g hm (fun e => h (by rw [← hk, ← e])) _ _
    · have size : ∀ f ∈ messageTexts, ∀ (m : Msg) n, f.get { m with requestSize := n } = f.get m := by
        simp only [messageTexts, List.forall_mem_cons]
        refine ⟨?_, ?_, ?_, ?_, ?_, ?_, ?_, ?_, ?_, ?_, ?_, ?_, ?_, ?_, ?_, ?_, ?_, ?_, ?_, ?_, ?_, by simp⟩ <;> (intros; trivial)
      have version : ∀ f ∈ messageTexts, ∀ (m : Msg) n, f.get { m with encryptionVersion := n } = f.get m := by
        simp only [messageTexts, List.forall_mem_cons]
        refine ⟨?_, ?_, ?_, ?_, ?_, ?_, ?_, ?_, ?_, ?_, ?_, ?_, ?_, ?_, ?_, ?_, ?_, ?_, ?_, ?_, ?_, by simp⟩ <;> (intros; trivial)
      split
      · exact size f hf _ _
      · split
        · exact version f hf _ _
        · rfl

theorem size_not_text : gs"request_size" ∉ messageTexts.map (·.key) := by decide +kernel
theorem version_not_text : gs"encryption_version" ∉ messageTexts.map (·.key) := by decide +kernel

theorem messageField_size (r : Msg) (k : Str) (y : Yaml) :
    (messageField env wild r k y).1.requestSize = if k = gs"request_size" then (decodeInt wild r.requestSize y).1 else r.requestSize := by
  by_cases h : k = gs"request_size"
  · subst h
    simp only [messageField, messageTexts_find_none.2 size_not_text, if_true]
  · rw [if_neg h]
    unfold messageField
    split
    · next g hg =>
      have hm := List.mem_of_find?_eq_some hg
      have : ∀ f ∈ messageTexts, ∀ (m : Msg) s, (f.set m s).requestSize = m.requestSize := by
        simp only [messageTexts, List.forall_mem_cons]
        refine ⟨?_, ?_, ?_, ?_, ?_, ?_, ?_, ?_, ?_, ?_, ?_, ?_, ?_, ?_, ?_, ?_, ?_, ?_, ?_, ?_, ?_, by simp⟩ <;> (intros; trivial)
      exact this g hm _ _
    · rw [if_neg h]
      split <;> rfl

theorem messageField_version (r : Msg) (k : Str) (y : Yaml) :
    (messageField env wild r k y).1.encryptionVersion =
      if k = gs"encryption_version" then (decodeNumber env r.encryptionVersion y).1 else r.encryptionVersion := by
  by_cases h : k = gs"encryption_version"
  · subst h
    have : ¬ gs"encryption_version" = gs"request_size" := by decide
    simp only [messageField, messageTexts_find_none.2 version_not_text, this, if_true, if_false]
  · rw [if_neg h]
    unfold messageField
    split
    · next g hg =>
      have hm := List.mem_of_find?_eq_some hg
      have : ∀ f ∈ messageTexts, ∀ (m : Msg) s, (f.set m s).encryptionVersion = m.encryptionVersion := by
        simp only [messageTexts, List.forall_mem_cons]
        refine ⟨?_, ?_, ?_, ?_, ?_, ?_, ?_, ?_, ?_, ?_, ?_, ?_, ?_, ?_, ?_, ?_, ?_, ?_, ?_, ?_, ?_, by simp⟩ <;> (intros; trivial)
      exact this g hm _ _
    · split
      · rfl
      · rfl

/-- The fields that no key sets. -/
structure Kept where
  jsonRaw : Option Str
  jsonRawRel : Option Str
  rawI : Option Json
  rawIRel : Option Json
  seconds : F64
  minutes : F64
  hours : F64
  sourceNetIp : IP
  destinationNetIp : IP
  sourceLabels : List (Str × Str)
  destinationLabels : List (Str × Str)

def Msg.kept (m : Msg) : Kept := ⟨m.jsonRaw, m.jsonRawRel, m.rawI, m.rawIRel, m.secondsFromMidnight, m.minutesFromMidnight, m.hoursFromMidnight,
  m.sourceNetIp, m.destinationNetIp, m.sourceLabels, m.destinationLabels⟩

theorem messageField_kept (r : Msg) (k : Str) (y : Yaml) : (messageField env wild r k y).1.kept = r.kept := by
  refine messageTexts_rest _ ?_ r k y (fun _ _ => rfl) (fun _ _ => rfl)
  simp only [messageTexts, List.forall_mem_cons]
  refine ⟨?_, ?_, ?_, ?_, ?_, ?_, ?_, ?_, ?_, ?_, ?_, ?_, ?_, ?_, ?_, ?_, ?_, ?_, ?_, ?_, ?_, by simp⟩ <;> (intros; trivial)

/-- A message is determined by its fields. -/
theorem message_ext {a b : Msg} (ht : ∀ f ∈ messageTexts, f.get a = f.get b) (hs : a.requestSize = b.requestSize) (hv : a.encryptionVersion = b.encryptionVersion)
    (hk : a.kept = b.kept) : a = b := by
  cases a; cases b
  simp only [messageTexts, List.forall_mem_cons] at ht
  simp only [Msg.kept, Kept.mk.injEq] at hk
  obtain ⟨h1, h2, h3, h4, h5, h6, h7, h8, h9, h10, h11, h12, h13, h14, h15, h16, h17, h18, h19, h20, h21, -⟩ := ht
  obtain ⟨k1, k2, k3, k4, k5, k6, k7, k8, k9, k10, k11⟩ := hk
  subst_vars
  rfl

/-! ## Numbers -/

theorem decodeInt_flag {old old' : Int} : (decodeInt wild old y).2 = (decodeInt wild old' y).2 := by
  unfold decodeInt
  split <;> try rfl
  · split <;> rfl
  · split
    · rfl
    · split <;> rfl

theorem decodeInt_iff {n : Int} (hy : ∀ t x, y = .scalar t (.float x) → ∃ n : Int, -2 ^ 63 ≤ n ∧ n < 2 ^ 63 ∧ x = .fin n) :
    ((decodeInt wild 0 y).2 = false ∧ (decodeInt wild 0 y).1 = n) ↔ WritesSize y n := by
  have whole : ∀ (t : Str) (n : Int), -2 ^ 63 ≤ n → n < 2 ^ 63 → decodeInt wild 0 (.scalar t (.float (.fin n))) = (n, false) := by
    intro t n h1 h2
    have : (-2 ^ 63 : Rat) ≤ n ∧ (n : Rat) < 2 ^ 63 := ⟨by exact_mod_cast h1, by exact_mod_cast h2⟩
    simp only [decodeInt]
    rw [if_pos this]
    simp
  constructor
  · rintro ⟨h1, h2⟩
    cases y with
    | scalar t v =>
      cases v with
      | null => simp only [decodeInt] at h2; subst h2; exact .null _
      | bool b => simp [decodeInt] at h1
      | str => simp [decodeInt] at h1
      | int i =>
        simp only [decodeInt] at h1 h2
        split at h1
        · next h => rw [if_pos h] at h2; simp only at h2; subst h2; exact .int h
        · cases h1
      | float x =>
        obtain ⟨i, a, b, rfl⟩ := hy t x rfl
        rw [whole t i a b] at h2
        simp only at h2
        subst h2
        exact .float ⟨a, b⟩
    | seq l => simp [decodeInt] at h1
    | map l => simp [decodeInt] at h1
  · intro h
    cases h with
    | null => simp [decodeInt]
    | int h => simp only [decodeInt]; rw [if_pos h]; exact ⟨rfl, rfl⟩
    | float h => rw [whole _ _ h.1 h.2]; exact ⟨rfl, rfl⟩

theorem plainNull_iff {t : Str} : plainNull t = true ↔ t ∈ [gs"null", gs"~", []] := by simp [plainNull]

theorem decodeNumber_flag {old old' : Option F64} : (decodeNumber env old y).2 = (decodeNumber env old' y).2 := by
  unfold decodeNumber; split <;> rfl

theorem decodeNumber_iff {o : Option F64} (hy : ∀ t, y = .scalar t .null → t ∈ [gs"null", gs"~", []]) :
    ((decodeNumber env none y).2 = false ∧ (decodeNumber env none y).1 = o) ↔ WritesNumber env y o := by
  constructor
  · rintro ⟨h1, h2⟩
    cases y with
    | scalar t v =>
      cases v with
      | null =>
        have ht := hy t rfl
        simp only [decodeNumber, plainNull_iff.2 ht, if_true] at h2
        subst h2
        exact .null ⟨t, ht, rfl⟩
      | bool b => simp [decodeNumber] at h1
      | str => simp [decodeNumber] at h1
      | int i => simp only [decodeNumber] at h2; subst h2; exact .int _ _
      | float x => simp only [decodeNumber] at h2; subst h2; exact .float _ _
    | seq l => simp [decodeNumber] at h1
    | map l => simp [decodeNumber] at h1
  · intro h
    cases h with
    | null h =>
      obtain ⟨t, ht, rfl⟩ := h
      simp [decodeNumber, plainNull_iff.2 ht]
    | int => simp [decodeNumber]
    | float => simp [decodeNumber]

/-! ## A message -/

/-- The flag of an entry. -/
def messageBad (env : Ext) (wild : F64 → Int) (k : Str) (y : Yaml) : Bool :=
  if k ∈ messageTexts.map (·.key) then (decodeText [] y).2
  else if k = gs"request_size" then (decodeInt wild 0 y).2
  else if k = gs"encryption_version" then (decodeNumber env none y).2
  else k ∈ rawKeys

theorem messageField_flag (r : Msg) (k : Str) (y : Yaml) : (messageField env wild r k y).2 = messageBad env wild k y := by
  unfold messageField messageBad
  split
  · next f hf =>
    have : f.key = k := by simpa using List.find?_some hf
    rw [if_pos (this ▸ List.mem_map.2 ⟨f, List.mem_of_find?_eq_some hf, rfl⟩)]
    exact decodeText_flag
  · next hf =>
    rw [if_neg (messageTexts_find_none.1 hf)]
    split
    · exact decodeInt_flag
    · split
      · exact decodeNumber_flag
      · rfl

/-- A value under a key, with a default. -/
theorem under_iff {β : Type} {d : Yaml → β × Bool} {dflt : β} {P : Yaml → β → Prop} {key : Str} {v : β} (hn : (kvs.map (·.1)).Nodup)
    (hd : ∀ y, (key, y) ∈ kvs → ∀ v, ((d y).2 = false ∧ (d y).1 = v) ↔ P y v) :
    ((∀ y, (key, y) ∈ kvs → (d y).2 = false) ∧ (match lookup key kvs with | none => dflt | some y => (d y).1) = v) ↔
      (∀ y, (key, y) ∈ kvs → P y v) ∧ (¬ HasKey kvs key → v = dflt) := by
  cases hl : lookup key kvs with
  | none =>
    have hno := lookup_none_yaml.1 hl
    constructor
    · rintro ⟨-, rfl⟩; exact ⟨fun y hy => absurd ⟨y, hy⟩ hno, fun _ => rfl⟩
    · rintro ⟨-, h⟩; exact ⟨fun y hy => absurd ⟨y, hy⟩ hno, (h hno).symm⟩
  | some y =>
    have hm := (lookup_mem_yaml hn).1 hl
    have huniq : ∀ y', (key, y') ∈ kvs → y' = y := fun y' hy' => by
      have := (lookup_mem_yaml hn).2 hy'
      rw [hl] at this; exact (Option.some.inj this).symm
    constructor
    · rintro ⟨h1, h2⟩
      refine ⟨fun y' hy' => ?_, fun hno => absurd ⟨y, hm⟩ hno⟩
      rw [huniq y' hy']
      exact (hd y hm v).1 ⟨h1 y hm, h2⟩
    · rintro ⟨h, -⟩
      have := (hd y hm v).2 (h y hm)
      exact ⟨fun y' hy' => by rw [huniq y' hy']; exact this.1, this.2⟩

theorem textUnder_under : TextUnder kvs k s ↔ (∀ y, (k, y) ∈ kvs → WritesText y s) ∧ (¬ HasKey kvs k → s = []) := Iff.rfl

/-- What a mapping decodes to is the message that it writes. -/
theorem message_iff (hn : (kvs.map (·.1)).Nodup) (hc : ClearMessage kvs) :
    ((decodeFields (messageField env wild) {} kvs).2 = false ∧ (decodeFields (messageField env wild) {} kvs).1 = m) ↔ MessageDoc env kvs m := by
  have eT : ∀ f ∈ messageTexts, f.get (decodeFields (messageField env wild) {} kvs).1 = match lookup f.key kvs with | none => [] | some y => (decodeText [] y).1 := by
    intro f hf
    rw [decodeFields_proj (π := f.get) (key := f.key) (d := fun b y => (decodeText b y).1) (messageField_text hf) hn]
    have : ∀ f ∈ messageTexts, f.get {} = [] := by
      simp only [messageTexts, List.forall_mem_cons]
      refine ⟨?_, ?_, ?_, ?_, ?_, ?_, ?_, ?_, ?_, ?_, ?_, ?_, ?_, ?_, ?_, ?_, ?_, ?_, ?_, ?_, ?_, by simp⟩ <;> trivial
    rw [this f hf]
    cases lookup f.key kvs <;> rfl
  have eS := decodeFields_proj (f := messageField env wild) (π := Msg.requestSize) (key := gs"request_size") (d := fun b y => (decodeInt wild b y).1)
    messageField_size (r := {}) hn
  have eV := decodeFields_proj (f := messageField env wild) (π := Msg.encryptionVersion) (key := gs"encryption_version") (d := fun b y => (decodeNumber env b y).1)
    messageField_version (r := {}) hn
  have eK : (decodeFields (messageField env wild) {} kvs).1.kept = ({} : Msg).kept := decodeFields_fixed (π := Msg.kept) messageField_kept
  have eF : (decodeFields (messageField env wild) {} kvs).2 = false ↔ (∀ f ∈ messageTexts, ∀ y, (f.key, y) ∈ kvs → (decodeText [] y).2 = false) ∧
      (∀ y, (gs"request_size", y) ∈ kvs → (decodeInt wild 0 y).2 = false) ∧ ∀ y, (gs"encryption_version", y) ∈ kvs → (decodeNumber env none y).2 = false := by
    rw [decodeFields_flag messageField_flag]
    constructor
    · intro h
      refine ⟨fun f hf y hy => ?_, fun y hy => ?_, fun y hy => ?_⟩
      · have := h _ hy
        unfold messageBad at this
        rwa [if_pos (List.mem_map.2 ⟨f, hf, rfl⟩)] at this
      · have := h _ hy
        unfold messageBad at this
        rwa [if_neg size_not_text, if_pos rfl] at this
      · have := h _ hy
        unfold messageBad at this
        have ne : ¬ gs"encryption_version" = gs"request_size" := by decide
        rwa [if_neg version_not_text, if_neg ne, if_pos rfl] at this
    · rintro ⟨h1, h2, h3⟩ ⟨k, y⟩ hx
      unfold messageBad
      dsimp only
      split
      · next hk =>
        obtain ⟨f, hf, rfl⟩ := List.mem_map.1 hk
        exact h1 f hf y hx
      · split
        · next hk => subst hk; exact h2 y hx
        · split
          · next hk => subst hk; exact h3 y hx
          · simp only [decide_eq_false_iff_not]
            exact fun hr => hc.raw k hr ⟨y, hx⟩
  have iT : ∀ (f : TextField) (v : Str), _ := fun f v =>
    under_iff (key := f.key) (d := decodeText []) (dflt := []) (P := WritesText) (v := v) hn (fun y _ v => decodeText_iff)
  have iS : ∀ v, _ := fun v => under_iff (key := gs"request_size") (d := decodeInt wild 0) (dflt := 0) (P := WritesSize) (v := v) hn
    (fun y hy v => decodeInt_iff (fun t x e => hc.size t x (e ▸ hy)))
  have iV : ∀ v, _ := fun v => under_iff (key := gs"encryption_version") (d := decodeNumber env none) (dflt := none) (P := WritesNumber env) (v := v) hn
    (fun y hy v => decodeNumber_iff (fun t e => hc.version t (e ▸ hy)))
  constructor
  · rintro ⟨h, rfl⟩
    obtain ⟨h1, h2, h3⟩ := eF.1 h
    have tS := (iS _).1 ⟨h2, eS.symm⟩
    have tV := (iV _).1 ⟨h3, eV.symm⟩
    have tT : ∀ f ∈ messageTexts, TextUnder kvs f.key (f.get (decodeFields (messageField env wild) {} kvs).1) := fun f hf =>
      (iT f _).1 ⟨h1 f hf, (eT f hf).symm⟩
    simp only [messageTexts, List.forall_mem_cons] at tT
    simp only [Msg.kept, Kept.mk.injEq] at eK
    obtain ⟨t1, t2, t3, t4, t5, t6, t7, t8, t9, t10, t11, t12, t13, t14, t15, t16, t17, t18, t19, t20, t21, -⟩ := tT
    exact ⟨t1, t2, t3, t4, t5, t6, t7, t8, t9, t10, tS, t11, t12, t13, t14, t15, t16, t17, t18, t19, t20, tV, t21, eK⟩
  · rintro ⟨t1, t2, t3, t4, t5, t6, t7, t8, t9, t10, tS, t11, t12, t13, t14, t15, t16, t17, t18, t19, t20, tV, t21, hk⟩
    have tT : ∀ f ∈ messageTexts, TextUnder kvs f.key (f.get m) := by
      simp only [messageTexts, List.forall_mem_cons]
      exact ⟨t1, t2, t3, t4, t5, t6, t7, t8, t9, t10, t11, t12, t13, t14, t15, t16, t17, t18, t19, t20, t21, by simp⟩
    have uT := fun f hf => (iT f _).2 (tT f hf)
    have uS := (iS _).2 tS
    have uV := (iV _).2 tV
    refine ⟨eF.2 ⟨fun f hf => (uT f hf).1, uS.1, uV.1⟩, message_ext (fun f hf => (eT f hf).trans (uT f hf).2) (eS.trans uS.2) (eV.trans uV.2) (eK.trans ?_)⟩
    simp only [Msg.kept, Kept.mk.injEq]
    obtain ⟨k1, k2, k3, k4, k5, k6, k7, k8, k9, k10, k11⟩ := hk
    exact ⟨k1.symm, k2.symm, k3.symm, k4.symm, k5.symm, k6.symm, k7.symm, k8.symm, k9.symm, k10.symm, k11.symm⟩

theorem messageDoc_nil : MessageDoc env [] m ↔ m = {} := by
  rw [← message_iff (env := env) (wild := fun _ => 0) (kvs := []) (by simp) ⟨by simp [HasKey], by simp, by simp⟩]
  simp [decodeFields, eq_comm]

theorem messageOf_iff (hd : Distinct y) (hc : ∀ msg, y = .map msg → ClearMessage msg) :
    ((decodeStruct (messageField env wild) {} {} y).2 = false ∧ (decodeStruct (messageField env wild) {} {} y).1 = m) ↔ MessageOf env y m := by
  cases y with
  | scalar t v =>
    constructor
    · rintro ⟨h1, h2⟩
      cases v with
      | null => simp only [decodeStruct] at h2; subst h2; exact .null _
      | _ => simp [decodeStruct] at h1
    · intro h; cases h; exact ⟨rfl, rfl⟩
  | seq l =>
    constructor
    · rintro ⟨h1, -⟩; simp [decodeStruct] at h1
    · intro h; cases h
  | map kvs =>
    have := message_iff (env := env) (wild := wild) (m := m) (distinct_keys hd).1 (hc kvs rfl)
    constructor
    · intro h; exact .message (this.1 h)
    · intro h
      cases h with
      | message h => exact this.2 h

theorem decodeMessageList_iff : ∀ {l : List Yaml} {ms : List Msg}, (∀ y ∈ l, Distinct y) → (∀ msg, .map msg ∈ l → ClearMessage msg) →
    (((decodeMessageList env wild l).2 = false ∧ (decodeMessageList env wild l).1 = ms) ↔ List.Forall₂ (MessageOf env) l ms)
  | [], ms, _, _ => by simp [decodeMessageList, eq_comm]
  | y :: ys, ms, hd, hc => by
    have h1 := fun m => messageOf_iff (env := env) (wild := wild) (m := m) (hd y (by simp)) (fun msg e => hc msg (by simp [e]))
    have h2 := fun ms => decodeMessageList_iff (l := ys) (ms := ms) (fun z hz => hd z (by simp [hz])) (fun msg h => hc msg (by simp [h]))
    simp only [decodeMessageList, Bool.or_eq_false_iff]
    constructor
    · rintro ⟨⟨a, b⟩, rfl⟩
      exact .cons ((h1 _).1 ⟨a, rfl⟩) ((h2 _).1 ⟨b, rfl⟩)
    · intro h
      cases h with
      | cons a b =>
        obtain ⟨a1, a2⟩ := (h1 _).2 a
        obtain ⟨b1, b2⟩ := (h2 _).2 b
        exact ⟨⟨a1, b1⟩, by rw [a2, b2]⟩

/-- What a document decodes to are the messages that it writes. -/
theorem messagesDoc_iff {ms : List Msg} (hd : Distinct y) (hc : Clear y) :
    decodeStruct (messagesField env wild) [] [] y = (ms, false) ↔ MessagesDoc env y ms := by
  cases y with
  | scalar t v =>
    constructor
    · intro h
      cases v with
      | null => cases h; exact .empty _
      | _ => simp [decodeStruct] at h
    · intro h; cases h; rfl
  | seq l =>
    constructor
    · intro h; simp [decodeStruct] at h
    · intro h; cases h
  | map kvs =>
    obtain ⟨hn, hk⟩ := distinct_keys hd
    have e1 := decodeFields_proj (f := messagesField env wild) (π := id) (key := gs"messages")
      (d := fun b y => (messagesField env wild b gs"messages" y).1) (fun r k y => by
        by_cases h : k = gs"messages"
        · subst h; simp
        · simp [messagesField, h]) (r := []) hn
    have e2 : (decodeFields (messagesField env wild) [] kvs).2 = false ↔ ∀ y, (gs"messages", y) ∈ kvs → (messagesField env wild [] gs"messages" y).2 = false := by
      rw [decodeFields_flag (b := fun k y => (messagesField env wild [] k y).2) (fun r k y => by
        unfold messagesField; split <;> [(split <;> rfl); rfl])]
      constructor
      · intro h y hy; exact h _ hy
      · rintro h ⟨k, y⟩ hx
        by_cases e : k = gs"messages"
        · subst e; exact h y hx
        · simp [messagesField, e]
    have key : decodeStruct (messagesField env wild) [] [] (.map kvs) = (ms, false) ↔
        (decodeFields (messagesField env wild) [] kvs).2 = false ∧ (decodeFields (messagesField env wild) [] kvs).1 = ms := by
      simp only [decodeStruct, Prod.ext_iff]; tauto
    rw [key, e2, show (decodeFields (messagesField env wild) [] kvs).1 = _ from e1]
    simp only [id]
    cases hl : lookup gs"messages" kvs with
    | none =>
      have hno := lookup_none_yaml.1 hl
      constructor
      · rintro ⟨-, rfl⟩; exact .missing hno
      · intro h
        cases h with
        | missing h => exact ⟨fun y hy => absurd ⟨y, hy⟩ hno, rfl⟩
        | null h => exact absurd ⟨_, h⟩ hno
        | messages h => exact absurd ⟨_, h⟩ hno
    | some y =>
      have hm := (lookup_mem_yaml hn).1 hl
      have huniq : ∀ y', (gs"messages", y') ∈ kvs → y' = y := fun y' hy' => by
        have := (lookup_mem_yaml hn).2 hy'
        rw [hl] at this; exact (Option.some.inj this).symm
      have lst : ∀ l, y = .seq l → (((decodeMessageList env wild l).2 = false ∧ (decodeMessageList env wild l).1 = ms) ↔ List.Forall₂ (MessageOf env) l ms) := by
        rintro l rfl
        exact decodeMessageList_iff (distinct_list (hk _ hm)) (fun msg h => hc kvs l msg rfl hm h)
      constructor
      · rintro ⟨h1, h2⟩
        have h1 := h1 y hm
        cases y with
        | scalar t v =>
          cases v with
          | null => simp [messagesField] at h2; subst h2; exact .null hm
          | _ => simp [messagesField] at h1
        | seq l =>
          simp only [messagesField, if_true] at h1 h2
          exact .messages hm ((lst l rfl).1 ⟨h1, h2⟩)
        | map l => simp [messagesField] at h1
      · intro h
        cases h with
        | missing h => exact absurd ⟨y, hm⟩ h
        | null h =>
          have := huniq _ h
          subst this
          exact ⟨fun y' hy' => by rw [huniq y' hy']; rfl, rfl⟩
        | messages h hr =>
          have := huniq _ h
          subst this
          obtain ⟨a, b⟩ := (lst _ rfl).2 hr
          exact ⟨fun y' hy' => by rw [huniq y' hy']; simpa [messagesField] using a, by simpa [messagesField] using b⟩

end Mapl

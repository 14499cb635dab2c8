import Verif.Spec.Identity
import Verif.Spec.Copy
import Verif.Lemmas.Hash
import Verif.Props.Hash
import Verif.Props.Copy
import Verif.Props.Match

/-!
# C67: rules with the same text form
-/

namespace Mapl
open Spec

/-! ## The text form can be read back -/

theorem lower_absent {c : Char} {s : Str} (h1 : Char.toLower c = c) (h2 : ∀ d : Char, d.toLower = c → d = c) (h : c ∉ s) : c ∉ toLower s := by
  intro hc
  obtain ⟨d, hd, e⟩ := List.mem_map.1 hc
  exact h (h2 d e ▸ hd)

theorem toLower_punct {c d : Char} (hc : c.toNat < 91) (h : d.toLower = c) : d = c := by
  unfold Char.toLower at h
  split at h
  · exfalso
    subst h
    rename_i hd
    have h1 : 65 ≤ d.val.toNat := UInt32.le_iff_toNat_le.1 hd.1
    have h2 : d.val.toNat ≤ 90 := UInt32.le_iff_toNat_le.1 hd.2
    have h3 : (d.val + ('a'.val - 'A'.val)).toNat = (d.val.toNat + 32) % 4294967296 := UInt32.toNat_add _ _
    have h4 : (d.val + ('a'.val - 'A'.val)).toNat < 91 := hc
    omega
  · exact h

theorem fields_of_text {r r' : Rule} (hr : PlainFields r) (hr' : PlainFields r') {c c' : Str}
    (h : ruleMainPart r ++ gs"-" ++ c = ruleMainPart r' ++ gs"-" ++ c') :
    toLower r.decision = toLower r'.decision ∧ toLower r.senderType = toLower r'.senderType ∧ r.senderName = r'.senderName ∧
    toLower r.receiverType = toLower r'.receiverType ∧ r.receiverName = r'.receiverName ∧ toLower r.operation = toLower r'.operation ∧
    toLower r.protocol = toLower r'.protocol ∧ r.resourceType = r'.resourceType ∧ r.resourceName = r'.resourceName ∧ c = c' := by
  have lo : ∀ {c : Char} {s : Str}, c.toNat < 91 → c.toLower = c → c ∉ s → c ∉ toLower s := fun h1 h2 h3 => lower_absent h2 (fun d e => toLower_punct h1 e) h3
  simp only [ruleMainPart, List.append_assoc, List.cons_append, List.nil_append, List.cons.injEq, true_and] at h
  obtain ⟨e1, h⟩ := split_unique (lo (by decide) (by decide) hr.decision) (lo (by decide) (by decide) hr'.decision) h
  simp only [List.cons.injEq, true_and] at h
  obtain ⟨e2, h⟩ := split_unique (lo (by decide) (by decide) hr.senderType) (lo (by decide) (by decide) hr'.senderType) h
  obtain ⟨e3, h⟩ := split_unique hr.senderName hr'.senderName h
  simp only [List.cons.injEq, true_and] at h
  obtain ⟨e4, h⟩ := split_unique (lo (by decide) (by decide) hr.receiverType) (lo (by decide) (by decide) hr'.receiverType) h
  obtain ⟨e5, h⟩ := split_unique hr.receiverName hr'.receiverName h
  simp only [List.cons.injEq, true_and] at h
  obtain ⟨e6, h⟩ := split_unique (lo (by decide) (by decide) hr.operation) (lo (by decide) (by decide) hr'.operation) h
  obtain ⟨e7, h⟩ := split_unique (lo (by decide) (by decide) hr.protocol) (lo (by decide) (by decide) hr'.protocol) h
  simp only [List.cons.injEq, true_and] at h
  obtain ⟨e8, h⟩ := split_unique hr.resourceType hr'.resourceType h
  obtain ⟨e9, h⟩ := split_unique hr.resourceName hr'.resourceName h
  simp only [List.cons.injEq, true_and] at h
  exact ⟨e1, e2, e3, e4, e5, e6, e7, e8, e9, h⟩

/-- The first characters of the texts of trees. -/
def Starts (s : Str) : Prop := ∃ c ∈ gs"<(![tf", s.head? = some c

theorem andOrString_head {l : List Str} {sep : Str} (h : ∀ s ∈ l, Starts s) : Starts (andOrString l sep) := by
  match l with
  | [] => exact ⟨'(', by simp, rfl⟩
  | [s] => exact h s (by simp)
  | s :: t :: l => exact ⟨'(', by simp, by simp [andOrString]⟩

mutual
theorem string_head {n : Node} {s : Str} (h : n.string = .ok s) : Starts s := by
  match n with
  | .nil => simp [Node.string] at h
  | .and ns =>
    simp only [Node.string, Go.bind_eq_ok] at h
    obtain ⟨l, hl, h⟩ := h
    simp at h; subst h
    exact andOrString_head (strings_head hl)
  | .or ns =>
    simp only [Node.string, Go.bind_eq_ok] at h
    obtain ⟨l, hl, h⟩ := h
    simp at h; subst h
    exact andOrString_head (strings_head hl)
  | .not n =>
    simp only [Node.string, Go.bind_eq_ok] at h
    obtain ⟨l, hl, h⟩ := h
    simp at h; subst h; exact ⟨'!', by simp, rfl⟩
  | .any a n =>
    simp only [Node.string, Go.bind_eq_ok] at h
    obtain ⟨l, hl, h⟩ := h
    simp [anyAllString] at h; subst h; exact ⟨'[', by simp, rfl⟩
  | .all a n =>
    simp only [Node.string, Go.bind_eq_ok] at h
    obtain ⟨l, hl, h⟩ := h
    simp [anyAllString] at h; subst h; exact ⟨'[', by simp, rfl⟩
  | .tt => simp [Node.string] at h; subst h; exact ⟨'t', by simp, rfl⟩
  | .ff => simp [Node.string] at h; subst h; exact ⟨'f', by simp, rfl⟩
  | .cond c => simp [Node.string, Condition.string] at h; subst h; exact ⟨'<', by simp, rfl⟩

theorem strings_head {ns : List Node} {l : List Str} (h : stringNodes ns = .ok l) : ∀ s ∈ l, Starts s := by
  match ns with
  | [] => simp [stringNodes] at h; subst h; simp
  | n :: ns =>
    simp only [stringNodes, Go.bind_eq_ok] at h
    obtain ⟨s, hs, l', hl, h⟩ := h
    simp at h; subst h
    intro t ht
    rcases List.mem_cons.1 ht with rfl | ht
    · exact string_head hs
    · exact strings_head hl t ht
end

theorem string_conditions {n : Node} {s : Str} (h : n.string = .ok s) : s ≠ gs"no conditions" ∧ s ≠ [] := by
  obtain ⟨c, hc, hs⟩ := string_head h
  constructor
  · rintro rfl
    simp at hs; subst hs
    simp at hc
  · rintro rfl; simp at hs

/-! ## Trees that are alike are prepared alike and mean the same -/

theorem prepareNodes_perm {env : Ext} {t : Predef} {ns ns' : List Node} (h : ns.Perm ns') : ∀ l, prepareNodes env t ns = .ok l →
    ∃ l', prepareNodes env t ns' = .ok l' ∧ l.Perm l' := by
  induction h with
  | nil => intro l hl; exact ⟨l, hl, .refl _⟩
  | cons n hp ih =>
    intro l hl
    simp only [prepareNodes, Go.bind_eq_ok] at hl ⊢
    obtain ⟨q, hq, l1, h1, h2⟩ := hl
    simp at h2; subst h2
    obtain ⟨l', h3, h4⟩ := ih l1 h1
    exact ⟨q :: l', ⟨q, hq, l', h3, rfl⟩, h4.cons _⟩
  | swap a b l =>
    intro l hl
    simp only [prepareNodes, Go.bind_eq_ok] at hl ⊢
    obtain ⟨q, hq, l1, ⟨q', hq', l2, h1, h2⟩, h3⟩ := hl
    simp at h2 h3; subst h2 h3
    exact ⟨q' :: q :: l2, ⟨q', hq', q :: l2, ⟨q, hq, l2, h1, rfl⟩, rfl⟩, .swap _ _ _⟩
  | trans _ _ ih1 ih2 =>
    intro l hl
    obtain ⟨l1, h1, p1⟩ := ih1 l hl
    obtain ⟨l2, h2, p2⟩ := ih2 l1 h1
    exact ⟨l2, h2, p1.trans p2⟩

theorem anyAll_prepare_ret {env : Ext} {a a' : AnyAll} {ret : List RetVal} (h : a.prepare env = .ok a') :
    a'.ret = a.ret ∧ AnyAll.prepare env { a with ret := ret } = .ok { a' with ret := ret } := by
  simp only [AnyAll.prepare, Go.bind_eq_ok] at h ⊢
  obtain ⟨qs, hq, h⟩ := h
  simp at h; subst h
  exact ⟨rfl, qs, hq, rfl⟩

mutual
theorem prepare_alike {env : Ext} {t : Predef} {n n' : Node} : Alike n n' →
    (∀ q, n.prepare env t = .ok q → ∃ q', n'.prepare env t = .ok q' ∧ Alike q q') ∧
    (∀ q', n'.prepare env t = .ok q' → ∃ q, n.prepare env t = .ok q ∧ Alike q q')
  | .refl => ⟨fun q h => ⟨q, h, .refl⟩, fun q h => ⟨q, h, .refl⟩⟩
  | .symm h => ⟨fun q hq => by
      obtain ⟨q', h1, h2⟩ := (prepare_alike h).2 q hq
      exact ⟨q', h1, .symm h2⟩, fun q hq => by
      obtain ⟨q', h1, h2⟩ := (prepare_alike h).1 q hq
      exact ⟨q', h1, .symm h2⟩⟩
  | .trans h h' => ⟨fun q hq => by
      obtain ⟨q1, h1, h2⟩ := (prepare_alike h).1 q hq
      obtain ⟨q2, h3, h4⟩ := (prepare_alike h').1 q1 h1
      exact ⟨q2, h3, .trans h2 h4⟩, fun q hq => by
      obtain ⟨q1, h1, h2⟩ := (prepare_alike h').2 q hq
      obtain ⟨q2, h3, h4⟩ := (prepare_alike h).2 q1 h1
      exact ⟨q2, h3, .trans h4 h2⟩⟩
  | .andOne => ⟨fun q hq => by
      simp only [Node.prepare, prepareNodes, Go.bind_eq_ok] at hq
      obtain ⟨l, ⟨q1, h1, l1, h2, h3⟩, h4⟩ := hq
      simp at h2 h3 h4; subst h2 h3 h4
      exact ⟨q1, h1, .andOne⟩, fun q hq => ⟨.and [q], by simp [Node.prepare, prepareNodes, hq], .andOne⟩⟩
  | .orOne => ⟨fun q hq => by
      simp only [Node.prepare, prepareNodes, Go.bind_eq_ok] at hq
      obtain ⟨l, ⟨q1, h1, l1, h2, h3⟩, h4⟩ := hq
      simp at h2 h3 h4; subst h2 h3 h4
      exact ⟨q1, h1, .orOne⟩, fun q hq => ⟨.or [q], by simp [Node.prepare, prepareNodes, hq], .orOne⟩⟩
  | .andPerm h => ⟨fun q hq => by
      simp only [Node.prepare, Go.bind_eq_ok] at hq ⊢
      obtain ⟨l, h1, h2⟩ := hq
      simp at h2; subst h2
      obtain ⟨l', h3, h4⟩ := prepareNodes_perm h l h1
      exact ⟨.and l', ⟨l', h3, rfl⟩, .andPerm h4⟩, fun q hq => by
      simp only [Node.prepare, Go.bind_eq_ok] at hq ⊢
      obtain ⟨l, h1, h2⟩ := hq
      simp at h2; subst h2
      obtain ⟨l', h3, h4⟩ := prepareNodes_perm h.symm l h1
      exact ⟨.and l', ⟨l', h3, rfl⟩, .andPerm h4.symm⟩⟩
  | .orPerm h => ⟨fun q hq => by
      simp only [Node.prepare, Go.bind_eq_ok] at hq ⊢
      obtain ⟨l, h1, h2⟩ := hq
      simp at h2; subst h2
      obtain ⟨l', h3, h4⟩ := prepareNodes_perm h l h1
      exact ⟨.or l', ⟨l', h3, rfl⟩, .orPerm h4⟩, fun q hq => by
      simp only [Node.prepare, Go.bind_eq_ok] at hq ⊢
      obtain ⟨l, h1, h2⟩ := hq
      simp at h2; subst h2
      obtain ⟨l', h3, h4⟩ := prepareNodes_perm h.symm l h1
      exact ⟨.or l', ⟨l', h3, rfl⟩, .orPerm h4.symm⟩⟩
  | .and h => ⟨fun q hq => by
      simp only [Node.prepare, Go.bind_eq_ok] at hq ⊢
      obtain ⟨l, h1, h2⟩ := hq
      simp at h2; subst h2
      obtain ⟨l', h3, h4⟩ := (prepareNodes_alike h).1 l h1
      exact ⟨.and l', ⟨l', h3, rfl⟩, .and h4⟩, fun q hq => by
      simp only [Node.prepare, Go.bind_eq_ok] at hq ⊢
      obtain ⟨l, h1, h2⟩ := hq
      simp at h2; subst h2
      obtain ⟨l', h3, h4⟩ := (prepareNodes_alike h).2 l h1
      exact ⟨.and l', ⟨l', h3, rfl⟩, .and h4⟩⟩
  | .or h => ⟨fun q hq => by
      simp only [Node.prepare, Go.bind_eq_ok] at hq ⊢
      obtain ⟨l, h1, h2⟩ := hq
      simp at h2; subst h2
      obtain ⟨l', h3, h4⟩ := (prepareNodes_alike h).1 l h1
      exact ⟨.or l', ⟨l', h3, rfl⟩, .or h4⟩, fun q hq => by
      simp only [Node.prepare, Go.bind_eq_ok] at hq ⊢
      obtain ⟨l, h1, h2⟩ := hq
      simp at h2; subst h2
      obtain ⟨l', h3, h4⟩ := (prepareNodes_alike h).2 l h1
      exact ⟨.or l', ⟨l', h3, rfl⟩, .or h4⟩⟩
  | .not h => ⟨fun q hq => by
      simp only [Node.prepare, Go.bind_eq_ok] at hq ⊢
      obtain ⟨l, h1, h2⟩ := hq
      simp at h2; subst h2
      obtain ⟨l', h3, h4⟩ := (prepare_alike h).1 l h1
      exact ⟨.not l', ⟨l', h3, rfl⟩, .not h4⟩, fun q hq => by
      simp only [Node.prepare, Go.bind_eq_ok] at hq ⊢
      obtain ⟨l, h1, h2⟩ := hq
      simp at h2; subst h2
      obtain ⟨l', h3, h4⟩ := (prepare_alike h).2 l h1
      exact ⟨.not l', ⟨l', h3, rfl⟩, .not h4⟩⟩
  | .any (a := a) (ret := ret) hd hr h => ⟨fun q hq => by
      simp only [Node.prepare, Go.bind_eq_ok] at hq ⊢
      obtain ⟨l, h1, a', h2, h5⟩ := hq
      simp at h5; subst h5
      obtain ⟨l', h3, h4⟩ := (prepare_alike h).1 l h1
      obtain ⟨e, ha⟩ := anyAll_prepare_ret (ret := ret) h2
      exact ⟨_, ⟨l', h3, _, ha, rfl⟩, .any (by rw [e]; exact hd) (by rw [e]; exact hr) h4⟩, fun q hq => by
      simp only [Node.prepare, Go.bind_eq_ok] at hq ⊢
      obtain ⟨l, h1, a', h2, h5⟩ := hq
      simp at h5; subst h5
      obtain ⟨l', h3, h4⟩ := (prepare_alike h).2 l h1
      obtain ⟨e, ha⟩ := anyAll_prepare_ret (ret := a.ret) h2
      refine ⟨.any { a' with ret := a.ret } l', ⟨l', h3, _, ha, rfl⟩, ?_⟩
      have : a' = { ({ a' with ret := a.ret } : AnyAll) with ret := ret } := by
        cases a'; simp only at e; subst e; rfl
      rw [this]
      exact .any hd hr h4⟩
  | .all (a := a) (ret := ret) hd hr h => ⟨fun q hq => by
      simp only [Node.prepare, Go.bind_eq_ok] at hq ⊢
      obtain ⟨l, h1, a', h2, h5⟩ := hq
      simp at h5; subst h5
      obtain ⟨l', h3, h4⟩ := (prepare_alike h).1 l h1
      obtain ⟨e, ha⟩ := anyAll_prepare_ret (ret := ret) h2
      exact ⟨_, ⟨l', h3, _, ha, rfl⟩, .all (by rw [e]; exact hd) (by rw [e]; exact hr) h4⟩, fun q hq => by
      simp only [Node.prepare, Go.bind_eq_ok] at hq ⊢
      obtain ⟨l, h1, a', h2, h5⟩ := hq
      simp at h5; subst h5
      obtain ⟨l', h3, h4⟩ := (prepare_alike h).2 l h1
      obtain ⟨e, ha⟩ := anyAll_prepare_ret (ret := a.ret) h2
      refine ⟨.all { a' with ret := a.ret } l', ⟨l', h3, _, ha, rfl⟩, ?_⟩
      have : a' = { ({ a' with ret := a.ret } : AnyAll) with ret := ret } := by
        cases a'; simp only at e; subst e; rfl
      rw [this]
      exact .all hd hr h4⟩

theorem prepareNodes_alike {env : Ext} {t : Predef} {ns ns' : List Node} : AlikeAll ns ns' →
    (∀ l, prepareNodes env t ns = .ok l → ∃ l', prepareNodes env t ns' = .ok l' ∧ AlikeAll l l') ∧
    (∀ l', prepareNodes env t ns' = .ok l' → ∃ l, prepareNodes env t ns = .ok l ∧ AlikeAll l l')
  | .nil => ⟨fun l hl => ⟨l, hl, by simp [prepareNodes] at hl; subst hl; exact .nil⟩, fun l hl => ⟨l, hl, by simp [prepareNodes] at hl; subst hl; exact .nil⟩⟩
  | .cons h hs => ⟨fun l hl => by
      simp only [prepareNodes, Go.bind_eq_ok] at hl ⊢
      obtain ⟨q, hq, l1, h1, h2⟩ := hl
      simp at h2; subst h2
      obtain ⟨q', h3, h4⟩ := (prepare_alike h).1 q hq
      obtain ⟨l', h5, h6⟩ := (prepareNodes_alike hs).1 l1 h1
      exact ⟨_, ⟨q', h3, l', h5, rfl⟩, .cons h4 h6⟩, fun l hl => by
      simp only [prepareNodes, Go.bind_eq_ok] at hl ⊢
      obtain ⟨q, hq, l1, h1, h2⟩ := hl
      simp at h2; subst h2
      obtain ⟨q', h3, h4⟩ := (prepare_alike h).2 q hq
      obtain ⟨l', h5, h6⟩ := (prepareNodes_alike hs).2 l1 h1
      exact ⟨_, ⟨q', h3, l', h5, rfl⟩, .cons h4 h6⟩⟩
end

theorem scopes_ret {env : Env} {p : List Nat} {a : AnyAll} {ret : List RetVal} {m : Msg} : scopes env p { a with ret := ret } m = scopes env p a m := rfl

mutual
theorem sat_alike {env : Ext} {n n' : Node} : Alike n n' → ∀ m, (Sat env n m ↔ Sat env n' m) ∧ (KeySafe env n m ↔ KeySafe env n' m)
  | .refl, _ => ⟨.rfl, .rfl⟩
  | .symm h, m => ⟨(sat_alike h m).1.symm, (sat_alike h m).2.symm⟩
  | .trans h h', m => ⟨(sat_alike h m).1.trans (sat_alike h' m).1, (sat_alike h m).2.trans (sat_alike h' m).2⟩
  | .andOne, _ => by simp [Sat, SatAll, KeySafe, KeySafeAll]
  | .orOne, _ => by simp [Sat, SatSome, KeySafe, KeySafeAll]
  | .andPerm h, _ => by simp [Sat, satAll_iff, KeySafe, keySafeAll_iff, h.mem_iff]
  | .orPerm h, _ => by simp [Sat, satSome_iff, KeySafe, keySafeAll_iff, h.mem_iff]
  | .and h, m => by simpa only [Sat, KeySafe] using ⟨(sats_alike h m).1, (sats_alike h m).2.2⟩
  | .or h, m => by simpa only [Sat, KeySafe] using ⟨(sats_alike h m).2.1, (sats_alike h m).2.2⟩
  | .not h, m => by simpa only [Sat, KeySafe] using ⟨not_congr (sat_alike h m).1, (sat_alike h m).2⟩
  | .any _ _ h, m => by
    simp only [Sat, KeySafe, scopes_ret]
    exact ⟨exists_congr fun l => and_congr_right fun _ => exists_congr fun m' => and_congr_right fun _ => (sat_alike h m').1,
      forall_congr' fun l => imp_congr_right fun _ => forall_congr' fun m' => imp_congr_right fun _ => (sat_alike h m').2⟩
  | .all _ _ h, m => by
    simp only [Sat, KeySafe, scopes_ret]
    exact ⟨exists_congr fun l => and_congr_right fun _ => forall_congr' fun m' => imp_congr_right fun _ => (sat_alike h m').1,
      forall_congr' fun l => imp_congr_right fun _ => forall_congr' fun m' => imp_congr_right fun _ => (sat_alike h m').2⟩

theorem sats_alike {env : Ext} {ns ns' : List Node} : AlikeAll ns ns' → ∀ m, (SatAll env ns m ↔ SatAll env ns' m) ∧ (SatSome env ns m ↔ SatSome env ns' m) ∧
    (KeySafeAll env ns m ↔ KeySafeAll env ns' m)
  | .nil, _ => ⟨.rfl, .rfl, .rfl⟩
  | .cons h hs, m => by
    simp only [SatAll, SatSome, KeySafeAll]
    exact ⟨and_congr (sat_alike h m).1 (sats_alike hs m).1, or_congr (sat_alike h m).1 (sats_alike hs m).2.1,
      and_congr (sat_alike h m).2 (sats_alike hs m).2.2⟩
end

end Mapl

namespace Mapl.Props
open Spec

/-- **C67**, the text: rules with plain fields and trees have the same text exactly when they are the same rule, up to the case of letters and the order
of children. -/
theorem C67_text_partial {env : Ext} {r r' : Rule} (hr : PlainRule env r) (hr' : PlainRule env r') : ruleToString r = ruleToString r' ↔ SameRule r r' := by
  have total : ∀ {r : Rule}, PlainRule env r → ∃ c, ruleConditionsToString r = .ok c := by
    intro r hr
    unfold ruleConditionsToString
    cases h : r.conditions with
    | none => exact ⟨_, rfl⟩
    | some n => exact ⟨_, plain_string (hr.conditions n h)⟩
  constructor
  · intro h
    obtain ⟨c, hc⟩ := total hr
    obtain ⟨c', hc'⟩ := total hr'
    unfold ruleToString at h
    rw [hc, hc'] at h
    have h : ruleMainPart r ++ gs"-" ++ c = ruleMainPart r' ++ gs"-" ++ c' := by simpa using h
    obtain ⟨e1, e2, e3, e4, e5, e6, e7, e8, e9, e⟩ := fields_of_text hr.fields hr'.fields h
    refine ⟨e1, e2, e3, e4, e5, e6, e7, e8, e9, ?_⟩
    subst e
    unfold ruleConditionsToString at hc hc'
    cases h1 : r.conditions with
    | none =>
      cases h2 : r'.conditions with
      | none => exact .inl ⟨rfl, rfl⟩
      | some n =>
        rw [h1] at hc; rw [h2] at hc'
        simp at hc; subst hc
        exact absurd rfl (string_conditions hc').1
    | some n =>
      cases h2 : r'.conditions with
      | none =>
        rw [h1] at hc; rw [h2] at hc'
        simp at hc'; subst hc'
        exact absurd rfl (string_conditions hc).1
      | some n' =>
        rw [h1] at hc; rw [h2] at hc'
        exact .inr ⟨n, n', rfl, rfl, alike_of_string (hr.conditions n h1) (hr'.conditions n' h2) (hc.trans hc'.symm)⟩
  · rintro ⟨e1, e2, e3, e4, e5, e6, e7, e8, e9, e⟩
    have hm : ruleMainPart r = ruleMainPart r' := by
      unfold SameUpToCase at *
      simp only [ruleMainPart, toLower]
      rw [e1, e2, e3, e4, e5, e6, e7, e8, e9]
    unfold ruleToString
    rw [hm]
    have hc : ruleConditionsToString r = ruleConditionsToString r' := by
      unfold ruleConditionsToString
      rcases e with ⟨h1, h2⟩ | ⟨n, n', h1, h2, h⟩
      · rw [h1, h2]
      · rw [h1, h2]; exact string_alike h
    rw [hc]

theorem partsMatch_of {env : Ext} {r r' : Rule} {m : Msg} (h1 : r.senderList = r'.senderList) (h2 : r.receiverList = r'.receiverList)
    (h3 : r.operationRegex = r'.operationRegex) (h4 : SameProtocol r.protocol r'.protocol) (h5 : r.resourceType = r'.resourceType)
    (h6 : r.resourceNameRegex = r'.resourceNameRegex) : PartsMatch env r m ↔ PartsMatch env r' m := by
  obtain ⟨h7, h8, h9⟩ := h4
  have hres : ResourceMatches env r m ↔ ResourceMatches env r' m := by
    unfold ResourceMatches SameUpToCase at *
    rw [h5, h6, h9]
    simp only [h7, h8]
  constructor <;> rintro ⟨a, b, c, d⟩
  · exact ⟨h1 ▸ a, h2 ▸ b, h3 ▸ c, hres.1 d⟩
  · exact ⟨h1 ▸ a, h2 ▸ b, h3 ▸ c, hres.2 d⟩

/-- Two rules give the same result if their fields are the same as far as matching is concerned. -/
theorem same_result {env : Env} (ho : env.OrdOk) {r r' : RuleObj} {g : Predef} {p p' : List Nat} {m : Msg} {o o' : RuleOut}
    (hf : Fresh r) (hf' : Fresh r')
    (hk : ∀ n q, r.body.conditions = some n → n.prepare env.toExt g = .ok q → KeySafe env.toExt q m)
    (hc : ∀ n, r.body.conditions = some n → Copyable env.toExt n) (hc' : ∀ n, r'.body.conditions = some n → Copyable env.toExt n)
    (f1 : decisionOf r.body.decision = decisionOf r'.body.decision) (f2 : r.body.senderType = r'.body.senderType)
    (f3 : r.body.receiverType = r'.body.receiverType)
    (f4 : convertOperationStringToRegex r.body.operation = convertOperationStringToRegex r'.body.operation)
    (f5 : SameProtocol r.body.protocol r'.body.protocol) (f6 : r.body.senderName = r'.body.senderName) (f7 : r.body.receiverName = r'.body.receiverName)
    (f8 : r.body.resourceType = r'.body.resourceType) (f9 : r.body.resourceName = r'.body.resourceName)
    (f10 : r.body.conditions = none ∧ r'.body.conditions = none ∨
      ∃ n n', r.body.conditions = some n ∧ r'.body.conditions = some n' ∧ Alike n n')
    (h : r.check env g p m = .ok o) (h' : r'.check env g p' m = .ok o') : o.result = o'.result := by
  obtain ⟨r1, q, a1, a2, a3, a4, a5, a6⟩ := fresh_prepared hf h
  obtain ⟨r1', q', b1, b2, b3, b4, b5, b6⟩ := fresh_prepared hf' h'
  have conds : ∀ {r r1 : RuleObj} {q : Rule} {p : List Nat}, r.body.converted = false → (∀ n, r.body.conditions = some n → Copyable env.toExt n) →
      r.setPredefined env p g = .ok (r1, none) → r1.prepared = some q → ∃ s v sl rl op re,
      replaceName r.body.senderName g = .ok s ∧ replaceName r.body.receiverName g = .ok v ∧
      convertStringToExpandedSenderReceiver env.toExt s r.body.senderType = .ok sl ∧
      convertStringToExpandedSenderReceiver env.toExt v r.body.receiverType = .ok rl ∧
      compile env.toExt (convertOperationStringToRegex r.body.operation) = some op ∧
      compile env.toExt (convertStringToRegex r.body.resourceName gs"WithWildcards") = some re ∧
      ((r.body.conditions = none ∧ q.conditions = none) ∨
        ∃ n n', r.body.conditions = some n ∧ n.prepare env.toExt g = .ok n' ∧ q.conditions = some n') ∧
      q.senderList = sl ∧ q.receiverList = rl ∧ q.operationRegex = some op ∧ q.resourceNameRegex = some re := by
    intro r r1 q p hconv hc h1 h2
    obtain ⟨copy, rule, c1, c2, rfl⟩ := setPredefined_ok h1
    simp at h2; subst h2
    obtain ⟨c, c3, rfl⟩ := copyRule_ok c1
    have hcc : c = r.body.conditions := by
      cases hn : r.body.conditions with
      | none => rw [hn, C44_empty] at c3; injection c3 with c3; exact c3.symm
      | some n => rw [hn, C44_partial ho (hc n hn)] at c3; injection c3 with c3; exact c3.symm
    subst hcc
    obtain ⟨s, v, sl, rl, op, re, d1, d2, d3, d4, d5, d6, d7, d8⟩ := prepareOneRule_ok (by simpa using hconv) c2
    exact ⟨s, v, sl, rl, op, re, d1, d2, d3, d4, d5, d6, d7, by rw [d8], by rw [d8], by rw [d8], by rw [d8]⟩
  obtain ⟨s, v, sl, rl, op, re, d1, d2, d3, d4, d5, d6, d7, d8, d9, d10, d11⟩ := conds hf.converted hc a1 a3
  obtain ⟨s', v', sl', rl', op', re', e1, e2, e3, e4, e5, e6, e7, e8, e9, e10, e11⟩ := conds hf'.converted hc' b1 b3
  rw [← f6, d1] at e1; injection e1 with e1; subst e1
  rw [← f7, d2] at e2; injection e2 with e2; subst e2
  rw [← f2, d3] at e3; injection e3 with e3; subst e3
  rw [← f3, d4] at e4; injection e4 with e4; subst e4
  rw [← f4, d5] at e5; injection e5 with e5; subst e5
  rw [← f9, d6] at e6; injection e6 with e6; subst e6
  have hp : PartsMatch env.toExt q m ↔ PartsMatch env.toExt q' m := partsMatch_of (d8.trans e8.symm) (d9.trans e9.symm) (d10.trans e10.symm)
    (by rw [a5.protocol, b5.protocol]; exact f5) (by rw [a5.resourceType, b5.resourceType, f8]) (d11.trans e11.symm)
  have hcond : RuleKeySafe env.toExt q m ∧ RuleKeySafe env.toExt q' m ∧ (ConditionsSat env.toExt q m ↔ ConditionsSat env.toExt q' m) := by
    rcases f10 with ⟨n1, n2⟩ | ⟨n, n', n1, n2, al⟩
    · have z1 := a5.noConditions n1
      have z2 := b5.noConditions n2
      simp [RuleKeySafe, ConditionsSat, z1, z2]
    · rcases d7 with ⟨x, _⟩ | ⟨x, x', x1, x2, x3⟩
      · simp [n1] at x
      · rcases e7 with ⟨y, _⟩ | ⟨y, y', y1, y2, y3⟩
        · simp [n2] at y
        · rw [n1] at x1; injection x1 with x1; subst x1
          rw [n2] at y1; injection y1 with y1; subst y1
          obtain ⟨y'', z1, z2⟩ := (prepare_alike al).1 x' x2
          rw [y2] at z1; injection z1 with z1; subst z1
          have hks := hk n x' n1 x2
          have hal := sat_alike (env := env.toExt) z2 m
          refine ⟨fun w hw => ?_, fun w hw => ?_, ?_⟩
          · rw [x3] at hw; injection hw with hw; subst hw; exact hks
          · rw [y3] at hw; injection hw with hw; subst hw; exact hal.2.1 hks
          · simp [ConditionsSat, x3, y3, hal.1]
  obtain ⟨k1, k2, k3⟩ := hcond
  have c1 := C09_rule_applies ho a2 a3 a4 k1 a6
  have c2 := C09_rule_applies ho b2 b3 b4 k2 b6
  have ha : Applies env.toExt q m ↔ Applies env.toExt q' m := and_congr hp k3
  by_cases hq : Applies env.toExt q m
  · rw [c1.1 hq, c2.1 (ha.1 hq), a5.decision, b5.decision, f1]
  · rw [(c1.2 hq).1, (c2.2 (fun x => hq (ha.2 x))).1]

/-- **C67**, the decisions: rules with the same text decide the same on every message, if they are plain, in lower case and can be copied. Missing: rules
for which the text form loses what they mean, see `C67_violated`. The first two hypotheses about orders and entries are those of C09. -/
theorem C67_partial {env : Env} (ho : env.OrdOk) {r r' : RuleObj} {g : Predef} {p p' : List Nat} {m : Msg} {o o' : RuleOut}
    (hf : Fresh r) (hf' : Fresh r')
    (hk : ∀ n q, r.body.conditions = some n → n.prepare env.toExt g = .ok q → KeySafe env.toExt q m)
    (hr : PlainRule env.toExt r.body) (hr' : PlainRule env.toExt r'.body) (hl : LowerCase r.body) (hl' : LowerCase r'.body)
    (hc : ∀ n, r.body.conditions = some n → Copyable env.toExt n) (hc' : ∀ n, r'.body.conditions = some n → Copyable env.toExt n)
    (ht : ruleToString r.body = ruleToString r'.body) (h : r.check env g p m = .ok o) (h' : r'.check env g p' m = .ok o') :
    o.result = o'.result := by
  have hs := (C67_text_partial hr hr').1 ht
  have f1 : r.body.decision = r'.body.decision := by rw [← hl.decision, ← hl'.decision]; exact hs.decision
  have f2 : r.body.senderType = r'.body.senderType := by rw [← hl.senderType, ← hl'.senderType]; exact hs.senderType
  have f3 : r.body.receiverType = r'.body.receiverType := by rw [← hl.receiverType, ← hl'.receiverType]; exact hs.receiverType
  have f4 : r.body.operation = r'.body.operation := by rw [← hl.operation, ← hl'.operation]; exact hs.operation
  have f5 : r.body.protocol = r'.body.protocol := by rw [← hl.protocol, ← hl'.protocol]; exact hs.protocol
  exact same_result ho hf hf' hk hc hc' (by rw [f1]) f2 f3 (by rw [f4]) (by rw [f5]; exact ⟨.rfl, .rfl, rfl⟩) hs.senderName hs.receiverName
    hs.resourceType hs.resourceName hs.conditions h h'

/-- **C67** for hashes: the same with equal MD5 sums, if the sums of the two texts do not collide. -/
theorem C67_hash_partial {env : Env} (ho : env.OrdOk) {r r' : RuleObj} {g : Predef} {p p' : List Nat} {m : Msg} {o o' : RuleOut}
    (hf : Fresh r) (hf' : Fresh r')
    (hk : ∀ n q, r.body.conditions = some n → n.prepare env.toExt g = .ok q → KeySafe env.toExt q m)
    (hr : PlainRule env.toExt r.body) (hr' : PlainRule env.toExt r'.body) (hl : LowerCase r.body) (hl' : LowerCase r'.body)
    (hc : ∀ n, r.body.conditions = some n → Copyable env.toExt n) (hc' : ∀ n, r'.body.conditions = some n → Copyable env.toExt n)
    (hmd : ∀ s s', ruleToString r.body = .ok s → ruleToString r'.body = .ok s' → env.md5 s = env.md5 s' → s = s')
    {x : Str} (hx : ruleMD5Hash env.toExt r.body = .ok x) (hx' : ruleMD5Hash env.toExt r'.body = .ok x)
    (h : r.check env g p m = .ok o) (h' : r'.check env g p' m = .ok o') : o.result = o'.result := by
  refine C67_partial ho hf hf' hk hr hr' hl hl' hc hc' ?_ h h'
  obtain ⟨s, h1, h2⟩ := Go.map_eq_ok.1 hx
  obtain ⟨s', h3, h4⟩ := Go.map_eq_ok.1 hx'
  rw [h1, h3, hmd s s' h1 h3 (h2.trans h4.symm)]

theorem plain_condition {env : Ext} {a m v : Str} (hm : m ∈ allMethods) (ha : ∀ m ∈ allMethods, contains (a ++ gs"-") (gs"-" ++ m ++ gs"-") = false)
    (hv : contains v gs"> " = false ∧ contains v gs">)" = false ∧ contains v gs">]" = false) : Plain env (condNode env a m v none) := by
  refine .cond hm (fun m' hm' h => ?_) ?_
  · have := ha m' hm'
    rw [← Bool.not_eq_true, contains_iff] at this
    obtain ⟨x, y, h⟩ := h
    exact this ⟨x, y, h.symm⟩
  · rintro x c y rfl hc
    have : ∀ c, ∃ a b, x ++ '>' :: c :: y = a ++ ['>', c] ++ b := fun c => ⟨x, y, by simp⟩
    simp only [← Bool.not_eq_true, contains_iff] at hv
    simp only [List.mem_cons, List.not_mem_nil, or_false] at hc
    rcases hc with rfl | rfl | rfl
    · exact hv.1 (this _)
    · exact hv.2.1 (this _)
    · exact hv.2.2 (this _)

theorem copyable_condition {env : Ext} {a m v : Str} (h : ∃ c', validateOneCondition env { attr := a, method := m, value := v } = .ok c') (ha : NoControl a)
    (hv : NoControl v) : Copyable env (condNode env a m v none) := by
  obtain ⟨c', h⟩ := h
  exact .cond (validateOneCondition_iff.1 h).1 ha hv (by simp)

def kindIs : Node := condNode Demo.env gs"jsonpath:$.kind" gs"EQ" gs"Pod" none
def sizeIs : Node := condNode Demo.env gs"payloadSize" gs"GT" gs"10" none

set_option maxRecDepth 20000 in
/-- A rule with two conditions, in the one order and in the other. -/
example : ∃ r r' : RuleObj, r.body.conditions = some (.and [kindIs, sizeIs]) ∧ r'.body.conditions = some (.and [sizeIs, kindIs]) ∧ Fresh r ∧ Fresh r' ∧
    PlainRule Demo.ext r.body ∧ PlainRule Demo.ext r'.body ∧ LowerCase r.body ∧ LowerCase r'.body ∧
    (∀ n, r.body.conditions = some n → Copyable Demo.ext n) ∧ (∀ n, r'.body.conditions = some n → Copyable Demo.ext n) ∧
    (∀ n q, r.body.conditions = some n → n.prepare Demo.ext {} = .ok q → KeySafe Demo.ext q { Demo.msgI with requestSize := 20 }) ∧
    ruleToString r.body = ruleToString r'.body ∧
    (∃ o, r.check Demo.env {} [] { Demo.msgI with requestSize := 20 } = .ok o ∧ o.result = 3) ∧
    (∃ o, r'.check Demo.env {} [] { Demo.msgI with requestSize := 20 } = .ok o ∧ o.result = 3) := by
  have p1 : Plain Demo.ext kindIs := plain_condition (by decide) (by decide +kernel) (by decide +kernel)
  have p2 : Plain Demo.ext sizeIs := plain_condition (by decide) (by decide +kernel) (by decide +kernel)
  have c1 : Copyable Demo.ext kindIs := copyable_condition ⟨_, rfl⟩ (by unfold NoControl; decide) (by unfold NoControl; decide)
  have c2 : Copyable Demo.ext sizeIs := copyable_condition ⟨_, rfl⟩ (by unfold NoControl; decide) (by unfold NoControl; decide)
  have pf : ∀ n, PlainFields (Demo.rule gs"block" n).body := fun n =>
    ⟨by simp [Demo.rule], by simp [Demo.rule], by simp [Demo.rule], by simp [Demo.rule], by simp [Demo.rule], by simp [Demo.rule], by simp [Demo.rule],
      by simp [Demo.rule], by simp [Demo.rule]⟩
  refine ⟨Demo.rule gs"block" (some (.and [kindIs, sizeIs])), Demo.rule gs"block" (some (.and [sizeIs, kindIs])), rfl, rfl, ⟨rfl, rfl, rfl⟩, ⟨rfl, rfl, rfl⟩,
    ⟨pf _, ?_⟩, ⟨pf _, ?_⟩, ⟨rfl, rfl, rfl, rfl, rfl⟩, ⟨rfl, rfl, rfl, rfl, rfl⟩, ?_, ?_, ?_, ?_, ⟨_, rfl, by decide +kernel⟩, ⟨_, rfl, by decide +kernel⟩⟩
  · rintro n ⟨⟩; exact .and (by simp) (by simp [p1, p2])
  · rintro n ⟨⟩; exact .and (by simp) (by simp [p1, p2])
  · rintro n ⟨⟩; exact .and (by simp) (by simp [c1, c2])
  · rintro n ⟨⟩; exact .and (by simp) (by simp [c1, c2])
  · rintro n q ⟨⟩ hq
    have key : (match (Node.and [kindIs, sizeIs]).prepare Demo.ext {} with | .ok q => decide (NoEntryLeaf q) | _ => true) = true := by decide +kernel
    rw [hq] at key
    exact noEntryLeaf_safe _ _ _ (of_decide_eq_true key)
  · decide +kernel

/-- A rule with the given type of the sender. -/
def fromType (t : Str) : RuleObj := { Demo.rule gs"block" with body := { (Demo.rule gs"block").body with senderType := t } }

set_option maxRecDepth 20000 in
/-- **C67** fails: two rules with the same text and hash, one of which blocks a message while the other never matches anything — the text form ignores the case
of the type of the sender, matching does not. -/
theorem C67_violated : ruleToString (fromType gs"Workload").body = ruleToString (fromType gs"workload").body ∧
    (∃ x, ruleMD5Hash Demo.env.toExt (fromType gs"Workload").body = .ok x ∧ ruleMD5Hash Demo.env.toExt (fromType gs"workload").body = .ok x) ∧
    (∃ o, (fromType gs"workload").check Demo.env {} [] Demo.msgI = .ok o ∧ o.result = 3) ∧
    (∃ o, (fromType gs"Workload").check Demo.env {} [] Demo.msgI = .ok o ∧ o.result = 0) := by
  refine ⟨by decide +kernel, ⟨_, rfl, by decide +kernel⟩, ⟨_, rfl, by decide +kernel⟩, ⟨_, rfl, by decide +kernel⟩⟩

/-- A rule with the given operation and protocol. -/
def withOperation (op proto : Str) : Rule := { (Demo.rule gs"block").body with operation := op, protocol := proto }

/-- **C67** fails for the text, too: a dash in the operation can be read as the end of it. -/
theorem C67_violated_text : ruleToString (withOperation gs"m-search" gs"*") = ruleToString (withOperation gs"m" gs"search-*") ∧
    ¬ SameRule (withOperation gs"m-search" gs"*") (withOperation gs"m" gs"search-*") := by
  refine ⟨by decide +kernel, fun h => ?_⟩
  have := h.operation
  exact absurd this (by unfold SameUpToCase; decide)

end Mapl.Props

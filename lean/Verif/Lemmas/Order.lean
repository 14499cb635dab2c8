import Verif.Lemmas.Tree
import Verif.Lemmas.Reroot

/-! # What does not depend on map iteration order -/

namespace Mapl

open Spec

/-- Two executions with the same libraries. -/
structure SameExt (env env' : Env) : Prop where
  ext : env'.toExt = env.toExt
  ord : env.OrdOk
  ord' : env'.OrdOk

theorem SameExt.symm {env env' : Env} (h : SameExt env env') : SameExt env' env := ⟨h.ext.symm, h.ord', h.ord⟩

theorem SameExt.perm {env env' : Env} (h : SameExt env env') {α : Type} (p p' : List Nat) (l : List α) :
    (env.ord p l).Perm (env'.ord p' l) := (h.ord p l).trans (h.ord' p' l).symm

theorem plain_ordOk (env : Ext) : (plain env).OrdOk := fun _ _ => List.Perm.refl _

theorem SameExt.plain {env : Env} (h : env.OrdOk) : SameExt env (plain env) := ⟨rfl, h, plain_ordOk _⟩

variable {env env' : Env}

theorem arrangeArray_perm (h : SameExt env env') (p p' : List Nat) (d : Json) {l : List Json}
    (hl : arrangeArray env p d = .ok l) : ∃ l', arrangeArray env' p' d = .ok l' ∧ l.Perm l' := by
  cases d <;> simp [arrangeArray] at hl ⊢
  · exact hl
  · subst hl; exact List.Perm.refl _
  · subst hl; exact (h.perm p p' _).map _

theorem queryElements_perm (h : SameExt env env') (p p' : List Nat) (d : Option Json) :
    ∀ (qs : List JPath) (j j' : Nat) (l : List Json), queryElements env p d j qs = .ok l →
      ∃ l', queryElements env' p' d j' qs = .ok l' ∧ l.Perm l'
  | [], _, _, l, hl => by
    simp [queryElements] at hl; subst hl
    exact ⟨[], rfl, List.Perm.refl _⟩
  | q :: qs, j, j', l, hl => by
    simp only [queryElements, Go.bind_eq_ok] at hl
    obtain ⟨doc, hd, a, ha, rest, hr, hl⟩ := hl
    simp at hl; subst hl
    obtain ⟨a', ha', hpa⟩ := arrangeArray_perm h _ (0 :: j' :: p') _ ha
    obtain ⟨r', hr', hpr⟩ := queryElements_perm h p p' d qs (j + 1) (j' + 1) rest hr
    refine ⟨a' ++ r', ?_, hpa.append hpr⟩
    simp only [queryElements, hd, Go.ok_bind, h.ext, ha', hr', Go.pure_eq]

theorem getArrayOfInterfaces_perm (h : SameExt env env') (p p' : List Nat) (a : AnyAll) (m : Msg) {l : List Json}
    (hl : getArrayOfInterfaces env p a m = .ok l) :
    ∃ l', getArrayOfInterfaces env' p' a m = .ok l' ∧ l.Perm l' := by
  unfold getArrayOfInterfaces at hl ⊢
  split at hl
  · next h1 =>
    rw [if_pos h1]
    split at hl
    · next h2 =>
      rw [if_pos h2]
      simp only [Go.bind_eq_ok] at hl
      obtain ⟨d, hd, hl⟩ := hl
      simp only [hd, Go.ok_bind]
      cases d <;> simp at hl ⊢
      subst hl
      exact (h.perm _ _ _).map _
    · next h2 =>
      rw [if_neg h2]
      exact queryElements_perm h p p' _ _ _ _ _ hl
  · next h1 =>
    rw [if_neg h1]
    exact queryElements_perm h p p' _ _ _ _ _ hl

theorem getArrayOfJsons_perm (h : SameExt env env') (p p' : List Nat) (a : AnyAll) (m : Msg) :
    (getArrayOfJsons env p a m = .ok none → getArrayOfJsons env' p' a m = .ok none) ∧
    ∀ l, getArrayOfJsons env p a m = .ok (some l) → ∃ l', getArrayOfJsons env' p' a m = .ok (some l') ∧ l.Perm l' := by
  unfold getArrayOfJsons
  rw [h.ext]
  cases h1 : collectJsons env.toExt m [] true a.parentArr with
  | error e => simp
  | ok x =>
    simp only [Go.ok_bind]
    cases x with
    | none => simp
    | some data =>
      simp only
      cases h2 : getArrayFromArrayOfArrays env.toExt data with
      | error e => simp
      | ok y =>
        simp only [Go.ok_bind]
        cases y with
        | none => simp
        | some s =>
          simp only
          cases h3 : getArrayOfJsonsFromInterfaceArray s with
          | some l => simp
          | none =>
            simp only [getArrayOfJsonsFromMap, h.ext, Go.pure_eq]
            cases h4 : unmarshalMap env.toExt s with
            | none => simp
            | some kvs =>
              simp only [Except.ok.injEq, Option.some.injEq]
              refine ⟨by simp, ?_⟩
              rintro l rfl
              exact ⟨_, rfl, (h.perm _ _ _).map _⟩

theorem scopes_perm (h : SameExt env env') (p p' : List Nat) (a : AnyAll) (m : Msg) {l : List Msg}
    (hl : scopes env p a m = .ok (some l)) : ∃ l', scopes env' p' a m = .ok (some l') ∧ l.Perm l' := by
  unfold scopes at hl ⊢
  split at hl
  · next hc =>
    rw [if_pos hc]
    rw [Go.map_eq_ok] at hl
    obtain ⟨l1, h1, hl⟩ := hl
    simp at hl; subst hl
    obtain ⟨l2, h2, hp⟩ := getArrayOfInterfaces_perm h p p' a m h1
    exact ⟨_, by rw [h2]; rfl, hp.map _⟩
  · next hc =>
    rw [if_neg hc]
    rw [Go.map_eq_ok] at hl
    obtain ⟨l1, h1, hl⟩ := hl
    cases l1 with
    | none => simp at hl
    | some l1 =>
      simp at hl; subst hl
      obtain ⟨l2, h2, hp⟩ := (getArrayOfJsons_perm h p p' a m).2 _ h1
      exact ⟨_, by rw [h2]; rfl, hp.map _⟩

theorem scopes_none (h : SameExt env env') (p p' : List Nat) (a : AnyAll) (m : Msg)
    (hl : scopes env p a m = .ok none) : scopes env' p' a m = .ok none := by
  unfold scopes at hl ⊢
  split at hl
  · next hc =>
    rw [Go.map_eq_ok] at hl
    obtain ⟨l1, h1, hl⟩ := hl
    simp at hl
  · next hc =>
    rw [if_neg hc]
    rw [Go.map_eq_ok] at hl
    obtain ⟨l1, h1, hl⟩ := hl
    cases l1 with
    | some l1 => simp at hl
    | none => rw [(getArrayOfJsons_perm h p p' a m).1 h1]; rfl

theorem ord_short {α : Type} (h : SameExt env env') (p p' : List Nat) {l : List α} (hl : l.length ≤ 1) :
    env'.ord p' l = env.ord p l := by
  have h1 := h.ord p l
  have h2 := h.ord' p' l
  match l, hl with
  | [], _ => rw [List.perm_nil.1 h1, List.perm_nil.1 h2]
  | [x], _ => rw [List.perm_singleton.1 h1, List.perm_singleton.1 h2]

theorem testOneCondition_order (h : SameExt env env') (p p' : List Nat) {c : Condition} {m : Msg} (hs : LeafSafe c m) :
    testOneCondition env' p' c m = testOneCondition env p c m := by
  have hflag : testJsonpathFlag env' p' c m = testJsonpathFlag env p c m := by
    unfold testJsonpathFlag
    rw [h.ext]
    split
    · unfold testJsonpathOnInterface
      rw [h.ext]
      split
      · rfl
      · split
        · next hrel =>
          cases hr : m.rawIRel with
          | none => rfl
          | some rel =>
            simp only
            split
            · next hq =>
              have : getKeyValueFromInterface env' p' c rel = getKeyValueFromInterface env p c rel := by
                unfold getKeyValueFromInterface
                cases rel <;> try rfl
                next kvs =>
                  have hlen : kvs.length ≤ 1 := by
                    apply hs _ kvs hr
                    simp only [Condition.asksEntry, hrel, Bool.true_and, Bool.or_eq_true, beq_iff_eq]
                    exact hq
                  simp only [ord_short h p p' hlen, h.ext]
              rw [this]
            · rfl
        · rfl
    · rfl
  unfold testOneCondition
  simp only [hflag, h.ext]

mutual
theorem holds_sat (env : Env) (ho : env.OrdOk) : ∀ (n : Node) (p : List Nat) (m : Msg), KeySafe env n m →
    (Holds env n p m ↔ Sat env n m)
  | .nil, _, _, _ => by simp [Holds, Sat]
  | .and ns, p, m, h => by simp only [Holds, Sat]; exact holdsAll_sat env ho ns p 1 m (by simpa [KeySafe] using h)
  | .or ns, p, m, h => by simp only [Holds, Sat]; exact holdsSome_sat env ho ns p 1 m (by simpa [KeySafe] using h)
  | .not n, p, m, h => by
    simp only [Holds, Sat]
    rw [holds_sat env ho n (1 :: p) m (by simpa [KeySafe] using h)]
  | .any a n, p, m, h => by
    simp only [KeySafe] at h
    simp only [Holds, Sat]
    constructor
    · rintro ⟨l, hl, i, m', hi, hh⟩
      obtain ⟨l', hl', hp⟩ := scopes_perm (.plain ho) p [] a m hl
      have hm' : m' ∈ l' := hp.mem_iff.1 (List.mem_of_getElem? hi)
      exact ⟨l', hl', m', hm', (holds_sat env ho n _ m' (h l' hl' m' hm')).1 hh⟩
    · rintro ⟨l', hl', m', hm', hs⟩
      obtain ⟨l, hl, hp⟩ := scopes_perm (SameExt.plain ho).symm [] p a m hl'
      obtain ⟨i, hi, rfl⟩ := List.mem_iff_getElem.1 (hp.mem_iff.1 hm')
      exact ⟨l, hl, i, l[i], List.getElem?_eq_getElem hi, (holds_sat env ho n _ _ (h l' hl' _ hm')).2 hs⟩
  | .all a n, p, m, h => by
    simp only [KeySafe] at h
    simp only [Holds, Sat]
    constructor
    · rintro ⟨l, hl, hall⟩
      obtain ⟨l', hl', hp⟩ := scopes_perm (.plain ho) p [] a m hl
      refine ⟨l', hl', fun m' hm' => ?_⟩
      obtain ⟨i, hi, rfl⟩ := List.mem_iff_getElem.1 (hp.mem_iff.2 hm')
      exact (holds_sat env ho n _ _ (h l' hl' _ hm')).1 (hall i _ (List.getElem?_eq_getElem hi))
    · rintro ⟨l', hl', hall⟩
      obtain ⟨l, hl, hp⟩ := scopes_perm (SameExt.plain ho).symm [] p a m hl'
      refine ⟨l, hl, fun i m' hi => ?_⟩
      have hm' : m' ∈ l' := hp.mem_iff.2 (List.mem_of_getElem? hi)
      exact (holds_sat env ho n _ _ (h l' hl' _ hm')).2 (hall m' hm')
  | .tt, _, _, _ => by simp [Holds, Sat]
  | .ff, _, _, _ => by simp [Holds, Sat]
  | .cond c, p, m, h => by
    simp only [Holds, Sat]
    rw [testOneCondition_order (.plain ho) (0 :: 0 :: p) [] (by simpa [KeySafe] using h)]

theorem holdsAll_sat (env : Env) (ho : env.OrdOk) : ∀ (ns : List Node) (p : List Nat) (i : Nat) (m : Msg),
    KeySafeAll env ns m → (HoldsAll env ns p i m ↔ SatAll env ns m)
  | [], _, _, _, _ => by simp [HoldsAll, SatAll]
  | n :: ns, p, i, m, h => by
    simp only [KeySafeAll] at h
    simp only [HoldsAll, SatAll, holds_sat env ho n (i :: p) m h.1, holdsAll_sat env ho ns p (i + 1) m h.2]

theorem holdsSome_sat (env : Env) (ho : env.OrdOk) : ∀ (ns : List Node) (p : List Nat) (i : Nat) (m : Msg),
    KeySafeAll env ns m → (HoldsSome env ns p i m ↔ SatSome env ns m)
  | [], _, _, _, _ => by simp [HoldsSome, SatSome]
  | n :: ns, p, i, m, h => by
    simp only [KeySafeAll] at h
    simp only [HoldsSome, SatSome, holds_sat env ho n (i :: p) m h.1, holdsSome_sat env ho ns p (i + 1) m h.2]
end

mutual
theorem noEntryLeaf_safe (env : Ext) : ∀ (n : Node) (m : Msg), NoEntryLeaf n → KeySafe env n m
  | .nil, _, _ => trivial
  | .and ns, m, h => noEntryLeaves_safe env ns m (by simpa [NoEntryLeaf] using h)
  | .or ns, m, h => noEntryLeaves_safe env ns m (by simpa [NoEntryLeaf] using h)
  | .not n, m, h => noEntryLeaf_safe env n m (by simpa [NoEntryLeaf] using h)
  | .any a n, m, h => fun _ _ m' _ => noEntryLeaf_safe env n m' (by simpa [NoEntryLeaf] using h)
  | .all a n, m, h => fun _ _ m' _ => noEntryLeaf_safe env n m' (by simpa [NoEntryLeaf] using h)
  | .tt, _, _ => trivial
  | .ff, _, _ => trivial
  | .cond c, m, h => by
    simp only [NoEntryLeaf] at h
    intro hc
    simp [h] at hc

theorem noEntryLeaves_safe (env : Ext) : ∀ (ns : List Node) (m : Msg), NoEntryLeaves ns → KeySafeAll env ns m
  | [], _, _ => trivial
  | n :: ns, m, h => by
    simp only [NoEntryLeaves] at h
    exact ⟨noEntryLeaf_safe env n m h.1, noEntryLeaves_safe env ns m h.2⟩
end

theorem eval_sat {env : Env} (ho : env.OrdOk) {n : Node} {p : List Nat} {m : Msg} {o : EvalOut} (hk : KeySafe env n m)
    (h : eval env n p m = .ok o) : o.flag = true ↔ Sat env n m :=
  (eval_holds env n p m o h).trans (holds_sat env ho n p m hk)

theorem satAll_iff (env : Ext) (ns : List Node) (m : Msg) : SatAll env ns m ↔ ∀ n ∈ ns, Sat env n m := by
  induction ns with
  | nil => simp [SatAll]
  | cons n ns ih => simp [SatAll, ih]

theorem satSome_iff (env : Ext) (ns : List Node) (m : Msg) : SatSome env ns m ↔ ∃ n ∈ ns, Sat env n m := by
  induction ns with
  | nil => simp [SatSome]
  | cons n ns ih => simp [SatSome, ih]

theorem keySafeAll_iff (env : Ext) (ns : List Node) (m : Msg) : KeySafeAll env ns m ↔ ∀ n ∈ ns, KeySafe env n m := by
  induction ns with
  | nil => simp [KeySafeAll]
  | cons n ns ih => simp [KeySafeAll, ih]

end Mapl

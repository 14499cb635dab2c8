import Verif.Spec.Crash
import Verif.Lemmas.Documents
import Verif.Lemmas.Tree
import Verif.Lemmas.Match
import Verif.Lemmas.Decision

/-! # Safe trees evaluate -/

namespace Mapl

open Spec

/-- A function call that returns. -/
def Returns {α : Type} (x : Go α) : Prop := ∃ a, x = .ok a

theorem Returns.bind {α β : Type} {x : Go α} {f : α → Go β} (h : Returns x) (hf : ∀ a, x = .ok a → Returns (f a)) :
    Returns (x >>= f) := by
  obtain ⟨a, rfl⟩ := h
  exact hf a rfl

theorem Returns.ok {α : Type} (a : α) : Returns (.ok a : Go α) := ⟨a, rfl⟩

theorem Returns.pure {α : Type} (a : α) : Returns (Pure.pure a : Go α) := ⟨a, rfl⟩

theorem Returns.deref {α : Type} {x : Option α} (h : x.isSome) : Returns (deref x) := by
  cases x with
  | none => simp at h
  | some a => exact ⟨a, rfl⟩

theorem Returns.ite {α : Type} {P : Prop} [Decidable P] {x y : Go α} (h1 : P → Returns x) (h2 : ¬ P → Returns y) :
    Returns (if P then x else y) := by
  split
  · exact h1 ‹_›
  · exact h2 ‹_›

variable {env : Env} {c : Condition} {msg : Msg} {p : List Nat}

/-- The spellings of the methods that compare numbers. -/
theorem compares_iff {m : Str} : Compares m ↔ m ∈ [gs"EQ", gs"eq", gs"NEQ", gs"neq", gs"ne", gs"NE", gs"LE", gs"le", gs"LT", gs"lt",
    gs"GE", gs"ge", gs"GT", gs"gt"] := by
  constructor
  · rintro ⟨k, h⟩
    cases k <;> simp only [NumMethod.spellings, List.mem_cons, List.not_mem_nil, or_false] at h <;>
      rcases h with rfl | rfl | rfl | rfl <;> decide
  · intro h
    simp only [List.mem_cons, List.not_mem_nil, or_false] at h
    rcases h with rfl | rfl | rfl | rfl | rfl | rfl | rfl | rfl | rfl | rfl | rfl | rfl | rfl | rfl
    · exact ⟨.eq, by decide⟩
    · exact ⟨.eq, by decide⟩
    · exact ⟨.ne, by decide⟩
    · exact ⟨.ne, by decide⟩
    · exact ⟨.ne, by decide⟩
    · exact ⟨.ne, by decide⟩
    · exact ⟨.le, by decide⟩
    · exact ⟨.le, by decide⟩
    · exact ⟨.lt, by decide⟩
    · exact ⟨.lt, by decide⟩
    · exact ⟨.ge, by decide⟩
    · exact ⟨.ge, by decide⟩
    · exact ⟨.gt, by decide⟩
    · exact ⟨.gt, by decide⟩

theorem compares_final {m : Str} (h : Compares (finalMethod m)) : Compares m := by
  unfold finalMethod at h
  split at h
  · rw [compares_iff] at h; exact absurd h (by decide)
  · split at h
    · rw [compares_iff] at h; exact absurd h (by decide)
    · exact h

theorem returns_compareInt {a : Int} {m : Str} {x : Option Int} (h : Compares m → x.isSome) : Returns (compareInt a m x) := by
  by_cases hc : Compares m
  · obtain ⟨k, hk⟩ := hc
    have := h ⟨k, hk⟩
    cases x with
    | none => simp at this
    | some x => exact ⟨_, compareInt_spec hk a x⟩
  · rw [compares_iff] at hc
    simp only [List.mem_cons, List.not_mem_nil, or_false, not_or] at hc
    simp [compareInt, hc, Returns]

theorem returns_compareFloat {a : F64} {m : Str} {x : Option F64} (h : Compares m → x.isSome) : Returns (compareFloat a m x) := by
  by_cases hc : Compares m
  · obtain ⟨k, hk⟩ := hc
    have := h ⟨k, hk⟩
    cases x with
    | none => simp at this
    | some x => exact ⟨_, compareFloat_spec hk a x⟩
  · rw [compares_iff] at hc
    simp only [List.mem_cons, List.not_mem_nil, or_false, not_or] at hc
    simp [compareFloat, hc, Returns]

theorem returns_interfaceText (h : c.valueInt.isSome → c.valueFloat.isSome) (s : Str) : Returns (compareInterfaceText env c s) := by
  unfold compareInterfaceText
  dsimp only
  refine .ite (fun _ => .ite (fun hn => ?_) fun _ => .ite (fun _ => .ok _) fun _ => .ok _) fun _ =>
    .ite (fun _ => .ok _) fun _ => .ite (fun _ => .ite (fun _ => .ok _) fun _ => .ok _) fun _ => .ok _
  cases parseNumber env s with
  | none => exact .ok _
  | some x =>
    refine returns_compareFloat fun _ => ?_
    rcases hn with hn | hn
    · exact h hn
    · exact hn

theorem returns_judgeInterface (h : c.valueInt.isSome → c.valueFloat.isSome) (x : Option Json) :
    Returns (judgeInterfaceValue env c x) := by
  unfold judgeInterfaceValue
  cases x with
  | none => exact .ok _
  | some j =>
    dsimp only
    refine .ite (fun _ => .ok _) fun _ => .ite (fun _ => .ok _) fun _ => ?_
    split
    · exact .ok _
    · exact returns_interfaceText h _

theorem returns_bytesText {s : Str} (h : Compares c.method → c.valueFloat.isSome ∨ parseNumber env s = none) :
    Returns (compareBytesText env c s) := by
  unfold compareBytesText
  dsimp only
  refine .ite (fun _ => ?_) fun _ => .ite (fun _ => .ok _) fun _ => .ite (fun _ => .ite (fun _ => .ok _) fun _ => .ok _) fun _ => .ok _
  cases hs : parseNumber env s with
  | none => exact .ite (fun _ => .ok _) fun _ => .ok _
  | some x =>
    refine returns_compareFloat fun hc => ?_
    rcases h hc with h | h
    · exact h
    · rw [hs] at h; simp at h

theorem returns_judgeBytes {r : Str × Bool} (h : Compares c.method → c.valueFloat.isSome ∨ NotNumber env r) :
    Returns (judgeBytesValue env c r) := by
  unfold judgeBytesValue
  refine .ite (fun _ => .ok _) fun he => .ite (fun _ => .ok _) fun _ => ?_
  dsimp only
  refine .ite (fun _ => .ok _) fun _ => ?_
  split
  · exact .ok _
  · next s hs =>
    refine returns_bytesText fun hc => ?_
    rcases h hc with h | h | h
    · exact .inl h
    · exact absurd h he
    · exact .inr (h s hs)

/-! ## Conditions -/

theorem returns_extraInterface {ret : List RetVal} (h : ∀ r ∈ ret, ReportSafe true msg r) : Returns (extraFromInterface env msg ret) := by
  induction ret with
  | nil => exact .ok _
  | cons r rs ih =>
    refine .bind ?_ fun _ _ => .bind (ih fun r hr => h r (by simp [hr])) fun _ _ => .pure _
    have hr := h r (by simp)
    have hd : Returns (pick r.rel msg.rawI msg.rawIRel) := by
      refine .deref ?_
      simp only [ReportSafe, if_true] at hr
      split at hr
      · next h => simp only [h, if_true]; exact hr
      · next h => simp only [h]; exact hr
    unfold extraEntryInterface
    refine .ite (fun _ => .bind hd fun _ _ => .pure _) fun _ => ?_
    split
    · exact .bind hd fun _ _ => .pure _
    · exact .pure _

theorem returns_extraBytes {ret : List RetVal} (h : ∀ r ∈ ret, ReportSafe false msg r) : Returns (extraFromBytes env msg ret) := by
  induction ret with
  | nil => exact .ok _
  | cons r rs ih =>
    refine .bind ?_ fun _ _ => .bind (ih fun r hr => h r (by simp [hr])) fun _ _ => .pure _
    have hr := h r (by simp)
    refine .deref ?_
    simp only [ReportSafe, Bool.false_eq_true, if_false] at hr
    split at hr
    · next h => simp only [h, if_true]; exact hr
    · next h => simp only [h]; exact hr

theorem returns_extra {ret : List RetVal} (h : ∀ r ∈ ret, ReportSafe msg.rawI.isSome msg r) : Returns (getExtraData env msg ret) := by
  unfold getExtraData
  cases hI : msg.rawI with
  | none => rw [hI] at h; exact returns_extraBytes h
  | some d => rw [hI] at h; exact returns_extraInterface h

theorem leaf_float {env : Ext} {a m v w : Str} {r : Option (List RetVal)} {c : Condition} (hn : NumbersOk env)
    (h : Leaf env a m v w r c) : c.valueInt.isSome → c.valueFloat.isSome := by
  rw [h.valueInt, h.valueFloat]
  have key : ∀ s, (parseInt s).isSome → (parseNumber env s).isSome := by
    intro s hs
    obtain ⟨n, hs⟩ := Option.isSome_iff_exists.1 hs
    obtain ⟨x, hx⟩ := hn.int_number hs
    rw [hx]; rfl
  have k1 := key (finalValue m w)
  have k2 := key w
  have k3 := key v
  simp only [Option.isSome_or, Bool.or_eq_true]
  tauto

theorem returns_flag {q m v w : Str} {r : Option (List RetVal)} (hn : NumbersOk env) (h : Leaf env (gs"jsonpath:" ++ q) m v w r c)
    (hs : PathSafe env q m w msg) : Returns (testJsonpathFlag env p c msg) := by
  obtain ⟨hok, -, h2, h3, h4, j, h5, hj⟩ := leafAttr_path h.attr
  have hf := leaf_float hn h
  unfold testJsonpathFlag
  refine .ite (fun hI => ?_) fun hI => ?_
  · unfold testJsonpathOnInterface
    refine .ite (fun _ => .ok _) fun _ => .ite (fun _ => ?_) fun _ => ?_
    · cases hrel : msg.rawIRel with
      | none => exact .ok _
      | some rel =>
        dsimp only
        refine .ite (fun hk => .bind ?_ fun _ _ => returns_judgeInterface hf _) fun _ => .bind (.deref (by rw [h5]; rfl)) fun _ _ => returns_judgeInterface hf _
        rw [h4] at hk
        obtain ⟨kvs, rfl⟩ := hs.entry hI.1 (hk.imp id hasPrefix_iff.1) rel hrel
        unfold getKeyValueFromInterface
        dsimp only
        split
        · exact .ok _
        · exact .ite (fun _ => .ok _) fun _ => .ite (fun _ => .ok _) fun _ => .bind (.deref (by rw [h5]; rfl)) fun _ _ => .pure _
    · cases hrel : msg.rawI with
      | none => exact .ok _
      | some d => exact .bind (.deref (by rw [h5]; rfl)) fun _ _ => returns_judgeInterface hf _
  · have hI : msg.rawI = none := by
      cases hr : msg.rawI with
      | none => rfl
      | some d => exact absurd ⟨by rw [hr]; rfl, by rw [h5]; rfl⟩ hI
    have hnum : Compares c.method → c.valueFloat.isSome ∨ ¬ EntryPath q ∧ ∀ d, DocumentB msg q d → NotNumber env (env.jsGet d (pathQuery q)) := by
      intro hc
      rw [h.method] at hc
      refine (hs.text hI (compares_final hc)).imp (fun ⟨x, hx⟩ => ?_) id
      rw [h.valueFloat, hx]
      simp
    unfold testJsonpath
    refine .ite (fun _ => .ok _) fun _ => .ite (fun hr => ?_) fun hr => ?_
    · cases hrel : msg.jsonRawRel with
      | none => exact .ok _
      | some raw =>
        dsimp only
        refine .ite (fun _ => .ok _) fun hl => .ite (fun hk => ?_) fun _ => ?_
        · have he : ∀ r, Compares c.method → c.valueFloat.isSome ∨ NotNumber env r := by
            intro r hc
            refine (hnum hc).imp id fun hne => ?_
            obtain ⟨k1, k2⟩ := pathQuery_start hok hne.1
            rw [h4] at hk
            rcases hk with hk | hk
            · exact absurd hk k1
            · rw [k2] at hk; simp at hk
          exact .ite (fun _ => returns_judgeBytes (he _)) fun _ => returns_judgeBytes (he _)
        · refine returns_judgeBytes fun hc => (hnum hc).imp id fun hne => ?_
          rw [h4]
          refine hne.2 raw ⟨hI, by simpa using hl, ?_⟩
          rw [← h3, hr]
          simpa using hrel
    · cases hrel : msg.jsonRaw with
      | none => exact .ok _
      | some raw =>
        dsimp only
        refine .ite (fun _ => .ok _) fun hl => returns_judgeBytes fun hc => (hnum hc).imp id fun hne => ?_
        rw [h4]
        refine hne.2 raw ⟨hI, by simpa using hl, ?_⟩
        rw [← h3]
        simp only [Bool.not_eq_true] at hr
        rw [hr]
        simpa using hrel

/-- The prepared condition remembers what was written, with the resolved value. -/
theorem prepared_origin {env : Ext} {t : Predef} {a m v : Str} {r : Option (List RetVal)} {c : Condition}
    (h : (parsed env a m v r).prepare env t = .ok c) :
    ValueResolves env t m v c.origValue ∧ c.origAttr = a ∧ c.origMethod = m := by
  obtain ⟨w, e, hw, -, -, hpart, hfin⟩ := prepare_inv h
  have hv : (valuePart (baseOf env a m v w r)).origValue = w ∧ (valuePart (baseOf env a m v w r)).origAttr = a ∧
      (valuePart (baseOf env a m v w r)).origMethod = m := by
    unfold valuePart; split
    · exact ⟨rfl, rfl, rfl⟩
    · split <;> exact ⟨rfl, rfl, rfl⟩
  have he : e.origValue = w ∧ e.origAttr = a ∧ e.origMethod = m := by cases hpart <;> exact hv
  have hc : c.origValue = w ∧ c.origAttr = a ∧ c.origMethod = m := by cases hfin <;> exact he
  rw [hc.1]
  exact ⟨hw, hc.2⟩

theorem isSome_of_exists {α : Type} {x : Option α} (h : ∃ a, x = some a) : x.isSome := by
  obtain ⟨a, rfl⟩ := h; rfl

theorem leaf_number {env : Ext} {a m v w : Str} {r : Option (List RetVal)} {c : Condition}
    (h : Leaf env a m v w r c) (hw : ∃ x, parseNumber env w = some x) : c.valueFloat.isSome := by
  rw [h.valueFloat]
  simp [isSome_of_exists hw]

theorem returns_condition (hn : NumbersOk env) (hc : FromText env c) (hs : CondSafe env c msg) : Returns (testOneCondition env p c msg) := by
  obtain ⟨t, a, m, v, r, hp⟩ := hc
  obtain ⟨hw, ha, hm⟩ := prepared_origin hp
  have h := prepare_leaf hp hw
  obtain ⟨hs1, hs2, hs3, hs4, hs5⟩ := hs
  rw [ha, hm] at *
  generalize c.origValue = w at *
  have hattr := h.attr
  cases hattr with
  | simple hmem hc =>
    simp only [simpleAttributes, List.mem_cons, List.not_mem_nil, or_false] at hmem
    rcases hmem with rfl | rfl | rfl | rfl | rfl | rfl | rfl | rfl | rfl | rfl
    · exact ⟨_, by unfold testOneCondition; rw [hc]; simp; rfl⟩
    · exact ⟨_, by unfold testOneCondition; rw [hc]; simp; rfl⟩
    · exact ⟨_, by unfold testOneCondition; rw [hc]; simp; rfl⟩
    · exact ⟨_, by unfold testOneCondition; rw [hc]; simp; rfl⟩
    · rw [test_payload h]
      refine .bind (returns_compareInt fun hc => ?_) fun _ _ => .pure _
      have := hs1 rfl (compares_final hc)
      rw [h.valueInt]
      simp [isSome_of_exists (this.imp fun _ => intText_iff.1)]
    · exact ⟨_, by unfold testOneCondition; rw [hc]; simp; rfl⟩
    · rw [test_hours h]
      refine .bind (returns_compareFloat fun hc => ?_) fun _ _ => .pure _
      exact leaf_number h (hs2 rfl (compares_final hc))
    · exact ⟨_, by unfold testOneCondition; rw [hc]; simp; rfl⟩
    · rw [test_version h]
      obtain ⟨hv, hx⟩ := hs3 rfl
      exact .bind (.deref hv) fun _ _ => .bind (returns_compareFloat fun _ => leaf_number h hx) fun _ _ => .pure _
    · exact ⟨_, by unfold testOneCondition; rw [hc]; simp; rfl⟩
  | senderField hc hx => exact ⟨_, by unfold testOneCondition; rw [hc]; simp; rfl⟩
  | receiverField hc hx => exact ⟨_, by unfold testOneCondition; rw [hc]; simp; rfl⟩
  | senderLabel hc hf hx => exact ⟨_, by unfold testOneCondition; rw [hc]; simp; rfl⟩
  | receiverLabel hc hf hx => exact ⟨_, by unfold testOneCondition; rw [hc]; simp; rfl⟩
  | path hok hc =>
    unfold testOneCondition
    rw [hc]
    simp only [reduceIte, List.cons.injEq, reduceCtorEq, and_false, or_self, Char.reduceEq]
    refine .bind (returns_flag hn h (hs4 _ rfl)) fun f _ => ?_
    split
    · next hret _ => exact .bind (returns_extra (hs5 _ (by assumption))) fun _ _ => .pure _
    · exact .pure _

/-! ## Trees -/

theorem returns_arrange {d : Json} (h : Ranged d) : Returns (arrangeArray env p d) := by
  cases h <;> exact .ok _

theorem returns_elements {d : Option Json} : ∀ {qs : List JPath} {j : Nat}, (∃ x, d = some x ∧ ∀ q ∈ qs, Ranged (env.jpGet q.src x).1) →
    Returns (queryElements env p d j qs)
  | [], _, _ => .ok _
  | q :: qs, j, h => by
    obtain ⟨x, rfl, h⟩ := h
    exact .bind (.deref rfl) fun a ha => .bind (by
      simp only [deref, Except.ok.injEq] at ha
      subst ha
      exact returns_arrange (h q (by simp))) fun _ _ => .bind (returns_elements ⟨x, rfl, fun q hq => h q (by simp [hq])⟩) fun _ _ => .pure _

theorem returns_collect : ∀ {qs : List Str} {data : Str} {e : Bool},
    (∀ q ∈ qs, (if isRelativeParent q then msg.jsonRawRel else msg.jsonRaw).isSome) → Returns (collectJsons env msg data e qs)
  | [], _, _, _ => .ok _
  | q :: qs, data, e, h => by
    unfold collectJsons
    have hq := h q (by simp)
    have ih : ∀ d e, Returns (collectJsons env msg d e qs) := fun d e => returns_collect fun q' hq' => h q' (List.mem_cons_of_mem _ hq')
    refine .ite (fun hr => ?_) fun hr => ?_
    · rw [if_pos hr] at hq
      exact .bind (.deref hq) fun _ _ => .bind (.pure _) fun _ _ => ih _ _
    · rw [if_neg hr] at hq
      exact .bind (.deref hq) fun _ _ => .bind (.pure _) fun _ _ => ih _ _

theorem returns_flatten {data : Str} (h : 2 ≤ data.length → 2 ≤ (env.ugly data).length) : Returns (getArrayFromArrayOfArrays env data) := by
  unfold getArrayFromArrayOfArrays
  refine .ite (fun _ => .ok _) fun hl => ?_
  have h := h (by omega)
  dsimp only
  match hu : env.ugly data, h with
  | c :: c' :: rest, _ => exact .ite (fun _ => .ok _) fun _ => .ite (fun _ => .ok _) fun _ => .ite (fun _ => .ok _) fun _ => .ok _

theorem returns_interfaces {a : AnyAll} (hu : usesParsed a msg = true) (h : SelectSafe env a msg) :
    Returns (getArrayOfInterfaces env p a msg) := by
  unfold SelectSafe at h
  rw [if_pos hu] at h
  unfold getArrayOfInterfaces
  refine .ite (fun hr => .ite (fun hs => ?_) fun hs => ?_) fun hr => ?_
  · rw [if_pos hs] at h
    obtain ⟨kvs, h⟩ := h
    rw [h]
    exact .ok _
  · rw [if_neg hs, parentDoc, if_pos hr] at h
    exact returns_elements h
  · have hs : a.parent ≠ gs"$RELATIVE*" := by
      intro hs
      rw [hs] at hr
      exact hr rfl
    rw [if_neg hs, parentDoc, if_neg hr] at h
    exact returns_elements h

theorem returns_jsons {a : AnyAll} (hu : usesParsed a msg = false) (h : SelectSafe env a msg) :
    Returns (getArrayOfJsons env p a msg) := by
  unfold SelectSafe at h
  rw [if_neg (by simp [hu])] at h
  unfold getArrayOfJsons
  refine .bind (returns_collect h.1) fun d hd => ?_
  cases d with
  | none => exact .pure _
  | some data =>
    refine .bind (returns_flatten (h.2 data hd)) fun s _ => ?_
    cases s with
    | none => exact .pure _
    | some s =>
      dsimp only
      split
      · exact .pure _
      · exact .pure _

theorem usesParsed_iff {a : AnyAll} : usesParsed a msg = true ↔ msg.rawI.isSome ∧ a.queries ≠ [] := by
  simp [usesParsed]

theorem returns_scopes {a : AnyAll} (h : SelectSafe env a msg) : Returns (scopes env p a msg) := by
  unfold scopes
  refine .ite (fun hc => ?_) fun hc => ?_
  · obtain ⟨l, hl⟩ := returns_interfaces (p := p) (usesParsed_iff.2 hc) h
    rw [hl]; exact .ok _
  · obtain ⟨l, hl⟩ := returns_jsons (p := p) (by rw [← Bool.not_eq_true, usesParsed_iff]; exact hc) h
    rw [hl]; exact .ok _

theorem returns_anyLoop {α : Type} {child : Nat → Msg → Go EvalOut} {set : α → Msg → Msg} {reset : Msg → Msg}
    {ret : Msg → Go (List Extra)} {checkAll : Bool} {m : Msg}
    (hmsg : ∀ i m o, child i m = .ok o → o.msg = m) (hset : ∀ v w, set v (set w m) = set v m) :
    ∀ (l : List α) (i : Nat) (result : Bool) (acc : List Extra) (m1 : Msg), (m1 = m ∨ ∃ w, m1 = set w m) →
      (∀ v ∈ l, (∀ i, Returns (child i (set v m))) ∧ Returns (ret (set v m))) →
      Returns (anyLoop child set reset ret checkAll i result acc m1 l)
  | [], _, _, _, _, _, _ => .ok _
  | v :: vs, i, result, acc, m1, hm1, h => by
    have hs : set v m1 = set v m := by
      rcases hm1 with rfl | ⟨w, rfl⟩
      · rfl
      · exact hset v w
    unfold anyLoop
    rw [hs]
    obtain ⟨h1, h2⟩ := h v (by simp)
    refine .bind (h1 i) fun o ho => ?_
    have hm := hmsg _ _ _ ho
    have hvs : ∀ v ∈ vs, (∀ i, Returns (child i (set v m))) ∧ Returns (ret (set v m)) := fun v hv => h v (by simp [hv])
    refine .ite (fun _ => ?_) fun _ => returns_anyLoop hmsg hset vs _ _ _ _ (.inr ⟨v, hm⟩) hvs
    rw [hm]
    exact .bind h2 fun _ _ => .ite (fun _ => returns_anyLoop hmsg hset vs _ _ _ _ (.inr ⟨v, rfl⟩) hvs) fun _ => .pure _

theorem returns_allLoop {α : Type} {child : Nat → Msg → Go EvalOut} {set : α → Msg → Msg} {reset : Msg → Msg} {m : Msg}
    (hmsg : ∀ i m o, child i m = .ok o → o.msg = m) (hset : ∀ v w, set v (set w m) = set v m) :
    ∀ (l : List α) (i : Nat) (m1 : Msg), (m1 = m ∨ ∃ w, m1 = set w m) →
      (∀ v ∈ l, ∀ i, Returns (child i (set v m))) → Returns (allLoop child set reset i m1 l)
  | [], _, _, _, _ => .ok _
  | v :: vs, i, m1, hm1, h => by
    have hs : set v m1 = set v m := by
      rcases hm1 with rfl | ⟨w, rfl⟩
      · rfl
      · exact hset v w
    unfold allLoop
    rw [hs]
    refine .bind (h v (by simp) i) fun o ho => ?_
    have hm := hmsg _ _ _ ho
    exact .ite (fun _ => returns_allLoop hmsg hset vs _ _ (.inr ⟨v, hm⟩) fun v hv => h v (by simp [hv])) fun _ => .pure _

theorem returns_evalAny {a : AnyAll} {child : Nat → Msg → Go EvalOut} (hmsg : ∀ i m o, child i m = .ok o → o.msg = m)
    (hs : SelectSafe env a msg) (h : ∀ l, scopes env p a msg = .ok (some l) → ∀ m' ∈ l,
      (∀ i, Returns (child i m')) ∧ ∀ r ∈ a.ret, ReportSafe (usesParsed a msg) m' r) :
    Returns (evalAny env p a child msg) := by
  unfold evalAny
  refine .ite (fun hc => ?_) fun hc => ?_
  · have hu := usesParsed_iff.2 hc
    refine .bind (returns_interfaces hu hs) fun l hl => ?_
    have hsc : scopes env p a msg = .ok (some (l.map fun v => setRawIRel v msg)) := by rw [scopes, if_pos hc, hl]; rfl
    refine returns_anyLoop hmsg (m := msg) (fun _ _ => rfl) l _ _ _ _ (.inl rfl) fun v hv => ?_
    obtain ⟨h1, h2⟩ := h _ hsc _ (List.mem_map_of_mem hv)
    rw [hu] at h2
    exact ⟨h1, .ite (fun _ => .pure _) fun _ => .bind (returns_extraInterface h2) fun _ _ => .pure _⟩
  · have hu : usesParsed a msg = false := by rw [← Bool.not_eq_true, usesParsed_iff]; exact hc
    refine .bind (returns_jsons hu hs) fun l? hl => ?_
    cases l? with
    | none => exact .pure _
    | some l =>
      have hsc : scopes env p a msg = .ok (some (l.map fun v => setJsonRawRel v msg)) := by rw [scopes, if_neg hc, hl]; rfl
      refine returns_anyLoop hmsg (m := msg) (fun _ _ => rfl) l _ _ _ _ (.inl rfl) fun v hv => ?_
      obtain ⟨h1, h2⟩ := h _ hsc _ (List.mem_map_of_mem hv)
      rw [hu] at h2
      exact ⟨h1, .ite (fun _ => .pure _) fun _ => .bind (returns_extraBytes h2) fun _ _ => .pure _⟩

theorem returns_evalAll {a : AnyAll} {child : Nat → Msg → Go EvalOut} (hmsg : ∀ i m o, child i m = .ok o → o.msg = m)
    (hs : SelectSafe env a msg) (h : ∀ l, scopes env p a msg = .ok (some l) → ∀ m' ∈ l, ∀ i, Returns (child i m')) :
    Returns (evalAll env p a child msg) := by
  unfold evalAll
  refine .ite (fun hc => ?_) fun hc => ?_
  · refine .bind (returns_interfaces (usesParsed_iff.2 hc) hs) fun l hl => ?_
    have hsc : scopes env p a msg = .ok (some (l.map fun v => setRawIRel v msg)) := by rw [scopes, if_pos hc, hl]; rfl
    exact returns_allLoop hmsg (m := msg) (fun _ _ => rfl) l _ _ (.inl rfl) fun v hv => h _ hsc _ (List.mem_map_of_mem hv)
  · have hu : usesParsed a msg = false := by rw [← Bool.not_eq_true, usesParsed_iff]; exact hc
    refine .bind (returns_jsons hu hs) fun l? hl => ?_
    cases l? with
    | none => exact .pure _
    | some l =>
      have hsc : scopes env p a msg = .ok (some (l.map fun v => setJsonRawRel v msg)) := by rw [scopes, if_neg hc, hl]; rfl
      exact returns_allLoop hmsg (m := msg) (fun _ _ => rfl) l _ _ (.inl rfl) fun v hv => h _ hsc _ (List.mem_map_of_mem hv)

mutual
/-- Safe trees evaluate. -/
theorem returns_eval (env : Env) (hn : NumbersOk env) : ∀ (n : Node) (p : List Nat) (m : Msg), (∀ c ∈ leaves n, FromText env c) →
    Safe env n m → Returns (eval env n p m)
  | .nil, _, _, _, h => by simp [Safe] at h
  | .and ns, p, m, hl, h => by
    rw [Safe] at h; rw [eval]; exact returns_evalAnd env hn ns p 1 [] m (by simpa [leaves] using hl) h
  | .or ns, p, m, hl, h => by
    rw [Safe] at h; rw [eval]; exact returns_evalOr env hn ns p 1 false [] m (by simpa [leaves] using hl) h
  | .not n, p, m, hl, h => by
    rw [Safe] at h; rw [eval]
    exact .bind (returns_eval env hn n _ _ (by simpa [leaves] using hl) h) fun _ _ => .pure _
  | .any a n, p, m, hl, h => by
    rw [Safe] at h; rw [eval]
    refine returns_evalAny (fun i m o h => eval_msg env n _ m o h) h.1 fun l hsc m' hm' => ?_
    obtain ⟨h1, h2⟩ := h.2 p l hsc m' hm'
    exact ⟨fun i => returns_eval env hn n _ _ (by simpa [leaves] using hl) h1, h2⟩
  | .all a n, p, m, hl, h => by
    rw [Safe] at h; rw [eval]
    refine returns_evalAll (fun i m o h => eval_msg env n _ m o h) h.1 fun l hsc m' hm' i => ?_
    exact returns_eval env hn n _ _ (by simpa [leaves] using hl) (h.2 p l hsc m' hm')
  | .tt, _, _, _, _ => by rw [eval]; exact .ok _
  | .ff, _, _, _, _ => by rw [eval]; exact .ok _
  | .cond c, p, m, hl, h => by
    rw [Safe] at h; rw [eval]
    exact .bind (returns_condition hn (hl c (by simp [leaves])) h) fun _ _ => .pure _

theorem returns_evalAnd (env : Env) (hn : NumbersOk env) : ∀ (ns : List Node) (p : List Nat) (i : Nat) (acc : List Extra) (m : Msg),
    (∀ c ∈ leavesOf ns, FromText env c) → SafeAll env ns m → Returns (evalAnd env ns p i acc m)
  | [], _, _, _, _, _, _ => by rw [evalAnd]; exact .ok _
  | n :: ns, p, i, acc, m, hl, h => by
    rw [SafeAll] at h; rw [evalAnd]
    refine .bind (returns_eval env hn n _ _ (fun c hc => hl c (by simp [leavesOf, hc])) h.1) fun o ho => ?_
    have hm := eval_msg env n _ _ _ ho
    refine .ite (fun _ => .pure _) fun _ => ?_
    rw [hm]
    exact returns_evalAnd env hn ns _ _ _ _ (fun c hc => hl c (by simp [leavesOf, hc])) h.2

theorem returns_evalOr (env : Env) (hn : NumbersOk env) : ∀ (ns : List Node) (p : List Nat) (i : Nat) (f : Bool) (acc : List Extra)
    (m : Msg), (∀ c ∈ leavesOf ns, FromText env c) → SafeAll env ns m → Returns (evalOr env ns p i f acc m)
  | [], _, _, _, _, _, _, _ => by rw [evalOr]; exact .ok _
  | n :: ns, p, i, f, acc, m, hl, h => by
    rw [SafeAll] at h; rw [evalOr]
    refine .bind (returns_eval env hn n _ _ (fun c hc => hl c (by simp [leavesOf, hc])) h.1) fun o ho => ?_
    rw [eval_msg env n _ _ _ ho]
    exact returns_evalOr env hn ns _ _ _ _ _ (fun c hc => hl c (by simp [leavesOf, hc])) h.2
end

/-! ## Rules -/

theorem returns_match {env : Ext} {re : Option Re} {s : Str} (h : re.isSome) : Returns (matchPtr env re s) := by
  cases re with
  | none => simp at h
  | some r => exact .ok _

theorem returns_senderLoop {env : Ext} : ∀ {l : List ExpandedSR}, (∀ e ∈ l, e.regexp.isSome) → Returns (senderLoop env msg l)
  | [], _ => .ok _
  | e :: es, h => by
    have ih : Returns (senderLoop env msg es) := returns_senderLoop fun e he => h e (by simp [he])
    unfold senderLoop
    refine .ite (fun _ => .ite (fun _ => .ok _) fun _ => ih) fun _ => .ite (fun _ => ?_) fun _ => .ok _
    exact .bind (returns_match (h e (by simp))) fun _ _ => .ite (fun _ => .pure _) fun _ => ih

theorem returns_receiverLoop {env : Ext} : ∀ {l : List ExpandedSR}, (∀ e ∈ l, e.regexp.isSome) → Returns (receiverLoop env msg l)
  | [], _ => .ok _
  | e :: es, h => by
    have ih : Returns (receiverLoop env msg es) := returns_receiverLoop fun e he => h e (by simp [he])
    unfold receiverLoop
    refine .ite (fun _ => .ite (fun _ => .ok _) fun _ => ih) fun _ => .ite (fun _ => ?_) fun _ => .ite (fun _ => ?_) fun _ => .ok _
    · exact .bind (returns_match (h e (by simp))) fun _ _ => .ite (fun _ => .pure _) fun _ => ih
    · exact .bind (returns_match (h e (by simp))) fun _ _ => .ite (fun _ => .pure _) fun _ => ih

theorem expand_regexp {env : Ext} {ty : Str} : ∀ {l : List Str} {es : List ExpandedSR}, l.mapM (expandOne env ty) = .ok es →
    ∀ e ∈ es, e.regexp.isSome
  | [], es, h => by simp at h; subst h; simp
  | s :: l, es, h => by
    simp only [List.mapM_cons, Go.bind_eq_ok] at h
    obtain ⟨e, he, es', hes, h⟩ := h
    simp at h; subst h
    intro x hx
    rcases List.mem_cons.1 hx with rfl | hx
    · simp only [expandOne] at he
      refine ite_elim he (fun _ h => by simp at h) fun _ h => ?_
      split at h
      · simp at h
      · simp at h; subst h; rfl
    · exact expand_regexp hes x hx

/-! ### Conditions of parsed documents -/

/-- The condition is as the parser builds it. -/
def IsParsed (env : Ext) (c : Condition) : Prop := ∃ a m v r, c = parsed env a m v r

theorem validated_parsed {env : Ext} {cn : ConditionNode} {n : Node} (h : prepareOneConditionNode env cn = .ok n) :
    ∃ c, n = .cond c ∧ IsParsed env c := by
  simp only [prepareOneConditionNode, Go.bind_eq_ok] at h
  obtain ⟨c, hc, h⟩ := h
  simp at h; subst h
  refine ⟨c, rfl, _, _, _, _, (validateOneCondition_iff.1 hc).2⟩

theorem connective_leaves {P : Condition → Prop} {parent : Str} {ns : List Node} {n : Node} (h : connective parent ns = .ok n)
    (hns : ∀ n ∈ ns, ∀ c ∈ leaves n, P c) : ∀ c ∈ leaves n, P c := by
  have hall : ∀ c ∈ leavesOf ns, P c := by
    clear h
    induction ns with
    | nil => simp [leavesOf]
    | cons n ns ih =>
      intro c hc
      simp only [leavesOf, List.mem_append] at hc
      rcases hc with hc | hc
      · exact hns n (by simp) c hc
      · exact ih (fun n hn => hns n (by simp [hn])) c hc
  unfold connective at h
  refine ite_elim h (fun _ h => ?_) fun _ h => ite_elim h (fun _ h => ?_) fun _ h => ite_elim h (fun _ h => ?_) fun _ h => by simp at h
  · simp at h; subst h; simpa [leaves] using hall
  · simp at h; subst h; simpa [leaves] using hall
  · simp at h; subst h
    cases hl : ns.getLast? with
    | none => simp [leaves]
    | some n => simpa [leaves] using hns n (List.mem_of_getLast? hl)

theorem anyAllLoop_child {env : Env} {p : List Nat} {Q : Node → Prop} : ∀ {l : List (Str × Json × Go Node)} {a : AnyAll} {n : Node} {r : AnyAll × Node},
    anyAllLoop env p a n l = .ok r → Q n → (∀ x ∈ l, ∀ k, x.2.2 = .ok k → Q k) → Q r.2
  | [], a, n, r, h, hq, _ => by simp [anyAllLoop] at h; subst h; exact hq
  | (k, v, sub) :: l, a, n, r, h, hq, hl => by
    have hl' : ∀ x ∈ l, ∀ k, x.2.2 = .ok k → Q k := fun x hx => hl x (by simp [hx])
    unfold anyAllLoop at h
    refine ite_elim h (fun _ h => ?_) fun _ h => ite_elim h (fun _ h => ?_) fun _ h => ?_
    · simp only [Go.bind_eq_ok] at h
      obtain ⟨s, _, h⟩ := h
      refine ite_elim h (fun _ h => anyAllLoop_child h hq hl') fun _ h => ?_
      simp [throw, throwThe, MonadExceptOf.throw] at h
    · simp only [Go.bind_eq_ok] at h
      obtain ⟨s, _, h⟩ := h
      exact anyAllLoop_child h hq hl'
    · simp only [Go.bind_eq_ok] at h
      obtain ⟨s, hs, h⟩ := h
      exact anyAllLoop_child h (hl (k, v, sub) (by simp) s hs) hl'

theorem singleKid_mem {kids : List (Str × Json × Go Node)} {n : Node} (h : singleKid kids = .ok n) : ∃ x ∈ kids, x.2.2 = .ok n := by
  match kids, h with
  | [(a, b, sub)], h => exact ⟨(a, b, sub), by simp, h⟩

theorem sequence_mem : ∀ {l : List (Go Node)} {ns : List Node}, sequenceNodes l = .ok ns → ∀ n ∈ ns, .ok n ∈ l
  | [], ns, h => by simp [sequenceNodes] at h; subst h; simp
  | r :: l, ns, h => by
    simp only [sequenceNodes, Go.bind_eq_ok] at h
    obtain ⟨n, rfl, ns', h', h⟩ := h
    simp at h; subst h
    intro x hx
    rcases List.mem_cons.1 hx with rfl | hx
    · simp
    · simp [sequence_mem h' x hx]

theorem getNodeCondition_leaves {env : Ext} {kvs : List (Str × Json)} {parent : Str} {n : Node} (h : getNodeCondition env kvs parent = .ok n) :
    ∀ c ∈ leaves n, IsParsed env c := by
  simp only [getNodeCondition, Go.bind_eq_ok] at h
  obtain ⟨cn, -, k, hk, h⟩ := h
  obtain ⟨c, rfl, hc⟩ := validated_parsed hk
  have h1 : ∀ c' ∈ leaves (.cond c), IsParsed env c' := by simpa [leaves] using hc
  split at h
  · exact connective_leaves h (by simpa using h1)
  · simp at h; subst h; exact h1

theorem handleMap_leaves {env : Env} (ho : env.OrdOk) {p : List Nat} {parent : Str} {kvs : List (Str × Json)}
    {kids : List (Str × Json × Go Node)} {n : Node} (h : handleMap env p parent kvs kids = .ok n)
    (hk : ∀ x ∈ kids, ∀ k, x.2.2 = .ok k → ∀ c ∈ leaves k, IsParsed env c) : ∀ c ∈ leaves n, IsParsed env c := by
  unfold handleMap at h
  refine ite_elim h (fun _ h => getNodeCondition_leaves h) fun _ h => ite_elim h (fun _ h => ?_) fun _ h =>
    ite_elim h (fun _ h => ?_) fun _ h => ite_elim h (fun _ h => ?_) fun _ h => by simp at h
  · unfold getAnyAllNode at h
    refine ite_elim h (fun _ h => ?_) fun _ h => by simp at h
    simp only [Go.bind_eq_ok] at h
    obtain ⟨⟨a, k⟩, hr, h⟩ := h
    have hq : ∀ c ∈ leaves k, IsParsed env c :=
      anyAllLoop_child (Q := fun k => ∀ c ∈ leaves k, IsParsed env c) hr (by simp [leaves]) fun x hx => hk x ((ho _ _).mem_iff.1 hx)
    split at h
    · simp [throw, throwThe, MonadExceptOf.throw] at h
    · split at h
      · simp at h; subst h; simpa [leaves] using hq
      · simp at h; subst h; simpa [leaves] using hq
  · simp only [Go.bind_eq_ok] at h
    obtain ⟨k, hk', h⟩ := h
    simp at h; subst h
    obtain ⟨x, hx, hx'⟩ := singleKid_mem hk'
    simpa [leaves] using hk x hx k hx'
  · obtain ⟨x, hx, hx'⟩ := singleKid_mem h
    exact hk x hx n hx'

theorem handleArray_leaves {env : Ext} {parent : Str} {subs : List (Go Node)} {n : Node} (h : handleArray parent subs = .ok n)
    (hk : ∀ k, .ok k ∈ subs → ∀ c ∈ leaves k, IsParsed env c) : ∀ c ∈ leaves n, IsParsed env c := by
  unfold handleArray at h
  refine ite_elim h (fun _ h => ?_) fun _ h => ?_
  · split at h
    · subst h; exact hk n (by simp)
    · simp at h
  · simp only [Go.bind_eq_ok] at h
    obtain ⟨_, _, ns, hns, h⟩ := h
    exact connective_leaves h fun k hk' => hk k (sequence_mem hns k hk')

mutual
/-- The conditions of a parsed tree are as the parser builds them. -/
theorem interpret_leaves (env : Env) (ho : env.OrdOk) : ∀ (j : Json) (parent : Str) (p : List Nat) (n : Node),
    interpret env j parent p = .ok n → ∀ c ∈ leaves n, IsParsed env c
  | .obj kvs, parent, p, n, h => by
    rw [interpret] at h
    exact handleMap_leaves ho h fun x hx k hk => interpretKids_leaves env ho kvs p 2 x hx k hk
  | .arr l, parent, p, n, h => by
    rw [interpret] at h
    exact handleArray_leaves h fun k hk => interpretList_leaves env ho l p 2 k hk
  | .null, _, _, _, h => by simp [interpret] at h
  | .bool _, _, _, _, h => by simp [interpret] at h
  | .num _, _, _, _, h => by simp [interpret] at h
  | .str _, _, _, _, h => by simp [interpret] at h

theorem interpretKids_leaves (env : Env) (ho : env.OrdOk) : ∀ (kvs : List (Str × Json)) (p : List Nat) (i : Nat),
    ∀ x ∈ interpretKids env kvs p i, ∀ k, x.2.2 = .ok k → ∀ c ∈ leaves k, IsParsed env c
  | [], _, _, x, hx, _, _ => by simp [interpretKids] at hx
  | (key, v) :: rest, p, i, x, hx, k, hk => by
    simp only [interpretKids, List.mem_cons] at hx
    rcases hx with rfl | hx
    · exact interpret_leaves env ho v key _ k hk
    · exact interpretKids_leaves env ho rest p (i + 1) x hx k hk

theorem interpretList_leaves (env : Env) (ho : env.OrdOk) : ∀ (l : List Json) (p : List Nat) (i : Nat),
    ∀ k, .ok k ∈ interpretList env l p i → ∀ c ∈ leaves k, IsParsed env c
  | [], _, _, k, hk => by simp [interpretList] at hk
  | v :: rest, p, i, k, hk => by
    simp only [interpretList, List.mem_cons] at hk
    rcases hk with hk | hk
    · exact interpret_leaves env ho v [] _ k hk.symm
    · exact interpretList_leaves env ho rest p (i + 1) k hk
end

mutual
/-- Preparation prepares the conditions one by one. -/
theorem prepare_leaves {env : Ext} {t : Predef} : ∀ {n n' : Node}, n.prepare env t = .ok n' →
    ∀ c ∈ leaves n', ∃ c0 ∈ leaves n, c0.prepare env t = .ok c
  | .nil, _, h => by simp [Node.prepare] at h
  | .and ns, n', h => by
    simp only [Node.prepare, Go.bind_eq_ok] at h
    obtain ⟨ns', h1, h⟩ := h
    simp at h; subst h
    simpa [leaves] using prepareNodes_leaves h1
  | .or ns, n', h => by
    simp only [Node.prepare, Go.bind_eq_ok] at h
    obtain ⟨ns', h1, h⟩ := h
    simp at h; subst h
    simpa [leaves] using prepareNodes_leaves h1
  | .not n, n', h => by
    simp only [Node.prepare, Go.bind_eq_ok] at h
    obtain ⟨ns', h1, h⟩ := h
    simp at h; subst h
    simpa [leaves] using prepare_leaves h1
  | .any a n, n', h => by
    simp only [Node.prepare, Go.bind_eq_ok] at h
    obtain ⟨ns', h1, _, _, h⟩ := h
    simp at h; subst h
    simpa [leaves] using prepare_leaves h1
  | .all a n, n', h => by
    simp only [Node.prepare, Go.bind_eq_ok] at h
    obtain ⟨ns', h1, _, _, h⟩ := h
    simp at h; subst h
    simpa [leaves] using prepare_leaves h1
  | .tt, _, h => by simp [Node.prepare] at h; subst h; simp [leaves]
  | .ff, _, h => by simp [Node.prepare] at h; subst h; simp [leaves]
  | .cond c, n', h => by
    simp only [Node.prepare, Go.bind_eq_ok] at h
    obtain ⟨c', h1, h⟩ := h
    simp at h; subst h
    simpa [leaves] using h1

theorem prepareNodes_leaves {env : Ext} {t : Predef} : ∀ {ns ns' : List Node}, prepareNodes env t ns = .ok ns' →
    ∀ c ∈ leavesOf ns', ∃ c0 ∈ leavesOf ns, c0.prepare env t = .ok c
  | [], _, h => by simp [prepareNodes] at h; subst h; simp [leavesOf]
  | n :: ns, _, h => by
    simp only [prepareNodes, Go.bind_eq_ok] at h
    obtain ⟨n', h1, ns', h2, h⟩ := h
    simp at h; subst h
    intro c hc
    simp only [leavesOf, List.mem_append] at hc ⊢
    rcases hc with hc | hc
    · obtain ⟨c0, hm, h⟩ := prepare_leaves h1 c hc; exact ⟨c0, .inl hm, h⟩
    · obtain ⟨c0, hm, h⟩ := prepareNodes_leaves h2 c hc; exact ⟨c0, .inr hm, h⟩
end

theorem copyConditions_leaves (ho : env.OrdOk) {t : Option Node} {n : Node} (h : copyConditions env p t = .ok (some n)) :
    ∀ c ∈ leaves n, IsParsed env c := by
  simp only [copyConditions, Go.bind_eq_ok] at h
  obtain ⟨s, -, h⟩ := h
  split at h
  · simp at h
  · unfold unmarshalConditions at h
    split at h
    · simp at h
    · simp at h
    · simp only [Go.bind_eq_ok] at h
      obtain ⟨k, hk, h⟩ := h
      simp at h; subst h
      exact interpret_leaves env ho _ _ _ _ hk

/-- The conditions of a prepared rule were prepared from their written forms. -/
theorem ready_leaves (ho : env.OrdOk) {r : RuleObj} {rule : Rule} (h : ReadyAs env r rule) {n : Node} (hn : rule.conditions = some n) :
    ∀ c ∈ leaves n, FromText env c := by
  obtain ⟨r0, p, t, hc, hr⟩ := h.made
  obtain ⟨copy, rule', h1, h2, rfl⟩ := setPredefined_ok hr
  have := h.prepared
  simp at this; subst this
  obtain ⟨ct, hct, rfl⟩ := copyRule_ok h1
  obtain ⟨s, v, sl, rl, op, re, _, _, _, _, _, _, h7, h8⟩ := prepareOneRule_ok (by simpa using hc) h2
  rcases h7 with ⟨_, h7⟩ | ⟨n0, n', e1, e2, e3⟩
  · rw [h7] at hn; simp at hn
  · rw [e3] at hn; simp at hn; subst hn
    simp at e1; subst e1
    intro c hc
    obtain ⟨c0, hm, h⟩ := prepare_leaves e2 c hc
    obtain ⟨a, m, v, r, rfl⟩ := copyConditions_leaves ho hct c0 hm
    exact ⟨t, a, m, v, r, h⟩

theorem ensure_of_ready {g : Predef} {r : RuleObj} (h : r.ready = true) : r.ensure env p g = .ok r := by
  simp [RuleObj.ensure, h]

theorem returns_prepared {g : Predef} {r : RuleObj} {rule : Rule} (hr : r.ready = true) (hp : r.prepared = some rule)
    (a1 : ∀ e ∈ rule.senderList, e.regexp.isSome) (a2 : ∀ e ∈ rule.receiverList, e.regexp.isSome)
    (a3 : rule.operationRegex.isSome) (a4 : rule.resourceNameRegex.isSome) (a5 : rule.converted = true)
    (he : ∀ n, rule.conditions = some n → ∀ p, Returns (eval env n p msg)) : Returns (r.check env g p msg) := by
  unfold RuleObj.check
  rw [ensure_of_ready hr, Go.ok_bind, hp]
  simp only [deref, Go.ok_bind, convertOnUse_converted a5]
  refine .bind (by unfold testSender; rw [convertOnUse_converted a5]; exact returns_senderLoop a1) fun _ _ => .ite (fun _ => .pure _) fun _ => ?_
  refine .bind (by unfold testReceiver; rw [convertOnUse_converted a5]; exact returns_receiverLoop a2) fun _ _ => .ite (fun _ => .pure _) fun _ => ?_
  refine .bind (returns_match a3) fun _ _ => .ite (fun _ => .pure _) fun _ => ?_
  refine .bind (.ite (fun _ => returns_match a4) fun _ => .ite (fun _ => .ite (fun _ => .ok _) fun _ => .ite (fun _ => .ok _) fun _ => returns_match a4)
    fun _ => .ok _) fun _ _ => .ite (fun _ => .pure _) fun _ => ?_
  cases hcond : rule.conditions with
  | none =>
    refine .bind (.pure _) fun _ _ => ?_
    exact .ite (fun _ => .pure _) fun _ => .pure _
  | some n =>
    refine .bind ?_ fun _ _ => ?_
    · unfold RuleObj.testConditions
      rw [ensure_of_ready (by exact hr), Go.ok_bind]
      refine .bind ?_ fun _ _ => .pure _
      simp only [testPreparedConditions, deref, Go.ok_bind, hcond]
      exact he n hcond _
    · exact .ite (fun _ => .pure _) fun _ => .pure _

theorem returns_rule (ho : env.OrdOk) (hn : NumbersOk env) {g : Predef} {r : RuleObj} {rule : Rule} (h : ReadyAs env r rule)
    (hs : ∀ n, rule.conditions = some n → Safe env n msg) : Returns (r.check env g p msg) := by
  have hl := fun n hn => ready_leaves ho h (n := n) hn
  obtain ⟨r0, p0, t, hc, hr⟩ := h.made
  obtain ⟨copy, rule', h1, h2, rfl⟩ := setPredefined_ok hr
  have := h.prepared
  simp at this; subst this
  obtain ⟨ct, hct, rfl⟩ := copyRule_ok h1
  obtain ⟨s, v, sl, rl, op, re, _, _, h3, h4, _, _, -, h8⟩ := prepareOneRule_ok (by simpa using hc) h2
  refine returns_prepared (rule := rule') rfl rfl ?_ ?_ ?_ ?_ ?_ fun n hcond p => returns_eval env hn n _ _ (hl n hcond) (hs n hcond)
  · rw [h8]; exact expand_regexp h3
  · rw [h8]; exact expand_regexp h4
  · rw [h8]; rfl
  · rw [h8]; rfl
  · rw [h8]

theorem ensure_of_unready {g : Predef} {r r' : RuleObj} {e : Option Err} (h : r.ready = false) (hs : r.setPredefined env p g = .ok (r', e)) :
    r.ensure env p g = .ok r' := by
  simp [RuleObj.ensure, h, hs, Except.map]

/-- A rule that has to be prepared first is checked like the prepared one. -/
theorem check_unready {g : Predef} {r r' : RuleObj} {e : Option Err} (h : r.ready = false) (hs : r.setPredefined env (0 :: p) g = .ok (r', e))
    (hr : r'.ready = true) : r.check env g p msg = r'.check env g p msg := by
  unfold RuleObj.check
  rw [ensure_of_unready h hs, ensure_of_ready hr]

theorem setPredefined_ready {t : Predef} {r r' : RuleObj} (h : r.setPredefined env p t = .ok (r', none)) : r'.ready = true := by
  obtain ⟨_, _, _, _, rfl⟩ := setPredefined_ok h
  rfl

theorem returns_ruleSafe (ho : env.OrdOk) (hn : NumbersOk env) {g : Predef} {r : RuleObj} (h : RuleSafe env g msg r) :
    Returns (r.check env g p msg) := by
  cases h with
  | prepared h hs => exact returns_rule ho hn h hs
  | unprepared hr hc h =>
    obtain ⟨r', rule, h1, h2, h3⟩ := h (0 :: p)
    rw [check_unready hr h1 (setPredefined_ready h1)]
    exact returns_rule ho hn ⟨h2, r, _, _, hc, h1⟩ h3

theorem returns_checkRules {g : Predef} : ∀ {rs : List RuleObj} {i : Nat},
    (∀ (k : Nat) (r : RuleObj), rs[k]? = some r → Returns (r.check env g [i + k] msg)) → Returns (checkRules env g i msg rs)
  | [], _, _ => .ok _
  | r :: rs, i, h => by
    unfold checkRules
    refine .bind (h 0 r rfl) fun o ho => ?_
    rw [ruleCheck_msg ho]
    refine .bind (returns_checkRules fun k r hr => ?_) fun _ _ => .pure _
    have := h (k + 1) r hr
    rwa [show i + (k + 1) = i + 1 + k by omega] at this

/-- `Check` returns exactly if checking every rule does. -/
theorem returns_check {g : Predef} {rs : List RuleObj} :
    Returns (check env g msg rs) ↔ ∀ (k : Nat) (r : RuleObj), rs[k]? = some r → Returns (r.check env g [k] msg) := by
  constructor
  · rintro ⟨out, h⟩ k r hr
    obtain ⟨outs, h1, -⟩ := check_inv h
    obtain ⟨_, _, hk⟩ := (checkRules_ok rs 0 _).1 h1
    obtain ⟨o, ho, -⟩ := hk k r hr
    exact ⟨o, by simpa using ho⟩
  · intro h
    obtain ⟨⟨outs, m'⟩, hc⟩ := returns_checkRules (i := 0) (rs := rs) (env := env) (g := g) (msg := msg) (by simpa using h)
    obtain ⟨rfl, hl, hk⟩ := (checkRules_ok rs 0 _).1 hc
    simp only at hl hk
    have hmax : (aggregate 0 {} ((outs.map (·.1)).zip (rs.map describe))).maxDecision ≤ 3 := by
      rcases aggregate_spec ((outs.map (·.1)).zip (rs.map describe)) 0 {} with ⟨h1, _⟩ | ⟨k, res, desc, hk', h1, _⟩
      · rw [h1]; simp
      · rw [h1]
        have := List.mem_of_getElem? hk'
        have := (List.of_mem_zip this).1
        obtain ⟨j, hj, rfl⟩ := List.mem_iff_getElem.1 this
        simp only [List.length_map] at hj
        obtain ⟨o, ho, hx⟩ := hk j (rs[j]'(by omega)) (List.getElem?_eq_getElem _)
        obtain ⟨d, hd⟩ := ruleCheck_rank ho
        rw [List.getElem?_eq_getElem hj] at hx
        simp at hx
        simp only [List.getElem_map, hx, hd]
        cases d <;> simp [Decision.rank]
    have hlt : (aggregate 0 {} ((outs.map (·.1)).zip (rs.map describe))).maxDecision < decisionNames.length :=
      Nat.lt_of_le_of_lt hmax (by decide)
    simp only [check, hc, Go.ok_bind, List.getElem?_eq_getElem hlt, Go.pure_eq]
    exact ⟨_, rfl⟩

end Mapl

import Verif.Spec.Frame
import Verif.Lemmas.Crash
import Verif.Lemmas.State

/-! # Evaluation looks only at what is mentioned -/

namespace Mapl

open Spec

variable {env : Env} {p : List Nat}

/-- Two messages agree on a set of parts. -/
def Agree (F : Field → Prop) (m m' : Msg) : Prop := ∀ f, F f → f.Same m m'

/-- Two evaluations give the same answer, and messages that still agree, or fail in the same way. -/
inductive Alike (R : Msg → Msg → Prop) : Go EvalOut → Go EvalOut → Prop
  | ok {b e m m'} (h : R m m') : Alike R (.ok ⟨b, e, m⟩) (.ok ⟨b, e, m'⟩)
  | error (x : Fail) : Alike R (.error x) (.error x)

theorem Alike.bind {R : Msg → Msg → Prop} {x y : Go EvalOut} {f g : EvalOut → Go EvalOut} (h : Alike R x y)
    (hf : ∀ b e m m', R m m' → Alike R (f ⟨b, e, m⟩) (g ⟨b, e, m'⟩)) : Alike R (x >>= f) (y >>= g) := by
  cases h with
  | ok h => exact hf _ _ _ _ h
  | error x => exact .error x

theorem Alike.same {α : Type} {R : Msg → Msg → Prop} {x : Go α} {f g : α → Go EvalOut} (hf : ∀ a, Alike R (f a) (g a)) :
    Alike R (x >>= f) (x >>= g) := by
  cases x with
  | ok a => exact hf a
  | error x => exact .error x

/-! ## Documents -/

def SameDocs (m m' : Msg) : Prop := Field.documents.Same m m'

theorem sameDocs_flag {c : Condition} {m m' : Msg} (h : SameDocs m m') : testJsonpathFlag env p c m = testJsonpathFlag env p c m' := by
  obtain ⟨h1, h2, h3, h4⟩ := h
  simp only [testJsonpathFlag, testJsonpathOnInterface, testJsonpath, h1, h2, h3, h4]

theorem sameDocs_entry {r : RetVal} {m m' : Msg} (h : SameDocs m m') : extraEntryInterface env.toExt m r = extraEntryInterface env.toExt m' r := by
  obtain ⟨h1, h2, h3, h4⟩ := h
  simp only [extraEntryInterface, h1, h2]

theorem sameDocs_interface {m m' : Msg} (h : SameDocs m m') : ∀ rs, extraFromInterface env.toExt m rs = extraFromInterface env.toExt m' rs
  | [] => rfl
  | r :: rs => by simp only [extraFromInterface, sameDocs_entry h, sameDocs_interface h rs]

theorem sameDocs_bytes {m m' : Msg} (h : SameDocs m m') : ∀ rs, extraFromBytes env.toExt m rs = extraFromBytes env.toExt m' rs
  | [] => rfl
  | r :: rs => by
    simp only [extraFromBytes, sameDocs_bytes h rs]
    rw [h.2.2.1, h.2.2.2]

theorem sameDocs_extra {m m' : Msg} {rs : List RetVal} (h : SameDocs m m') : getExtraData env.toExt m rs = getExtraData env.toExt m' rs := by
  simp only [getExtraData, sameDocs_interface h, sameDocs_bytes h, h.1]

theorem sameDocs_collect {m m' : Msg} (h : SameDocs m m') : ∀ (qs : List Str) (data : Str) (e : Bool),
    collectJsons env.toExt m data e qs = collectJsons env.toExt m' data e qs
  | [], _, _ => rfl
  | q :: qs, data, e => by
    simp only [collectJsons]
    rw [h.2.2.1, h.2.2.2]
    simp only [sameDocs_collect h qs]

theorem sameDocs_interfaces {a : AnyAll} {m m' : Msg} (h : SameDocs m m') :
    getArrayOfInterfaces env p a m = getArrayOfInterfaces env p a m' := by
  simp only [getArrayOfInterfaces, h.1, h.2.1]

theorem sameDocs_jsons {a : AnyAll} {m m' : Msg} (h : SameDocs m m') : getArrayOfJsons env p a m = getArrayOfJsons env p a m' := by
  simp only [getArrayOfJsons, sameDocs_collect h]

/-! ## One condition -/

theorem finalValue_ref {m w s : Str} (h : hasPrefix (finalValue m w) s = true) (hs : s.head? ≠ some '^') (h0 : s ≠ []) : finalValue m w = w := by
  unfold finalValue at *
  split
  · next hm =>
    rw [if_pos hm] at h
    obtain ⟨t, ht⟩ := hasPrefix_iff.1 h
    cases s with
    | nil => exact absurd rfl h0
    | cons c s =>
      simp [listPattern] at ht
      simp [← ht.1] at hs
  · rfl

theorem test_agree {c : Condition} {m m' : Msg} (hc : FromText env c) (h : Agree (Mentions c.origAttr c.origValue) m m') :
    testOneCondition env p c m = testOneCondition env p c m' := by
  obtain ⟨t, a, me, v, r, hp⟩ := hc
  obtain ⟨hw, ha, hm⟩ := prepared_origin hp
  have hl := prepare_leaf hp hw
  rw [ha] at h
  generalize c.origValue = w at *
  have hattr := hl.attr
  have gA : ∀ x, (∀ y, y = gs"namespace" → x = y → m.sourceNamespace = m'.sourceNamespace) →
      (∀ y, y = gs"cluster" → x = y → m.sourceCluster = m'.sourceCluster) → getAttribute .sender x m = getAttribute .sender x m' := by
    intro x h1 h2
    unfold getAttribute
    split
    · next e => exact h1 _ e rfl
    · split
      · next e => exact h2 _ e rfl
      · rfl
  have gB : ∀ x, (∀ y, y = gs"namespace" → x = y → m.destinationNamespace = m'.destinationNamespace) →
      (∀ y, y = gs"cluster" → x = y → m.destinationCluster = m'.destinationCluster) → getAttribute .receiver x m = getAttribute .receiver x m' := by
    intro x h1 h2
    unfold getAttribute
    split
    · next e => exact h1 _ e rfl
    · split
      · next e => exact h2 _ e rfl
      · rfl
  cases hattr with
  | simple hmem hc =>
    simp only [simpleAttributes, List.mem_cons, List.not_mem_nil, or_false] at hmem
    unfold testOneCondition
    rw [hc]
    rcases hmem with rfl | rfl | rfl | rfl | rfl | rfl | rfl | rfl | rfl | rfl
    · simp
    · simp
    · simp
    · simp
    · have : m.requestSize = m'.requestSize := h _ .size
      simp [this]
    · have : m.requestUseragent = m'.requestUseragent := h _ .agent
      simp [this]
    · have : m.hoursFromMidnight = m'.hoursFromMidnight := h _ .hours
      simp [this]
    · have : m.encryptionType = m'.encryptionType := h _ .encryptionType
      simp [this]
    · have : m.encryptionVersion = m'.encryptionVersion := h _ .encryptionVersion
      simp [this]
    · have : m.domain = m'.domain := h _ .domain
      simp [this]
  | @senderField x hc hx =>
    unfold testOneCondition
    rw [hc]
    simp only [reduceIte, List.cons.injEq, reduceCtorEq, and_false, or_self, Char.reduceEq]
    have e1 : getAttribute .sender x m = getAttribute .sender x m' := by
      refine gA x ?_ ?_
      · rintro y rfl rfl; exact h _ .senderNamespace
      · rintro y rfl rfl; exact h _ .senderCluster
    have e2 : c.valueIsReceiverObject = true → getAttribute .receiver c.valueReceiverObject m = getAttribute .receiver c.valueReceiverObject m' := by
      intro ho
      have hn := hl.objectName ho
      have hpre := hl.object
      rw [ho] at hpre
      rw [finalValue_ref hpre.symm (by decide) (by decide)] at hn hpre
      obtain ⟨y, hy⟩ := hasPrefix_iff.1 hpre.symm
      rw [hy] at hn
      have hn' : c.valueReceiverObject = y := hn
      rw [hn']
      subst hy
      refine gB y ?_ ?_
      · rintro y rfl rfl; exact h _ .sameNamespace
      · rintro y rfl rfl; exact h _ .sameCluster
    simp only [testSenderAttribute, hx, e1]
    cases ho : c.valueIsReceiverObject with
    | false => rfl
    | true => rw [e2 ho]
  | @receiverField x hc hx =>
    unfold testOneCondition
    rw [hc]
    simp only [reduceIte, List.cons.injEq, reduceCtorEq, and_false, or_self, Char.reduceEq]
    have e1 : getAttribute .receiver x m = getAttribute .receiver x m' := by
      refine gB x ?_ ?_
      · rintro y rfl rfl; exact h _ .receiverNamespace
      · rintro y rfl rfl; exact h _ .receiverCluster
    simp only [testReceiverAttribute, hx, e1]
  | @senderLabel k hc hf hx =>
    unfold testOneCondition
    rw [hc]
    simp only [reduceIte, List.cons.injEq, reduceCtorEq, and_false, or_self, Char.reduceEq]
    have e1 : lookup k m.sourceLabels = lookup k m'.sourceLabels := h _ .senderLabel
    have e2 : c.valueIsReceiverLabel = true → lookup c.valueReceiverLabelKey m.destinationLabels = lookup c.valueReceiverLabelKey m'.destinationLabels := by
      intro ho
      have hn := hl.labelName ho
      have hpre := hl.label
      rw [ho] at hpre
      rw [finalValue_ref hpre.symm (by decide) (by decide)] at hn hpre
      obtain ⟨y, hy⟩ := hasPrefix_iff.1 hpre.symm
      obtain ⟨k', -, hk'⟩ := hl.acceptable.value.label ⟨y, hy⟩
      have hk2 : w = gs"receiverLabel[" ++ k' ++ gs"]" := by rw [hk']; simp
      rw [hk2] at hn h
      have hn' : c.valueReceiverLabelKey = k' := by
        rw [hn]
        simp
      rw [hn']
      exact h _ .sameLabel
    simp only [testSenderLabel, hx, e1]
    cases ho : c.valueIsReceiverLabel with
    | false => rfl
    | true => simp only [e2 ho, if_true]; rfl
  | @receiverLabel k hc hf hx =>
    unfold testOneCondition
    rw [hc]
    simp only [reduceIte, List.cons.injEq, reduceCtorEq, and_false, or_self, Char.reduceEq]
    have e1 : lookup k m.destinationLabels = lookup k m'.destinationLabels := h _ .receiverLabel
    simp only [testReceiverLabel, hx, e1]
  | path hok hc =>
    have hd : SameDocs m m' := h _ .path
    unfold testOneCondition
    rw [hc]
    simp only [reduceIte, List.cons.injEq, reduceCtorEq, and_false, or_self, Char.reduceEq, sameDocs_flag hd, sameDocs_extra hd]

/-! ## Trees -/

theorem agree_setI {F : Field → Prop} {m m' : Msg} (v : Json) (h : Agree F m m') : Agree F (setRawIRel v m) (setRawIRel v m') := by
  intro f hf
  have := h f hf
  cases f <;> try exact this
  exact ⟨this.1, rfl, this.2.2⟩

theorem agree_setB {F : Field → Prop} {m m' : Msg} (v : Str) (h : Agree F m m') : Agree F (setJsonRawRel v m) (setJsonRawRel v m') := by
  intro f hf
  have := h f hf
  cases f <;> try exact this
  exact ⟨this.1, this.2.1, this.2.2.1, rfl⟩

theorem agree_resetI {F : Field → Prop} {m m' : Msg} {v v' : Option Json} (hv : v = v') (h : Agree F m m') :
    Agree F { m with rawIRel := v } { m' with rawIRel := v' } := by
  subst hv
  intro f hf
  have := h f hf
  cases f <;> try exact this
  exact ⟨this.1, rfl, this.2.2⟩

theorem agree_resetB {F : Field → Prop} {m m' : Msg} {v v' : Option Str} (hv : v = v') (h : Agree F m m') :
    Agree F { m with jsonRawRel := v } { m' with jsonRawRel := v' } := by
  subst hv
  intro f hf
  have := h f hf
  cases f <;> try exact this
  exact ⟨this.1, this.2.1, this.2.2.1, rfl⟩

theorem anyLoop_agree {α : Type} {R : Msg → Msg → Prop} {child : Nat → Msg → Go EvalOut} {set : α → Msg → Msg} {reset reset' : Msg → Msg}
    {ret ret' : Msg → Go (List Extra)} {ca : Bool} (hc : ∀ i m m', R m m' → Alike R (child i m) (child i m'))
    (hs : ∀ v m m', R m m' → R (set v m) (set v m')) (hr : ∀ m m', R m m' → R (reset m) (reset' m'))
    (he : ∀ m m', R m m' → ret m = ret' m') : ∀ (l : List α) (i : Nat) (res : Bool) (acc : List Extra) (m m' : Msg), R m m' →
    Alike R (anyLoop child set reset ret ca i res acc m l) (anyLoop child set reset' ret' ca i res acc m' l)
  | [], _, _, _, _, _, h => .ok (hr _ _ h)
  | v :: vs, i, res, acc, m, m', h => by
    simp only [anyLoop]
    refine (hc i _ _ (hs v _ _ h)).bind fun b e m m' h => ?_
    cases b with
    | true =>
      simp only [if_true]
      rw [he _ _ h]
      refine .same fun e => ?_
      cases ca with
      | true => exact anyLoop_agree hc hs hr he vs _ _ _ _ _ h
      | false => exact .ok (hr _ _ h)
    | false => exact anyLoop_agree hc hs hr he vs _ _ _ _ _ h

theorem allLoop_agree {α : Type} {R : Msg → Msg → Prop} {child : Nat → Msg → Go EvalOut} {set : α → Msg → Msg} {reset reset' : Msg → Msg}
    (hc : ∀ i m m', R m m' → Alike R (child i m) (child i m'))
    (hs : ∀ v m m', R m m' → R (set v m) (set v m')) (hr : ∀ m m', R m m' → R (reset m) (reset' m')) :
    ∀ (l : List α) (i : Nat) (m m' : Msg), R m m' →
    Alike R (allLoop child set reset i m l) (allLoop child set reset' i m' l)
  | [], _, _, _, h => .ok (hr _ _ h)
  | v :: vs, i, m, m', h => by
    simp only [allLoop]
    refine (hc i _ _ (hs v _ _ h)).bind fun b e m m' h => ?_
    cases b with
    | true => exact allLoop_agree hc hs hr vs _ _ _ h
    | false => exact .ok (hr _ _ h)

mutual
theorem eval_agree (F : Field → Prop) : ∀ (n : Node) (p : List Nat) (m m' : Msg),
    (∀ c ∈ leaves n, FromText env c ∧ ∀ f, Mentions c.origAttr c.origValue f → F f) → (quantifiers n ≠ [] → F .documents) →
    Agree F m m' → Alike (Agree F) (eval env n p m) (eval env n p m')
  | .nil, p, m, m', _, _, h => .error _
  | .and ns, p, m, m', hl, hq, h => by
    unfold eval
    exact evalAnd_agree F ns p 1 [] m m' hl hq h
  | .or ns, p, m, m', hl, hq, h => by
    unfold eval
    exact evalOr_agree F ns p 1 false [] m m' hl hq h
  | .not n, p, m, m', hl, hq, h => by
    unfold eval
    exact (eval_agree F n _ m m' hl hq h).bind fun b e m m' h => .ok h
  | .any a n, p, m, m', hl, hq, h => by
    have hd : SameDocs m m' := h _ (hq (by simp [quantifiers]))
    have hF : F .documents := hq (by simp [quantifiers])
    have hc : ∀ i m m', Agree F m m' → Alike (Agree F) (eval env n (i :: p) m) (eval env n (i :: p) m') :=
      fun i m m' h => eval_agree F n (i :: p) m m' hl (fun _ => hF) h
    unfold eval evalAny
    rw [hd.1, sameDocs_interfaces hd, sameDocs_jsons hd]
    split
    · refine .same fun l => anyLoop_agree hc (fun v _ _ h => agree_setI v h) (fun _ _ h => agree_resetI hd.2.1 h) ?_ l 1 false [] m m' h
      intro m m' h
      simp only [sameDocs_interface (env := env) (h _ hF)]
    · refine .same fun l => ?_
      cases l with
      | none => exact .ok h
      | some l =>
        refine anyLoop_agree hc (fun v _ _ h => agree_setB v h) (fun _ _ h => agree_resetB hd.2.2.2 h) ?_ l 1 false [] m m' h
        intro m m' h
        simp only [sameDocs_bytes (env := env) (h _ hF)]
  | .all a n, p, m, m', hl, hq, h => by
    have hd : SameDocs m m' := h _ (hq (by simp [quantifiers]))
    have hF : F .documents := hq (by simp [quantifiers])
    have hc : ∀ i m m', Agree F m m' → Alike (Agree F) (eval env n (i :: p) m) (eval env n (i :: p) m') :=
      fun i m m' h => eval_agree F n (i :: p) m m' hl (fun _ => hF) h
    unfold eval evalAll
    rw [hd.1, sameDocs_interfaces hd, sameDocs_jsons hd]
    split
    · exact .same fun l => allLoop_agree hc (fun v _ _ h => agree_setI v h) (fun _ _ h => agree_resetI hd.2.1 h) l 1 m m' h
    · refine .same fun l => ?_
      cases l with
      | none => exact .ok h
      | some l => exact allLoop_agree hc (fun v _ _ h => agree_setB v h) (fun _ _ h => agree_resetB hd.2.2.2 h) l 1 m m' h
  | .tt, p, m, m', _, _, h => .ok h
  | .ff, p, m, m', _, _, h => .ok h
  | .cond c, p, m, m', hl, _, h => by
    obtain ⟨hc, hF⟩ := hl c (by simp [leaves])
    unfold eval
    rw [test_agree hc fun f hf => h f (hF f hf)]
    exact .same fun r => .ok h

theorem evalAnd_agree (F : Field → Prop) : ∀ (ns : List Node) (p : List Nat) (i : Nat) (acc : List Extra) (m m' : Msg),
    (∀ c ∈ leavesOf ns, FromText env c ∧ ∀ f, Mentions c.origAttr c.origValue f → F f) → (quantifiersOf ns ≠ [] → F .documents) →
    Agree F m m' → Alike (Agree F) (evalAnd env ns p i acc m) (evalAnd env ns p i acc m')
  | [], p, i, acc, m, m', _, _, h => .ok h
  | n :: ns, p, i, acc, m, m', hl, hq, h => by
    unfold evalAnd
    refine (eval_agree F n _ m m' (fun c hc => hl c (by simp [leavesOf, hc])) (fun hn => hq (by simp [quantifiersOf, hn])) h).bind fun b e m m' h => ?_
    dsimp only
    split
    · exact .ok h
    · exact evalAnd_agree F ns p _ _ m m' (fun c hc => hl c (by simp [leavesOf, hc])) (fun hn => hq (by simp [quantifiersOf, hn])) h

theorem evalOr_agree (F : Field → Prop) : ∀ (ns : List Node) (p : List Nat) (i : Nat) (fl : Bool) (acc : List Extra) (m m' : Msg),
    (∀ c ∈ leavesOf ns, FromText env c ∧ ∀ f, Mentions c.origAttr c.origValue f → F f) → (quantifiersOf ns ≠ [] → F .documents) →
    Agree F m m' → Alike (Agree F) (evalOr env ns p i fl acc m) (evalOr env ns p i fl acc m')
  | [], p, i, fl, acc, m, m', _, _, h => .ok h
  | n :: ns, p, i, fl, acc, m, m', hl, hq, h => by
    unfold evalOr
    refine (eval_agree F n _ m m' (fun c hc => hl c (by simp [leavesOf, hc])) (fun hn => hq (by simp [quantifiersOf, hn])) h).bind fun b e m m' h => ?_
    exact evalOr_agree F ns p _ _ _ m m' (fun c hc => hl c (by simp [leavesOf, hc])) (fun hn => hq (by simp [quantifiersOf, hn])) h
end

/-! ## Rules -/

theorem senderLoop_same {b : Rule} {m m' : Msg} (h : SameFor b m m') : ∀ es : List ExpandedSR, (∀ e ∈ es, e.type = b.senderType) →
    senderLoop env.toExt m es = senderLoop env.toExt m' es
  | [], _ => rfl
  | e :: es, hx => by
    have ih := senderLoop_same h es fun x hm => hx x (List.mem_cons_of_mem _ hm)
    have he := hx e List.mem_cons_self
    simp only [senderLoop, ih]
    by_cases h1 : e.type = gs"subnet"
    · obtain ⟨a1, a2⟩ := h.sourceAddress (he ▸ h1)
      rw [if_pos h1, if_pos h1, a1, a2]
    · rw [if_neg h1, if_neg h1]
      by_cases h2 : e.type = gs"*" ∨ e.type = gs"workload"
      · rw [if_pos h2, if_pos h2, h.sourceService (he ▸ h2)]
      · rw [if_neg h2, if_neg h2]

theorem receiverLoop_same {b : Rule} {m m' : Msg} (h : SameFor b m m') : ∀ es : List ExpandedSR, (∀ e ∈ es, e.type = b.receiverType) →
    receiverLoop env.toExt m es = receiverLoop env.toExt m' es
  | [], _ => rfl
  | e :: es, hx => by
    have ih := receiverLoop_same h es fun x hm => hx x (List.mem_cons_of_mem _ hm)
    have he := hx e List.mem_cons_self
    simp only [receiverLoop, ih]
    by_cases h1 : e.type = gs"subnet"
    · obtain ⟨a1, a2⟩ := h.destinationAddress (he ▸ h1)
      rw [if_pos h1, if_pos h1, a1, a2]
    · rw [if_neg h1, if_neg h1]
      by_cases h3 : e.type = gs"hostname"
      · rw [if_pos h3, if_pos h3, h.requestHost (he ▸ h3)]
      · rw [if_neg h3, if_neg h3]
        by_cases h2 : e.type = gs"*" ∨ e.type = gs"workload"
        · rw [if_pos h2, if_pos h2, h.destinationService (he ▸ h2)]
        · rw [if_neg h2, if_neg h2]

theorem testResource_same {b : Rule} {m m' : Msg} (h : SameFor b m m') : testResource env.toExt b m = testResource env.toExt b m' := by
  unfold testResource
  by_cases h1 : b.protocol = gs"tcp"
  · rw [if_pos h1, if_pos h1, h.port h1]
  · rw [if_neg h1, if_neg h1]
    by_cases h2 : b.protocol = gs"*"
    · rw [if_neg (not_not.2 h2), if_neg (not_not.2 h2)]
    · obtain ⟨a1, a2, a3⟩ := h.path h1 h2
      rw [a1, a2, a3]

/-- The messages of two outcomes are left as they were, or both fail in the same way. -/
inductive RulesAlike (m m' : Msg) : Go (Nat × List Extra × Msg) → Go (Nat × List Extra × Msg) → Prop
  | ok {d e} : RulesAlike m m' (.ok (d, e, m)) (.ok (d, e, m'))
  | error (x : Fail) : RulesAlike m m' (.error x) (.error x)

theorem judge_agree {rule : Rule} {q : List Nat} {m m' : Msg} (hx : Expanded rule) (hr : SameFor rule m m')
    (h : ∀ n, rule.conditions = some n → (∀ c ∈ leaves n, FromText env c) ∧ ∀ f, TreeMentions n f → f.Same m m') :
    RulesAlike m m' (judge env rule q m) (judge env rule q m') := by
  have hj : ∀ (x y : Go EvalOut), Alike (fun a b => a = m ∧ b = m') x y →
      RulesAlike m m' (x >>= fun o => if o.flag = false then return (DEFAULT, [], o.msg) else
        return (decisionCode rule.decision, if decisionCode rule.decision = DEFAULT then [] else o.extra, o.msg))
        (y >>= fun o => if o.flag = false then return (DEFAULT, [], o.msg) else
        return (decisionCode rule.decision, if decisionCode rule.decision = DEFAULT then [] else o.extra, o.msg)) := by
    intro x y hxy
    cases hxy with
    | error x => exact .error x
    | @ok b e _ _ hm =>
      obtain ⟨rfl, rfl⟩ := hm
      cases b with
      | false => exact .ok
      | true => exact .ok
  have hsame : ∀ {x : Go Bool} {f g : Bool → Go (Nat × List Extra × Msg)}, (∀ b, RulesAlike m m' (f b) (g b)) → RulesAlike m m' (x >>= f) (x >>= g) := by
    intro x f g hf
    cases x with
    | ok a => exact hf a
    | error x => exact .error x
  have hite : ∀ {P : Prop} [Decidable P] {x y x' y' : Go (Nat × List Extra × Msg)}, RulesAlike m m' x y → RulesAlike m m' x' y' →
      RulesAlike m m' (if P then x else x') (if P then y else y') := by
    intro P _ x y x' y' h1 h2
    split
    · exact h1
    · exact h2
  unfold judge
  have hc := convertOnUse_converted (env := env.toExt) hx.converted
  have e1 : testSender env rule m = testSender env rule m' := senderLoop_same hr _ (by rw [hc]; exact hx.sender)
  have e2 : testReceiver env rule m = testReceiver env rule m' := receiverLoop_same hr _ (by rw [hc]; exact hx.receiver)
  have e3 : testResource env rule m = testResource env rule m' := testResource_same hr
  rw [e1, e2, e3, hr.requestMethod]
  refine hsame fun b => hite .ok (hsame fun b => hite .ok (hsame fun b => hite .ok (hsame fun b => hite .ok (hj _ _ ?_))))
  unfold judgeConditions
  cases hc : rule.conditions with
  | none => exact .ok ⟨rfl, rfl⟩
  | some n =>
    obtain ⟨hl, hf⟩ := h n hc
    have := eval_agree (env := env) (TreeMentions n) n q m m' (fun c hc => ⟨hl c hc, fun f hm => .leaf hc hm⟩) (fun hq => .quantifier hq) hf
    dsimp only
    generalize hx : eval env n q m = x at *
    generalize hy : eval env n q m' = y at *
    cases this with
    | error x => exact .error x
    | ok _ =>
      have h1 := eval_msg env n q m _ hx
      have h2 := eval_msg env n q m' _ hy
      exact .ok ⟨h1, h2⟩

end Mapl

import Verif.Spec.Bson
import Verif.Lemmas.Bare
import Verif.Lemmas.Sort

/-! # Trees with the same return values in another order -/

namespace Mapl

open Spec

variable {env : Env} {t : Predef} {msg : Msg}

/-! ## Computations that do the same -/

theorem Spec.Outcomes.refl {α : Type} {R : α → α → Prop} (h : ∀ a, R a a) (x : Go α) : Outcomes R x x := by
  cases x with
  | ok a => exact .ok (h a)
  | error e => exact .error e

theorem Spec.Outcomes.bind {α β γ δ : Type} {R : α → β → Prop} {S : γ → δ → Prop} {x : Go α} {y : Go β} {f : α → Go γ} {g : β → Go δ} (h : Outcomes R x y)
    (hf : ∀ a b, R a b → Outcomes S (f a) (g b)) : Outcomes S (x >>= f) (y >>= g) := by
  cases h with
  | ok h => exact hf _ _ h
  | error e => exact .error e

theorem Spec.Outcomes.same {α γ δ : Type} {S : γ → δ → Prop} {x : Go α} {f : α → Go γ} {g : α → Go δ} (hf : ∀ a, Outcomes S (f a) (g a)) : Outcomes S (x >>= f) (x >>= g) := by
  cases x with
  | ok a => exact hf a
  | error e => exact .error e

theorem Spec.Outcomes.ite {α β : Type} {R : α → β → Prop} {P : Prop} [Decidable P] {a b : Go α} {a' b' : Go β} (h1 : P → Outcomes R a a') (h2 : ¬ P → Outcomes R b b') :
    Outcomes R (if P then a else b) (if P then a' else b') := by
  by_cases h : P
  · rw [if_pos h, if_pos h]; exact h1 h
  · rw [if_neg h, if_neg h]; exact h2 h

theorem Spec.Outcomes.imp {α β : Type} {R S : α → β → Prop} {x : Go α} {y : Go β} (h : Outcomes R x y) (hi : ∀ a b, R a b → S a b) : Outcomes S x y := by
  cases h with
  | ok h => exact .ok (hi _ _ h)
  | error e => exact .error e

/-! ## Trees -/

mutual
theorem Spec.SameTree.refl : ∀ n : Node, SameTree n n
  | .nil => .nil
  | .and ns => .and (SameTrees.refl ns)
  | .or ns => .or (SameTrees.refl ns)
  | .not n => .not (SameTree.refl n)
  | .any _ n => .any (.refl _) (SameTree.refl n)
  | .all _ n => .all (.refl _) (SameTree.refl n)
  | .tt => .tt
  | .ff => .ff
  | .cond c => .cond c

theorem Spec.SameTrees.refl : ∀ ns : List Node, SameTrees ns ns
  | [] => .nil
  | n :: ns => .cons (SameTree.refl n) (SameTrees.refl ns)
end

theorem prepare_ret {e : Ext} {c c' : Condition} (h : c.prepare e t = .ok c') : c'.ret = c.ret := by
  have := withRet_prepare (e := e) (t := t) (c := c) (r := c.ret)
  rw [show c.withRet c.ret = c from rfl, h] at this
  have := Except.ok.inj this
  rw [this]; rfl

theorem anyall_ret {e : Ext} {a : AnyAll} {ret : List RetVal} : ({ a with ret := ret } : AnyAll).prepare e = (a.prepare e).map fun a => { a with ret := ret } := by
  unfold AnyAll.prepare
  dsimp only
  cases (split ',' a.parent).mapM (prepareJsonpathQuery e) <;> rfl

theorem anyall_keeps {e : Ext} {a a' : AnyAll} (h : a.prepare e = .ok a') : a'.ret = a.ret := by
  have := anyall_ret (e := e) (a := a) (ret := a.ret)
  rw [show ({ a with ret := a.ret } : AnyAll) = a from rfl, h] at this
  have := Except.ok.inj this
  rw [this]

mutual
/-- Preparation does not depend on the order of return values. -/
theorem sameTree_prepare {e : Ext} : ∀ {n n' : Node}, SameTree n n' → Outcomes SameTree (n.prepare e t) (n'.prepare e t)
  | _, _, .nil => .error _
  | _, _, .and h => (sameTrees_prepare h).bind fun _ _ h => .ok (.and h)
  | _, _, .or h => (sameTrees_prepare h).bind fun _ _ h => .ok (.or h)
  | _, _, .not h => (sameTree_prepare h).bind fun _ _ h => .ok (.not h)
  | _, _, .any (a := a) (ret := ret) hr h => by
    simp only [Node.prepare]
    refine (sameTree_prepare h).bind fun n n' h => ?_
    rw [anyall_ret (a := a) (ret := ret)]
    cases ha : a.prepare e with
    | error x => exact .error _
    | ok a' => exact .ok (SameTree.any (a := a') (by rw [anyall_keeps ha]; exact hr) h)
  | _, _, .all (a := a) (ret := ret) hr h => by
    simp only [Node.prepare]
    refine (sameTree_prepare h).bind fun n n' h => ?_
    rw [anyall_ret (a := a) (ret := ret)]
    cases ha : a.prepare e with
    | error x => exact .error _
    | ok a' => exact .ok (SameTree.all (a := a') (by rw [anyall_keeps ha]; exact hr) h)
  | _, _, .tt => .ok .tt
  | _, _, .ff => .ok .ff
  | _, _, .cond c => Outcomes.refl SameTree.refl _
  | _, _, .condRet (c := c) (ret' := ret') hc hr => by
    simp only [Node.prepare]
    rw [show ({ c with ret := some ret' } : Condition) = c.withRet (some ret') from rfl, withRet_prepare]
    cases ha : c.prepare e t with
    | error x => exact .error _
    | ok c' => exact .ok (.condRet (by rw [prepare_ret ha]; exact hc) hr)

theorem sameTrees_prepare {e : Ext} : ∀ {ns ns' : List Node}, SameTrees ns ns' → Outcomes SameTrees (prepareNodes e t ns) (prepareNodes e t ns')
  | _, _, .nil => .ok .nil
  | _, _, .cons h hs => (sameTree_prepare h).bind fun _ _ h => (sameTrees_prepare hs).bind fun _ _ hs => .ok (.cons h hs)
end

/-! ## Evaluation -/

theorem pick_error {α : Type} {rel : Bool} {x y : Option α} {e : Fail} (h : pick rel x y = .error e) : e = .panic .nilDeref := by
  unfold pick at h
  generalize (if rel then y else x) = z at h
  cases z with
  | none => simp only [deref] at h; exact (Except.error.inj h).symm
  | some a => simp [deref] at h

theorem entry_error {e : Ext} {m : Msg} {r : RetVal} {x : Fail} (h : extraEntryInterface e m r = .error x) : x = .panic .nilDeref := by
  unfold extraEntryInterface at h
  split at h
  · rcases Go.bind_eq_error.1 h with h | ⟨_, _, h⟩
    · exact pick_error h
    · cases h
  · split at h
    · rcases Go.bind_eq_error.1 h with h | ⟨_, _, h⟩
      · exact pick_error h
      · cases h
    · cases h

/-- The entries for a list of names: all of them, or a crash. -/
def gather (f : RetVal → Go Extra) : List RetVal → Go Extra
  | [] => .ok []
  | r :: rs => do
    let here ← f r
    let rest ← gather f rs
    pure (here ++ rest)

theorem gather_perm {f : RetVal → Go Extra} (hf : ∀ r x, f r = .error x → x = .panic .nilDeref) {l l' : List RetVal} (h : l.Perm l') :
    Outcomes SameMap (gather f l) (gather f l') := by
  induction h with
  | nil => exact .ok (.refl _)
  | cons r _ ih =>
    simp only [gather]
    exact Outcomes.same fun here => ih.bind fun a b h => .ok (h.append_left here)
  | swap r r' l =>
    simp only [gather]
    cases h1 : f r with
    | error e1 =>
      obtain rfl := hf r _ h1
      cases h2 : f r' with
      | error e2 => obtain rfl := hf r' _ h2; exact .error _
      | ok a2 => exact .error _
    | ok a1 =>
      cases h2 : f r' with
      | error e2 => exact .error _
      | ok a2 =>
        cases gather f l with
        | error e => exact .error _
        | ok b =>
          refine .ok ?_
          show (a2 ++ (a1 ++ b)).Perm (a1 ++ (a2 ++ b))
          rw [← List.append_assoc, ← List.append_assoc]
          exact List.perm_append_comm.append_right b
  | trans _ _ ih1 ih2 =>
    revert ih1 ih2
    generalize gather f _ = x
    generalize gather f _ = y
    generalize gather f _ = z
    intro h1 h2
    cases h1 with
    | error e => cases h2; exact .error _
    | ok h1 => cases h2 with | ok h2 => exact .ok (h1.trans h2)

theorem extraI_gather {e : Ext} {m : Msg} : ∀ l, extraFromInterface e m l = gather (extraEntryInterface e m) l
  | [] => rfl
  | r :: rs => by rw [extraFromInterface, gather, extraI_gather rs]

/-- One entry from a text document. -/
def bytesEntry (e : Ext) (m : Msg) (r : RetVal) : Go Extra := do
  let raw ← pick r.rel m.jsonRaw m.jsonRawRel
  pure (match e.jsonUnmarshal (e.jsGet raw r.query).1 with
    | some v => [(r.name, v)]
    | none => [])

theorem extraB_gather {e : Ext} {m : Msg} : ∀ l, extraFromBytes e m l = gather (bytesEntry e m) l
  | [] => rfl
  | r :: rs => by
    rw [extraFromBytes, gather, extraB_gather rs, bytesEntry]
    cases pick r.rel m.jsonRaw m.jsonRawRel <;> rfl

theorem bytesEntry_error {e : Ext} {m : Msg} {r : RetVal} {x : Fail} (h : bytesEntry e m r = .error x) : x = .panic .nilDeref := by
  rcases Go.bind_eq_error.1 h with h | ⟨_, _, h⟩
  · exact pick_error h
  · cases h

theorem extraI_perm {e : Ext} {m : Msg} {l l' : List RetVal} (h : l.Perm l') : Outcomes SameMap (extraFromInterface e m l) (extraFromInterface e m l') := by
  rw [extraI_gather, extraI_gather]; exact gather_perm (fun _ _ => entry_error) h

theorem extraB_perm {e : Ext} {m : Msg} {l l' : List RetVal} (h : l.Perm l') : Outcomes SameMap (extraFromBytes e m l) (extraFromBytes e m l') := by
  rw [extraB_gather, extraB_gather]; exact gather_perm (fun _ _ => bytesEntry_error) h

theorem extra_perm {e : Ext} {m : Msg} {l l' : List RetVal} (h : l.Perm l') : Outcomes SameMap (getExtraData e m l) (getExtraData e m l') := by
  unfold getExtraData
  cases m.rawI with
  | none => exact extraB_perm h
  | some => exact extraI_perm h

/-- The same values in the same order of maps. -/
abbrev SameValues : List Extra → List Extra → Prop := List.Forall₂ SameMap

theorem SameValues.refl : ∀ l : List Extra, SameValues l l
  | [] => .nil
  | _ :: l => .cons (.refl _) (SameValues.refl l)

theorem SameValues.append {a a' b b' : List Extra} (h : SameValues a a') (h' : SameValues b b') : SameValues (a ++ b) (a' ++ b') := by
  induction h with
  | nil => exact h'
  | cons h _ ih => exact .cons h ih

/-- The same outcome of an evaluation. -/
structure SameOut (o o' : EvalOut) : Prop where
  flag : o'.flag = o.flag
  msg : o'.msg = o.msg
  extra : SameValues o.extra o'.extra

theorem sameOut_refl (o : EvalOut) : SameOut o o := ⟨rfl, rfl, SameValues.refl _⟩

theorem sameOut_anyLoop {α : Type} {child child' : Nat → Msg → Go EvalOut} {set : α → Msg → Msg} {reset : Msg → Msg} {ret ret' : Msg → Go (List Extra)} {b : Bool}
    (hc : ∀ i m, Outcomes SameOut (child i m) (child' i m)) (hr : ∀ m, Outcomes SameValues (ret m) (ret' m)) :
    ∀ (l : List α) (i : Nat) (x : Bool) (acc acc' : List Extra) (m : Msg), SameValues acc acc' →
      Outcomes SameOut (anyLoop child set reset ret b i x acc m l) (anyLoop child' set reset ret' b i x acc' m l)
  | [], i, x, acc, acc', m, h => .ok ⟨rfl, rfl, h⟩
  | v :: vs, i, x, acc, acc', m, h => by
    rw [anyLoop, anyLoop]
    refine (hc i _).bind fun o o' ho => ?_
    rw [ho.flag, ho.msg]
    cases o.flag with
    | false => exact sameOut_anyLoop hc hr vs _ _ _ _ _ h
    | true =>
      simp only [if_true]
      refine (hr o.msg).bind fun e e' he => ?_
      cases b with
      | true => exact sameOut_anyLoop hc hr vs _ _ _ _ _ (h.append he)
      | false => exact .ok ⟨rfl, rfl, h.append he⟩

theorem sameOut_allLoop {α : Type} {child child' : Nat → Msg → Go EvalOut} {set : α → Msg → Msg} {reset : Msg → Msg}
    (hc : ∀ i m, Outcomes SameOut (child i m) (child' i m)) :
    ∀ (l : List α) (i : Nat) (m : Msg), Outcomes SameOut (allLoop child set reset i m l) (allLoop child' set reset i m l)
  | [], i, m => .ok ⟨rfl, rfl, .nil⟩
  | v :: vs, i, m => by
    rw [allLoop, allLoop]
    refine (hc i _).bind fun o o' ho => ?_
    rw [ho.flag, ho.msg]
    cases o.flag with
    | false => exact .ok ⟨rfl, rfl, .nil⟩
    | true => exact sameOut_allLoop hc vs _ _

theorem perm_nil_iff {l l' : List RetVal} (h : l.Perm l') : (l = []) = (l' = []) := propext ⟨fun e => by subst e; simpa using h, fun e => by subst e; simpa using h⟩

theorem sameOut_evalAny {p : List Nat} {a : AnyAll} {m : Msg} {ret : List RetVal} {child child' : Nat → Msg → Go EvalOut}
    (hc : ∀ i m, Outcomes SameOut (child i m) (child' i m)) (h : a.ret.Perm ret) :
    Outcomes SameOut (evalAny env p a child m) (evalAny env p { a with ret := ret } child' m) := by
  have hb : decide (ret ≠ []) = decide (a.ret ≠ []) := by simp only [ne_eq, perm_nil_iff h]
  have hret : ∀ {f : Msg → List RetVal → Go Extra}, (∀ m, Outcomes SameMap (f m a.ret) (f m ret)) → ∀ m, Outcomes SameValues
      (if a.ret = [] then pure [] else do let e ← f m a.ret; pure [e]) (if ret = [] then pure [] else do let e ← f m ret; pure [e]) := by
    intro f hf m
    by_cases hn : a.ret = []
    · rw [if_pos hn, if_pos ((perm_nil_iff h) ▸ hn)]; exact .ok .nil
    · rw [if_neg hn, if_neg ((perm_nil_iff h) ▸ hn)]
      exact (hf m).bind fun _ _ he => .ok (.cons he .nil)
  unfold evalAny
  simp only [hb]
  refine Outcomes.ite (fun hq => ?_) (fun hq => ?_)
  · rw [show getArrayOfInterfaces env p { a with ret := ret } m = getArrayOfInterfaces env p a m from rfl]
    exact Outcomes.same fun l => sameOut_anyLoop hc (hret (f := fun m => extraFromInterface env.toExt m) fun m => extraI_perm h) l _ _ _ _ _ .nil
  · rw [show getArrayOfJsons env p { a with ret := ret } m = getArrayOfJsons env p a m from rfl]
    refine Outcomes.same fun l => ?_
    cases l with
    | none => exact .ok ⟨rfl, rfl, .nil⟩
    | some l => exact sameOut_anyLoop hc (hret (f := fun m => extraFromBytes env.toExt m) fun m => extraB_perm h) l _ _ _ _ _ .nil

theorem sameOut_evalAll {p : List Nat} {a : AnyAll} {m : Msg} {ret : List RetVal} {child child' : Nat → Msg → Go EvalOut}
    (hc : ∀ i m, Outcomes SameOut (child i m) (child' i m)) : Outcomes SameOut (evalAll env p a child m) (evalAll env p { a with ret := ret } child' m) := by
  unfold evalAll
  refine Outcomes.ite (fun hq => ?_) (fun hq => ?_)
  · rw [show getArrayOfInterfaces env p { a with ret := ret } m = getArrayOfInterfaces env p a m from rfl]
    exact Outcomes.same fun l => sameOut_allLoop hc l _ _
  · rw [show getArrayOfJsons env p { a with ret := ret } m = getArrayOfJsons env p a m from rfl]
    refine Outcomes.same fun l => ?_
    cases l with
    | none => exact .ok ⟨rfl, rfl, .nil⟩
    | some l => exact sameOut_allLoop hc l _ _

/-- The same outcome of a condition. -/
def SameTest (x x' : Bool × List Extra) : Prop := x'.1 = x.1 ∧ SameValues x.2 x'.2

theorem sameTest {p : List Nat} {c : Condition} {m : Msg} {ret ret' : List RetVal} (hc : c.ret = some ret) (h : ret.Perm ret') :
    Outcomes SameTest (testOneCondition env p c m) (testOneCondition env p { c with ret := some ret' } m) := by
  have same : ∀ x : Go (Bool × List Extra), Outcomes SameTest x x := Outcomes.refl fun _ => ⟨rfl, SameValues.refl _⟩
  unfold testOneCondition
  iterate 12 refine Outcomes.ite (fun _ => same _) fun _ => ?_
  refine Outcomes.ite (fun _ => ?_) fun _ => same _
  rw [show testJsonpathFlag env p { c with ret := some ret' } m = testJsonpathFlag env p c m from rfl]
  refine Outcomes.same fun f => ?_
  rw [hc]
  cases f with
  | false => exact .ok ⟨rfl, .nil⟩
  | true => exact (extra_perm h).bind fun _ _ he => .ok ⟨rfl, .cons he .nil⟩

mutual
/-- Evaluation does not depend on the order of return values. -/
theorem sameTree_eval : ∀ {n n' : Node}, SameTree n n' → ∀ (p : List Nat) (m : Msg), Outcomes SameOut (eval env n p m) (eval env n' p m)
  | _, _, .nil, p, m => .error _
  | _, _, .and h, p, m => by rw [eval, eval]; exact sameTrees_and h p 1 _ _ m .nil
  | _, _, .or h, p, m => by rw [eval, eval]; exact sameTrees_or h p 1 _ _ _ m .nil
  | _, _, .not h, p, m => by
    rw [eval, eval]
    exact (sameTree_eval h _ _).bind fun o o' ho => .ok ⟨by simp [ho.flag], ho.msg, .nil⟩
  | _, _, .any hr h, p, m => by rw [eval, eval]; exact sameOut_evalAny (fun i m => sameTree_eval h (i :: p) m) hr
  | _, _, .all hr h, p, m => by rw [eval, eval]; exact sameOut_evalAll (fun i m => sameTree_eval h (i :: p) m)
  | _, _, .tt, p, m => .ok (sameOut_refl _)
  | _, _, .ff, p, m => .ok (sameOut_refl _)
  | _, _, .cond c, p, m => Outcomes.refl sameOut_refl _
  | _, _, .condRet hc hr, p, m => by
    rw [eval, eval]
    exact (sameTest hc hr).bind fun _ _ h => .ok ⟨h.1, rfl, h.2⟩

theorem sameTrees_and : ∀ {ns ns' : List Node}, SameTrees ns ns' → ∀ (p : List Nat) (i : Nat) (acc acc' : List Extra) (m : Msg), SameValues acc acc' →
    Outcomes SameOut (evalAnd env ns p i acc m) (evalAnd env ns' p i acc' m)
  | _, _, .nil, p, i, acc, acc', m, h => .ok ⟨rfl, rfl, h⟩
  | _, _, .cons hn hs, p, i, acc, acc', m, h => by
    rw [evalAnd, evalAnd]
    refine (sameTree_eval hn _ _).bind fun o o' ho => ?_
    have hacc : SameValues (if o.extra.length > 0 then o.extra else acc) (if o'.extra.length > 0 then o'.extra else acc') := by
      rw [← ho.extra.length_eq]
      split
      · exact ho.extra
      · exact h
    simp only [ho.flag, ho.msg]
    exact Outcomes.ite (fun _ => .ok ⟨rfl, rfl, hacc⟩) fun _ => sameTrees_and hs p _ _ _ _ hacc

theorem sameTrees_or : ∀ {ns ns' : List Node}, SameTrees ns ns' → ∀ (p : List Nat) (i : Nat) (b : Bool) (acc acc' : List Extra) (m : Msg), SameValues acc acc' →
    Outcomes SameOut (evalOr env ns p i b acc m) (evalOr env ns' p i b acc' m)
  | _, _, .nil, p, i, b, acc, acc', m, h => .ok ⟨rfl, rfl, h⟩
  | _, _, .cons hn hs, p, i, b, acc, acc', m, h => by
    rw [evalOr, evalOr]
    refine (sameTree_eval hn _ _).bind fun o o' ho => ?_
    rw [ho.flag, ho.msg]
    refine sameTrees_or hs p _ _ _ _ _ ?_
    split
    · exact h.append ho.extra
    · exact h
end

/-! ## Rules -/

/-- The rule with other metadata and conditions. -/
def Rule.swap (md : List (Str × Str)) (c : Option Node) (r : Rule) : Rule := { r with metadata := md, conditions := c }

/-- What is prepared of a rule besides its conditions. -/
def prepareRest (e : Ext) (t : Predef) (r : Rule) : Go Rule := do
  let r ← replaceStringsAndListsInOneRule r t
  convertFields e r

theorem swap_convert {e : Ext} {r : Rule} {md : List (Str × Str)} {c : Option Node} :
    convertFieldsToRegex e (r.swap md c) = ((convertFieldsToRegex e r).1.swap md c, (convertFieldsToRegex e r).2) := by
  unfold convertFieldsToRegex
  rw [show (r.swap md c).converted = r.converted from rfl, show (r.swap md c).senderName = r.senderName from rfl,
    show (r.swap md c).senderType = r.senderType from rfl]
  split
  · rfl
  · cases convertStringToExpandedSenderReceiver e r.senderName r.senderType with
    | error x => rfl
    | ok sl =>
      dsimp only
      rw [show (r.swap md c).receiverName = r.receiverName from rfl, show (r.swap md c).receiverType = r.receiverType from rfl]
      cases convertStringToExpandedSenderReceiver e r.receiverName r.receiverType with
      | error x => rfl
      | ok rl =>
        dsimp only
        rw [show (r.swap md c).operation = r.operation from rfl, show (r.swap md c).resourceName = r.resourceName from rfl]
        cases compile e (convertOperationStringToRegex r.operation) with
        | none => rfl
        | some op => dsimp only; cases compile e (convertStringToRegex r.resourceName gs"WithWildcards") <;> rfl

theorem swap_rest {e : Ext} {r : Rule} {md : List (Str × Str)} {c : Option Node} : prepareRest e t (r.swap md c) = (prepareRest e t r).map (·.swap md c) := by
  unfold prepareRest
  have e2 : replaceStringsAndListsInOneRule (r.swap md c) t = (replaceStringsAndListsInOneRule r t).map (·.swap md c) := by
    unfold replaceStringsAndListsInOneRule
    rw [show (r.swap md c).senderName = r.senderName from rfl, show (r.swap md c).receiverName = r.receiverName from rfl]
    cases replaceName r.senderName t with
    | error => rfl
    | ok s => cases replaceName r.receiverName t <;> rfl
  rw [e2]
  cases replaceStringsAndListsInOneRule r t with
  | error => rfl
  | ok r2 =>
    show convertFields e (r2.swap md c) = (convertFields e r2).map (·.swap md c)
    unfold convertFields
    rw [swap_convert]
    generalize convertFieldsToRegex e r2 = x
    obtain ⟨r3, e3⟩ := x
    cases e3 <;> rfl

theorem rest_keeps {e : Ext} {r r' : Rule} (h : prepareRest e t r = .ok r') : r'.metadata = r.metadata ∧ r'.conditions = r.conditions := by
  have := swap_rest (e := e) (t := t) (r := r) (md := r.metadata) (c := r.conditions)
  rw [show r.swap r.metadata r.conditions = r from rfl, h] at this
  have := Except.ok.inj this
  rw [this]; exact ⟨rfl, rfl⟩

theorem prepareOneRule_eq {e : Ext} {r : Rule} : prepareOneRule e t r = prepareConditions e t r >>= prepareRest e t := rfl

theorem sameConditions_prepare {e : Ext} {r : Rule} {md : List (Str × Str)} {c : Option Node} (hc : SameConditions r.conditions c) :
    Outcomes (fun x x' => x.metadata = r.metadata ∧ ∃ c', SameConditions x.conditions c' ∧ x' = x.swap md c') (prepareConditions e t r) (prepareConditions e t (r.swap md c)) := by
  unfold prepareConditions
  rcases hc with ⟨h, rfl⟩ | ⟨n, n', h, rfl, hn⟩
  · rw [h]
    exact .ok ⟨rfl, none, .inl ⟨h, rfl⟩, rfl⟩
  · rw [h]
    simp only [Rule.swap]
    refine (sameTree_prepare hn).bind fun q q' hq => .ok ⟨rfl, some q', .inr ⟨q, q', rfl, rfl, hq⟩, rfl⟩

theorem storedAs_prepare {e : Ext} {r r' : Rule} (h : StoredAs r r') : Outcomes StoredAs (prepareOneRule e t r) (prepareOneRule e t r') := by
  obtain ⟨md, c, hm, hc, rfl⟩ := h
  rw [prepareOneRule_eq, prepareOneRule_eq]
  refine (sameConditions_prepare (md := md) hc).bind ?_
  rintro x _ ⟨e1, c', hc', rfl⟩
  rw [swap_rest]
  cases hx : prepareRest e t x with
  | error => exact .error _
  | ok y =>
    obtain ⟨k1, k2⟩ := rest_keeps hx
    exact .ok ⟨md, c', by rw [k1, e1]; exact hm, by rw [k2]; exact hc', rfl⟩

/-- The same outcome of a rule. -/
structure SameRuleOut (o o' : RuleOut) : Prop where
  result : o'.result = o.result
  msg : o'.msg = o.msg
  extra : SameValues o.extra o'.extra

/-- Prepared rules that are the same are checked alike. -/
theorem storedAs_check {g : Predef} {r r' : RuleObj} {rule rule' : Rule} {p : List Nat} (h1 : r.ready = true) (h2 : r.prepared = some rule) (h1' : r'.ready = true)
    (h2' : r'.prepared = some rule') (h : StoredAs rule rule') : Outcomes SameRuleOut (r.check env g p msg) (r'.check env g p msg) := by
  obtain ⟨md, c, hm, hc, rfl⟩ := h
  change r'.prepared = some (rule.swap md c) at h2'
  have hcv : ∀ rule md c, convertOnUse env (Rule.swap md c rule) = (convertOnUse env rule).swap md c := by
    intro rule md c
    unfold convertOnUse
    rw [show (rule.swap md c).converted = rule.converted from rfl, swap_convert]
    split <;> rfl
  have hs : ∀ rule md c, testSender env (Rule.swap md c rule) msg = testSender env rule msg := by
    intro rule md c; unfold testSender; rw [hcv]; rfl
  have hv : ∀ rule md c, testReceiver env (Rule.swap md c rule) msg = testReceiver env rule msg := by
    intro rule md c; unfold testReceiver; rw [hcv]; rfl
  have hkeep : (convertOnUse env rule).conditions = rule.conditions := by
    have := hcv rule rule.metadata rule.conditions
    rw [show rule.swap rule.metadata rule.conditions = rule from rfl] at this
    rw [this]; rfl
  unfold RuleObj.check
  rw [ensure_of_ready h1, Go.ok_bind, h2, ensure_of_ready h1', Go.ok_bind, h2']
  simp only [deref, Go.ok_bind]
  rw [hcv]
  rw [← hkeep] at hc
  generalize convertOnUse env rule = rule at hc
  rw [hs, hv]
  have stop : ∀ (d : Nat) (m : Msg) (a b : RuleObj), Outcomes SameRuleOut (pure ⟨d, [], m, a⟩) (pure ⟨d, [], m, b⟩) := fun _ _ _ _ => .ok ⟨rfl, rfl, .nil⟩
  refine Outcomes.same fun _ => Outcomes.ite (fun _ => stop _ _ _ _) fun _ => ?_
  refine Outcomes.same fun _ => Outcomes.ite (fun _ => stop _ _ _ _) fun _ => ?_
  refine Outcomes.same fun _ => Outcomes.ite (fun _ => stop _ _ _ _) fun _ => ?_
  rw [show testResource env (rule.swap md c) msg = testResource env rule msg from rfl]
  refine Outcomes.same fun _ => Outcomes.ite (fun _ => stop _ _ _ _) fun _ => ?_
  have values : ∀ d : Nat, ∀ {a b : List Extra}, SameValues a b → SameValues (if d = DEFAULT then [] else a) (if d = DEFAULT then [] else b) := by
    intro d a b h
    split
    · exact .nil
    · exact h
  rcases hc with ⟨hcond, rfl⟩ | ⟨n, n', hcond, rfl, hn⟩
  · simp only [Rule.swap, hcond]
    simp only [Go.pure_eq, Go.ok_bind]
    rw [if_neg (by exact Bool.noConfusion)]
    exact .ok ⟨rfl, rfl, values _ .nil⟩
  · simp only [Rule.swap, hcond]
    unfold RuleObj.testConditions
    rw [ensure_of_ready (by exact h1), Go.ok_bind, ensure_of_ready (by exact h1'), Go.ok_bind]
    simp only [testPreparedConditions, deref, Go.ok_bind, hcond]
    refine Outcomes.bind (R := fun x x' => SameOut x.1 x'.1) ((sameTree_eval hn _ _).bind fun o o' ho => .ok ho) ?_
    rintro ⟨o, w⟩ ⟨o', w'⟩ ho
    dsimp only at ho ⊢
    rw [ho.flag, ho.msg]
    refine Outcomes.ite (fun _ => stop _ _ _ _) fun _ => .ok ⟨rfl, rfl, values _ ho.extra⟩

end Mapl

import Verif.Spec.Returns
import Verif.Lemmas.Report
import Verif.Lemmas.Leaf
import Verif.Lemmas.Mongo
import Verif.Props.Tree

/-!
# C70: the values a rule asks to be returned
-/

namespace Mapl
open Spec

theorem returnPath_fun {path q q' : Str} {b b' : Bool} (h : ReturnPath path b q) (h' : ReturnPath path b' q') : b = b' ∧ q = q' := by
  have key : ∀ {r r' : Str}, gs"jsonpath:$" ++ r = gs"jsonpath:$RELATIVE" ++ r' → r = gs"RELATIVE" ++ r' := by
    intro r r' e
    exact List.append_cancel_left (as := gs"jsonpath:$") e
  generalize hp : path = path' at h'
  cases h with
  | absolute h =>
    cases h' with
    | absolute => have := List.append_cancel_left hp; subst this; exact ⟨rfl, rfl⟩
    | relative => exact absurd (key hp) (h _)
  | relative =>
    cases h' with
    | absolute h' => exact absurd (key hp.symm) (h' _)
    | relative => have := List.append_cancel_left hp; subst this; exact ⟨rfl, rfl⟩

theorem condRetVal_absolute {env : Ext} {name path query : Str} (h : ReturnPath path false query) :
    condRetVal env (name, path) = { name := name, orig := path, query := query, prepared := jpPrepare env query, rel := false } := by
  generalize hb : false = b at h
  cases h with
  | relative => cases hb
  | @absolute r h =>
    have hq : replaceFirst gs"jsonpath:$" gs"$" (gs"jsonpath:$" ++ r) = '$' :: r := replaceFirst_prefix
    have hn : hasPrefix (gs"jsonpath:$" ++ r) gs"jsonpath:$RELATIVE" = false := by
      rw [Bool.eq_false_iff]
      intro hp
      obtain ⟨x, hx⟩ := hasPrefix_iff.1 hp
      exact h x (List.append_cancel_left (as := gs"jsonpath:$") hx)
    unfold condRetVal
    simp only [hq, hn]

theorem valueAt_reported {env : Ext} {d : Json} {query : Str} {x : Option Json}
    (hx : (if query = gs"$*" then some d else match jpPrepare env query with
      | none => some .null
      | some q => queryInterface env q d) = x) : ValueAt env d query x := by
  by_cases hs : query = gs"$*"
  · rw [if_pos hs] at hx; subst hx hs; exact .document
  · rw [if_neg hs] at hx
    unfold jpPrepare at hx
    cases hok : env.jpOk query with
    | false => rw [hok] at hx; simp only [Bool.false_eq_true, if_false] at hx; subst hx; exact .unknown hs hok
    | true =>
      rw [hok] at hx
      simp only [if_true] at hx
      refine .selected hs hok ?_
      unfold queryInterface at hx
      dsimp only at hx
      split at hx
      · next h => subst hx; exact .found h
      · next h =>
        split at hx
        · next hc => subst hx; exact .notFound h (contains_iff.1 hc)
        · next hc => subst hx; exact .failed h (fun he => hc (contains_iff.2 he))

/-- A report on return values whose query and scope are those of the written paths collects what the paths give. -/
theorem collected_reportOn {env : Ext} {m : Msg} {P : Prop} [Decidable P] (hP : P ↔ m.rawI.isSome) {f : Str × Str → RetVal} :
    ∀ {l : List (Str × Str)}, (∀ kv ∈ l, ∃ rel query, ReturnPath kv.2 rel query ∧ (f kv).name = kv.1 ∧ (f kv).rel = rel ∧
        (f kv).query = query ∧ (query ≠ gs"$*" → (f kv).prepared = jpPrepare env query) ∧
        (m.rawI.isSome → ∃ d, (if rel then m.rawIRel else m.rawI) = some d) ∧
        (m.rawI = none → ∃ d, (if rel then m.jsonRawRel else m.jsonRaw) = some d)) →
      Collected env m l (reportOn env P (l.map f) m)
  | [], _ => .nil
  | (name, path) :: l, h => by
    obtain ⟨rel, query, hp, hname, hrel, hq, hprep, hI, hB⟩ := h (name, path) (by simp)
    have ih := collected_reportOn (env := env) hP (f := f) (l := l) fun kv hkv => h kv (List.mem_cons_of_mem _ hkv)
    have key : ReturnedAt env m rel query
        (if P then reportedValue env m (f (name, path)) else reportedText env m (f (name, path))) := by
      by_cases hp : P
      · rw [if_pos hp]
        have hs := hP.1 hp
        obtain ⟨d, hd⟩ := hI hs
        refine .parsed hs hd (valueAt_reported ?_)
        unfold reportedValue
        simp only [hrel, hq, hd]
        by_cases hst : query = gs"$*"
        · rw [if_pos hst, if_pos hst]
        · rw [if_neg hst, if_neg hst, hprep hst]
          cases jpPrepare env query <;> rfl
      · rw [if_neg hp]
        have hs : m.rawI = none := by
          cases hr : m.rawI with
          | none => rfl
          | some _ => exact absurd (hP.2 (by rw [hr]; rfl)) hp
        obtain ⟨d, hd⟩ := hB hs
        unfold reportedText
        rw [hrel, hd, hq]
        exact .text hs hd
    show Collected env m _ (List.filterMap _ (f (name, path) :: l.map f))
    rw [List.filterMap_cons]
    cases hv : (if P then reportedValue env m (f (name, path)) else reportedText env m (f (name, path))) with
    | none => rw [hv] at key; exact .none hp key ih
    | some v => rw [hv] at key; rw [Option.map_some, hname]; exact .value hp key ih

namespace Props

namespace ReturnsDemo

/-- The environment of the examples, with a library that does not know `$RELATIVE`. -/
def env : Env := { Demo.env with jpOk := fun q => hasPrefix q gs"$" && !hasPrefix q gs"$RELATIVE" }

/-- A condition that returns the replicas and the owner of a pod. -/
def absolute : Node := condNode env gs"jsonpath:$.kind" gs"EQ" gs"Pod" (some [(gs"n", gs"jsonpath:$.replicas"), (gs"owner", gs"jsonpath:$.owner")])

/-- The same condition, asking for a value of the element in scope. -/
def relative : Node := condNode env gs"jsonpath:$.kind" gs"EQ" gs"Pod" (some [(gs"n", gs"jsonpath:$RELATIVE.image")])

/-- An ANY that returns the images of the containers. -/
def images : Node :=
  .any (anyFields env gs"jsonpath:$.containers" [(gs"img", gs"jsonpath:$RELATIVE.image")])
    (condNode env gs"jsonpath:$RELATIVE.cpu" gs"GT" gs"5" none)

/-- What a tree reports, prepared. -/
def reports (n : Node) (m : Msg) : Option (Bool × List (List (Str × Str))) :=
  match n.prepare env {} with
  | .ok q => match eval env q [] m with
    | .ok o => some (o.flag, o.extra.map fun e => e.map fun kv => (kv.1, Demo.render kv.2))
    | .error _ => none
  | .error _ => none

end ReturnsDemo

variable {env : Env} {p : List Nat} {msg : Msg}

theorem path_extra {q m v w : Str} {r : List RetVal} {c : Condition} (h : Leaf env (gs"jsonpath:" ++ q) m v w (some r) c) {e : List Extra}
    (ht : testOneCondition env p c msg = .ok (true, e)) : ∃ x, e = [x] ∧ getExtraData env msg r = .ok x := by
  obtain ⟨-, h1, -⟩ := leafAttr_path h.attr
  unfold testOneCondition at ht
  rw [h1, h.ret] at ht
  simp only [reduceIte, List.cons.injEq, reduceCtorEq, and_false, or_self, Char.reduceEq, Go.bind_eq_ok] at ht
  obtain ⟨b, -, ht⟩ := ht
  cases b with
  | false => simp at ht
  | true =>
    simp only [Go.bind_eq_ok] at ht
    obtain ⟨x, hx, ht⟩ := ht
    simp at ht
    exact ⟨x, ht.symm, hx⟩

/-- **C70** (partial: paths in the whole document; see `C70_violated`). A condition that holds reports one entry for each of its
return values whose path gives a value, with the value that the path gives. -/
theorem C70_partial {t : Predef} {q m v : Str} {l : List (Str × Str)} {n : Node} {o : EvalOut}
    (h : (condNode env (gs"jsonpath:" ++ q) m v (some l)).prepare env t = .ok n) (hl : ∀ kv ∈ l, WholePath kv.2)
    (ht : eval env n p msg = .ok o) (hf : o.flag = true) : ∃ e, o.extra = [e] ∧ Collected env msg l e := by
  simp only [condNode, Node.prepare, Go.bind_eq_ok, Go.pure_eq, Except.ok.injEq] at h
  obtain ⟨c, hc, rfl⟩ := h
  obtain ⟨w, _, hw, -⟩ := prepare_inv hc
  have hleaf := prepare_leaf hc hw
  simp only [eval, Go.bind_eq_ok] at ht
  obtain ⟨⟨f, e⟩, ht, ho⟩ := ht
  simp at ho
  subst ho
  simp only at hf ⊢
  subst hf
  obtain ⟨x, rfl, hx⟩ := path_extra hleaf ht
  refine ⟨x, rfl, ?_⟩
  have abs : ∀ kv ∈ l, ∃ query, ReturnPath kv.2 false query ∧ condRetVal env kv =
      { name := kv.1, orig := kv.2, query := query, prepared := jpPrepare env query, rel := false } := by
    intro kv hkv
    obtain ⟨query, hq⟩ := hl kv hkv
    exact ⟨query, hq, condRetVal_absolute hq⟩
  unfold getExtraData at hx
  cases hI : msg.rawI with
  | some d =>
    rw [hI] at hx
    rw [extraFromInterface_eq hx]
    refine collected_reportOn (by simp [hI]) fun kv hkv => ?_
    obtain ⟨query, hq, e⟩ := abs kv hkv
    rw [e]
    exact ⟨false, query, hq, rfl, rfl, rfl, fun _ => rfl, fun _ => ⟨d, hI⟩, fun h => by rw [hI] at h; cases h⟩
  | none =>
    rw [hI] at hx
    cases hB : msg.jsonRaw with
    | some d =>
      rw [extraFromBytes_eq hx]
      refine collected_reportOn (by simp [hI]) fun kv hkv => ?_
      obtain ⟨query, hq, e⟩ := abs kv hkv
      rw [e]
      exact ⟨false, query, hq, rfl, rfl, rfl, fun _ => rfl, fun h => (by rw [hI] at h; cases h), fun _ => ⟨d, hB⟩⟩
    | none =>
      cases l with
      | nil => simp [extraFromBytes] at hx; subst hx; exact .nil
      | cons kv l =>
        obtain ⟨query, hq, e⟩ := abs kv (by simp)
        simp only [List.map_cons, extraFromBytes, e, pick, hB, deref, Bool.false_eq_true, if_false, Go.error_bind] at hx
        cases hx

theorem no_extra {c : Condition} {f : Bool} {e : List Extra} (ht : testOneCondition env p c msg = .ok (f, e))
    (hn : f = false ∨ c.ret = none ∨ c.attr ≠ gs"jsonpath") : e = [] := by
  have plain : ∀ {x : Go Bool}, (do let b ← x; pure (b, [])) = (.ok (f, e) : Go (Bool × List Extra)) → e = [] := by
    intro x h
    simp only [Go.bind_eq_ok] at h
    obtain ⟨b, -, h⟩ := h
    simp at h
    exact h.2
  have const : ∀ {b : Bool}, (.ok (b, []) : Go (Bool × List Extra)) = .ok (f, e) → e = [] := by
    intro b h
    simp at h
    exact h.2
  unfold testOneCondition at ht
  refine ite_elim ht (fun _ => const) fun _ ht => ite_elim ht (fun _ => const) fun _ ht => ite_elim ht (fun _ => plain) fun _ ht =>
    ite_elim ht (fun _ => const) fun _ ht => ite_elim ht (fun _ => plain) fun _ ht => ite_elim ht (fun _ => const) fun _ ht =>
    ite_elim ht (fun _ h => ?_) fun _ ht => ite_elim ht (fun _ => const) fun _ ht => ite_elim ht (fun _ => const) fun _ ht =>
    ite_elim ht (fun _ => const) fun _ ht => ite_elim ht (fun _ => const) fun _ ht => ite_elim ht (fun _ => const) fun _ ht =>
    ite_elim ht (fun ha h => ?_) fun _ => const
  · simp only [Go.bind_eq_ok] at h
    obtain ⟨_, -, _, -, h⟩ := h
    simp at h
    exact h.2
  · simp only [Go.bind_eq_ok] at h
    obtain ⟨b, -, h⟩ := h
    split at h
    · next hr =>
      simp only [Go.bind_eq_ok] at h
      obtain ⟨x, -, h⟩ := h
      simp at h
      rcases hn with hn | hn | hn
      · rw [hn] at h; simp at h
      · rw [hr] at hn; cases hn
      · exact absurd ha hn
    · simp at h; exact h.2

/-- **C70.** A condition that does not hold, that asks for nothing, or whose attribute is not a path reports nothing. -/
theorem C70_nothing {t : Predef} {a m v : Str} {r : Option (List (Str × Str))} {n : Node} {o : EvalOut}
    (h : (condNode env a m v r).prepare env t = .ok n) (ht : eval env n p msg = .ok o)
    (hn : o.flag = false ∨ r = none ∨ ∀ q, a ≠ gs"jsonpath:" ++ q) : o.extra = [] := by
  simp only [condNode, Node.prepare, Go.bind_eq_ok, Go.pure_eq, Except.ok.injEq] at h
  obtain ⟨c, hc, rfl⟩ := h
  obtain ⟨w, _, hw, -⟩ := prepare_inv hc
  have hleaf := prepare_leaf hc hw
  simp only [eval, Go.bind_eq_ok] at ht
  obtain ⟨⟨f, e⟩, ht, ho⟩ := ht
  simp at ho
  subst ho
  refine no_extra ht (hn.imp id (Or.imp (fun h => ?_) fun h hj => ?_))
  · rw [hleaf.ret, h]; rfl
  · have := hleaf.attr
    generalize a = a' at this h
    cases this with
    | simple hs hc => rw [hc] at hj; subst hj; simp [simpleAttributes] at hs
    | senderField hc => rw [hc] at hj; simp at hj
    | receiverField hc => rw [hc] at hj; simp at hj
    | senderLabel hc => rw [hc] at hj; simp at hj
    | receiverLabel hc => rw [hc] at hj; simp at hj
    | path => exact h _ rfl

/-- The rest of a relative path, without variables of its own. -/
def PlainRest (r : Str) : Prop := '$' ∉ r ∧ ∀ k ∈ [gs"RELATIVE", gs"KEY", gs"VALUE"], ∀ x, r ≠ k ++ x

theorem plainRest_absent {r k : Str} (h : PlainRest r) (hk : k ∈ [gs"RELATIVE", gs"KEY", gs"VALUE"]) : contains ('$' :: r) ('$' :: k) = false := by
  rw [contains_false]
  rintro ⟨a, b, e⟩
  cases a with
  | nil => simp at e; exact h.2 k hk b e
  | cons c a =>
    simp at e
    exact h.1 (by rw [e.2]; simp)

theorem anyRetVal_relative {name r : Str} (h : PlainRest r) :
    (anyRetVal env (name, gs"jsonpath:$RELATIVE" ++ r)).rel = true ∧ (anyRetVal env (name, gs"jsonpath:$RELATIVE" ++ r)).query = '$' :: r ∧
    ('$' :: r ≠ gs"$*" → (anyRetVal env (name, gs"jsonpath:$RELATIVE" ++ r)).prepared = jpPrepare env ('$' :: r)) := by
  have hq : replaceFirst gs"jsonpath:$RELATIVE" gs"$" (gs"jsonpath:$RELATIVE" ++ r) = '$' :: r := replaceFirst_prefix
  refine ⟨hasPrefix_iff.2 ⟨r, rfl⟩, hq, fun hs => ?_⟩
  unfold anyRetVal
  dsimp only
  rw [hq]
  unfold prepareJsonpathQuery
  dsimp only
  rw [replaceAll_none (plainRest_absent h (by simp)), if_neg hs, plainRest_absent h (k := gs"KEY") (by simp),
    plainRest_absent h (k := gs"VALUE") (by simp)]
  simp only [Bool.false_eq_true, or_self, if_false]
  cases jpPrepare env.toExt ('$' :: r) <;> rfl

theorem reports_imp_mem {P : Nat → Msg → Prop} {E E' : Msg → Extra → Prop} :
    ∀ {i : Nat} {l : List Msg} {es : List Extra}, (∀ m ∈ l, ∀ e, E m e → E' m e) → Reports P E i l es → Reports P E' i l es
  | _, _, _, _, .nil i => .nil i
  | _, _, _, hE, .yes h1 h2 h3 => .yes h1 (hE _ (by simp) _ h2) (reports_imp_mem (fun m hm => hE m (List.mem_cons_of_mem _ hm)) h3)
  | _, _, _, hE, .no h1 h3 => .no h1 (reports_imp_mem (fun m hm => hE m (List.mem_cons_of_mem _ hm)) h3)

/-- **C70.** An ANY that asks for values reports, for each element for which its child holds, one entry for each of its return
values whose path gives a value in the element. -/
theorem C70_any {t : Predef} {parent : Str} {ret : List (Str × Str)} {n n' : Node} {o : EvalOut} {a : AnyAll} (hr : ret ≠ [])
    (h : (Node.any (anyFields env parent ret) n).prepare env t = .ok (.any a n'))
    (hl : ∀ kv ∈ ret, ∃ r, kv.2 = gs"jsonpath:$RELATIVE" ++ r ∧ PlainRest r) (ht : eval env (.any a n') p msg = .ok o) :
    (scopes env p a msg = .ok none ∧ o.extra = []) ∨ ∃ l, scopes env p a msg = .ok (some l) ∧
      Reports (fun i m' => Holds env n' (i :: p) m') (fun m' e => Collected env m' ret e) 1 l o.extra := by
  simp only [Node.prepare, AnyAll.prepare, Go.bind_eq_ok, Go.pure_eq, Except.ok.injEq] at h
  obtain ⟨_, -, a', ⟨qs, hqs, ha⟩, h⟩ := h
  simp at h
  obtain ⟨rfl, rfl⟩ := h
  have hne : a'.queries ≠ [] := by
    rw [← ha]
    simp only [anyFields, List.nil_append]
    cases hsp : split ',' (anyFields env parent ret).parent with
    | nil => exact absurd hsp (split_ne_nil _)
    | cons x xs =>
      rw [hsp, List.mapM_cons] at hqs
      simp only [Go.bind_eq_ok] at hqs
      obtain ⟨_, -, _, -, hqs⟩ := hqs
      simp at hqs
      rw [← hqs]
      simp
  have hret : a'.ret = ret.map (anyRetVal env) := by rw [← ha]; rfl
  have hr' : a'.ret ≠ [] := by rw [hret]; simpa using hr
  refine (C21_any_reports hr' ht).imp id fun ⟨l, hl1, hl2⟩ => ⟨l, hl1, reports_imp_mem (fun m' hm' e he => ?_) hl2⟩
  rw [he, hret]
  unfold scopes at hl1
  by_cases hI : msg.rawI.isSome
  · rw [if_pos ⟨hI, hne⟩, Go.map_eq_ok] at hl1
    obtain ⟨vs, -, hvs⟩ := hl1
    cases hvs
    obtain ⟨v, -, rfl⟩ := List.mem_map.1 hm'
    refine collected_reportOn (by simp [hI, hne]) fun kv hkv => ?_
    obtain ⟨r, hr1, hr2⟩ := hl kv hkv
    obtain ⟨name, path⟩ := kv
    simp only at hr1
    subst hr1
    obtain ⟨h1, h2, h3⟩ := anyRetVal_relative (env := env) (name := name) hr2
    exact ⟨true, _, .relative r, rfl, h1, h2, h3, fun _ => ⟨v, rfl⟩, fun h => (by simp only at h; rw [h] at hI; cases hI)⟩
  · rw [if_neg (fun h => hI h.1), Go.map_eq_ok] at hl1
    obtain ⟨vs?, -, hvs⟩ := hl1
    cases vs? with
    | none => cases hvs
    | some vs =>
      cases hvs
      obtain ⟨v, -, rfl⟩ := List.mem_map.1 hm'
      refine collected_reportOn (by simp [hI]) fun kv hkv => ?_
      obtain ⟨r, hr1, hr2⟩ := hl kv hkv
      obtain ⟨name, path⟩ := kv
      simp only at hr1
      subst hr1
      obtain ⟨h1, h2, h3⟩ := anyRetVal_relative (env := env) (name := name) hr2
      exact ⟨true, _, .relative r, rfl, h1, h2, h3, fun h => absurd h hI, fun _ => ⟨v, rfl⟩⟩

/-- **C70 is violated** by paths of conditions that start at the element in scope: the query keeps its `$RELATIVE`. If the library
does not understand `$RELATIVE`, null is reported, whatever the element has there. -/
theorem C70_violated {t : Predef} {q m v name r : Str} {n : Node} {o : EvalOut} (hjp : env.jpOk (gs"$RELATIVE" ++ r) = false)
    (h : (condNode env (gs"jsonpath:" ++ q) m v (some [(name, gs"jsonpath:$RELATIVE" ++ r)])).prepare env t = .ok n)
    (hI : msg.rawI.isSome) (ht : eval env n p msg = .ok o) (hf : o.flag = true) : o.extra = [[(name, .null)]] := by
  simp only [condNode, Node.prepare, Go.bind_eq_ok, Go.pure_eq, Except.ok.injEq] at h
  obtain ⟨c, hc, rfl⟩ := h
  obtain ⟨w, _, hw, -⟩ := prepare_inv hc
  have hleaf := prepare_leaf hc hw
  simp only [eval, Go.bind_eq_ok] at ht
  obtain ⟨⟨f, e⟩, ht, ho⟩ := ht
  simp at ho
  subst ho
  simp only at hf ⊢
  subst hf
  obtain ⟨x, rfl, hx⟩ := path_extra hleaf ht
  obtain ⟨d, hd⟩ := Option.isSome_iff_exists.1 hI
  have hq : replaceFirst gs"jsonpath:$" gs"$" (gs"jsonpath:$RELATIVE" ++ r) = gs"$RELATIVE" ++ r :=
    replaceFirst_prefix (c := 'j') (cs := gs"sonpath:$") (r := gs"RELATIVE" ++ r)
  have he : condRetVal env (name, gs"jsonpath:$RELATIVE" ++ r) =
      { name := name, orig := gs"jsonpath:$RELATIVE" ++ r, query := gs"$RELATIVE" ++ r, prepared := none,
        rel := hasPrefix (gs"jsonpath:$RELATIVE" ++ r) gs"jsonpath:$RELATIVE" } := by
    unfold condRetVal
    simp only [hq, jpPrepare, hjp, Bool.false_eq_true, if_false]
  simp only [getExtraData, hd, List.map_cons, List.map_nil, he, extraFromInterface, extraEntryInterface] at hx
  simp at hx
  rw [← hx]

/-- **C70 is violated** inside ANY, ALL and NOT: what the conditions there ask for is not reported, if ANY itself asks for nothing. -/
theorem C70_violated_inner {a : AnyAll} {n : Node} {o : EvalOut} (hn : (a.ret = [] ∧ eval env (.any a n) p msg = .ok o) ∨
    eval env (.all a n) p msg = .ok o ∨ eval env (.not n) p msg = .ok o) : o.extra = [] := by
  rcases hn with ⟨h1, h2⟩ | h | h
  · exact (C21_no_reports (n := n)).1 h1 h2
  · exact (C21_no_reports (n := n)).2.2 h
  · exact (C21_no_reports (a := {})).2.1 h

set_option maxRecDepth 20000 in
example : ReturnsDemo.reports ReturnsDemo.absolute Demo.msgI = some (true, [[(gs"n", gs"3"), (gs"owner", gs"null")]]) ∧
    ReturnsDemo.reports ReturnsDemo.absolute Demo.msgB = some (true, [[(gs"n", gs"3")]]) ∧
    (∀ kv ∈ [(gs"n", gs"jsonpath:$.replicas"), (gs"owner", gs"jsonpath:$.owner")], WholePath kv.2) := by
  refine ⟨by decide +kernel, by decide +kernel, ?_⟩
  intro kv hkv
  rcases List.mem_cons.1 hkv with e | hkv
  · rw [e]; exact ⟨_, .absolute (r := gs".replicas") (by simp)⟩
  · rcases List.mem_cons.1 hkv with e | hkv
    · rw [e]; exact ⟨_, .absolute (r := gs".owner") (by simp)⟩
    · cases hkv

set_option maxRecDepth 20000 in
example : ReturnsDemo.reports ReturnsDemo.images Demo.msgI = some (true, [[(gs"img", gs"\"redis\"")]]) ∧
    ReturnsDemo.reports ReturnsDemo.images Demo.msgB = some (true, [[(gs"img", gs"\"redis\"")]]) ∧
    PlainRest gs".image" := by
  refine ⟨by decide +kernel, by decide +kernel, by simp, by simp⟩

set_option maxRecDepth 20000 in
/-- The element in scope has an image, and null is reported. -/
example : ReturnsDemo.reports ReturnsDemo.relative { Demo.msgI with rawIRel := some (.obj [(gs"image", .str gs"redis")]) } =
      some (true, [[(gs"n", gs"null")]]) ∧
    ReturnsDemo.env.jpOk (gs"$RELATIVE" ++ gs".image") = false := by
  refine ⟨by decide +kernel, by decide +kernel⟩

set_option maxRecDepth 20000 in
/-- **C70 is violated** on documents given as text: a condition that holds stops the check with a nil dereference when it asks for a
value of the element in scope and there is none in scope. -/
theorem C70_violated_text : ∃ (env : Env) (n n0 q q0 : Node) (msg : Msg), env.OrdOk ∧
    n = condNode env gs"jsonpath:$.kind" gs"EQ" gs"Pod" (some [(gs"n", gs"jsonpath:$RELATIVE.image")]) ∧
    n0 = condNode env gs"jsonpath:$.kind" gs"EQ" gs"Pod" none ∧ n.prepare env {} = .ok q ∧ n0.prepare env {} = .ok q0 ∧
    (∃ o, eval env q0 [] msg = .ok o ∧ o.flag = true) ∧ eval env q [] msg = .error (.panic .nilDeref) := by
  obtain ⟨q, hq⟩ := Demo.isOk_ok (x := ReturnsDemo.relative.prepare ReturnsDemo.env {}) (by decide +kernel)
  obtain ⟨q0, hq0⟩ := Demo.isOk_ok
    (x := (condNode ReturnsDemo.env gs"jsonpath:$.kind" gs"EQ" gs"Pod" none).prepare ReturnsDemo.env {}) (by decide +kernel)
  refine ⟨ReturnsDemo.env, _, _, q, q0, Demo.msgB, Demo.env_ordOk, rfl, rfl, hq, hq0, ?_, ?_⟩
  · have h : (match (condNode ReturnsDemo.env gs"jsonpath:$.kind" gs"EQ" gs"Pod" none).prepare ReturnsDemo.env {} with
        | .ok q => (match eval ReturnsDemo.env q [] Demo.msgB with | .ok o => o.flag | .error _ => false)
        | .error _ => false) = true := by decide +kernel
    rw [hq0] at h
    dsimp only at h
    split at h
    · next o ho => exact ⟨o, ho, h⟩
    · cases h
  · have h : (match ReturnsDemo.relative.prepare ReturnsDemo.env {} with
        | .ok q => (match eval ReturnsDemo.env q [] Demo.msgB with | .error (.panic .nilDeref) => true | _ => false)
        | .error _ => false) = true := by decide +kernel
    rw [hq] at h
    dsimp only at h
    split at h
    · next ho => exact ho
    · cases h

end Props
end Mapl

import Verif.Lemmas.Memory
import Verif.Lemmas.Frame

/-! # One ANY or ALL with two parent paths in memory -/

namespace Mapl.Spec

/-- The byte behind what the library finds at the first path is not in what it finds at the second. -/
def NotBehind (env : MemEnv) (t : Str) (q q' : Str) : Prop :=
  ∀ i i', env.place t q = some i → env.place t q' = some i' →
    i + (env.jsGet t q).1.length < i' ∨ i' + (env.jsGet t q').1.length ≤ i + (env.jsGet t q).1.length

mutual
/-- The tree is about the current element: conditions on documents and the paths of ANY and ALL are relative, and so is what they return. -/
def AboutElement : Node → Prop
  | .and ns => AboutElements ns
  | .or ns => AboutElements ns
  | .not n => AboutElement n
  | .any a n => (∀ q ∈ a.parentArr, isRelativeParent q = true) ∧ (∀ r ∈ a.ret, r.rel = true) ∧ AboutElement n
  | .all a n => (∀ q ∈ a.parentArr, isRelativeParent q = true) ∧ AboutElement n
  | .cond c => c.attr = gs"jsonpath" → c.attrIsJsonpathRelative = true ∧ ∀ l, c.ret = some l → ∀ r ∈ l, r.rel = true
  | _ => True

def AboutElements : List Node → Prop
  | [] => True
  | n :: ns => AboutElement n ∧ AboutElements ns
end

end Mapl.Spec

namespace Mapl
open Spec

/-! ## Values: the whole document does not matter -/

/-- The messages differ in the whole document only, and have it as text. -/
def OtherWhole (m m' : Msg) : Prop := m.rawI = none ∧ ∃ x, m' = { m with jsonRaw := x }

section

variable {env : Env} {p : List Nat} {m m' : Msg}

theorem whole_rel (h : OtherWhole m m') : m.jsonRawRel = m'.jsonRawRel := by
  obtain ⟨h1, x, rfl⟩ := h
  rfl

theorem whole_bytes (h : OtherWhole m m') (rs : List RetVal) (hr : ∀ r ∈ rs, r.rel = true) : extraFromBytes env.toExt m rs = extraFromBytes env.toExt m' rs := by
  induction rs with
  | nil => rfl
  | cons r rs ih =>
    simp only [extraFromBytes, ih fun r hr' => hr r (List.mem_cons_of_mem _ hr'), pick, hr r (by simp), if_true, whole_rel h]

theorem whole_none (h : OtherWhole m m') : m'.rawI = none := by
  obtain ⟨h1, x, rfl⟩ := h
  exact h1

theorem whole_test {c : Condition} (hc : c.attr = gs"jsonpath" → c.attrIsJsonpathRelative = true ∧ ∀ l, c.ret = some l → ∀ r ∈ l, r.rel = true) (h : OtherWhole m m') :
    testOneCondition env p c m = testOneCondition env p c m' := by
  by_cases ha : c.attr = gs"jsonpath"
  · obtain ⟨h1, h2⟩ := hc ha
    have e1 : testJsonpathFlag env p c m = testJsonpathFlag env p c m' := by
      simp only [testJsonpathFlag, testJsonpath, h.1, whole_none h, h1, whole_rel h]; rfl
    have e2 : ∀ l, c.ret = some l → getExtraData env.toExt m l = getExtraData env.toExt m' l := by
      intro l hl
      simp only [getExtraData, h.1, whole_none h]
      exact whole_bytes h l (h2 l hl)
    unfold testOneCondition
    rw [ha]
    simp only [reduceIte, List.cons.injEq, reduceCtorEq, and_false, or_self, Char.reduceEq, e1]
    cases hr : c.ret with
    | none =>
      refine bind_congr fun b => ?_
      cases b <;> rfl
    | some l =>
      refine bind_congr fun b => ?_
      cases b with
      | false => rfl
      | true => simp only [e2 l hr]
  · obtain ⟨hn, x, rfl⟩ := h
    unfold testOneCondition
    rw [if_neg (c := c.attr = gs"jsonpath") ha, if_neg (c := c.attr = gs"jsonpath") ha]
    rfl

theorem whole_collect (h : OtherWhole m m') (qs : List Str) : ∀ (data : Str) (e : Bool), (∀ q ∈ qs, isRelativeParent q = true) →
    collectJsons env.toExt m data e qs = collectJsons env.toExt m' data e qs := by
  induction qs with
  | nil => exact fun _ _ _ => rfl
  | cons q qs ih =>
    intro data e hq
    simp only [collectJsons, hq q (by simp), if_true, whole_rel h, ih _ _ fun q hq' => hq q (List.mem_cons_of_mem _ hq')]

theorem whole_jsons {a : AnyAll} (h : OtherWhole m m') (ha : ∀ q ∈ a.parentArr, isRelativeParent q = true) : getArrayOfJsons env p a m = getArrayOfJsons env p a m' := by
  unfold getArrayOfJsons
  rw [whole_collect h _ _ _ ha]

theorem whole_set (v : Str) (h : OtherWhole m m') : OtherWhole (setJsonRawRel v m) (setJsonRawRel v m') := by
  obtain ⟨h1, x, rfl⟩ := h
  exact ⟨h1, x, rfl⟩

theorem whole_reset {v v' : Option Str} (hv : v = v') (h : OtherWhole m m') : OtherWhole { m with jsonRawRel := v } { m' with jsonRawRel := v' } := by
  subst hv
  obtain ⟨h1, x, rfl⟩ := h
  exact ⟨h1, x, rfl⟩

mutual
theorem eval_whole : ∀ (n : Node) (p : List Nat) (m m' : Msg), AboutElement n → OtherWhole m m' → Alike OtherWhole (eval env n p m) (eval env n p m')
  | .nil, p, m, m', _, h => .error _
  | .and ns, p, m, m', hn, h => by
    rw [AboutElement] at hn
    unfold eval
    exact evalAnd_whole ns p 1 [] m m' hn h
  | .or ns, p, m, m', hn, h => by
    rw [AboutElement] at hn
    unfold eval
    exact evalOr_whole ns p 1 false [] m m' hn h
  | .not n, p, m, m', hn, h => by
    rw [AboutElement] at hn
    unfold eval
    exact (eval_whole n _ m m' hn h).bind fun b e m m' h => .ok h
  | .any a n, p, m, m', hn, h => by
    rw [AboutElement] at hn
    unfold eval evalAny
    rw [if_neg (by simp [h.1]), if_neg (by simp [whole_none h]), whole_jsons h hn.1]
    refine .same fun l => ?_
    cases l with
    | none => exact .ok h
    | some l =>
      refine anyLoop_agree (fun i m m' h => eval_whole n (i :: p) m m' hn.2.2 h) (fun v _ _ h => whole_set v h) (fun _ _ h' => whole_reset (whole_rel h) h') ?_ l 1 false [] m m' h
      intro m m' h
      simp only [whole_bytes (env := env) h a.ret hn.2.1]
  | .all a n, p, m, m', hn, h => by
    rw [AboutElement] at hn
    unfold eval evalAll
    rw [if_neg (by simp [h.1]), if_neg (by simp [whole_none h]), whole_jsons h hn.1]
    refine .same fun l => ?_
    cases l with
    | none => exact .ok h
    | some l => exact allLoop_agree (fun i m m' h => eval_whole n (i :: p) m m' hn.2 h) (fun v _ _ h => whole_set v h) (fun _ _ h' => whole_reset (whole_rel h) h') l 1 m m' h
  | .tt, p, m, m', _, h => .ok h
  | .ff, p, m, m', _, h => .ok h
  | .cond c, p, m, m', hn, h => by
    rw [AboutElement] at hn
    unfold eval
    rw [whole_test hn h]
    exact .same fun r => .ok h

theorem evalAnd_whole : ∀ (ns : List Node) (p : List Nat) (i : Nat) (acc : List Extra) (m m' : Msg), AboutElements ns → OtherWhole m m' →
    Alike OtherWhole (evalAnd env ns p i acc m) (evalAnd env ns p i acc m')
  | [], p, i, acc, m, m', _, h => .ok h
  | n :: ns, p, i, acc, m, m', hn, h => by
    rw [AboutElements] at hn
    unfold evalAnd
    refine (eval_whole n _ m m' hn.1 h).bind fun b e m m' h => ?_
    dsimp only
    split
    · exact .ok h
    · exact evalAnd_whole ns p _ _ m m' hn.2 h

theorem evalOr_whole : ∀ (ns : List Node) (p : List Nat) (i : Nat) (fl : Bool) (acc : List Extra) (m m' : Msg), AboutElements ns → OtherWhole m m' →
    Alike OtherWhole (evalOr env ns p i fl acc m) (evalOr env ns p i fl acc m')
  | [], p, i, fl, acc, m, m', _, h => .ok h
  | n :: ns, p, i, fl, acc, m, m', hn, h => by
    rw [AboutElements] at hn
    unfold evalOr
    refine (eval_whole n _ m m' hn.1 h).bind fun b e m m' h => ?_
    exact evalOr_whole ns p _ _ _ m m' hn.2 h
end

end

/-! ## Memory -/

theorem append_spec {mem : Mem} {s : Slice} (hs : Inside mem s) (xs : Str) :
    Inside (mem.append s xs).2 (mem.append s xs).1 ∧ (mem.append s xs).2.read (mem.append s xs).1 = mem.read s ++ xs := by
  obtain ⟨t, ht, hl⟩ := hs
  unfold Mem.append
  split
  · rename_i hc
    have ha : mem.array s.arr = t := by simp [Mem.array, ht]
    have hlt := (List.getElem?_eq_some_iff.1 ht).1
    have hset : (mem.set s.arr (overwrite (mem.array s.arr) (s.off + s.len) xs))[s.arr]? = some (overwrite t (s.off + s.len) xs) := by
      rw [ha, List.getElem?_set_self hlt]
    rw [Mem.cap, ha] at hc
    refine ⟨⟨_, hset, ?_⟩, ?_⟩
    · simp only [overwrite, List.length_append, List.length_take, List.length_drop]; omega
    · have harr : Mem.array (mem.set s.arr (overwrite (mem.array s.arr) (s.off + s.len) xs)) s.arr = overwrite t (s.off + s.len) xs := by unfold Mem.array at hset ⊢; rw [hset]; rfl
      simp only [Mem.read]
      rw [harr, ha]
      unfold overwrite
      rw [List.append_assoc, List.drop_append_of_le_length (by simp; omega), List.drop_take, Nat.add_sub_cancel_left, ← List.append_assoc]
      have : (List.take s.len (List.drop s.off t) ++ xs).length = s.len + xs.length := by simp; omega
      rw [← this, List.take_left]
  · exact ⟨alloc_inside _ _, alloc_read _ _⟩

theorem append_inside {mem : Mem} {s r : Slice} (hr : Inside mem r) (xs : Str) : Inside (mem.append s xs).2 r := by
  unfold Mem.append
  split
  · rename_i hc
    obtain ⟨t, ht, hl⟩ := hr
    have hlt := (List.getElem?_eq_some_iff.1 ht).1
    by_cases he : s.arr = r.arr
    · refine ⟨overwrite (mem.array s.arr) (s.off + s.len) xs, by simp only [he]; exact List.getElem?_set_self hlt, ?_⟩
      rw [Mem.cap] at hc
      have ha : mem.array s.arr = t := by simp [Mem.array, he, ht]
      rw [ha] at hc ⊢
      simp only [overwrite, List.length_append, List.length_take, List.length_drop]
      omega
    · exact ⟨t, by simp only; rw [List.getElem?_set_ne he]; exact ht, hl⟩
  · exact hr.mono (untouched_alloc _ _)

/-- One byte is appended that is not in the other slice. -/
theorem append_other {mem : Mem} {s r : Slice} (hr : Inside mem r) (c : Char)
    (h : s.arr = r.arr → s.off + s.len < r.off ∨ r.off + r.len ≤ s.off + s.len) : (mem.append s [c]).2.read r = mem.read r := by
  unfold Mem.append
  split
  · rename_i hc
    obtain ⟨t, ht, hl⟩ := hr
    have hlt := (List.getElem?_eq_some_iff.1 ht).1
    by_cases he : s.arr = r.arr
    · have ha : mem.array s.arr = t := by simp [Mem.array, he, ht]
      have hset : (mem.set s.arr (overwrite (mem.array s.arr) (s.off + s.len) [c]))[r.arr]? = some (overwrite t (s.off + s.len) [c]) := by
        rw [ha, he, List.getElem?_set_self hlt]
      rw [Mem.cap, ha] at hc
      have harr : Mem.array (mem.set s.arr (overwrite (mem.array s.arr) (s.off + s.len) [c])) r.arr = overwrite t (s.off + s.len) [c] := by unfold Mem.array at hset ⊢; rw [hset]; rfl
      simp only [Mem.read]
      rw [harr, ← he, ha]
      refine List.ext_getElem? fun k => ?_
      by_cases hk : k < r.len
      · rw [List.getElem?_take_of_lt hk, List.getElem?_take_of_lt hk, List.getElem?_drop, List.getElem?_drop]
        unfold overwrite
        simp only [List.length_singleton] at hc ⊢
        rcases h he with h1 | h1
        · rw [List.getElem?_append_right (by simp; omega), List.getElem?_drop]
          congr 1
          simp only [List.length_append, List.length_take, List.length_singleton]
          omega
        · rw [List.append_assoc, List.getElem?_append_left (by simp; omega), List.getElem?_take_of_lt (by omega)]
      · rw [List.getElem?_eq_none (by simp; omega), List.getElem?_eq_none (by simp; omega)]
    · simp only [Mem.read, Mem.array, List.getElem?_set_ne he]
  · exact hr.read (untouched_alloc _ _)

/-- Where `jsonslice.Get` takes its result from. -/
theorem getM_place {env : MemEnv} {mem : Mem} {s : Slice} {q : Str} :
    (∃ i, env.place (mem.read s) q = some i ∧ (getM env mem s q).1.1 = ⟨s.arr, s.off + i, (env.jsGet (mem.read s) q).1.length⟩) ∨
    (getM env mem s q).1.1.arr = mem.length := by
  cases h : env.place (mem.read s) q with
  | some i => exact .inl ⟨i, rfl, by rw [getM_some h]⟩
  | none => exact .inr (by rw [getM_none h]; rfl)

/-- The texts of two paths, in memory. -/
theorem collect_two {env : MemEnv} (hp : PlaceOk env) {mm : MMsg} {mem : Mem} {s : Slice} (hraw : mm.raw = some s) (hs : Inside mem s) {q q' : Str}
    (hq : isRelativeParent q = false) (hq' : isRelativeParent q' = false) (hc : NotBehind env (mem.read s) q q') :
    ∃ t mem', collectJsons env.toExt (mm.view mem) [] true [q, q'] = .ok t ∧ Inside mem' s ∧
      (∀ r, Inside mem r → Inside mem' r) ∧
      match t with
      | none => collectM env mm ⟨0, 0, 0⟩ true mem [q, q'] = .ok (none, mem')
      | some t => ∃ d, collectM env mm ⟨0, 0, 0⟩ true mem [q, q'] = .ok (some d, mem') ∧ Inside mem' d ∧ mem'.read d = t := by
  have hv : (mm.view mem).jsonRaw = some (mem.read s) := by simp [MMsg.view, hraw]
  obtain ⟨u1, in1, rd1, er1⟩ := getM_spec hp hs q
  have hlt : s.arr < mem.length := by obtain ⟨t, ht, -⟩ := hs; exact (List.getElem?_eq_some_iff.1 ht).1
  have hs1 := hs.mono u1
  obtain ⟨u2, in2, rd2, er2⟩ := getM_spec hp hs1 q'
  have hrs := hs.read u1
  rw [hrs] at rd2 er2
  have place1 := getM_place (env := env) (mem := mem) (s := s) (q := q)
  have place2 := getM_place (env := env) (mem := (getM env mem s q).2) (s := s) (q := q')
  rw [hrs] at place2
  have len1 : (getM env mem s q).2.length = mem.length ∨ (getM env mem s q).1.1.arr = mem.length ∧ (getM env mem s q).2.length = mem.length + 1 := by
    cases h : env.place (mem.read s) q with
    | some i => exact .inl (by rw [getM_some h])
    | none => exact .inr (by rw [getM_none h]; exact ⟨rfl, by simp [Mem.alloc]⟩)
  generalize hr1 : getM env mem s q = r1 at *
  generalize hr2 : getM env r1.2 s q' = r2 at *
  have eM : collectM env mm ⟨0, 0, 0⟩ true mem [q, q'] = .ok (if r2.1.2 then none else some (joinM (if r1.1.2 then ⟨0, 0, 0⟩ else r1.1.1) r2).1,
      (joinM (if r1.1.2 then ⟨0, 0, 0⟩ else r1.1.1) r2).2) := by
    have j1 : joinM ⟨0, 0, 0⟩ r1 = (if r1.1.2 then ⟨0, 0, 0⟩ else r1.1.1, r1.2) := by
      unfold joinM; cases r1.1.2 <;> rfl
    rw [collectM_cons, askM, if_neg (by simp [hq]), hraw]
    show collectM env mm (joinM ⟨0, 0, 0⟩ (getM env mem s q)).1 (getM env mem s q).1.2 (joinM ⟨0, 0, 0⟩ (getM env mem s q)).2 [q'] = _
    rw [hr1, j1, collectM_cons, askM, if_neg (by simp [hq']), hraw]
    show collectM env mm (joinM _ (getM env r1.2 s q')).1 (getM env r1.2 s q').1.2 (joinM _ (getM env r1.2 s q')).2 [] = _
    rw [hr2, collectM]
  generalize hv1 : env.jsGet (mem.read s) q = v1 at *
  generalize hv2 : env.jsGet (mem.read s) q' = v2 at *
  have eV : collectJsons env.toExt (mm.view mem) [] true [q, q'] = .ok (if v2.2 then none else
      some (if (if v1.2 then [] else v1.1).length = 0 then v2.1 else if v2.1.length ≠ 0 then (if v1.2 then [] else v1.1) ++ gs"," ++ v2.1 else (if v1.2 then [] else v1.1))) := by
    have a1 : askV env.toExt (mm.view mem) q = .ok v1 := by
      rw [askV, if_neg (by simp [hq]), hv, ← hv1]; rfl
    have a2 : askV env.toExt (mm.view mem) q' = .ok v2 := by
      rw [askV, if_neg (by simp [hq']), hv, ← hv2]; rfl
    rw [collectJsons_cons, a1, Go.ok_bind, collectJsons_cons, a2, Go.ok_bind, collectJsons]
    cases v2.2 <;> cases v1.2 <;> rfl
  rw [eM, eV]
  have keep : ∀ r, Inside mem r → Inside r2.2 r := fun r hr => (hr.mono u1).mono u2
  by_cases h2 : r2.1.2 = true
  · refine ⟨none, r2.2, ?_, keep s hs, keep, ?_⟩
    · rw [if_pos (by rw [← er2]; exact h2)]
    · simp only [if_pos h2]
      rw [joinM, if_pos h2]
  · have h2' : ¬ v2.2 = true := by rw [← er2]; exact h2
    rw [if_neg h2']
    simp only [if_neg h2]
    -- what is there after the first path
    generalize hd : (if r1.1.2 = true then (⟨0, 0, 0⟩ : Slice) else r1.1.1) = d
    generalize hw : (if v1.2 = true then [] else v1.1) = w
    have hdw : d.len = w.length ∧ (d.len ≠ 0 → d = r1.1.1 ∧ w = v1.1) := by
      by_cases h1 : r1.1.2 = true
      · rw [if_pos h1] at hd; rw [if_pos (by rw [← er1]; exact h1)] at hw; subst hd hw; exact ⟨rfl, fun h => absurd rfl h⟩
      · rw [if_neg h1] at hd; rw [if_neg (by rw [← er1]; exact h1)] at hw; subst hd hw; exact ⟨by rw [← rd1, in1.length], fun _ => ⟨rfl, rfl⟩⟩
    have l2 : r2.1.1.len = v2.1.length := by rw [← rd2, in2.length]
    rw [joinM, if_neg h2]
    by_cases h0 : d.len = 0
    · rw [if_pos h0, if_pos (by omega)]
      exact ⟨_, r2.2, rfl, keep s hs, keep, _, rfl, in2, rd2⟩
    · obtain ⟨rfl, rfl⟩ := hdw.2 h0
      rw [if_neg h0, if_neg (by omega)]
      have in1' := in1.mono u2
      have rd1' := in1.read u2
      by_cases h3 : r2.1.1.len ≠ 0
      · rw [if_pos h3, if_pos (by omega)]
        have oth := append_other (s := r1.1.1) in2 ',' (mem := r2.2) (r := r2.1.1) ?_
        · obtain ⟨i1, e1⟩ := append_spec in1' gs","
          obtain ⟨i2, e2⟩ := append_spec i1 ((r2.2.append r1.1.1 gs",").2.read r2.1.1)
          refine ⟨_, _, rfl, append_inside (append_inside (keep s hs) _) _, fun r hr => append_inside (append_inside (keep r hr) _) _, _, rfl, i2, ?_⟩
          rw [e2, e1, oth, rd2, rd1', rd1]
        · intro he
          rcases place1 with ⟨i, p1, q1⟩ | p1
          · rcases place2 with ⟨i', p2, q2⟩ | p2
            · have := hc i i' p1 p2
              rw [hv1, hv2] at this
              rw [q1, q2]
              simp only
              omega
            · rw [q1] at he; simp only at he; omega
          · rcases place2 with ⟨i', p2, q2⟩ | p2
            · rw [q2] at he; simp only at he; omega
            · have : r1.1.1.arr < r1.2.length := by obtain ⟨t, ht, -⟩ := in1; exact (List.getElem?_eq_some_iff.1 ht).1
              omega
      · rw [if_neg h3, if_neg (by omega)]
        exact ⟨_, r2.2, rfl, keep s hs, keep, _, rfl, in1', by rw [rd1', rd1]⟩

theorem elements_two {env : MemEnv} (hp : PlaceOk env) {mm : MMsg} {mem : Mem} {s : Slice} (hraw : mm.raw = some s) (hs : Inside mem s) {p : List Nat} {a : AnyAll} {q q' : Str}
    (ha : a.parentArr = [q, q']) (hq : isRelativeParent q = false) (hq' : isRelativeParent q' = false) (hc : NotBehind env (mem.read s) q q') :
    match getArrayOfJsons env.toEnv p a (mm.view mem) with
    | .error e => elementsM env p a mm mem = .error e
    | .ok none => ∃ mem', elementsM env p a mm mem = .ok (none, mem')
    | .ok (some ts) => ∃ l mem', elementsM env p a mm mem = .ok (some l, mem') ∧ Inside mem' s ∧ (∀ x ∈ l, Inside mem' x) ∧ l.map mem'.read = ts := by
  obtain ⟨t, mem1, hv, hs1, -, h1⟩ := collect_two hp hraw hs hq hq' hc
  unfold getArrayOfJsons elementsM
  rw [ha, hv, Go.ok_bind]
  cases t with
  | none => simp only at h1 ⊢; rw [h1]; exact ⟨_, rfl⟩
  | some t =>
    obtain ⟨d, h, hd, rfl⟩ := h1
    rw [h, Go.ok_bind]
    have h2 := flatten_spec (env := env) hd
    cases hv2 : getArrayFromArrayOfArrays env.toExt (mem1.read d) with
    | error e => rw [hv2] at h2; simp only; rw [hv2, show flattenM env mem1 d = .error e from h2]; rfl
    | ok o =>
      rw [hv2] at h2
      cases o with
      | none => obtain ⟨mem', h, hu'⟩ := h2; simp only; rw [hv2, h]; exact ⟨_, rfl⟩
      | some t =>
        obtain ⟨s2, mem2, h, hu2, hs2, rfl⟩ := h2
        simp only
        rw [hv2, h, Go.ok_bind, Go.ok_bind]
        have h3 := objects_spec hs2
        cases hv3 : getArrayOfJsonsFromInterfaceArray (mem2.read s2) with
        | some ts =>
          rw [hv3] at h3
          obtain ⟨l, e1, e2, e3⟩ := h3
          simp only [e1, hv3]
          exact ⟨_, _, rfl, hs1.mono hu2, e2, e3⟩
        | none =>
          rw [hv3] at h3
          simp only [hv3, show objectsM mem2 s2 = none from h3]
          cases getArrayOfJsonsFromMap env.toEnv (0 :: 0 :: p) (mem2.read s2) with
          | none => exact ⟨_, rfl⟩
          | some ts =>
            obtain ⟨q1, q2, q3⟩ := allocAll_spec ts mem2
            exact ⟨_, _, rfl, (hs1.mono hu2).mono q1, q3, q2⟩

/-- The same result and the same returned values, or the same failure. -/
def SameOutM (r : Go EvalOut) (r' : Go EvalOutM) : Prop := r.map (fun o => (o.flag, o.extra)) = r'.map (fun o => (o.flag, o.extra))

theorem same_outM {mm : MMsg} {mem : Mem} {R : Msg → Msg → Prop} {r r1 : Go EvalOut} {r' : Go EvalOutM} (h : Alike R r r1) (hs : SameAsValues mm mem r1 r') : SameOutM r r' := by
  cases h with
  | ok h => obtain ⟨mem', h, -⟩ := hs; rw [h]; rfl
  | error x => rw [show r' = .error x from hs]; rfl

section

variable {env : MemEnv} {mm : MMsg} {mem mem' : Mem} {s : Slice} {p : List Nat} {a : AnyAll} {n : Node} {q q' : Str}

theorem view_whole (hI : mm.msg.rawI = none) (hrel : mm.rel = none) : OtherWhole (mm.view mem) (mm.view mem') := by
  refine ⟨hI, (mm.view mem').jsonRaw, ?_⟩
  simp [MMsg.view, hrel]

theorem any_two (hp : PlaceOk env) (hn : ∀ p mm mem, InMemory mem mm → SameAsValues mm mem (eval env.toEnv n p (mm.view mem)) (evalM env n p mm mem)) (hab : AboutElement n)
    (hret : ∀ r ∈ a.ret, r.rel = true) (hI : mm.msg.rawI = none) (hrel : mm.rel = none) (hraw : mm.raw = some s) (hs : Inside mem s)
    (ha : a.parentArr = [q, q']) (hq : isRelativeParent q = false) (hq' : isRelativeParent q' = false) (hc : NotBehind env (mem.read s) q q') :
    SameOutM (eval env.toEnv (.any a n) p (mm.view mem)) (evalM env (.any a n) p mm mem) := by
  have h := elements_two (p := p) hp hraw hs ha hq hq' hc
  rw [eval, evalM, evalAny, evalAnyM, if_neg (by simp [MMsg.view, hI]), if_neg (by simp [hI])]
  cases hv : getArrayOfJsons env.toEnv p a (mm.view mem) with
  | error e => rw [hv] at h; rw [show elementsM env p a mm mem = .error e from h]; rfl
  | ok o =>
    rw [hv] at h
    cases o with
    | none => obtain ⟨mem', h⟩ := h; rw [h]; rfl
    | some ts =>
      obtain ⟨l, mem', h, hs', hl, rfl⟩ := h
      rw [h]
      refine same_outM (R := OtherWhole) ?_ (anyLoop_spec (ret := fun m' => if a.ret = [] then pure [] else do let e ← extraFromBytes env.toExt m' a.ret; pure [e]) (checkAll := decide (a.ret ≠ []))
          (loop_slices (p := p) (mm := mm) hn (mm.view mem')) l 1 false [] mm mem' ⟨fun x hx => ?_, fun x hx => ?_⟩ hl)
      · refine anyLoop_agree (fun i m m' h => eval_whole n (i :: p) m m' hab h) (fun v _ _ h => whole_set v h) (fun _ _ h' => whole_reset (by simp [MMsg.view, hrel]) h') ?_ _ 1 false [] _ _ (view_whole hI hrel)
        intro m m' h
        simp only [whole_bytes (env := env.toEnv) h a.ret hret]
      · rw [hraw] at hx; cases hx; exact hs'
      · rw [hrel] at hx; cases hx

theorem all_two (hp : PlaceOk env) (hn : ∀ p mm mem, InMemory mem mm → SameAsValues mm mem (eval env.toEnv n p (mm.view mem)) (evalM env n p mm mem)) (hab : AboutElement n)
    (hI : mm.msg.rawI = none) (hrel : mm.rel = none) (hraw : mm.raw = some s) (hs : Inside mem s)
    (ha : a.parentArr = [q, q']) (hq : isRelativeParent q = false) (hq' : isRelativeParent q' = false) (hc : NotBehind env (mem.read s) q q') :
    SameOutM (eval env.toEnv (.all a n) p (mm.view mem)) (evalM env (.all a n) p mm mem) := by
  have h := elements_two (p := p) hp hraw hs ha hq hq' hc
  rw [eval, evalM, evalAll, evalAllM, if_neg (by simp [MMsg.view, hI]), if_neg (by simp [hI])]
  cases hv : getArrayOfJsons env.toEnv p a (mm.view mem) with
  | error e => rw [hv] at h; rw [show elementsM env p a mm mem = .error e from h]; rfl
  | ok o =>
    rw [hv] at h
    cases o with
    | none => obtain ⟨mem', h⟩ := h; rw [h]; rfl
    | some ts =>
      obtain ⟨l, mem', h, hs', hl, rfl⟩ := h
      rw [h]
      refine same_outM (R := OtherWhole) ?_ (allLoop_spec (loop_slices (p := p) (mm := mm) hn (mm.view mem')) l 1 mm mem' ⟨fun x hx => ?_, fun x hx => ?_⟩ hl)
      · exact allLoop_agree (fun i m m' h => eval_whole n (i :: p) m m' hab h) (fun v _ _ h => whole_set v h) (fun _ _ h' => whole_reset (by simp [MMsg.view, hrel]) h') _ 1 _ _ (view_whole hI hrel)
      · rw [hraw] at hx; cases hx; exact hs'
      · rw [hrel] at hx; cases hx

end

end Mapl

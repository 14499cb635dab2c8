import Verif.Lemmas.Memory

/-! # Which bytes a check can write to -/

namespace Mapl
open Spec

/-- Position `k` of array `i` is in front of the slice or in another array. -/
def Away (i k : Nat) (s : Slice) : Prop := s.arr = i → k < s.off

/-- The slices of the message are away from the position, and the byte there is `x`. -/
structure Holds (i k : Nat) (x : Option Char) (mm : MMsg) (mem : Mem) : Prop where
  raw : ∀ s, mm.raw = some s → Away i k s
  rel : ∀ s, mm.rel = some s → Away i k s
  lt : i < mem.length
  byte : (mem.array i)[k]? = x

variable {i k : Nat} {x : Option Char}

/-- The part about the arrays. -/
def Still (i k : Nat) (x : Option Char) (mem : Mem) : Prop := i < mem.length ∧ (mem.array i)[k]? = x

theorem Holds.still {mm : MMsg} {mem : Mem} (h : Holds i k x mm mem) : Still i k x mem := ⟨h.lt, h.byte⟩

theorem Holds.move {mm : MMsg} {mem mem' : Mem} (h : Holds i k x mm mem) (hs : Still i k x mem') : Holds i k x mm mem' := ⟨h.raw, h.rel, hs.1, hs.2⟩

theorem still_alloc {mem : Mem} (h : Still i k x mem) (t : Str) : Still i k x (mem.alloc t).2 := by
  refine ⟨by have := h.1; simp [Mem.alloc]; omega, ?_⟩
  rw [← h.2]
  simp [Mem.alloc, Mem.array, List.getElem?_append_left h.1]

theorem away_alloc {mem : Mem} (h : Still i k x mem) (t : Str) : Away i k (mem.alloc t).1 := fun he => by
  have := h.1
  simp only [Mem.alloc] at he
  omega

theorem still_allocAll (ts : List Str) : ∀ {mem : Mem}, Still i k x mem → Still i k x (mem.allocAll ts).2 ∧ ∀ s ∈ (mem.allocAll ts).1, Away i k s := by
  induction ts with
  | nil => exact fun h => ⟨h, by simp [Mem.allocAll]⟩
  | cons t ts ih =>
    intro mem h
    obtain ⟨h1, h2⟩ := ih (still_alloc h t)
    refine ⟨h1, fun s hs => ?_⟩
    simp only [Mem.allocAll, List.mem_cons] at hs
    rcases hs with rfl | hs
    · exact away_alloc h t
    · exact h2 s hs

theorem overwrite_before {t xs : Str} {j : Nat} (h : k < j) (hj : j ≤ t.length) : (overwrite t j xs)[k]? = t[k]? := by
  unfold overwrite
  rw [List.append_assoc, List.getElem?_append_left (by simp; omega), List.getElem?_take_of_lt h]

theorem still_append {mem : Mem} {s : Slice} (h : Still i k x mem) (hs : Away i k s) (xs : Str) :
    Still i k x (mem.append s xs).2 ∧ Away i k (mem.append s xs).1 := by
  unfold Mem.append
  split
  · rename_i hc
    refine ⟨⟨by simpa using h.1, ?_⟩, hs⟩
    by_cases he : s.arr = i
    · have hk := hs he
      subst he
      have : (Mem.array (mem.set s.arr (overwrite (mem.array s.arr) (s.off + s.len) xs)) s.arr) = overwrite (mem.array s.arr) (s.off + s.len) xs := by
        simp [Mem.array, h.1]
      simp only
      rw [this, ← h.2]
      by_cases hb : s.off + s.len ≤ (mem.array s.arr).length
      · exact overwrite_before (by omega) hb
      · have hx : xs = [] := by
          unfold Mem.cap at hc
          exact List.length_eq_zero_iff.1 (by omega)
        subst hx
        unfold overwrite
        simp
    · rw [← h.2]
      simp [Mem.array, List.getElem?_set_ne he]
  · exact ⟨still_alloc h _, away_alloc h _⟩

theorem still_get {env : MemEnv} {mem : Mem} {s : Slice} (h : Still i k x mem) (hs : Away i k s) (q : Str) :
    Still i k x (getM env mem s q).2 ∧ Away i k (getM env mem s q).1.1 := by
  unfold getM
  dsimp only
  split
  · exact ⟨h, fun he => by have := hs he; simp only; omega⟩
  · exact ⟨still_alloc h _, away_alloc h _⟩

theorem still_join {data : Slice} {r : (Slice × Bool) × Mem} (hd : data.len ≠ 0 → Away i k data) (h : Still i k x r.2) (hs : Away i k r.1.1) :
    Still i k x (joinM data r).2 ∧ ((joinM data r).1.len ≠ 0 → Away i k (joinM data r).1) := by
  unfold joinM
  split
  · exact ⟨h, hd⟩
  · split
    · exact ⟨h, fun _ => hs⟩
    · split
      · rename_i h0 _
        have h1 := still_append h (hd h0) gs","
        have h2 := still_append h1.1 h1.2 ((r.2.append data gs",").2.read r.1.1)
        exact ⟨h2.1, fun _ => h2.2⟩
      · exact ⟨h, hd⟩

theorem still_collect {env : MemEnv} {mm : MMsg} (hr : ∀ s, mm.raw = some s → Away i k s) (hl : ∀ s, mm.rel = some s → Away i k s) (qs : List Str) :
    ∀ (data : Slice) (err : Bool) (mem : Mem), Still i k x mem → (data.len ≠ 0 → Away i k data) → ∀ {d}, collectM env mm data err mem qs = .ok d →
    Still i k x d.2 ∧ ∀ s, d.1 = some s → s.len ≠ 0 → Away i k s := by
  induction qs with
  | nil =>
    intro data err mem h hd d hc
    simp only [collectM] at hc
    cases hc
    refine ⟨h, fun s hs => ?_⟩
    simp only at hs
    split at hs
    · cases hs
    · cases hs; exact hd
  | cons q qs ih =>
    intro data err mem h hd d hc
    rw [collectM_cons, Go.bind_eq_ok] at hc
    obtain ⟨r, hr1, hc⟩ := hc
    have key : Still i k x r.2 ∧ Away i k r.1.1 := by
      unfold askM at hr1
      split at hr1
      · rw [Go.bind_eq_ok] at hr1
        obtain ⟨s, hs, hr1⟩ := hr1
        cases hr1
        cases hm : mm.rel with
        | none => rw [hm] at hs; cases hs
        | some s' => rw [hm] at hs; cases hs; exact still_get h (hl _ hm) _
      · rw [Go.bind_eq_ok] at hr1
        obtain ⟨s, hs, hr1⟩ := hr1
        cases hr1
        cases hm : mm.raw with
        | none => rw [hm] at hs; cases hs
        | some s' => rw [hm] at hs; cases hs; exact still_get h (hr _ hm) _
    have hj := still_join hd key.1 key.2
    exact ih _ _ _ hj.1 hj.2 hc

theorem scanAt_away {arr off : Nat} (h : arr = i → k < off) (cs : Str) : ∀ (j : Nat) (c : Int) (start : Option Nat), ∀ s ∈ scanAt arr off j c start cs, Away i k s := by
  induction cs with
  | nil => intro j c start s hs; simp [scanAt] at hs
  | cons ch cs ih =>
    intro j c start s hs
    rw [scanAt] at hs
    generalize (if ch = '}' then (if ch = '{' then c + 1 else c) - 1 else if ch = '{' then c + 1 else c) = c' at hs
    generalize (if ch = '{' ∧ c = 0 then some j else start) = st at hs
    split at hs
    · cases st with
      | none => exact ih _ _ _ s hs
      | some b =>
        rcases List.mem_cons.1 hs with rfl | hs
        · exact fun he => by have := h he; simp only; omega
        · exact ih _ _ _ s hs
    · exact ih _ _ _ s hs

theorem still_flatten {env : MemEnv} {mem : Mem} {data : Slice} (h : Still i k x mem) (hd : data.len ≠ 0 → Away i k data) {d} (hf : flattenM env mem data = .ok d) :
    Still i k x d.2 ∧ ∀ s, d.1 = some s → s.len ≠ 0 → Away i k s := by
  unfold flattenM at hf
  split at hf
  · cases hf; exact ⟨h, fun s hs => by cases hs; exact hd⟩
  · rw [Go.bind_eq_ok] at hf
    obtain ⟨r, -, hf⟩ := hf
    cases r with
    | none => cases hf; exact ⟨h, fun s hs => by cases hs⟩
    | some t => cases hf; exact ⟨still_alloc h _, fun s hs _ => by cases hs; exact away_alloc h _⟩

theorem still_elements {env : MemEnv} {p : List Nat} {a : AnyAll} {mm : MMsg} {mem : Mem} (h : Holds i k x mm mem) {d} (he : elementsM env p a mm mem = .ok d) :
    Still i k x d.2 ∧ ∀ l, d.1 = some l → ∀ s ∈ l, Away i k s := by
  unfold elementsM at he
  rw [Go.bind_eq_ok] at he
  obtain ⟨⟨c, m1⟩, h1, he⟩ := he
  have k1 := still_collect h.raw h.rel _ _ _ _ h.still (by simp) h1
  cases c with
  | none => cases he; exact ⟨k1.1, fun l hl => by cases hl⟩
  | some data =>
    dsimp only at he
    rw [Go.bind_eq_ok] at he
    obtain ⟨⟨f, m2⟩, h2, he⟩ := he
    have k2 := still_flatten k1.1 (k1.2 _ rfl) h2
    cases f with
    | none => cases he; exact ⟨k2.1, fun l hl => by cases hl⟩
    | some s =>
      dsimp only at he
      have hs0 : s.len = 0 → objectsM m2 s = some [] := fun h0 => by simp [objectsM, Mem.read, h0]
      split at he
      · rename_i l hl
        cases he
        refine ⟨k2.1, fun l' hl' => ?_⟩
        cases hl'
        by_cases h0 : s.len = 0
        · rw [hs0 h0] at hl; cases hl; simp
        · unfold objectsM at hl
          split at hl
          · cases hl; simp
          · cases hl
          · cases hl; exact scanAt_away (k2.2 _ rfl h0) _ _ _ _
      · split at he
        · cases he; exact ⟨k2.1, fun l hl => by cases hl⟩
        · rename_i ts _
          cases he
          have := still_allocAll ts k2.1
          exact ⟨this.1, fun l hl => by cases hl; exact this.2⟩

/-! ## Trees -/

theorem holds_anyLoop {α : Type} {child : Nat → MMsg → Mem → Go EvalOutM} {set : α → MMsg → MMsg} {reset : MMsg → MMsg} {ret : Msg → Go (List Extra)} {all : Bool}
    (hc : ∀ j mm mem o, Holds i k x mm mem → child j mm mem = .ok o → Holds i k x o.mm o.mem)
    (hr : ∀ mm mem, Holds i k x mm mem → Holds i k x (reset mm) mem) (l : List α) (hs : ∀ v ∈ l, ∀ mm mem, Holds i k x mm mem → Holds i k x (set v mm) mem) :
    ∀ (j : Nat) (b : Bool) (acc : List Extra) (mm : MMsg) (mem : Mem) {o}, Holds i k x mm mem → anyLoopM child set reset ret all j b acc mm mem l = .ok o → Holds i k x o.mm o.mem := by
  induction l with
  | nil => intro j b acc mm mem o h ho; simp only [anyLoopM] at ho; cases ho; exact hr _ _ h
  | cons v l ih =>
    intro j b acc mm mem o h ho
    rw [anyLoopM, Go.bind_eq_ok] at ho
    obtain ⟨o1, h1, ho⟩ := ho
    have k1 := hc _ _ _ _ (hs v (by simp) _ _ h) h1
    have ih := ih fun v hv => hs v (List.mem_cons_of_mem _ hv)
    split at ho
    · rw [Go.bind_eq_ok] at ho
      obtain ⟨e, -, ho⟩ := ho
      split at ho
      · exact ih _ _ _ _ _ k1 ho
      · cases ho; exact hr _ _ k1
    · exact ih _ _ _ _ _ k1 ho

theorem holds_allLoop {α : Type} {child : Nat → MMsg → Mem → Go EvalOutM} {set : α → MMsg → MMsg} {reset : MMsg → MMsg}
    (hc : ∀ j mm mem o, Holds i k x mm mem → child j mm mem = .ok o → Holds i k x o.mm o.mem)
    (hr : ∀ mm mem, Holds i k x mm mem → Holds i k x (reset mm) mem) (l : List α) (hs : ∀ v ∈ l, ∀ mm mem, Holds i k x mm mem → Holds i k x (set v mm) mem) :
    ∀ (j : Nat) (mm : MMsg) (mem : Mem) {o}, Holds i k x mm mem → allLoopM child set reset j mm mem l = .ok o → Holds i k x o.mm o.mem := by
  induction l with
  | nil => intro j mm mem o h ho; simp only [allLoopM] at ho; cases ho; exact hr _ _ h
  | cons v l ih =>
    intro j mm mem o h ho
    rw [allLoopM, Go.bind_eq_ok] at ho
    obtain ⟨o1, h1, ho⟩ := ho
    have k1 := hc _ _ _ _ (hs v (by simp) _ _ h) h1
    split at ho
    · exact ih (fun v hv => hs v (List.mem_cons_of_mem _ hv)) _ _ _ k1 ho
    · cases ho; exact hr _ _ k1

section

variable {env : MemEnv}

theorem holds_any {a : AnyAll} {n : Node} (hn : ∀ p mm mem {o}, Holds i k x mm mem → evalM env n p mm mem = .ok o → Holds i k x o.mm o.mem)
    {p : List Nat} {mm : MMsg} {mem : Mem} {o : EvalOutM} (h : Holds i k x mm mem)
    (ho : evalAnyM env p a (fun j mm' mem' => evalM env n (j :: p) mm' mem') mm mem = .ok o) : Holds i k x o.mm o.mem := by
  unfold evalAnyM at ho
  split at ho
  · rw [Go.bind_eq_ok] at ho
    obtain ⟨l, -, ho⟩ := ho
    refine holds_anyLoop ?_ ?_ l ?_ _ _ _ _ _ h ho
    · exact fun _ _ _ _ => hn _ _ _
    · exact fun _ _ h => ⟨h.raw, h.rel, h.lt, h.byte⟩
    · exact fun _ _ _ _ h => ⟨h.raw, h.rel, h.lt, h.byte⟩
  · rw [Go.bind_eq_ok] at ho
    obtain ⟨⟨l, m1⟩, h1, ho⟩ := ho
    have k1 := still_elements h h1
    cases l with
    | none => cases ho; exact h.move k1.1
    | some l =>
      refine holds_anyLoop ?_ ?_ l ?_ _ _ _ _ _ (h.move k1.1) ho
      · exact fun _ _ _ _ => hn _ _ _
      · exact fun _ _ h' => ⟨h'.raw, h.rel, h'.lt, h'.byte⟩
      · exact fun v hv _ _ h' => ⟨h'.raw, fun s hs => by cases hs; exact k1.2 _ rfl _ hv, h'.lt, h'.byte⟩

theorem holds_all {a : AnyAll} {n : Node} (hn : ∀ p mm mem {o}, Holds i k x mm mem → evalM env n p mm mem = .ok o → Holds i k x o.mm o.mem)
    {p : List Nat} {mm : MMsg} {mem : Mem} {o : EvalOutM} (h : Holds i k x mm mem)
    (ho : evalAllM env p a (fun j mm' mem' => evalM env n (j :: p) mm' mem') mm mem = .ok o) : Holds i k x o.mm o.mem := by
  unfold evalAllM at ho
  split at ho
  · rw [Go.bind_eq_ok] at ho
    obtain ⟨l, -, ho⟩ := ho
    refine holds_allLoop ?_ ?_ l ?_ _ _ _ h ho
    · exact fun _ _ _ _ => hn _ _ _
    · exact fun _ _ h => ⟨h.raw, h.rel, h.lt, h.byte⟩
    · exact fun _ _ _ _ h => ⟨h.raw, h.rel, h.lt, h.byte⟩
  · rw [Go.bind_eq_ok] at ho
    obtain ⟨⟨l, m1⟩, h1, ho⟩ := ho
    have k1 := still_elements h h1
    cases l with
    | none => cases ho; exact h.move k1.1
    | some l =>
      refine holds_allLoop ?_ ?_ l ?_ _ _ _ (h.move k1.1) ho
      · exact fun _ _ _ _ => hn _ _ _
      · exact fun _ _ h' => ⟨h'.raw, h.rel, h'.lt, h'.byte⟩
      · exact fun v hv _ _ h' => ⟨h'.raw, fun s hs => by cases hs; exact k1.2 _ rfl _ hv, h'.lt, h'.byte⟩

mutual
theorem holds_eval : ∀ (n : Node) (p : List Nat) (mm : MMsg) (mem : Mem) {o}, Holds i k x mm mem → evalM env n p mm mem = .ok o → Holds i k x o.mm o.mem
  | .nil, _, _, _, _, _, ho => by rw [evalM] at ho; cases ho
  | .tt, _, _, _, _, h, ho => by rw [evalM] at ho; cases ho; exact h
  | .ff, _, _, _, _, h, ho => by rw [evalM] at ho; cases ho; exact h
  | .cond c, _, _, _, _, h, ho => by
    rw [evalM, Go.bind_eq_ok] at ho
    obtain ⟨r, -, ho⟩ := ho
    cases ho; exact h
  | .not n, p, mm, mem, _, h, ho => by
    rw [evalM, Go.bind_eq_ok] at ho
    obtain ⟨r, h1, ho⟩ := ho
    cases ho
    have k1 := holds_eval n _ mm mem h h1
    exact ⟨k1.raw, k1.rel, k1.lt, k1.byte⟩
  | .and ns, p, mm, mem, _, h, ho => by rw [evalM] at ho; exact holds_and ns _ _ _ mm mem h ho
  | .or ns, p, mm, mem, _, h, ho => by rw [evalM] at ho; exact holds_or ns _ _ _ _ mm mem h ho
  | .any a n, p, mm, mem, _, h, ho => by rw [evalM] at ho; exact holds_any (fun p mm mem _ => holds_eval n p mm mem) h ho
  | .all a n, p, mm, mem, _, h, ho => by rw [evalM] at ho; exact holds_all (fun p mm mem _ => holds_eval n p mm mem) h ho

theorem holds_and : ∀ (ns : List Node) (p : List Nat) (j : Nat) (acc : List Extra) (mm : MMsg) (mem : Mem) {o}, Holds i k x mm mem →
    evalAndM env ns p j acc mm mem = .ok o → Holds i k x o.mm o.mem
  | [], _, _, _, _, _, _, h, ho => by rw [evalAndM] at ho; cases ho; exact h
  | n :: ns, p, j, acc, mm, mem, _, h, ho => by
    rw [evalAndM, Go.bind_eq_ok] at ho
    obtain ⟨r, h1, ho⟩ := ho
    have k1 := holds_eval n _ mm mem h h1
    dsimp only at ho
    split at ho
    · cases ho; exact k1
    · exact holds_and ns _ _ _ _ _ k1 ho

theorem holds_or : ∀ (ns : List Node) (p : List Nat) (j : Nat) (b : Bool) (acc : List Extra) (mm : MMsg) (mem : Mem) {o}, Holds i k x mm mem →
    evalOrM env ns p j b acc mm mem = .ok o → Holds i k x o.mm o.mem
  | [], _, _, _, _, _, _, _, h, ho => by rw [evalOrM] at ho; cases ho; exact h
  | n :: ns, p, j, b, acc, mm, mem, _, h, ho => by
    rw [evalOrM, Go.bind_eq_ok] at ho
    obtain ⟨r, h1, ho⟩ := ho
    exact holds_or ns _ _ _ _ _ _ (holds_eval n _ mm mem h h1) ho
end

/-! ## Rules -/

variable {g : Predef}

theorem holds_conditions {p : List Nat} {r : RuleObj} {mm : MMsg} {mem : Mem} {o : EvalOutM × RuleObj} (h : Holds i k x mm mem)
    (ho : r.testConditionsM env g p mm mem = .ok o) : Holds i k x o.1.mm o.1.mem := by
  rw [RuleObj.testConditionsM, Go.bind_eq_ok] at ho
  obtain ⟨r', -, ho⟩ := ho
  rw [Go.bind_eq_ok] at ho
  obtain ⟨o1, h1, ho⟩ := ho
  cases ho
  rw [testPreparedConditionsM, Go.bind_eq_ok] at h1
  obtain ⟨rule, -, h1⟩ := h1
  split at h1
  · exact holds_eval _ _ _ _ h h1
  · cases h1; exact h

theorem holds_rule {p : List Nat} {r : RuleObj} {mm : MMsg} {mem : Mem} {o : RuleOutM} (h : Holds i k x mm mem) (ho : r.checkM env g p mm mem = .ok o) : Holds i k x o.mm o.mem := by
  rw [RuleObj.checkM, Go.bind_eq_ok] at ho
  obtain ⟨r', -, ho⟩ := ho
  rw [Go.bind_eq_ok] at ho
  obtain ⟨rule, -, ho⟩ := ho
  dsimp only at ho
  rw [Go.bind_eq_ok] at ho
  obtain ⟨b1, -, ho⟩ := ho
  split at ho
  · cases ho; exact h
  rw [Go.bind_eq_ok] at ho
  obtain ⟨b2, -, ho⟩ := ho
  split at ho
  · cases ho; exact h
  rw [Go.bind_eq_ok] at ho
  obtain ⟨b3, -, ho⟩ := ho
  split at ho
  · cases ho; exact h
  rw [Go.bind_eq_ok] at ho
  obtain ⟨b4, -, ho⟩ := ho
  split at ho
  · cases ho; exact h
  split at ho
  · rw [Go.bind_eq_ok] at ho
    obtain ⟨o1, h1, ho⟩ := ho
    have k1 := holds_conditions h h1
    split at ho
    · cases ho; exact k1
    · cases ho; exact k1
  · split at ho
    · cases ho; exact h
    · cases ho; exact h

theorem holds_rules (rs : List RuleObj) : ∀ (j : Nat) (mm : MMsg) (mem : Mem) {o}, Holds i k x mm mem → checkRulesM env g j mm mem rs = .ok o → Holds i k x o.2.1 o.2.2 := by
  induction rs with
  | nil => intro j mm mem o h ho; cases ho; exact h
  | cons r rs ih =>
    intro j mm mem o h ho
    rw [checkRulesM, Go.bind_eq_ok] at ho
    obtain ⟨o1, h1, ho⟩ := ho
    rw [Go.bind_eq_ok] at ho
    obtain ⟨o2, h2, ho⟩ := ho
    cases ho
    have k2 := ih _ _ _ (holds_rule h h1) h2
    exact ⟨k2.raw, k2.rel, k2.lt, k2.byte⟩

theorem holds_check {rs : List RuleObj} {mm : MMsg} {mem : Mem} {o : CheckOutM} (h : Holds i k x mm mem) (ho : checkM env g mm mem rs = .ok o) : Holds i k x o.mm o.mem := by
  rw [checkM, Go.bind_eq_ok] at ho
  obtain ⟨⟨outs, mm', mem'⟩, h1, ho⟩ := ho
  have k1 := holds_rules rs _ _ _ h h1
  dsimp only at ho
  split at ho
  · cases ho
  · cases ho; exact k1

end

/-! ## The message -/

section

variable {env : MemEnv}

theorem anyLoopM_mm {α : Type} {child : Nat → MMsg → Mem → Go EvalOutM} {set : α → MMsg → MMsg} {reset : MMsg → MMsg} {ret : Msg → Go (List Extra)} {all : Bool} {mm0 : MMsg}
    (hc : ∀ j mm mem o, child j mm mem = .ok o → o.mm = mm) (hs : ∀ v mm, reset (set v mm) = reset mm) (l : List α) :
    ∀ (j : Nat) (b : Bool) (acc : List Extra) (mm : MMsg) (mem : Mem) {o}, reset mm = mm0 → anyLoopM child set reset ret all j b acc mm mem l = .ok o → o.mm = mm0 := by
  induction l with
  | nil => intro j b acc mm mem o h ho; simp only [anyLoopM] at ho; cases ho; exact h
  | cons v l ih =>
    intro j b acc mm mem o h ho
    rw [anyLoopM, Go.bind_eq_ok] at ho
    obtain ⟨o1, h1, ho⟩ := ho
    have k1 : reset o1.mm = mm0 := by rw [hc _ _ _ _ h1, hs, h]
    split at ho
    · rw [Go.bind_eq_ok] at ho
      obtain ⟨e, -, ho⟩ := ho
      split at ho
      · exact ih _ _ _ _ _ k1 ho
      · cases ho; exact k1
    · exact ih _ _ _ _ _ k1 ho

theorem allLoopM_mm {α : Type} {child : Nat → MMsg → Mem → Go EvalOutM} {set : α → MMsg → MMsg} {reset : MMsg → MMsg} {mm0 : MMsg}
    (hc : ∀ j mm mem o, child j mm mem = .ok o → o.mm = mm) (hs : ∀ v mm, reset (set v mm) = reset mm) (l : List α) :
    ∀ (j : Nat) (mm : MMsg) (mem : Mem) {o}, reset mm = mm0 → allLoopM child set reset j mm mem l = .ok o → o.mm = mm0 := by
  induction l with
  | nil => intro j mm mem o h ho; simp only [allLoopM] at ho; cases ho; exact h
  | cons v l ih =>
    intro j mm mem o h ho
    rw [allLoopM, Go.bind_eq_ok] at ho
    obtain ⟨o1, h1, ho⟩ := ho
    have k1 : reset o1.mm = mm0 := by rw [hc _ _ _ _ h1, hs, h]
    split at ho
    · exact ih _ _ _ k1 ho
    · cases ho; exact k1

theorem evalAnyM_mm {a : AnyAll} {child : Nat → MMsg → Mem → Go EvalOutM} (hc : ∀ j mm mem o, child j mm mem = .ok o → o.mm = mm)
    {p : List Nat} {mm : MMsg} {mem : Mem} {o : EvalOutM} (ho : evalAnyM env p a child mm mem = .ok o) : o.mm = mm := by
  unfold evalAnyM at ho
  split at ho
  · rw [Go.bind_eq_ok] at ho
    obtain ⟨l, -, ho⟩ := ho
    refine anyLoopM_mm hc ?_ l _ _ _ _ _ ?_ ho
    · exact fun _ _ => rfl
    · rfl
  · rw [Go.bind_eq_ok] at ho
    obtain ⟨⟨l, m1⟩, -, ho⟩ := ho
    cases l with
    | none => cases ho; rfl
    | some l =>
      refine anyLoopM_mm hc ?_ l _ _ _ _ _ ?_ ho
      · exact fun _ _ => rfl
      · rfl

theorem evalAllM_mm {a : AnyAll} {child : Nat → MMsg → Mem → Go EvalOutM} (hc : ∀ j mm mem o, child j mm mem = .ok o → o.mm = mm)
    {p : List Nat} {mm : MMsg} {mem : Mem} {o : EvalOutM} (ho : evalAllM env p a child mm mem = .ok o) : o.mm = mm := by
  unfold evalAllM at ho
  split at ho
  · rw [Go.bind_eq_ok] at ho
    obtain ⟨l, -, ho⟩ := ho
    refine allLoopM_mm hc ?_ l _ _ _ ?_ ho
    · exact fun _ _ => rfl
    · rfl
  · rw [Go.bind_eq_ok] at ho
    obtain ⟨⟨l, m1⟩, -, ho⟩ := ho
    cases l with
    | none => cases ho; rfl
    | some l =>
      refine allLoopM_mm hc ?_ l _ _ _ ?_ ho
      · exact fun _ _ => rfl
      · rfl

mutual
theorem evalM_mm : ∀ (n : Node) (p : List Nat) (mm : MMsg) (mem : Mem) {o}, evalM env n p mm mem = .ok o → o.mm = mm
  | .nil, _, _, _, _, ho => by rw [evalM] at ho; cases ho
  | .tt, _, _, _, _, ho => by rw [evalM] at ho; cases ho; rfl
  | .ff, _, _, _, _, ho => by rw [evalM] at ho; cases ho; rfl
  | .cond c, _, _, _, _, ho => by
    rw [evalM, Go.bind_eq_ok] at ho
    obtain ⟨r, -, ho⟩ := ho
    cases ho; rfl
  | .not n, p, mm, mem, _, ho => by
    rw [evalM, Go.bind_eq_ok] at ho
    obtain ⟨r, h1, ho⟩ := ho
    cases ho
    have k1 := evalM_mm n _ mm mem h1
    exact k1
  | .and ns, p, mm, mem, _, ho => by rw [evalM] at ho; exact evalAndM_mm ns _ _ _ mm mem ho
  | .or ns, p, mm, mem, _, ho => by rw [evalM] at ho; exact evalOrM_mm ns _ _ _ _ mm mem ho
  | .any a n, p, mm, mem, _, ho => by rw [evalM] at ho; exact evalAnyM_mm (fun j mm mem o h => evalM_mm n (j :: p) mm mem h) ho
  | .all a n, p, mm, mem, _, ho => by rw [evalM] at ho; exact evalAllM_mm (fun j mm mem o h => evalM_mm n (j :: p) mm mem h) ho

theorem evalAndM_mm : ∀ (ns : List Node) (p : List Nat) (j : Nat) (acc : List Extra) (mm : MMsg) (mem : Mem) {o}, evalAndM env ns p j acc mm mem = .ok o → o.mm = mm
  | [], _, _, _, _, _, _, ho => by rw [evalAndM] at ho; cases ho; rfl
  | n :: ns, p, j, acc, mm, mem, _, ho => by
    rw [evalAndM, Go.bind_eq_ok] at ho
    obtain ⟨r, h1, ho⟩ := ho
    have k1 := evalM_mm n _ mm mem h1
    dsimp only at ho
    split at ho
    · cases ho; exact k1
    · rw [evalAndM_mm ns _ _ _ _ _ ho, k1]

theorem evalOrM_mm : ∀ (ns : List Node) (p : List Nat) (j : Nat) (b : Bool) (acc : List Extra) (mm : MMsg) (mem : Mem) {o}, evalOrM env ns p j b acc mm mem = .ok o → o.mm = mm
  | [], _, _, _, _, _, _, _, ho => by rw [evalOrM] at ho; cases ho; rfl
  | n :: ns, p, j, b, acc, mm, mem, _, ho => by
    rw [evalOrM, Go.bind_eq_ok] at ho
    obtain ⟨r, h1, ho⟩ := ho
    rw [evalOrM_mm ns _ _ _ _ _ _ ho, evalM_mm n _ mm mem h1]
end

variable {g : Predef}

theorem testConditionsM_mm {p : List Nat} {r : RuleObj} {mm : MMsg} {mem : Mem} {o : EvalOutM × RuleObj} (ho : r.testConditionsM env g p mm mem = .ok o) : o.1.mm = mm := by
  rw [RuleObj.testConditionsM, Go.bind_eq_ok] at ho
  obtain ⟨r', -, ho⟩ := ho
  rw [Go.bind_eq_ok] at ho
  obtain ⟨o1, h1, ho⟩ := ho
  cases ho
  rw [testPreparedConditionsM, Go.bind_eq_ok] at h1
  obtain ⟨rule, -, h1⟩ := h1
  split at h1
  · exact evalM_mm _ _ _ _ h1
  · cases h1; rfl

theorem ruleM_mm {p : List Nat} {r : RuleObj} {mm : MMsg} {mem : Mem} {o : RuleOutM} (ho : r.checkM env g p mm mem = .ok o) : o.mm = mm := by
  rw [RuleObj.checkM, Go.bind_eq_ok] at ho
  obtain ⟨r', -, ho⟩ := ho
  rw [Go.bind_eq_ok] at ho
  obtain ⟨rule, -, ho⟩ := ho
  dsimp only at ho
  rw [Go.bind_eq_ok] at ho
  obtain ⟨b1, -, ho⟩ := ho
  split at ho
  · cases ho; rfl
  rw [Go.bind_eq_ok] at ho
  obtain ⟨b2, -, ho⟩ := ho
  split at ho
  · cases ho; rfl
  rw [Go.bind_eq_ok] at ho
  obtain ⟨b3, -, ho⟩ := ho
  split at ho
  · cases ho; rfl
  rw [Go.bind_eq_ok] at ho
  obtain ⟨b4, -, ho⟩ := ho
  split at ho
  · cases ho; rfl
  split at ho
  · rw [Go.bind_eq_ok] at ho
    obtain ⟨o1, h1, ho⟩ := ho
    have k1 := testConditionsM_mm h1
    split at ho
    · cases ho; exact k1
    · cases ho; exact k1
  · split at ho
    · cases ho; rfl
    · cases ho; rfl

theorem checkRulesM_mm (rs : List RuleObj) : ∀ (j : Nat) (mm : MMsg) (mem : Mem) {o}, checkRulesM env g j mm mem rs = .ok o → o.2.1 = mm := by
  induction rs with
  | nil => intro j mm mem o ho; cases ho; rfl
  | cons r rs ih =>
    intro j mm mem o ho
    rw [checkRulesM, Go.bind_eq_ok] at ho
    obtain ⟨o1, h1, ho⟩ := ho
    rw [Go.bind_eq_ok] at ho
    obtain ⟨o2, h2, ho⟩ := ho
    cases ho
    have k2 := ih _ _ _ h2
    rw [ruleM_mm h1] at k2
    exact k2

theorem checkM_mm {rs : List RuleObj} {mm : MMsg} {mem : Mem} {o : CheckOutM} (ho : checkM env g mm mem rs = .ok o) : o.mm = mm := by
  rw [checkM, Go.bind_eq_ok] at ho
  obtain ⟨⟨outs, mm', mem'⟩, h1, ho⟩ := ho
  have k1 := checkRulesM_mm rs _ _ _ h1
  dsimp only at ho
  split at ho
  · cases ho
  · cases ho; exact k1

end

end Mapl

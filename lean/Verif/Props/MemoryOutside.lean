import Verif.Props.MemoryRules
import Verif.Lemmas.MemoryOutside

/-! # C89: what a check can change, for all rules and documents -/

namespace Mapl.Spec

/-- Byte `k` of array `i` is a byte of the slice or comes after it in its array. -/
def Reaches (s : Slice) (i k : Nat) : Prop := s.arr = i ∧ s.off ≤ k

/-- A document of the message reaches the byte. -/
def MReaches (mm : MMsg) (i k : Nat) : Prop := (∃ s, mm.raw = some s ∧ Reaches s i k) ∨ ∃ s, mm.rel = some s ∧ Reaches s i k

/-- The documents of the messages are in different arrays. -/
def OtherArrays (mm mm' : MMsg) : Prop := ∀ s s', (mm.raw = some s ∨ mm.rel = some s) → (mm'.raw = some s' ∨ mm'.rel = some s') → s.arr ≠ s'.arr

end Mapl.Spec

namespace Mapl.Props
open Spec

variable {env : MemEnv} {g : Predef} {mm mm' : MMsg} {mem : Mem} {rs rs' : List RuleObj} {o : CheckOutM}

/-- **C89**, all rules: a check leaves the fields of the message as they are; all that it can change is the bytes that they point to. -/
theorem C89_message (h : checkM env g mm mem rs = .ok o) : o.mm = mm := checkM_mm h

/-- **C89**, all rules: a check leaves all bytes as they are that are in other arrays than the documents of the message, or in front of them. -/
theorem C89_outside (h : checkM env g mm mem rs = .ok o) {i : Nat} {t : Str} (hi : mem[i]? = some t) {k : Nat} (hk : ¬ MReaches mm i k) :
    ∃ t', o.mem[i]? = some t' ∧ t'[k]? = t[k]? := by
  have hlt : i < mem.length := (List.getElem?_eq_some_iff.1 hi).1
  have hh : Holds i k (t[k]?) mm mem := by
    refine ⟨fun s hs he => ?_, fun s hs he => ?_, hlt, by simp [Mem.array, hi]⟩
    · exact Nat.lt_of_not_le fun hle => hk (.inl ⟨s, hs, he, hle⟩)
    · exact Nat.lt_of_not_le fun hle => hk (.inr ⟨s, hs, he, hle⟩)
  have ⟨_, _, hl, hb⟩ := holds_check hh h
  refine ⟨o.mem[i]'hl, List.getElem?_eq_getElem hl, ?_⟩
  simpa [Mem.array, List.getElem?_eq_getElem hl] using hb

/-- **C89**, all rules: arrays that no document of the message is in are as they were. -/
theorem C89_arrays (h : checkM env g mm mem rs = .ok o) {i : Nat} {t : Str} (hi : mem[i]? = some t) (hr : ∀ s, mm.raw = some s ∨ mm.rel = some s → s.arr ≠ i) :
    o.mem[i]? = some t := by
  have key : ∀ k, ¬ MReaches mm i k := by
    rintro k (⟨s, hs, he, -⟩ | ⟨s, hs, he, -⟩)
    · exact hr s (.inl hs) he
    · exact hr s (.inr hs) he
  obtain ⟨t', ht, -⟩ := C89_outside h hi (key 0)
  rw [ht]
  congr 1
  refine List.ext_getElem? fun k => ?_
  obtain ⟨t2, ht2, h2⟩ := C89_outside h hi (key k)
  rw [ht] at ht2
  cases ht2
  exact h2

/-- The slices of a message with documents elsewhere stay where they are, with their bytes. -/
theorem inside_after (h : checkM env g mm mem rs = .ok o) (ha : OtherArrays mm mm') (hm : InMemory mem mm') :
    InMemory o.mem mm' ∧ mm'.view o.mem = mm'.view mem := by
  have key : ∀ s, (mm'.raw = some s ∨ mm'.rel = some s) → Inside mem s → Inside o.mem s ∧ o.mem.read s = mem.read s := by
    rintro s hs ⟨t, ht, hl⟩
    have := C89_arrays h ht fun s' hs' => ha s' s hs' hs
    exact ⟨⟨t, this, hl⟩, by simp [Mem.read, Mem.array, this, ht]⟩
  refine ⟨⟨fun s hs => (key s (.inl hs) (hm.1 s hs)).1, fun s hs => (key s (.inr hs) (hm.2 s hs)).1⟩, ?_⟩
  have h1 : mm'.raw.map o.mem.read = mm'.raw.map mem.read := by
    cases hs : mm'.raw with
    | none => rfl
    | some s => simp [(key s (.inl hs) (hm.1 s hs)).2]
  have h2 : mm'.rel.map o.mem.read = mm'.rel.map mem.read := by
    cases hs : mm'.rel with
    | none => rfl
    | some s => simp [(key s (.inr hs) (hm.2 s hs)).2]
  unfold MMsg.view
  rw [h1, h2]

/-- **C89**, all rules: a check does not change the documents of other messages, if they are in other arrays. -/
theorem C89_others (h : checkM env g mm mem rs = .ok o) (ha : OtherArrays mm mm') (hm : InMemory mem mm') : mm'.view o.mem = mm'.view mem := (inside_after h ha hm).2

/-- **C89**: a check with any rules does not change what the next one finds for a message with documents in other arrays. The rules of the next one leave their documents
alone. -/
theorem C89_next (ho : env.OrdOk) (h : checkM env g mm mem rs = .ok o) (ha : OtherArrays mm mm') (hm : InMemory mem mm') (hs : SafeDocuments env g mem mm' rs') :
    (checkM env g mm' o.mem rs').map (·.out) = (checkM env g mm' mem rs').map (·.out) := by
  obtain ⟨h1, h2⟩ := inside_after h ha hm
  have hs' : SafeDocuments env g o.mem mm' rs' := by
    cases hs with
    | onePath hp _ hr => exact .onePath hp h1 hr
    | copied hp _ hr => exact .copied hp h1 hr
    | parsed hn hr => exact .parsed hn hr
  have key {mem : Mem} (hs : SafeDocuments env g mem mm' rs') : (checkM env g mm' mem rs').map (·.out) = check env.toEnv g (mm'.view mem) rs' := by
    have := safe_check ho hs
    cases hv : check env.toEnv g (mm'.view mem) rs' with
    | error e => rw [hv] at this; rw [show checkM env g mm' mem rs' = .error e from this]; rfl
    | ok o => rw [hv] at this; obtain ⟨m1, h1, -⟩ := this; rw [h1]; rfl
  rw [key hs', key hs, h2]

/-! ## Non-vacuity -/

/-- The document of `request` behind other bytes, and the document of another message in its own array. -/
def twoArrays : Mem := [gs"HEAD{\"a\":[{\"x\":1}],\"b\":[{\"x\":2}],\"c\":3}", gs"{\"c\":3}"]

def shifted : MMsg := { request with raw := some ⟨0, 4, 35⟩ }

def otherRequest : MMsg := { request with raw := some ⟨1, 0, 7⟩ }

/-- The check overwrites the document of its own message. The bytes in front of it and the other array are as they were, and the other message is blocked afterwards. -/
example : ¬ MReaches shifted 0 3 ∧ OtherArrays shifted otherRequest ∧ SafeDocuments memEnv {} twoArrays otherRequest (onePath.take 1) ∧
    (checkM memEnv {} shifted twoArrays [blockX gs"2"]).toOption.map (fun o => (o.out.results, o.mem.take 2, answerM (checkM memEnv {} otherRequest o.mem (onePath.take 1)))) =
      some ([3], [gs"HEAD{\"a\":[{\"x\":1}],[{\"x\":2}]:2}],\"c\":3}", gs"{\"c\":3}"], some (3, [3])) := by
  refine ⟨?_, ?_, .onePath memEnv_ok ?_ ?_, by decide +kernel⟩
  · rintro (⟨s, hs, -, h⟩ | ⟨s, hs, -⟩)
    · cases hs; exact absurd h (by decide)
    · cases hs
  · rintro s s' (hs | hs) (hs' | hs') <;> cases hs <;> cases hs'
    decide
  · exact ⟨fun s hs => by cases hs; exact ⟨_, rfl, by decide⟩, fun s hs => by cases hs⟩
  · exact fun r hr => onePath_ok r (List.mem_of_mem_take hr)

/-! ## What comes after a document in its array -/

/-- Two documents one after the other in one array, as in the buffer of a connection. -/
def oneBuffer : Mem := [gs"{\"b\":[{\"x\":2}],\"a\":[{\"x\":1}]}{\"c\":3,\"d\":4}"]

def firstRequest : MMsg := { request with raw := some ⟨0, 0, 29⟩ }

def secondRequest : MMsg := { request with raw := some ⟨0, 29, 13⟩ }

/-- Violation of C89: the check of one message writes over the document of the message behind it, which is then not blocked. -/
theorem C89_violated_behind : firstRequest.view oneBuffer = { request.msg with jsonRaw := some gs"{\"b\":[{\"x\":2}],\"a\":[{\"x\":1}]}" } ∧
    secondRequest.view oneBuffer = { request.msg with jsonRaw := some gs"{\"c\":3,\"d\":4}" } ∧
    answerM (checkM memEnv {} secondRequest oneBuffer [blockC]) = some (3, [3]) ∧
    (checkM memEnv {} firstRequest oneBuffer [blockX gs"2"]).toOption.map (fun o => (o.out.results, o.mem.take 1, answerM (checkM memEnv {} secondRequest o.mem [blockC]))) =
      some ([3], [gs"{\"b\":[{\"x\":2}],\"a\":[{\"x\":1}],[{\"x\":2}]\":4}"], some (0, [0])) := by
  refine ⟨?_, ?_, ?_, ?_⟩
  · unfold MMsg.view
    rw [show firstRequest.raw = some ⟨0, 0, 29⟩ from rfl, Option.map_some, show oneBuffer.read ⟨0, 0, 29⟩ = gs"{\"b\":[{\"x\":2}],\"a\":[{\"x\":1}]}" by decide +kernel]
    rfl
  · unfold MMsg.view
    rw [show secondRequest.raw = some ⟨0, 29, 13⟩ from rfl, Option.map_some, show oneBuffer.read ⟨0, 29, 13⟩ = gs"{\"c\":3,\"d\":4}" by decide +kernel]
    rfl
  · decide +kernel
  · decide +kernel

end Mapl.Props

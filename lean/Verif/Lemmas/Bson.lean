import Verif.Lemmas.Shuffle
import Verif.Lemmas.Copy
import Verif.Lemmas.Hash
import Verif.Lemmas.Decode

/-!
# Documents whose entries are sorted
-/

namespace Mapl
open Spec

variable {env : Env} {t : Predef} {msg : Msg}

/-! ## Sorting -/

theorem sortedEntries_eq : ∀ kvs : List (Str × Json), sortedEntries kvs = kvs.map fun x => (x.1, sortedJson x.2)
  | [] => rfl
  | (k, j) :: rest => by rw [sortedEntries, sortedEntries_eq rest]; rfl

theorem sortedElements_eq : ∀ l : List Json, sortedElements l = l.map sortedJson
  | [] => rfl
  | j :: rest => by rw [sortedElements, sortedElements_eq rest]; rfl

/-- The entries of the sorted document. -/
def sortedMembers (kvs : List (Str × Json)) : List (Str × Json) := sortBy keyLe (sortedEntries kvs)

theorem sortedMembers_perm (kvs : List (Str × Json)) : (sortedMembers kvs).Perm (kvs.map fun x => (x.1, sortedJson x.2)) := by
  unfold sortedMembers
  rw [sortedEntries_eq]
  exact sortBy_perm _

theorem mem_sortedMembers {kvs : List (Str × Json)} {k : Str} {x : Json} : (k, x) ∈ sortedMembers kvs ↔ ∃ y, (k, y) ∈ kvs ∧ x = sortedJson y := by
  rw [(sortedMembers_perm kvs).mem_iff, List.mem_map]
  constructor
  · rintro ⟨⟨k', y⟩, h, e⟩; cases e; exact ⟨y, h, rfl⟩
  · rintro ⟨y, h, rfl⟩; exact ⟨(k, y), h, rfl⟩

theorem keys_sortedMembers (kvs : List (Str × Json)) : ((sortedMembers kvs).map (·.1)).Perm (kvs.map (·.1)) := by
  have := (sortedMembers_perm kvs).map (·.1)
  rwa [List.map_map] at this

theorem sortedJson_obj (kvs : List (Str × Json)) : sortedJson (.obj kvs) = .obj (sortedMembers kvs) := by rw [sortedJson]; rfl

theorem sortedJson_one (k : Str) (v : Json) : sortedJson (.obj [(k, v)]) = .obj [(k, sortedJson v)] := by
  rw [sortedJson]; rfl

theorem sortedJson_map (l : List (Str × Str)) : sortedJson (textMap l) = textMap (sortBy keyLe l) := by
  rw [textMap, sortedJson_obj, sortedMembers, sortedEntries_eq, List.map_map]
  rw [show ((fun x : Str × Json => (x.1, sortedJson x.2)) ∘ fun x : Str × Str => (x.1, Json.str x.2)) = fun x => (x.1, Json.str x.2) from by
    funext x; simp [sortedJson]]
  rw [textMap, sortBy_map (le := keyLe) (le' := keyLe)]
  exact fun _ _ => rfl

theorem textEntries_mem : ∀ {kvs : List (Str × Json)}, TextEntries kvs → ∀ {k : Str} {x : Json}, (k, x) ∈ kvs → (k ∈ valueKeys → ∃ s, x = .str s) ∧ TextValues x
  | [], _, _, _, hx => by simp at hx
  | (k', j) :: rest, h, k, x, hx => by
    rw [TextEntries] at h
    rcases List.mem_cons.1 hx with e | hx
    · cases e; exact ⟨h.1, h.2.1⟩
    · exact textEntries_mem h.2.2 hx

/-! ## Reading sorted documents -/

theorem condMap_sorted {kvs : List (Str × Json)} {a m v : Str} {r : Option (List (Str × Str))} (h : CondMap env False kvs a m v r) (ht : TextEntries kvs) :
    CondMap env False (sortedMembers kvs) a m v (r.map (sortBy keyLe)) := by
  have hk := keys_sortedMembers kvs
  refine ⟨hk.nodup_iff.2 h.distinct, ?_, ?_, ?_, ?_, ?_, ?_, ?_⟩
  · obtain ⟨ks, h1, h2⟩ := h.keys
    exact ⟨ks, h1, hk.trans h2⟩
  · intro k hk x hx
    obtain ⟨y, hy, rfl⟩ := mem_sortedMembers.1 hx
    rw [h.attr k hk y hy, sortedJson]
  · intro k hk x hx
    obtain ⟨y, hy, rfl⟩ := mem_sortedMembers.1 hx
    rw [h.method k hk y hy, sortedJson]
  · intro k hk x hx
    obtain ⟨y, hy, rfl⟩ := mem_sortedMembers.1 hx
    have hv := h.value k hk y hy
    obtain ⟨s, rfl⟩ := (textEntries_mem ht hy).1 hk
    rwa [sortedJson]
  · intro h1
    exact h.noValue fun k hk' hm => h1 k hk' (hk.mem_iff.2 hm)
  · intro k hk x hx
    obtain ⟨y, hy, rfl⟩ := mem_sortedMembers.1 hx
    rcases h.ret k hk y hy with ⟨l, rfl, rfl⟩ | ⟨hf, -⟩
    · exact .inl ⟨sortBy keyLe l, sortedJson_map l, rfl⟩
    · exact hf.elim
  · intro h1
    rw [h.noRet fun k hk' hm => h1 k hk' (hk.mem_iff.2 hm)]; rfl

theorem anyMap_sorted {kvs : List (Str × Json)} {parent : Str} {ret : List (Str × Str)} (h : AnyMap kvs parent ret) : AnyMap (sortedMembers kvs) parent (sortBy keyLe ret) := by
  have hk := keys_sortedMembers kvs
  refine ⟨hk.nodup_iff.2 h.distinct, ?_, ?_, h.parentOk, ?_, ?_, ?_⟩
  · have := (sortedMembers_perm kvs).length_eq
    rw [List.length_map] at this
    rw [this]; exact h.size
  · exact mem_sortedMembers.2 ⟨_, h.hasParent, by rw [sortedJson]⟩
  · intro x hx
    obtain ⟨y, hy, rfl⟩ := mem_sortedMembers.1 hx
    rw [h.hasRet y hy, sortedJson_map]
  · intro h1
    rw [h.noRet fun hm => h1 (hk.mem_iff.2 hm)]; rfl
  · exact fun x hx => h.retOk x ((sortBy_perm ret).mem_iff.1 hx)

theorem child_sorted {kvs : List (Str × Json)} {k : Str} {v : Json} (h : Child kvs (k, v)) : Child (sortedMembers kvs) (k, sortedJson v) :=
  ⟨mem_sortedMembers.2 ⟨v, h.1, rfl⟩, h.2⟩

theorem sameTree_condNode {e : Ext} {a m v : Str} (r : Option (List (Str × Str))) : SameTree (condNode e a m v r) (condNode e a m v (r.map (sortBy keyLe))) := by
  cases r with
  | none => exact .cond _
  | some l =>
    have h := SameTree.condRet (c := parsed e a m v (some (l.map (condRetVal e)))) (ret := l.map (condRetVal e)) (ret' := (sortBy keyLe l).map (condRetVal e))
      (parsed_texts).2.2.2.1 ((sortBy_perm l).symm.map _)
    have : ({ parsed e a m v (some (l.map (condRetVal e))) with ret := some ((sortBy keyLe l).map (condRetVal e)) } : Condition) =
        parsed e a m v (some ((sortBy keyLe l).map (condRetVal e))) := by
      simp [parsed, setNumbers_eq]
    rw [this] at h
    exact h

theorem sameTree_quantifier {e : Ext} {kw parent : Str} (ret : List (Str × Str)) {n n' : Node} (h : SameTree n n') :
    SameTree (quantifier kw (anyFields e parent ret) n) (quantifier kw (anyFields e parent (sortBy keyLe ret)) n') := by
  have hp : (ret.map (anyRetVal e)).Perm ((sortBy keyLe ret).map (anyRetVal e)) := (sortBy_perm ret).symm.map _
  unfold quantifier
  split
  · exact .any (a := anyFields e parent ret) hp h
  · exact .all (a := anyFields e parent ret) hp h

mutual
/-- The sorted document writes the same tree. -/
theorem writes_sorted : ∀ {kw : Str} {j : Json} {n : Node}, Reads env False False kw j n → TextValues j → ∃ n', Reads env False False kw (sortedJson j) n' ∧ SameTree n n'
  | _, _, _, .cond hk h ok, ht => by
    rw [TextValues] at ht
    exact ⟨_, by rw [sortedJson_obj]; exact .cond hk (condMap_sorted h ht) ok, sameTree_condNode _⟩
  | _, _, _, .andCond h ok, ht => by
    rw [TextValues] at ht
    exact ⟨_, by rw [sortedJson_obj]; exact .andCond (condMap_sorted h ht) ok, .and (.cons (sameTree_condNode _) .nil)⟩
  | _, _, _, .orCond h ok, ht => by
    rw [TextValues] at ht
    exact ⟨_, by rw [sortedJson_obj]; exact .orCond (condMap_sorted h ht) ok, .or (.cons (sameTree_condNode _) .nil)⟩
  | _, _, _, .notCond h ok, ht => by
    rw [TextValues] at ht
    exact ⟨_, by rw [sortedJson_obj]; exact .notCond (condMap_sorted h ht) ok, .not (sameTree_condNode _)⟩
  | _, _, _, .key hk h, ht => by
    rw [TextValues, TextEntries] at ht
    obtain ⟨n', h1, h2⟩ := writes_sorted h ht.2.1
    exact ⟨n', by rw [sortedJson_one]; exact .key hk h1, h2⟩
  | _, _, _, .single h, ht => by
    rw [TextValues, TextElements] at ht
    obtain ⟨n', h1, h2⟩ := writes_sorted h ht.1
    exact ⟨n', by rw [sortedJson, sortedElements_eq]; exact .single h1, h2⟩
  | _, _, _, .and h, ht => by
    rw [TextValues] at ht
    obtain ⟨ns, h1, h2⟩ := writesAll_sorted h ht
    exact ⟨.and ns, by rw [sortedJson]; exact .and h1, .and h2⟩
  | _, _, _, .or h, ht => by
    rw [TextValues] at ht
    obtain ⟨ns, h1, h2⟩ := writesAll_sorted h ht
    exact ⟨.or ns, by rw [sortedJson]; exact .or h1, .or h2⟩
  | _, _, _, .not h, ht => by
    rw [TextValues, TextEntries] at ht
    obtain ⟨n', h1, h2⟩ := writes_sorted h ht.2.1
    exact ⟨.not n', by rw [sortedJson_one]; exact .not h1, .not h2⟩
  | _, _, _, .notSingle h, ht => by
    rw [TextValues, TextElements] at ht
    obtain ⟨n', h1, h2⟩ := writes_sorted h ht.1
    exact ⟨.not n', by rw [sortedJson, sortedElements_eq]; exact .notSingle h1, .not h2⟩
  | _, _, _, .quantifier (k := k) (v := v) (kvs := kvs) hk h hc hone hn, ht => by
    rw [TextValues] at ht
    obtain ⟨n', h1, h2⟩ := writes_sorted hn (textEntries_mem ht hc.1).2
    refine ⟨_, ?_, sameTree_quantifier _ h2⟩
    rw [sortedJson_obj]
    refine .quantifier hk (anyMap_sorted h) (child_sorted hc) ?_ h1
    rintro ⟨k', x⟩ ⟨hx, g⟩
    obtain ⟨y, hy, rfl⟩ := mem_sortedMembers.1 hx
    have := hone (k', y) ⟨hy, g⟩
    cases this; rfl
  | _, _, _, .dropped hl _ _, _ => hl.elim
  | _, _, _, .notLast hl _ _, _ => hl.elim
  | _, _, _, .notNone hl, _ => hl.elim
  | _, _, _, .noChild hl _ _ _, _ => hl.elim
  | _, _, _, .twoChildren ha _ _ _ _ _ _ _, _ => ha.elim

theorem writesAll_sorted : ∀ {l : List Json} {ns : List Node}, ReadsAll env False False l ns → TextElements l →
    ∃ ns', ReadsAll env False False (sortedElements l) ns' ∧ SameTrees ns ns'
  | _, _, .nil, _ => ⟨[], .nil, .nil⟩
  | _, _, .cons h hs, ht => by
    rw [TextElements] at ht
    obtain ⟨n', h1, h2⟩ := writes_sorted h ht.1
    obtain ⟨ns', g1, g2⟩ := writesAll_sorted hs ht.2
    exact ⟨n' :: ns', by rw [sortedElements]; exact .cons h1 g1, .cons h2 g2⟩
end

/-! ## Keys that the driver accepts -/

theorem badKey_iff {k : Str} : badKey k = false ↔ NoNul k := by
  unfold badKey NoNul
  rw [← Bool.not_eq_true, List.contains_iff_mem]
  constructor
  · rintro h c hc rfl; exact h hc
  · intro h hc; exact h _ hc rfl

theorem bsonEntriesOk_iff : ∀ {kvs : List (Str × Json)}, bsonEntriesOk kvs = true ↔ ∀ k x, (k, x) ∈ kvs → NoNul k ∧ bsonOk x = true
  | [] => by simp [bsonEntriesOk]
  | (k, j) :: rest => by
    rw [bsonEntriesOk]
    simp only [Bool.and_eq_true, Bool.not_eq_true', badKey_iff, bsonEntriesOk_iff (kvs := rest)]
    constructor
    · rintro ⟨⟨h1, h2⟩, h3⟩ k x hx
      rcases List.mem_cons.1 hx with e | hx
      · cases e; exact ⟨h1, h2⟩
      · exact h3 k x hx
    · intro h
      exact ⟨h k j (List.mem_cons_self ..), fun k x hx => h k x (List.mem_cons_of_mem _ hx)⟩

theorem bsonOk_map {l : List (Str × Str)} (h : ∀ x ∈ l, NoNul x.1) : bsonOk (textMap l) = true := by
  rw [textMap, bsonOk, bsonEntriesOk_iff]
  intro k x hx
  obtain ⟨y, hy, e⟩ := List.mem_map.1 hx
  cases e
  exact ⟨h y hy, by rw [bsonOk]⟩

theorem keys_unique {α : Type} : ∀ {l : List (Str × α)}, (l.map (·.1)).Nodup → ∀ {k : Str} {x y : α}, (k, x) ∈ l → (k, y) ∈ l → x = y
  | [], _, _, _, _, hx, _ => by simp at hx
  | (k', z) :: l, hn, k, x, y, hx, hy => by
    rw [List.map_cons, List.nodup_cons] at hn
    have hm : ∀ {w : α}, (k, w) ∈ l → k ∈ l.map (·.1) := fun h => List.mem_map.2 ⟨_, h, rfl⟩
    rcases List.mem_cons.1 hx with e | hx <;> rcases List.mem_cons.1 hy with e' | hy
    · cases e; cases e'; rfl
    · cases e; exact absurd (hm hy) hn.1
    · cases e'; exact absurd (hm hx) hn.1
    · exact keys_unique hn.2 hx hy

theorem reads_keyword {kw : Str} {j : Json} {n : Node} (h : Reads env False False kw j n) : kw ∈ keywords := by
  cases h with
  | cond hk => revert hk; simp only [keywords, List.mem_cons, List.not_mem_nil, or_false]; rintro (h | h | h) <;> simp [h]
  | key hk => revert hk; simp only [keywords, List.mem_cons, List.not_mem_nil, or_false]; rintro (h | h | h | h) <;> simp [h]
  | quantifier hk => rcases hk with rfl | rfl <;> simp [keywords]
  | dropped hl => exact hl.elim
  | noChild hl => exact hl.elim
  | twoChildren ha => exact ha.elim
  | _ => simp [keywords]

theorem keyword_ok {k : Str} (h : k ∈ keywords) : NoNul k := by
  have : ∀ k ∈ keywords, badKey k = false := by decide
  exact badKey_iff.1 (this k h)

/-- The keys of conditions. -/
def conditionKeys : List Str := attrKeys ++ methodKeys ++ valueKeys ++ returnKeys

theorem condKeys_mem {ks : List Str} (h : CondKeys False ks) : ∀ k ∈ ks, k ∈ conditionKeys := by
  have hs : ∀ {kr : List Str}, (kr = [] ∨ ∃ k ∈ returnKeys, kr = [k]) → ∀ k ∈ kr, k ∈ conditionKeys := by
    rintro kr (rfl | ⟨k', hk', rfl⟩) k hk
    · simp at hk
    · simp at hk; subst hk; simp [conditionKeys, hk']
  cases h with
  | short ha hm hr =>
    intro k hk
    rcases List.mem_cons.1 hk with rfl | hk
    · simp [conditionKeys, ha]
    rcases List.mem_cons.1 hk with rfl | hk
    · simp [conditionKeys, hm]
    exact hs hr k hk
  | valued ha hm hv hr =>
    intro k hk
    rcases List.mem_cons.1 hk with rfl | hk
    · simp [conditionKeys, ha]
    rcases List.mem_cons.1 hk with rfl | hk
    · simp [conditionKeys, hm]
    rcases List.mem_cons.1 hk with rfl | hk
    · simp [conditionKeys, hv]
    exact hs hr k hk
  | numbers hl => exact hl.elim

theorem condMap_ok {kvs : List (Str × Json)} {a m v : Str} {r : Option (List (Str × Str))} (h : CondMap env False kvs a m v r) (ht : TextEntries kvs)
    (hn : NamesOk (condNode env a m v r)) : bsonOk (.obj kvs) = true := by
  rw [bsonOk, bsonEntriesOk_iff]
  intro k x hx
  obtain ⟨ks, h1, h2⟩ := h.keys
  have hk := condKeys_mem h1 k (h2.mem_iff.1 (List.mem_map.2 ⟨_, hx, rfl⟩))
  refine ⟨badKey_iff.1 ((by decide : ∀ k ∈ conditionKeys, badKey k = false) k hk), ?_⟩
  simp only [conditionKeys, List.mem_append] at hk
  rcases hk with ((hk | hk) | hk) | hk
  · rw [h.attr k hk x hx, bsonOk]
  · rw [h.method k hk x hx, bsonOk]
  · obtain ⟨s, rfl⟩ := (textEntries_mem ht hx).1 hk
    rw [bsonOk]
  · rcases h.ret k hk x hx with ⟨l, rfl, rfl⟩ | ⟨hf, -⟩
    · refine bsonOk_map fun y hy => ?_
      rw [condNode, NamesOk] at hn
      exact hn (l.map (condRetVal env)) (by rw [(parsed_texts).2.2.2.1]; rfl) (condRetVal env y) (List.mem_map.2 ⟨y, hy, rfl⟩)
    · exact hf.elim

theorem namesOk_quantifier {e : Ext} {kw parent : Str} {ret : List (Str × Str)} {n : Node} (h : NamesOk (quantifier kw (anyFields e parent ret) n)) :
    (∀ x ∈ ret, NoNul x.1) ∧ NamesOk n := by
  unfold quantifier at h
  split at h <;>
  · rw [NamesOk] at h
    exact ⟨fun x hx => h.1 (anyRetVal e x) (List.mem_map.2 ⟨x, hx, rfl⟩), h.2⟩

mutual
theorem writes_ok : ∀ {kw : Str} {j : Json} {n : Node}, Reads env False False kw j n → TextValues j → NamesOk n → bsonOk j = true
  | _, _, _, .cond _ h _, ht, hn => by rw [TextValues] at ht; exact condMap_ok h ht hn
  | _, _, _, .andCond h _, ht, hn => by rw [TextValues] at ht; rw [NamesOk, NamesOkAll] at hn; exact condMap_ok h ht hn.1
  | _, _, _, .orCond h _, ht, hn => by rw [TextValues] at ht; rw [NamesOk, NamesOkAll] at hn; exact condMap_ok h ht hn.1
  | _, _, _, .notCond h _, ht, hn => by rw [TextValues] at ht; rw [NamesOk] at hn; exact condMap_ok h ht hn
  | _, _, _, .key _ h, ht, hn => by
    rw [TextValues, TextEntries] at ht
    simp [bsonOk, bsonEntriesOk, badKey_iff.2 (keyword_ok (reads_keyword h)), writes_ok h ht.2.1 hn]
  | _, _, _, .single h, ht, hn => by
    rw [TextValues, TextElements] at ht
    simp [bsonOk, bsonElementsOk, writes_ok h ht.1 hn]
  | _, _, _, .and h, ht, hn => by
    rw [TextValues] at ht; rw [NamesOk] at hn
    rw [bsonOk]; exact writesAll_ok h ht hn
  | _, _, _, .or h, ht, hn => by
    rw [TextValues] at ht; rw [NamesOk] at hn
    rw [bsonOk]; exact writesAll_ok h ht hn
  | _, _, _, .not h, ht, hn => by
    rw [TextValues, TextEntries] at ht; rw [NamesOk] at hn
    simp [bsonOk, bsonEntriesOk, badKey_iff.2 (keyword_ok (reads_keyword h)), writes_ok h ht.2.1 hn]
  | _, _, _, .notSingle h, ht, hn => by
    rw [TextValues, TextElements] at ht; rw [NamesOk] at hn
    simp [bsonOk, bsonElementsOk, writes_ok h ht.1 hn]
  | _, _, _, .quantifier (k := k) (v := v) (kvs := kvs) hk h hc hone hn', ht, hn => by
    rw [TextValues] at ht
    obtain ⟨hret, hchild⟩ := namesOk_quantifier hn
    have hv := writes_ok hn' (textEntries_mem ht hc.1).2 hchild
    rw [bsonOk, bsonEntriesOk_iff]
    intro k' x hx
    by_cases g1 : k' = parentKey
    · subst g1
      have e1 := keys_unique h.distinct hx h.hasParent
      subst e1
      exact ⟨badKey_iff.1 (by decide), by rw [bsonOk]⟩
    by_cases g2 : k' = returnKey
    · subst g2
      rw [h.hasRet x hx]
      exact ⟨badKey_iff.1 (by decide), bsonOk_map hret⟩
    have := hone (k', x) ⟨hx, g1, g2⟩
    cases this
    exact ⟨keyword_ok (reads_keyword hn'), hv⟩
  | _, _, _, .dropped hl _ _, _, _ => hl.elim
  | _, _, _, .notLast hl _ _, _, _ => hl.elim
  | _, _, _, .notNone hl, _, _ => hl.elim
  | _, _, _, .noChild hl _ _ _, _, _ => hl.elim
  | _, _, _, .twoChildren ha _ _ _ _ _ _ _, _, _ => ha.elim

theorem writesAll_ok : ∀ {l : List Json} {ns : List Node}, ReadsAll env False False l ns → TextElements l → NamesOkAll ns → bsonElementsOk l = true
  | _, _, .nil, _, _ => by rw [bsonElementsOk]
  | _, _, .cons h hs, ht, hn => by
    rw [TextElements] at ht; rw [NamesOkAll] at hn
    rw [bsonElementsOk, writes_ok h ht.1 hn.1, writesAll_ok hs ht.2 hn.2]; rfl
end

/-! ## Copying -/

theorem retOrig_perm {f : Str × Str → RetVal} (hf : ∀ l, retOrig (l.map f) = l) {l : List (Str × Str)} {ret : List RetVal} (h : (l.map f).Perm ret) :
    l.Perm (retOrig ret) ∧ ret = (retOrig ret).map f := by
  have h1 : (retOrig (l.map f)).Perm (retOrig ret) := h.map _
  rw [hf] at h1
  refine ⟨h1, ?_⟩
  have hone : ∀ x, (fun r : RetVal => (retOrig [r])) (f x) = [x] := fun x => hf [x]
  have : ∀ ret : List RetVal, (∀ r ∈ ret, ∃ x, f x = r) → ret = (retOrig ret).map f := by
    intro ret
    induction ret with
    | nil => intro _; rfl
    | cons r ret ih =>
      intro hr
      obtain ⟨x, rfl⟩ := hr r (List.mem_cons_self ..)
      have e1 : retOrig (f x :: ret) = x :: retOrig ret := by
        have := hone x
        simp only [retOrig, List.map_cons, List.map_nil, List.cons.injEq, and_true] at this ⊢
        exact this
      rw [e1, List.map_cons, ← ih fun r hr' => hr r (List.mem_cons_of_mem _ hr')]
  refine this ret fun r hr => ?_
  obtain ⟨x, -, e⟩ := List.mem_map.1 (h.mem_iff.2 hr)
  exact ⟨x, e⟩

theorem sameTree_copyable {e : Ext} {n n' : Node} (hc : Copyable e n) (h : SameTree n n') : Copyable e n' := by
  have hl : ∀ {ns : List Node}, (∀ n ∈ ns, ∀ {n'}, SameTree n n' → Copyable e n') → ∀ {ns'}, SameTrees ns ns' → (∀ n ∈ ns', Copyable e n) ∧ (ns' = [] → ns = []) := by
    intro ns
    induction ns with
    | nil => intro _ ns' hs; cases hs; simp
    | cons n ns ih =>
      intro h ns' hs
      cases hs with
      | cons h1 h2 =>
        obtain ⟨g, -⟩ := ih (fun n hn => h n (List.mem_cons_of_mem _ hn)) h2
        refine ⟨?_, by simp⟩
        intro x hx
        rcases List.mem_cons.1 hx with rfl | hx
        · exact h n (List.mem_cons_self ..) h1
        · exact g x hx
  induction hc generalizing n' with
  | @cond a m v r ok ha hv hr =>
    generalize hn : condNode e a m v r = n at h
    cases h with
    | cond c => rw [← hn]; exact .cond ok ha hv hr
    | @condRet c ret ret' hc hp =>
      rw [condNode] at hn
      cases hn
      rw [(parsed_texts).2.2.2.1] at hc
      cases r with
      | none => simp at hc
      | some l =>
        simp only [Option.map_some, Option.some.injEq] at hc
        subst hc
        obtain ⟨g1, g2⟩ := retOrig_perm (fun l => retOrig_cond l) hp
        have := Copyable.cond (r := some (retOrig ret')) ok ha hv (by
          intro l' hl'
          simp at hl'; subst hl'
          exact (g1.map _).nodup_iff.1 (hr l rfl))
        rw [condNode, Option.map_some, ← g2] at this
        have e1 : ({ parsed e a m v (some (l.map (condRetVal e))) with ret := some ret' } : Condition) = parsed e a m v (some ret') := by
          simp [parsed, setNumbers_eq]
        rw [Option.map_some, e1]
        exact this
    | _ => simp [condNode] at hn
  | and hne _ ih =>
    cases h with
    | and h =>
      obtain ⟨g1, g2⟩ := hl (fun n hn => ih n hn) h
      exact .and (fun h => hne (g2 h)) g1
  | or hne _ ih =>
    cases h with
    | or h =>
      obtain ⟨g1, g2⟩ := hl (fun n hn => ih n hn) h
      exact .or (fun h => hne (g2 h)) g1
  | not _ ih => cases h with | not h => exact .not (ih h)
  | @any parent ret n hp hv hd hr _ ih =>
    cases h with
    | @any _ _ n' ret' hr' h =>
      obtain ⟨g1, g2⟩ := retOrig_perm (fun l => retOrig_any e l) hr'
      have := Copyable.any (env := e) (ret := retOrig ret') hp hv ((g1.map _).nodup_iff.1 hd) (fun x hx => hr x (g1.mem_iff.2 hx)) (ih h)
      rw [anyFields, ← g2] at this
      exact this
  | @all parent ret n hp hv hd hr _ ih =>
    cases h with
    | @all _ _ n' ret' hr' h =>
      obtain ⟨g1, g2⟩ := retOrig_perm (fun l => retOrig_any e l) hr'
      have := Copyable.all (env := e) (ret := retOrig ret') hp hv ((g1.map _).nodup_iff.1 hd) (fun x hx => hr x (g1.mem_iff.2 hx)) (ih h)
      rw [anyFields, ← g2] at this
      exact this

/-! ## Storing trees -/

/-- A tree that can be copied is stored as a document, and the document is read as the same tree. -/
theorem bson_tree (ho : env.OrdOk) {n : Node} (hc : Copyable env n) (hn : NamesOk n) :
    ∃ kvs, marshalBson env (some n) = .ok (.obj kvs) ∧ bsonOk (.obj kvs) = true ∧ ∀ p, ∃ n', unmarshalBson env p (.obj kvs) = .ok (some n') ∧ SameTree n n' := by
  obtain ⟨s, k, w, h1, h2, h3, -, -, h4, h5⟩ := marshal_copyable hc
  have hv := valueText_obj (.one (show TextLit gs"conditionsTree" gs"conditionsTree" from lit_of (by decide)) h2)
  have hm : marshalConditions env (some n) = .ok (gs"{\"conditionsTree\":" ++ s ++ gs"}") := by
    cases hc <;> (rw [marshalConditions, h1]; rfl; try (rintro ⟨⟩))
  have hj : jsonParse env (gs"{\"conditionsTree\":" ++ s ++ gs"}") = some (.obj [(gs"conditionsTree", .obj [(k, w)])]) := by
    have := jsonParse_once hv (once_key (once_key h5))
    simpa using this
  have hr : Writes env [] (.obj [(gs"conditionsTree", .obj [(k, w)])]) n := .key (by simp) (.key (by simp) h3)
  have ht : TextValues (.obj [(gs"conditionsTree", .obj [(k, w)])]) := textValues_key (by decide) h4
  have hok := writes_ok hr ht hn
  refine ⟨_, ?_, hok, fun p => ?_⟩
  · rw [marshalBson, hm, Go.ok_bind, hj]
    simp only [bsonMarshal, hok, if_true]
  · obtain ⟨n', g1, g2⟩ := writes_sorted hr ht
    refine ⟨n', ?_, g2⟩
    rw [sortedJson_one] at g1
    rw [unmarshalBson, sortedJson_one]
    simp only [unmarshalConditions, parseConditionsTree]
    rw [interpret_of_reads ho g1]
    rfl

theorem bson_noTree : marshalBson env none = .ok (.obj []) ∧ ∀ p, unmarshalBson env p (.obj []) = .ok none := by
  constructor
  · have : jsonParse env gs"{}" = some (.obj []) := by
      have := jsonParse_of (env := env) valueText_empty
      exact this
    rw [marshalBson, marshalConditions, Go.ok_bind, this]; rfl
  · intro p; rfl

/-! ## Storing rules -/

theorem bsonTexts_map : ∀ l : List (Str × Str), bsonTexts (l.map fun x => (x.1, .str x.2)) = .ok l
  | [] => rfl
  | x :: l => by
    rw [List.map_cons, bsonTexts, bsonText, Go.ok_bind, bsonTexts_map l]; rfl

theorem bsonMap_textMap (l : List (Str × Str)) : bsonMap (bsonTextMap l) = .ok l := by
  unfold bsonTextMap
  split
  · next h => rw [h]; rfl
  · exact bsonTexts_map l

theorem bsonOk_textMap {l : List (Str × Str)} (h : ∀ x ∈ l, NoNul x.1) : bsonOk (bsonTextMap l) = true := by
  unfold bsonTextMap
  split
  · rw [bsonOk]
  · exact bsonOk_map h

theorem field_sender {p : List Nat} {r : Rule} {j : Json} : bsonRuleField env p r gs"sender" j =
    (do let x ← bsonStruct (bsonPairField gs"senderName" gs"senderType") ([], []) (r.senderName, r.senderType) j; pure { r with senderName := x.1, senderType := x.2 }) := by
  rw [bsonRuleField, if_neg (by decide), if_pos rfl]

theorem field_receiver {p : List Nat} {r : Rule} {j : Json} : bsonRuleField env p r gs"receiver" j =
    (do let x ← bsonStruct (bsonPairField gs"receiverName" gs"receiverType") ([], []) (r.receiverName, r.receiverType) j; pure { r with receiverName := x.1, receiverType := x.2 }) := by
  rw [bsonRuleField, if_neg (by decide), if_neg (by decide), if_pos rfl]

theorem field_protocol {p : List Nat} {r : Rule} {j : Json} : bsonRuleField env p r gs"protocol" j =
    (do let s ← bsonText j; pure { r with protocol := s }) := by
  rw [bsonRuleField, if_neg (by decide), if_neg (by decide), if_neg (by decide), if_pos rfl]

theorem field_resource {p : List Nat} {r : Rule} {j : Json} : bsonRuleField env p r gs"resource" j =
    (do let x ← bsonStruct (bsonPairField gs"resourceType" gs"resourceName") ([], []) (r.resourceType, r.resourceName) j; pure { r with resourceType := x.1, resourceName := x.2 }) := by
  rw [bsonRuleField, if_neg (by decide), if_neg (by decide), if_neg (by decide), if_neg (by decide), if_pos rfl]

theorem field_operation {p : List Nat} {r : Rule} {j : Json} : bsonRuleField env p r gs"operation" j =
    (do let s ← bsonText j; pure { r with operation := s }) := by
  rw [bsonRuleField, if_neg (by decide), if_neg (by decide), if_neg (by decide), if_neg (by decide), if_neg (by decide), if_pos rfl]

theorem field_conditions {p : List Nat} {r : Rule} {j : Json} : bsonRuleField env p r gs"conditions" j =
    (do let c ← unmarshalBson env p j; pure { r with conditions := c }) := by
  rw [bsonRuleField, if_neg (by decide), if_neg (by decide), if_neg (by decide), if_neg (by decide), if_neg (by decide), if_neg (by decide), if_pos rfl]

theorem field_decision {p : List Nat} {r : Rule} {j : Json} : bsonRuleField env p r gs"decision" j =
    (do let s ← bsonText j; pure { r with decision := s }) := by
  rw [bsonRuleField, if_neg (by decide), if_neg (by decide), if_neg (by decide), if_neg (by decide), if_neg (by decide), if_neg (by decide), if_neg (by decide), if_pos rfl]

theorem field_metadata {p : List Nat} {r : Rule} {j : Json} : bsonRuleField env p r gs"metadata" j =
    (do let l ← bsonMap j; pure { r with metadata := l }) := by
  rw [bsonRuleField, if_neg (by decide), if_neg (by decide), if_neg (by decide), if_neg (by decide), if_neg (by decide), if_neg (by decide), if_neg (by decide), if_neg (by decide), if_pos rfl]

theorem field_hash {p : List Nat} {r : Rule} {j : Json} : bsonRuleField env p r gs"hash" j =
    (do let s ← bsonText j; pure { r with hash := s }) := by
  rw [bsonRuleField, if_neg (by decide), if_neg (by decide), if_neg (by decide), if_neg (by decide), if_neg (by decide), if_neg (by decide), if_neg (by decide), if_neg (by decide), if_neg (by decide), if_pos rfl]

/-- What is read from the fields of a stored rule. -/
theorem bson_members {p : List Nat} {r : Rule} {md : List (Str × Str)} {doc : Json} {c : Option Node} (hc : unmarshalBson env p doc = .ok c)
    (hr : r.senderList = [] ∧ r.receiverList = [] ∧ r.resourceNameRegex = none ∧ r.operationRegex = none) (hcv : r.converted = false) :
    bsonUnmarshalRule env p (.obj (bsonMembers r md doc)) = .ok { r with metadata := md, conditions := c } := by
  obtain ⟨e1, e2, e3, e4⟩ := hr
  obtain ⟨id, sn, st, sl, rn, rt, rl, pr, rst, rsn, rsx, op, cd, dec, mta, hash, opx, cv⟩ := r
  simp only at e1 e2 e3 e4 hcv
  subst e1 e2 e3 e4 hcv
  have hpair : ∀ (k1 k2 a b : Str), k1 ≠ k2 → bsonStruct (bsonPairField k1 k2) ([], []) ([], []) (.obj ((k1, .str a) :: bsonOptional k2 b)) = .ok (a, b) := by
    intro k1 k2 a b hne
    unfold bsonOptional
    split
    · next h => simp [bsonStruct, bsonFields, bsonPairField, bsonText, h]
    · simp [bsonStruct, bsonFields, bsonPairField, bsonText, hne.symm]
  have hpair' : ∀ (k1 k2 a b : Str), k1 ≠ k2 → bsonStruct (bsonPairField k1 k2) ([], []) ([], []) (.obj (bsonOptional k1 a ++ bsonOptional k2 b)) = .ok (a, b) := by
    intro k1 k2 a b hne
    unfold bsonOptional
    by_cases h1 : a = [] <;> by_cases h2 : b = [] <;> simp [bsonStruct, bsonFields, bsonPairField, bsonText, h1, h2, hne.symm]
  rw [bsonUnmarshalRule, bsonMembers]
  have hid : ∀ rest, bsonFields (bsonRuleField env p) {} (bsonOptional gs"ruleID" id ++ rest) = bsonFields (bsonRuleField env p) { ruleID := id } rest := by
    intro rest
    unfold bsonOptional
    split
    · next h => rw [h]; rfl
    · rw [List.cons_append, List.nil_append, bsonFields]; rfl
  rw [hid]
  simp only [bsonFields, field_sender, field_receiver, field_protocol, field_resource, field_operation, field_conditions, field_decision, field_metadata, field_hash,
    hpair _ _ _ _ (by decide : gs"senderName" ≠ gs"senderType"), hpair _ _ _ _ (by decide : gs"receiverName" ≠ gs"receiverType"),
    hpair' _ _ _ _ (by decide : gs"resourceType" ≠ gs"resourceName"), hc, bsonText, bsonMap_textMap, Go.ok_bind, Go.pure_eq]

theorem bsonOk_members {r : Rule} {md : List (Str × Str)} {doc : Json} (hm : ∀ x ∈ md, NoNul x.1) (hd : bsonOk doc = true) : bsonOk (.obj (bsonMembers r md doc)) = true := by
  have happ : ∀ a b : List (Str × Json), bsonEntriesOk (a ++ b) = (bsonEntriesOk a && bsonEntriesOk b) := by
    intro a b
    induction a with
    | nil => simp [bsonEntriesOk]
    | cons x a ih => obtain ⟨k, j⟩ := x; simp [bsonEntriesOk, ih, Bool.and_assoc]
  have hopt : ∀ k s, badKey k = false → bsonEntriesOk (bsonOptional k s) = true := by
    intro k s hk
    unfold bsonOptional
    split <;> simp [bsonEntriesOk, bsonOk, hk]
  have hstr : ∀ s, bsonOk (.str s) = true := fun s => by rw [bsonOk]
  have k1 := hopt gs"ruleID" r.ruleID (by decide)
  have k2 := hopt gs"senderType" r.senderType (by decide)
  have k3 := hopt gs"receiverType" r.receiverType (by decide)
  have k4 := hopt gs"resourceType" r.resourceType (by decide)
  have k5 := hopt gs"resourceName" r.resourceName (by decide)
  have kk : ∀ k ∈ [gs"sender", gs"senderName", gs"receiver", gs"receiverName", gs"protocol", gs"resource", gs"operation", gs"conditions", gs"decision", gs"metadata", gs"hash"],
    badKey k = false := by decide
  simp only [List.mem_cons, List.not_mem_nil, or_false, forall_eq_or_imp, forall_eq] at kk
  simp [bsonMembers, bsonOk, bsonEntriesOk, happ, k1, k2, k3, k4, k5, kk, hd, bsonOk_textMap hm]

/-- A rule that can be stored is stored, and read back as the same rule. -/
theorem bson_rule (ho : env.OrdOk) {r : Rule} (h : BsonStorable env r) (p : List Nat) :
    ∃ doc, bsonMarshalRule env p r = .ok doc ∧ ∀ q, ∃ r', bsonUnmarshalRule env q doc = .ok r' ∧ StoredAs r r' := by
  have hp : r.metadata.Perm (env.ord p r.metadata) := (ho p r.metadata).symm
  have hmd : ∀ x ∈ env.ord p r.metadata, NoNul x.1 := fun x hx => h.keys x (hp.mem_iff.2 hx)
  cases hc : r.conditions with
  | none =>
    obtain ⟨g1, g2⟩ := bson_noTree (env := env)
    refine ⟨_, ?_, fun q => ⟨_, bson_members (g2 q) h.rest h.converted, _, _, hp, .inl ⟨hc, rfl⟩, rfl⟩⟩
    rw [bsonMarshalRule, hc, g1, Go.ok_bind, bsonMarshal, if_pos (bsonOk_members hmd (by rw [bsonOk, bsonEntriesOk]))]
  | some n =>
    obtain ⟨kvs, g1, g2, g3⟩ := bson_tree ho (h.conditions n hc) (h.names n hc)
    refine ⟨.obj (bsonMembers r (env.ord p r.metadata) (.obj kvs)), ?_, fun q => ?_⟩
    · rw [bsonMarshalRule, hc, g1, Go.ok_bind, bsonMarshal, if_pos (bsonOk_members hmd g2)]
    · obtain ⟨n', g4, g5⟩ := g3 q
      exact ⟨_, bson_members g4 h.rest h.converted, _, _, hp, .inr ⟨n, n', hc, rfl, g5⟩, rfl⟩

/-! ## Hashes -/

mutual
theorem sameTree_string {e : Ext} : ∀ {n n' : Node}, Copyable e n → SameTree n n' → n'.string = n.string
  | _, _, _, .nil => rfl
  | _, _, hc, .and h => by
    cases hc with
    | and hne hs => rw [Node.string, Node.string, sameTrees_string hs h]
  | _, _, hc, .or h => by
    cases hc with
    | or hne hs => rw [Node.string, Node.string, sameTrees_string hs h]
  | _, _, hc, .not h => by
    cases hc with
    | not hs => rw [Node.string, Node.string, sameTree_string hs h]
  | _, _, hc, .any (ret := ret') hr h => by
    cases hc with
    | @any parent ret _ hp hv hd hrel hs =>
      rw [Node.string, Node.string, sameTree_string hs h]
      have hm : (retOrig (anyFields e parent ret).ret).Perm (retOrig ret') := hr.map _
      have hd' : ((retOrig (anyFields e parent ret).ret).map (·.1)).Nodup := by
        rw [show retOrig (anyFields e parent ret).ret = ret from retOrig_any e ret]; exact hd
      simp only [anyAllString, fmtStringMap_perm hm hd']
  | _, _, hc, .all (ret := ret') hr h => by
    cases hc with
    | @all parent ret _ hp hv hd hrel hs =>
      rw [Node.string, Node.string, sameTree_string hs h]
      have hm : (retOrig (anyFields e parent ret).ret).Perm (retOrig ret') := hr.map _
      have hd' : ((retOrig (anyFields e parent ret).ret).map (·.1)).Nodup := by
        rw [show retOrig (anyFields e parent ret).ret = ret from retOrig_any e ret]; exact hd
      simp only [anyAllString, fmtStringMap_perm hm hd']
  | _, _, _, .tt => rfl
  | _, _, _, .ff => rfl
  | _, _, _, .cond _ => rfl
  | _, _, _, .condRet _ _ => rfl

theorem sameTrees_string {e : Ext} : ∀ {ns ns' : List Node}, (∀ n ∈ ns, Copyable e n) → SameTrees ns ns' → stringNodes ns' = stringNodes ns
  | _, _, _, .nil => rfl
  | _, _, hc, .cons h hs => by
    rw [stringNodes, stringNodes, sameTree_string (hc _ (List.mem_cons_self ..)) h, sameTrees_string (fun n hn => hc n (List.mem_cons_of_mem _ hn)) hs]
end

theorem storedAs_string {e : Ext} {r r' : Rule} (hc : ∀ n, r.conditions = some n → Copyable e n) (h : StoredAs r r') : ruleToString r' = ruleToString r := by
  obtain ⟨md, c, -, hs, rfl⟩ := h
  have : ruleConditionsToString { r with metadata := md, conditions := c } = ruleConditionsToString r := by
    unfold ruleConditionsToString
    rcases hs with ⟨h1, rfl⟩ | ⟨n, n', h1, rfl, h2⟩
    · rw [h1]
    · rw [h1]; exact sameTree_string (hc n h1) h2
  rw [ruleToString, ruleToString, this]; rfl

/-! ## Decisions -/

theorem storedAs_copyable {e : Ext} {r r' : Rule} (hc : ∀ n, r.conditions = some n → Copyable e n) (h : StoredAs r r') : ∀ n, r'.conditions = some n → Copyable e n := by
  obtain ⟨md, c, -, hs, rfl⟩ := h
  intro n hn
  rcases hs with ⟨-, rfl⟩ | ⟨n0, n', h1, rfl, h2⟩
  · cases hn
  · cases hn; exact sameTree_copyable (hc n0 h1) h2

/-- Rules that are the same are checked alike. -/
theorem storedAs_checkParsed (ho : env.OrdOk) {r r' : Rule} (hc : ∀ n, r.conditions = some n → Copyable env n) (h : StoredAs r r') (p : List Nat) :
    Outcomes SameRuleOut ((parsedRule r).check env t p msg) ((parsedRule r').check env t p msg) := by
  have k1 := copyRule_copyable ho hc (0 :: p)
  have k2 := copyRule_copyable ho (storedAs_copyable hc h) (0 :: p)
  have hs : StoredAs _ _ := (by
    obtain ⟨md, c, hm, hs, rfl⟩ := h
    exact ⟨md, c, hm, hs, rfl⟩ : StoredAs
      { r with senderList := r.senderList.map copySR, receiverList := r.receiverList.map copySR, resourceNameRegex := none, operationRegex := none }
      { r' with senderList := r'.senderList.map copySR, receiverList := r'.receiverList.map copySR, resourceNameRegex := none, operationRegex := none })
  have hp := storedAs_prepare (e := env.toExt) (t := t) hs
  have hset : ∀ (b copy : Rule), copyRule env (0 :: p) b = .ok copy → (parsedRule b).setPredefined env (0 :: p) t =
      match prepareOneRule env t copy with
      | .error (.panic x) => .error (.panic x)
      | .error (.err e) => .ok ({ body := b, predefined := t }, some e)
      | .ok rule => .ok ({ body := b, predefined := t, prepared := some rule, ready := true }, none) := by
    intro b copy hb
    unfold RuleObj.setPredefined
    simp only [parsedRule, hb]
    cases prepareOneRule env t copy with
    | ok => rfl
    | error e => cases e <;> rfl
  have s1 := hset r _ k1
  have s2 := hset r' _ k2
  revert s1 s2 hp
  generalize prepareOneRule env.toExt t { r with senderList := r.senderList.map copySR, receiverList := r.receiverList.map copySR, resourceNameRegex := none, operationRegex := none } = x
  generalize prepareOneRule env.toExt t { r' with senderList := r'.senderList.map copySR, receiverList := r'.receiverList.map copySR, resourceNameRegex := none, operationRegex := none } = y
  intro hp s1 s2
  cases hp with
  | ok h =>
    rw [check_unready rfl s1 rfl, check_unready rfl s2 rfl]
    exact storedAs_check rfl rfl rfl rfl h
  | error e =>
    unfold RuleObj.check RuleObj.ensure
    rw [if_neg (by exact Bool.noConfusion), if_neg (by exact Bool.noConfusion), s1, s2]
    cases e <;> exact .error _

theorem storedAs_checkRules (ho : env.OrdOk) : ∀ {rs rs' : List Rule}, (∀ r ∈ rs, ∀ n, r.conditions = some n → Copyable env n) → List.Forall₂ StoredAs rs rs' → ∀ (i : Nat) (m : Msg),
    Outcomes (fun o o' => o'.1.map (·.1) = o.1.map (·.1) ∧ List.Forall₂ SameValues (o.1.map (·.2)) (o'.1.map (·.2)) ∧ o'.2 = o.2)
      (checkRules env t i m (rs.map parsedRule)) (checkRules env t i m (rs'.map parsedRule))
  | _, _, _, .nil, i, m => .ok ⟨rfl, .nil, rfl⟩
  | _, _, hc, .cons h hs, i, m => by
    rw [List.map_cons, List.map_cons, checkRules, checkRules]
    refine (storedAs_checkParsed ho (hc _ (List.mem_cons_self ..)) h [i]).bind fun o o' h1 => ?_
    rw [h1.msg]
    refine (storedAs_checkRules ho (fun r hr => hc r (List.mem_cons_of_mem _ hr)) hs (i + 1) o.msg).bind fun u u' h2 => ?_
    refine .ok ⟨?_, ?_, h2.2.2⟩
    · simp only [List.map_cons, h1.result, h2.1]
    · exact .cons h1.extra h2.2.1

theorem storedAs_describe {r r' : Rule} (hm : (r.metadata.map (·.1)).Nodup) (h : StoredAs r r') : describe (parsedRule r') = describe (parsedRule r) := by
  obtain ⟨md, c, hp, -, rfl⟩ := h
  have hn' : (md.map (·.1)).Nodup := (hp.map _).nodup_iff.1 hm
  have : lookup gs"description" md = lookup gs"description" r.metadata := by
    apply Option.ext
    intro v
    rw [lookup_mem_yaml hm, lookup_mem_yaml hn', hp.mem_iff]
  simp only [describe, parsedRule, this]

theorem storedAs_policy (ho : env.OrdOk) {rs rs' : List Rule} (hc : ∀ r ∈ rs, Storable env r) (h : List.Forall₂ StoredAs rs rs') :
    Outcomes AnswersAlike (check env t msg (rs.map parsedRule)) (check env t msg (rs'.map parsedRule)) := by
  have hd : (rs'.map parsedRule).map describe = (rs.map parsedRule).map describe := by
    induction h with
    | nil => rfl
    | cons h hs ih =>
      simp only [List.map_cons]
      rw [storedAs_describe (hc _ (List.mem_cons_self ..)).metadata h, ih fun r hr => hc r (List.mem_cons_of_mem _ hr)]
  unfold check
  rw [hd]
  refine (storedAs_checkRules ho (fun r hr => (hc r hr).conditions) h 0 msg).bind ?_
  rintro ⟨o, m⟩ ⟨o', m'⟩ ⟨h1, h2, h3⟩
  dsimp only at h1 h2 h3 ⊢
  rw [h1, h3]
  split
  · exact .error _
  · exact .ok ⟨rfl, rfl, rfl, rfl, rfl, rfl, h2, rfl⟩

end Mapl

import Verif.Spec.Keys
import Verif.Lemmas.Go
import Verif.Lemmas.Parse

/-!
# Documents whose keys need not be texts
-/

namespace Mapl

open Spec

variable {env : Env} {printed : KJson → Str}

/-! ## Text keys: the same as before -/

theorem interpretKids_fields : ∀ (l : List (Str × Json)) (p : List Nat) (i : Nat), (interpretKids env l p i).map (fun x => (x.1, x.2.1)) = l
  | [], _, _ => rfl
  | (k, v) :: rest, p, i => by rw [interpretKids, List.map_cons, interpretKids_fields rest]

theorem texts?_cons {j : KJson} {js : List KJson} {l : List Json} (h : texts?List (j :: js) = some l) :
    ∃ x xs, j.texts? = some x ∧ texts?List js = some xs ∧ l = x :: xs := by
  rw [texts?List] at h
  split at h
  · rename_i x xs e1 e2; cases h; exact ⟨x, xs, e1, e2, rfl⟩
  · cases h

theorem texts?_entry {k : Str} {j : KJson} {rest : List (GKey × KJson)} {l : List (Str × Json)} (h : texts?Entries ((.text k, j) :: rest) = some l) :
    ∃ x xs, j.texts? = some x ∧ texts?Entries rest = some xs ∧ l = (k, x) :: xs := by
  rw [texts?Entries] at h
  split at h
  · rename_i x xs e1 e2; cases h; exact ⟨x, xs, e1, e2, rfl⟩
  · cases h

theorem texts?_other {v : Scalar} {j : KJson} {rest : List (GKey × KJson)} : texts?Entries ((.other v, j) :: rest) = none := by
  rw [texts?Entries]

mutual
theorem interpretK_texts : ∀ (j : KJson) (x : Json) (parent : Str) (p : List Nat), j.texts? = some x → interpretK env printed j parent p = interpret env x parent p
  | .null, x, _, _, h => by cases h; rfl
  | .bool _, x, _, _, h => by cases h; rfl
  | .num _, x, _, _, h => by cases h; rfl
  | .str _, x, _, _, h => by cases h; rfl
  | .arr l, x, parent, p, h => by
    rw [KJson.texts?, Option.map_eq_some_iff] at h
    obtain ⟨l', h, rfl⟩ := h
    rw [interpretK, interpret, interpretListK_texts l l' p 2 h]
  | .obj kvs, x, parent, p, h => by
    rw [KJson.texts?, Option.map_eq_some_iff] at h
    obtain ⟨l', h, rfl⟩ := h
    rw [interpretK, interpret, interpretKidsK_texts kvs l' p 2 h, Go.ok_bind, interpretKids_fields]

theorem interpretKidsK_texts : ∀ (kvs : List (GKey × KJson)) (l : List (Str × Json)) (p : List Nat) (i : Nat), texts?Entries kvs = some l →
    textEntries (interpretKidsK env printed kvs p i) = .ok (interpretKids env l p i)
  | [], l, _, _, h => by cases h; rfl
  | (.text k, j) :: rest, l, p, i, h => by
    obtain ⟨x, xs, e1, e2, rfl⟩ := texts?_entry h
    have hf : j.field printed k = x := by rw [KJson.field, e1]; rfl
    rw [interpretKidsK, textEntries, interpretKidsK_texts rest xs p (i + 1) e2, interpretK_texts j x k (i :: p) e1, hf]
    rfl
  | (.other v, j) :: rest, l, _, _, h => by rw [texts?_other] at h; cases h

theorem interpretListK_texts : ∀ (l : List KJson) (l' : List Json) (p : List Nat) (i : Nat), texts?List l = some l' →
    interpretListK env printed l p i = interpretList env l' p i
  | [], l', _, _, h => by cases h; rfl
  | j :: js, l', p, i, h => by
    obtain ⟨x, xs, e1, e2, rfl⟩ := texts?_cons h
    rw [interpretListK, interpretList, interpretListK_texts js xs p (i + 1) e2, interpretK_texts j x [] (i :: p) e1]
end

theorem texts?_setGKey {k : Str} {v : KJson} {x : Json} (hv : v.texts? = some x) : ∀ {acc : List (GKey × KJson)} {l : List (Str × Json)}, texts?Entries acc = some l →
    texts?Entries (setGKey (.text k) v acc) = some (setKey k x l)
  | [], l, h => by cases h; rw [setGKey, texts?Entries, hv]; rfl
  | (.text k', v') :: rest, l, h => by
    obtain ⟨y, ys, e1, e2, rfl⟩ := texts?_entry h
    rw [setGKey, setKey]
    by_cases e : k = k'
    · subst e; rw [if_pos rfl, if_pos rfl, texts?Entries, hv, e2]
    · have e' : ¬ GKey.text k = GKey.text k' := fun h => e (by cases h; rfl)
      rw [if_neg e, if_neg e', texts?Entries, e1, texts?_setGKey hv e2]
  | (.other v', _) :: rest, l, h => by rw [texts?_other] at h; cases h

theorem textKeys_seq {l : List KYaml} (h : TextKeys (.seq l)) : ∀ y ∈ l, TextKeys y := by cases h; assumption
theorem textKeys_map {kvs : List (Key × KYaml)} (h : TextKeys (.map kvs)) : ∀ x ∈ kvs, x.1.val = .str ∧ TextKeys x.2 := by
  cases h with | map h1 h2 => exact fun x hx => ⟨h1 x hx, h2 x hx⟩

theorem Key.generic_text {k : Key} (h : k.val = .str) : k.generic = .text k.text := by rw [Key.generic, if_pos h]
theorem Key.name_text {k : Key} (h : k.val = .str) : k.name = k.text := by rw [Key.name, if_neg (by rw [h]; decide)]

mutual
theorem genericK_texts : ∀ (y : KYaml) (c : Place), TextKeys y → (y.generic env.toExt c).texts? = some (y.named.generic env.toExt c)
  | .scalar t v, c, _ => by
    cases v <;> try rfl
    rw [KYaml.generic, KYaml.named, Yaml.generic]; split <;> rfl
  | .seq l, c, h => by
    rw [KYaml.generic, KYaml.named, Yaml.generic, KJson.texts?, genericListK_texts l c.inside (textKeys_seq h)]; rfl
  | .map kvs, c, h => by
    rw [KYaml.generic, KYaml.named, Yaml.generic, KJson.texts?, genericEntriesK_texts kvs c [] [] (textKeys_map h) rfl]; rfl

theorem genericListK_texts : ∀ (l : List KYaml) (c : Place), (∀ y ∈ l, TextKeys y) → texts?List (genericListK env.toExt c l) = some (genericList env.toExt c (namedList l))
  | [], _, _ => rfl
  | y :: ys, c, h => by
    rw [genericListK, namedList, genericList, texts?List, genericK_texts y c (h y List.mem_cons_self), genericListK_texts ys c fun z hz => h z (List.mem_cons_of_mem _ hz)]

theorem genericEntriesK_texts : ∀ (kvs : List (Key × KYaml)) (c : Place) (acc : List (GKey × KJson)) (l : List (Str × Json)),
    (∀ x ∈ kvs, x.1.val = .str ∧ TextKeys x.2) → texts?Entries acc = some l →
    texts?Entries (genericEntriesK env.toExt c acc kvs) = some (genericEntries env.toExt c l (namedEntries kvs))
  | [], _, _, _, _, h => h
  | (k, y) :: rest, c, acc, l, hk, h => by
    obtain ⟨h1, h2⟩ := hk (k, y) List.mem_cons_self
    rw [genericEntriesK, namedEntries, genericEntries, Key.generic_text h1, Key.name_text h1]
    exact genericEntriesK_texts rest c _ _ (fun x hx => hk x (List.mem_cons_of_mem _ hx)) (texts?_setGKey (genericK_texts y (c.below k.text) h2) h)
end

theorem decodeConditionsK_texts {p : List Nat} {old : Option Node} {c : KYaml} (h : TextKeys c) :
    decodeConditionsK env printed p old c = decodeConditions env p old c.named := by
  cases c with
  | scalar t v => rfl
  | seq l => rw [decodeConditionsK, interpretK_texts _ _ [] p (genericK_texts (.seq l) .plain h)]; rfl
  | map kvs => rw [decodeConditionsK, interpretK_texts _ _ [] p (genericK_texts (.map kvs) .plain h)]; rfl

theorem Key.name_eq {k : Key} {s : Str} (hs : s ≠ []) (h : k.name = s) : k.val ≠ .null ∧ k.text = s := by
  unfold Key.name at h
  split at h
  · exact absurd h.symm hs
  · exact ⟨by assumption, h⟩

/-! ## The readers -/

theorem decodeRuleEntriesK_texts {p : List Nat} : ∀ {kvs : List (Key × KYaml)} {r : Rule}, (∀ x ∈ kvs, x.1.name = gs"conditions" → TextKeys x.2) →
    decodeRuleEntriesK env printed p r kvs = decodeRuleEntries env p r (namedEntries kvs)
  | [], _, _ => rfl
  | (k, y) :: rest, r, h => by
    have ih := fun r' => decodeRuleEntriesK_texts (p := p) (r := r') fun x hx => h x (List.mem_cons_of_mem _ hx)
    rw [decodeRuleEntriesK, namedEntries, decodeRuleEntries]
    by_cases e : k.name = gs"conditions"
    · rw [if_pos e, if_pos e, decodeConditionsK_texts (h (k, y) List.mem_cons_self e)]
      simp only [ih]
    · rw [if_neg e, if_neg e]
      simp only [ih]

theorem decodeRuleK_texts {p : List Nat} {y : KYaml} (h : ∀ kvs, y = .map kvs → ∀ x ∈ kvs, x.1.name = gs"conditions" → TextKeys x.2) :
    decodeRuleK env printed p y = decodeRule env p y.named := by
  cases y with
  | scalar t v => cases v <;> rfl
  | seq l => rfl
  | map kvs => exact decodeRuleEntriesK_texts (h kvs rfl)

theorem decodeRuleListK_texts {p : List Nat} : ∀ {l : List KYaml} {i : Nat}, (∀ kvs, .map kvs ∈ l → ∀ x ∈ kvs, x.1.name = gs"conditions" → TextKeys x.2) →
    decodeRuleListK env printed p i l = decodeRuleList env p i (namedList l)
  | [], _, _ => rfl
  | y :: ys, i, h => by
    rw [decodeRuleListK, namedList, decodeRuleList, decodeRuleK_texts fun kvs e => h kvs (by rw [e]; exact List.mem_cons_self),
      decodeRuleListK_texts fun kvs hk => h kvs (List.mem_cons_of_mem _ hk)]

theorem decodeRulesEntriesK_texts : ∀ {kvs : List (Key × KYaml)} {j : Nat} {old : List Rule},
    (∀ x ∈ kvs, x.1.name = gs"rules" → ∀ l, x.2 = .seq l → ∀ rule, .map rule ∈ l → ∀ z ∈ rule, z.1.name = gs"conditions" → TextKeys z.2) →
    decodeRulesEntriesK env printed j old kvs = decodeRulesEntries env j old (namedEntries kvs)
  | [], _, _, _ => rfl
  | (k, y) :: rest, j, old, h => by
    have ih := fun j' o => decodeRulesEntriesK_texts (j := j') (old := o) fun x hx => h x (List.mem_cons_of_mem _ hx)
    rw [decodeRulesEntriesK, namedEntries, decodeRulesEntries]
    by_cases e : k.name = gs"rules"
    · have hy : decodeRulesKeyK env printed j old y = decodeRulesKey env j old y.named := by
        cases y with
        | scalar t v => cases v <;> rfl
        | seq l => exact decodeRuleListK_texts (h (k, .seq l) List.mem_cons_self e l rfl)
        | map l => rfl
      rw [if_pos e, if_pos e, hy]
      simp only [ih]
    · rw [if_neg e, if_neg e]
      exact ih _ _

theorem readRulesK_texts {y : KYaml}
    (h : ∀ kvs, y = .map kvs → ∀ x ∈ kvs, x.1.name = gs"rules" → ∀ l, x.2 = .seq l → ∀ rule, .map rule ∈ l → ∀ z ∈ rule, z.1.name = gs"conditions" → TextKeys z.2) :
    readRulesK env printed y = readRules env y.named := by
  have hd : decodeRulesK env printed y = decodeRules env y.named := by
    cases y with
    | scalar t v => cases v <;> rfl
    | seq l => rfl
    | map kvs => exact decodeRulesEntriesK_texts (h kvs rfl)
  unfold readRulesK readRules
  rw [hd]
  rcases decodeRules env y.named with (e | e) | ⟨rs, _ | _⟩ <;> rfl

/-! ## A key that is not a text -/

/-- A value that the parser of conditions does not accept: see `Misplaced`. -/
inductive Stuck : KJson → Prop
  | here {kvs : List (GKey × KJson)} {k : Scalar} {v : KJson} (h : (.other k, v) ∈ kvs) : Stuck (.obj kvs)
  | element {l : List KJson} {j : KJson} (h : j ∈ l) (hj : Stuck j) : Stuck (.arr l)
  | under {kvs : List (GKey × KJson)} {k : GKey} {v : KJson} (hc : ∀ x ∈ kvs, x.1 ≠ .text gs"attribute" ∧ x.1 ≠ .text gs"Attribute")
      (h : (k, v) ∈ kvs) (hv : Stuck v) : Stuck (.obj kvs)
  | returned {kvs rs : List (GKey × KJson)} {k : Scalar} {v : KJson} (h : (.text gs"returnValueJsonpath", .obj rs) ∈ kvs)
      (hu : ∀ w, (.text gs"returnValueJsonpath", w) ∈ kvs → w = .obj rs) (hr : (.other k, v) ∈ rs) : Stuck (.obj kvs)

theorem texts?List_mem {j : KJson} : ∀ {l : List KJson} {l' : List Json}, texts?List l = some l' → j ∈ l → ∃ x, j.texts? = some x
  | y :: ys, l', h, hj => by
    obtain ⟨x, xs, e1, e2, rfl⟩ := texts?_cons h
    rcases List.mem_cons.1 hj with rfl | hj
    · exact ⟨x, e1⟩
    · exact texts?List_mem e2 hj

theorem texts?Entries_mem {g : GKey} {j : KJson} : ∀ {l : List (GKey × KJson)} {l' : List (Str × Json)}, texts?Entries l = some l' → (g, j) ∈ l →
    ∃ k x, g = .text k ∧ j.texts? = some x
  | (.text k, y) :: ys, l', h, hj => by
    obtain ⟨x, xs, e1, e2, rfl⟩ := texts?_entry h
    rcases List.mem_cons.1 hj with hj | hj
    · cases hj; exact ⟨k, x, rfl, e1⟩
    · exact texts?Entries_mem e2 hj
  | (.other v, y) :: ys, l', h, hj => by rw [texts?_other] at h; cases h

theorem Stuck.texts {j : KJson} (h : Stuck j) : j.texts? = none := by
  rw [Option.eq_none_iff_forall_not_mem]
  intro x hx
  have hx : j.texts? = some x := hx
  induction h generalizing x with
  | here h =>
    rw [KJson.texts?, Option.map_eq_some_iff] at hx
    obtain ⟨l, hl, -⟩ := hx
    obtain ⟨k, x, e, -⟩ := texts?Entries_mem hl h
    cases e
  | element h _ ih =>
    rw [KJson.texts?, Option.map_eq_some_iff] at hx
    obtain ⟨l, hl, -⟩ := hx
    obtain ⟨x, e⟩ := texts?List_mem hl h
    exact ih x e e
  | under _ h _ ih =>
    rw [KJson.texts?, Option.map_eq_some_iff] at hx
    obtain ⟨l, hl, -⟩ := hx
    obtain ⟨k, x, -, e⟩ := texts?Entries_mem hl h
    exact ih x e e
  | returned h _ hr =>
    rw [KJson.texts?, Option.map_eq_some_iff] at hx
    obtain ⟨l, hl, -⟩ := hx
    obtain ⟨k, x, -, e⟩ := texts?Entries_mem hl h
    rw [KJson.texts?, Option.map_eq_some_iff] at e
    obtain ⟨l', hl', -⟩ := e
    obtain ⟨k, x, e, -⟩ := texts?Entries_mem hl' hr
    cases e

theorem Stuck.notText {j : KJson} (h : Stuck j) : ∀ s, j ≠ .str s := by intro s e; subst e; cases h

theorem textEntries_other {α : Type} {k : Scalar} {v : α} : ∀ {l : List (GKey × α)}, (.other k, v) ∈ l → textEntries l = .error (.panic .typeAssertion)
  | (.text k', v') :: rest, h => by
    rcases List.mem_cons.1 h with h | h
    · cases h
    · rw [textEntries, textEntries_other h]; rfl
  | (.other k', v') :: rest, _ => rfl

theorem textEntries_ok {α : Type} : ∀ {l : List (GKey × α)} {l' : List (Str × α)}, textEntries l = .ok l' → l = l'.map fun x => (GKey.text x.1, x.2)
  | [], l', h => by cases h; rfl
  | (.text k, v) :: rest, l', h => by
    rw [textEntries, Go.bind_eq_ok] at h
    obtain ⟨r, h1, h2⟩ := h
    cases h2
    rw [List.map_cons, ← textEntries_ok h1]
  | (.other k, v) :: rest, l', h => by cases h

theorem kidsK_other {k : Scalar} {v : KJson} : ∀ {kvs : List (GKey × KJson)} {p : List Nat} {i : Nat}, (.other k, v) ∈ kvs →
    (GKey.other k, Json.null, (.error (.err .badNode) : Go Node)) ∈ interpretKidsK env printed kvs p i
  | (.text k', v') :: rest, p, i, h => by
    rcases List.mem_cons.1 h with h | h
    · cases h
    · rw [interpretKidsK]; exact List.mem_cons_of_mem _ (kidsK_other h)
  | (.other k', v') :: rest, p, i, h => by
    rw [interpretKidsK]
    rcases List.mem_cons.1 h with h | h
    · cases h; exact List.mem_cons_self
    · exact List.mem_cons_of_mem _ (kidsK_other h)

theorem kidsK_text {k : Str} {v : KJson} : ∀ {kvs : List (GKey × KJson)} {p : List Nat} {i : Nat}, (.text k, v) ∈ kvs →
    ∃ q, (GKey.text k, v.field printed k, interpretK env printed v k q) ∈ interpretKidsK env printed kvs p i
  | (.text k', v') :: rest, p, i, h => by
    rw [interpretKidsK]
    rcases List.mem_cons.1 h with h | h
    · cases h; exact ⟨_, List.mem_cons_self⟩
    · obtain ⟨q, hq⟩ := kidsK_text (p := p) (i := i + 1) h; exact ⟨q, List.mem_cons_of_mem _ hq⟩
  | (.other k', v') :: rest, p, i, h => by
    rw [interpretKidsK]
    rcases List.mem_cons.1 h with h | h
    · cases h
    · obtain ⟨q, hq⟩ := kidsK_text (p := p) (i := i + 1) h; exact ⟨q, List.mem_cons_of_mem _ hq⟩

theorem kidsK_keys : ∀ (kvs : List (GKey × KJson)) (p : List Nat) (i : Nat), (interpretKidsK env printed kvs p i).map (·.1) = kvs.map (·.1)
  | [], _, _ => rfl
  | (.text k, v) :: rest, p, i => by rw [interpretKidsK, List.map_cons, List.map_cons, kidsK_keys rest]
  | (.other k, v) :: rest, p, i => by rw [interpretKidsK, List.map_cons, List.map_cons, kidsK_keys rest]

/-- The fields come from the entries. -/
theorem kidsK_mem {g : GKey} {x : Json} {s : Go Node} : ∀ {kvs : List (GKey × KJson)} {p : List Nat} {i : Nat}, (g, x, s) ∈ interpretKidsK env printed kvs p i →
    ∀ k, g = .text k → ∃ v, (.text k, v) ∈ kvs ∧ x = v.field printed k
  | (.text k', v') :: rest, p, i, h, k, e => by
    rw [interpretKidsK] at h
    rcases List.mem_cons.1 h with h | h
    · cases h; cases e; exact ⟨v', List.mem_cons_self, rfl⟩
    · obtain ⟨v, h1, h2⟩ := kidsK_mem h k e; exact ⟨v, List.mem_cons_of_mem _ h1, h2⟩
  | (.other k', v') :: rest, p, i, h, k, e => by
    rw [interpretKidsK] at h
    rcases List.mem_cons.1 h with h | h
    · cases h; cases e
    · obtain ⟨v, h1, h2⟩ := kidsK_mem h k e; exact ⟨v, List.mem_cons_of_mem _ h1, h2⟩

theorem listK_mem {v : KJson} : ∀ {l : List KJson} {p : List Nat} {i : Nat}, v ∈ l → ∃ q, interpretK env printed v [] q ∈ interpretListK env printed l p i
  | y :: ys, p, i, h => by
    rw [interpretListK]
    rcases List.mem_cons.1 h with rfl | h
    · exact ⟨_, List.mem_cons_self⟩
    · obtain ⟨q, hq⟩ := listK_mem (p := p) (i := i + 1) h; exact ⟨q, List.mem_cons_of_mem _ hq⟩

theorem sequenceNodes_all : ∀ {l : List (Go Node)} {ns : List Node}, sequenceNodes l = .ok ns → ∀ r ∈ l, ∃ n, r = .ok n
  | r :: rest, ns, h, s, hs => by
    rw [sequenceNodes, Go.bind_eq_ok] at h
    obtain ⟨n, h1, h2⟩ := h
    rw [Go.bind_eq_ok] at h2
    obtain ⟨ns', h2, -⟩ := h2
    rcases List.mem_cons.1 hs with rfl | hs
    · exact ⟨n, h1⟩
    · exact sequenceNodes_all h2 s hs

theorem handleArray_all {parent : Str} {l : List (Go Node)} {n : Node} (h : handleArray parent l = .ok n) : ∀ r ∈ l, ∃ n, r = .ok n := by
  unfold handleArray at h
  split at h
  · split at h
    · intro r hr; rw [List.mem_singleton] at hr; subst hr; exact ⟨n, h⟩
    · cases h
  · rw [Go.bind_eq_ok] at h
    obtain ⟨_, -, h⟩ := h
    rw [Go.bind_eq_ok] at h
    obtain ⟨ns, h, -⟩ := h
    exact sequenceNodes_all h

/-- What a loop over the entries of a quantifier needs of each of them. -/
theorem anyAllLoop_all {p : List Nat} : ∀ {l : List (Str × Json × Go Node)} {a : AnyAll} {c : Node} {r : AnyAll × Node}, anyAllLoop env p a c l = .ok r →
    ∀ x ∈ l, (x.1 = gs"parentJsonpathAttribute" → ∃ s, x.2.1 = .str s) ∧ (x.1 = gs"returnValueJsonpath" → ∃ q rs, readReturnMap env q x.2.1 = .ok rs) ∧
      (x.1 ≠ gs"parentJsonpathAttribute" → x.1 ≠ gs"returnValueJsonpath" → ∃ n, x.2.2 = .ok n)
  | (key, val, sub) :: rest, a, c, r, h, x, hx => by
    unfold anyAllLoop at h
    split at h
    · rename_i hk
      rw [Go.bind_eq_ok] at h
      obtain ⟨s, h1, h⟩ := h
      split at h
      · rcases List.mem_cons.1 hx with rfl | hx
        · subst hk
          refine ⟨fun _ => ?_, fun e => by simp at e, fun e => absurd rfl e⟩
          cases val with
          | str s => exact ⟨s, rfl⟩
          | _ => cases h1
        · exact anyAllLoop_all h x hx
      · cases h
    · rename_i hk
      split at h
      · rename_i hk'
        rw [Go.bind_eq_ok] at h
        obtain ⟨s, h1, h⟩ := h
        rcases List.mem_cons.1 hx with rfl | hx
        · exact ⟨fun e => absurd e hk, fun _ => ⟨_, s, h1⟩, fun _ e => absurd hk' e⟩
        · exact anyAllLoop_all h x hx
      · rename_i hk'
        rw [Go.bind_eq_ok] at h
        obtain ⟨s, h1, h⟩ := h
        rcases List.mem_cons.1 hx with rfl | hx
        · exact ⟨fun e => absurd e hk, fun e => absurd e hk', fun _ _ => ⟨s, h1⟩⟩
        · exact anyAllLoop_all h x hx

theorem stringEntries_all : ∀ {l : List (Str × Json)} {r : List (Str × Str)}, stringEntries l = .ok r → ∀ x ∈ l, ∃ s, x.2 = .str s
  | (k, v) :: rest, r, h, x, hx => by
    rw [stringEntries, Go.bind_eq_ok] at h
    obtain ⟨s, h1, h⟩ := h
    rw [Go.bind_eq_ok] at h
    obtain ⟨r', h2, -⟩ := h
    rcases List.mem_cons.1 hx with rfl | hx
    · cases v with
      | str s => exact ⟨s, rfl⟩
      | _ => cases h1
    · exact stringEntries_all h2 x hx

theorem other_obj {k : Str} (hk : k ≠ gs"value" ∧ k ≠ gs"Value") {kvs : List (GKey × KJson)} : (KJson.obj kvs).other printed k = mapOther kvs := by
  rw [KJson.other, if_neg (by simpa using hk)]

theorem other_arr {k : Str} (hk : k ≠ gs"value" ∧ k ≠ gs"Value") {l : List KJson} : (KJson.arr l).other printed k = .null := by
  unfold KJson.other; rw [if_neg (by simpa using hk)]

theorem Stuck.field_eq {v : KJson} {k : Str} (h : Stuck v) : v.field printed k = v.other printed k := by rw [KJson.field, h.texts]; rfl

/-- A value with a key that is not a text is not read as return values. -/
theorem Stuck.entries {v : KJson} {k : Str} (hk : k ≠ gs"value" ∧ k ≠ gs"Value") (h : Stuck v) :
    (∀ s, v.field printed k ≠ .str s) ∧ ∀ m, v.field printed k = .obj m → ∀ l, stringEntries m ≠ .ok l := by
  rw [h.field_eq]
  have notStr : ∀ (kvs : List (GKey × KJson)) s, mapOther kvs ≠ .str s := by
    intro kvs s e
    unfold mapOther at e
    split at e <;> cases e
  have key : ∀ {kvs : List (GKey × KJson)}, ((∃ k v, (GKey.other k, v) ∈ kvs) ∨ ∃ g v, (g, v) ∈ kvs ∧ ∀ s, v ≠ .str s) → ∀ m,
      mapOther kvs = .obj m → ∀ l, stringEntries m ≠ .ok l := by
    intro kvs hkv m hm l hl
    unfold mapOther at hm
    split at hm
    · rename_i l' ht
      cases hm
      rcases hkv with ⟨k, v, hv⟩ | ⟨g, v, hv, hs⟩
      · rw [textEntries_other hv] at ht; cases ht
      · rw [textEntries_ok ht] at hv
        obtain ⟨x, hx, e⟩ := List.mem_map.1 hv
        cases e
        obtain ⟨s, e⟩ := stringEntries_all hl _ (List.mem_map.2 ⟨x, hx, rfl⟩)
        dsimp only at e
        unfold KJson.scalar at e
        split at e
        · rename_i s' e'; exact hs s' e'
        · cases e
    · cases hm; cases hl
  cases h with
  | element hj hs =>
    rw [other_arr hk]
    constructor
    · intro s e; cases e
    · intro m e; cases e
  | here h => rw [other_obj hk]; exact ⟨notStr _, key (.inl ⟨_, _, h⟩)⟩
  | under _ h hv => rw [other_obj hk]; exact ⟨notStr _, key (.inr ⟨_, _, h, hv.notText⟩)⟩
  | returned h _ _ => rw [other_obj hk]; exact ⟨notStr _, key (.inr ⟨_, _, h, fun s e => by cases e⟩)⟩

theorem Stuck.notReturned {v : KJson} {k : Str} (hk : k ≠ gs"value" ∧ k ≠ gs"Value") (h : Stuck v) (q : List Nat) (rs : List RetVal) :
    readReturnMap env q (v.field printed k) ≠ .ok rs := by
  intro e
  cases hf : v.field printed k with
  | obj m =>
    rw [hf, readReturnMap, Go.bind_eq_ok] at e
    obtain ⟨_, -, e⟩ := e
    rw [Go.bind_eq_ok] at e
    obtain ⟨l, e, -⟩ := e
    exact (h.entries hk).2 m hf l e
  | _ => rw [hf] at e; cases e

theorem singleKid_all {kids : List (Str × Json × Go Node)} {n : Node} (h : singleKid kids = .ok n) : ∀ x ∈ kids, ∃ n, x.2.2 = .ok n := by
  unfold singleKid at h
  split at h
  · intro x hx; rw [List.mem_singleton] at hx; subst hx; exact ⟨n, h⟩
  · cases h

/-- A map that is not a condition is not accepted if the interpretation of one of its entries fails for every keyword and position. -/
theorem handleMap_stuck (ho : env.OrdOk) {p : List Nat} {parent k : Str} {fields : List (Str × Json)} {kids : List (Str × Json × Go Node)} {v : KJson} {q : List Nat}
    (hc : isConditionNode fields = false) (hm : (k, v.field printed k, interpretK env printed v k q) ∈ kids) (hv : Stuck v)
    (hi : ∀ n, interpretK env printed v k q ≠ .ok n) (n : Node) : handleMap env p parent fields kids ≠ .ok n := by
  intro h
  unfold handleMap at h
  rw [hc] at h
  simp only [Bool.false_eq_true, if_false] at h
  have single : ∀ n, singleKid kids ≠ .ok n := fun n hs => by
    obtain ⟨m, hm'⟩ := singleKid_all hs _ hm
    exact hi m hm'
  split at h
  · unfold getAnyAllNode at h
    split at h
    · rw [Go.bind_eq_ok] at h
      obtain ⟨r, h, -⟩ := h
      obtain ⟨h1, h2, h3⟩ := anyAllLoop_all h _ ((ho _ _).mem_iff.2 hm)
      by_cases e1 : k = gs"parentJsonpathAttribute"
      · obtain ⟨s, hs⟩ := h1 e1
        exact (hv.entries (by subst e1; decide)).1 s hs
      · by_cases e2 : k = gs"returnValueJsonpath"
        · obtain ⟨q, rs, hs⟩ := h2 e2
          exact hv.notReturned (by subst e2; decide) q rs hs
        · obtain ⟨n, hn⟩ := h3 e1 e2
          exact hi n hn
    · cases h
  · split at h
    · rw [Go.bind_eq_ok] at h
      obtain ⟨m, h, -⟩ := h
      exact single m h
    · split at h
      · exact single n h
      · cases h

theorem isConditionNode_attr {fields : List (Str × Json)} (h : gs"attribute" ∉ getKeys fields ∧ gs"Attribute" ∉ getKeys fields) : isConditionNode fields = false := by
  have h1 : (getKeys fields).contains gs"attribute" = false := by simpa using h.1
  have h2 : (getKeys fields).contains gs"Attribute" = false := by simpa using h.2
  simp only [isConditionNode, h1, h2, Bool.or_false, Bool.and_false, Bool.false_and]

theorem lookup_unique {α : Type} {k : Str} {v : α} : ∀ {l : List (Str × α)}, (k, v) ∈ l → (∀ w, (k, w) ∈ l → w = v) → lookup k l = some v
  | (k', v') :: rest, h, hu => by
    rw [lookup]
    by_cases e : k = k'
    · subst e; rw [if_pos rfl, hu v' List.mem_cons_self]
    · rw [if_neg e]
      rcases List.mem_cons.1 h with h | h
      · cases h; exact absurd rfl e
      · exact lookup_unique h fun w hw => hu w (List.mem_cons_of_mem _ hw)

/-- Nothing with a misplaced key is accepted. -/
theorem interpretK_stuck (ho : env.OrdOk) {j : KJson} (h : Stuck j) : ∀ (parent : Str) (p : List Nat) (n : Node), interpretK env printed j parent p ≠ .ok n := by
  induction h with
  | here h =>
    intro parent p n hn
    rw [interpretK, textEntries_other (kidsK_other h)] at hn
    cases hn
  | element h _ ih =>
    intro parent p n hn
    rw [interpretK] at hn
    obtain ⟨q, hq⟩ := listK_mem (env := env) (printed := printed) (p := p) (i := 2) h
    obtain ⟨m, hm⟩ := handleArray_all hn _ hq
    exact ih _ _ _ hm
  | @under kvs g v hc h hv ih =>
    intro parent p n hn
    rw [interpretK, Go.bind_eq_ok] at hn
    obtain ⟨l, hl, hn⟩ := hn
    have e := textEntries_ok hl
    cases g with
    | other k => rw [textEntries_other (kidsK_other h)] at hl; cases hl
    | text k =>
      obtain ⟨q, hq⟩ := kidsK_text (env := env) (printed := printed) (p := p) (i := 2) h
      rw [e] at hq
      obtain ⟨⟨xk, xv⟩, hx, e'⟩ := List.mem_map.1 hq
      simp only [Prod.mk.injEq, GKey.text.injEq] at e'
      obtain ⟨rfl, rfl⟩ := e'
      refine handleMap_stuck ho (isConditionNode_attr ?_) hx hv (ih _ _) n hn
      have keys : ∀ s, s ∈ getKeys (l.map fun x => (x.1, x.2.1)) → ∃ x ∈ kvs, x.1 = .text s := by
        intro s hs
        simp only [getKeys, List.map_map, List.mem_map, Function.comp_apply] at hs
        obtain ⟨x, hx, rfl⟩ := hs
        have : GKey.text x.1 ∈ (interpretKidsK env printed kvs p 2).map (·.1) := by
          rw [e, List.map_map]; exact List.mem_map.2 ⟨x, hx, rfl⟩
        rw [kidsK_keys] at this
        obtain ⟨y, hy, hy'⟩ := List.mem_map.1 this
        exact ⟨y, hy, hy'⟩
      constructor
      · intro hs; obtain ⟨x, hx, hx'⟩ := keys _ hs; exact (hc x hx).1 hx'
      · intro hs; obtain ⟨x, hx, hx'⟩ := keys _ hs; exact (hc x hx).2 hx'
  | @returned kvs rs k v h hu hr =>
    intro parent p n hn
    rw [interpretK, Go.bind_eq_ok] at hn
    obtain ⟨l, hl, hn⟩ := hn
    have e := textEntries_ok hl
    have hstuck : Stuck (.obj rs) := .here hr
    obtain ⟨q, hq⟩ := kidsK_text (env := env) (printed := printed) (p := p) (i := 2) h
    rw [e] at hq
    obtain ⟨⟨xk, xv⟩, hx, e'⟩ := List.mem_map.1 hq
    cases e'
    by_cases hc : isConditionNode (l.map fun x => (x.1, x.2.1)) = true
    · unfold handleMap at hn
      rw [if_pos hc] at hn
      unfold getNodeCondition at hn
      rw [Go.bind_eq_ok] at hn
      obtain ⟨cn, hn, -⟩ := hn
      rw [readCondition_eq] at hn
      have hl' : field2 (l.map fun x => (x.1, x.2.1)) gs"returnValueJsonpath" gs"ReturnValueJsonpath" = some ((KJson.obj rs).field printed gs"returnValueJsonpath") := by
        rw [field2, lookup_unique (v := (KJson.obj rs).field printed gs"returnValueJsonpath") (List.mem_map.2 ⟨_, hx, rfl⟩)]
        intro w hw
        obtain ⟨⟨yk, yv, ys⟩, hy, e'⟩ := List.mem_map.1 hw
        cases e'
        have : (GKey.text gs"returnValueJsonpath", yv, ys) ∈ interpretKidsK env printed kvs p 2 := by rw [e]; exact List.mem_map.2 ⟨_, hy, rfl⟩
        obtain ⟨v', h1, h2⟩ := kidsK_mem this _ rfl
        rw [h2, hu v' h1]
      rw [Go.bind_eq_ok] at hn
      obtain ⟨_, -, hn⟩ := hn
      rw [Go.bind_eq_ok] at hn
      obtain ⟨_, -, hn⟩ := hn
      rw [Go.bind_eq_ok] at hn
      obtain ⟨r, hr', -⟩ := hn
      rw [hl'] at hr'
      have hf : (KJson.obj rs).field printed gs"returnValueJsonpath" = .obj [([], .null)] := by
        rw [hstuck.field_eq, other_obj (by decide), mapOther, textEntries_other hr]
      rw [hf] at hr'
      cases hr'
    · exact handleMap_stuck ho (by simpa using hc) hx hstuck
        (fun n hn => by rw [interpretK, textEntries_other (kidsK_other hr)] at hn; cases hn) n hn

theorem sameKey_generic {a b : Key} : a.generic = b.generic ↔ SameKey a b := by
  unfold Key.generic SameKey
  by_cases ha : a.val = .str <;> by_cases hb : b.val = .str
  · simp [ha, hb]
  · simp [ha, hb]; exact fun h => absurd h.symm hb
  · simp [ha, hb]
  · simp [ha, hb]

theorem setGKey_new {k : GKey} {v : KJson} : ∀ {acc : List (GKey × KJson)}, (∀ x ∈ acc, x.1 ≠ k) → setGKey k v acc = acc ++ [(k, v)]
  | [], _ => rfl
  | (k', v') :: rest, h => by
    rw [setGKey, if_neg (fun e => h (k', v') List.mem_cons_self e.symm), setGKey_new fun x hx => h x (List.mem_cons_of_mem _ hx)]; rfl

theorem genericEntriesK_eq {c : Place} : ∀ {kvs : List (Key × KYaml)} {acc : List (GKey × KJson)}, kvs.Pairwise (fun a b => ¬ SameKey a.1 b.1) →
    (∀ x ∈ acc, ∀ z ∈ kvs, x.1 ≠ z.1.generic) →
    genericEntriesK env.toExt c acc kvs = acc ++ kvs.map fun x => (x.1.generic, x.2.generic env.toExt (c.belowG x.1.generic))
  | [], acc, _, _ => by rw [genericEntriesK, List.map_nil, List.append_nil]
  | (k, y) :: rest, acc, hp, ha => by
    obtain ⟨h1, h2⟩ := List.pairwise_cons.1 hp
    rw [genericEntriesK, setGKey_new fun x hx => ha x hx (k, y) List.mem_cons_self, genericEntriesK_eq h2, List.append_assoc]
    · rfl
    · intro x hx z hz
      rcases List.mem_append.1 hx with hx | hx
      · exact ha x hx z (List.mem_cons_of_mem _ hz)
      · rw [List.mem_singleton] at hx
        subst hx
        exact fun e => h1 z hz (sameKey_generic.1 e)

theorem genericListK_mem {c : Place} {y : KYaml} : ∀ {l : List KYaml}, y ∈ l → y.generic env.toExt c ∈ genericListK env.toExt c l
  | z :: zs, h => by
    rw [genericListK]
    rcases List.mem_cons.1 h with rfl | h
    · exact List.mem_cons_self
    · exact List.mem_cons_of_mem _ (genericListK_mem h)

theorem noRepeats_map {kvs : List (Key × KYaml)} (h : NoRepeats (.map kvs)) : kvs.Pairwise (fun a b => ¬ SameKey a.1 b.1) ∧ ∀ x ∈ kvs, NoRepeats x.2 := by
  cases h with | map h1 h2 => exact ⟨h1, h2⟩

theorem Key.generic_other {k : Key} (h : k.val ≠ .str) : k.generic = .other k.val := by rw [Key.generic, if_neg h]

theorem Key.generic_eq_text {k : Key} {s : Str} (h : k.generic = .text s) : k = textKey s := by
  unfold Key.generic at h
  split at h
  · rename_i hv
    obtain ⟨t, v⟩ := k
    cases h; cases hv; rfl
  · cases h

theorem pairwise_unique {k : Key} {v w : KYaml} : ∀ {kvs : List (Key × KYaml)}, kvs.Pairwise (fun a b => ¬ SameKey a.1 b.1) → (k, v) ∈ kvs → (k, w) ∈ kvs → v = w
  | x :: xs, hp, h1, h2 => by
    obtain ⟨hx, hp⟩ := List.pairwise_cons.1 hp
    rcases List.mem_cons.1 h1 with e1 | e1 <;> rcases List.mem_cons.1 h2 with e2 | e2
    · subst e1; cases e2; rfl
    · subst e1; exact absurd ⟨rfl, fun _ => rfl⟩ (hx _ e2)
    · subst e2; exact absurd ⟨rfl, fun _ => rfl⟩ (hx _ e1)
    · exact pairwise_unique hp e1 e2

theorem misplaced_stuck {y : KYaml} (h : Misplaced y) : NoRepeats y → ∀ c, Stuck (y.generic env.toExt c) := by
  induction h with
  | @here kvs k v h hk =>
    intro hn c
    obtain ⟨hp, -⟩ := noRepeats_map hn
    rw [KYaml.generic, genericEntriesK_eq hp (by simp), List.nil_append]
    refine .here (k := k.val) (v := v.generic env.toExt (c.belowG k.generic)) (List.mem_map.2 ⟨(k, v), h, ?_⟩)
    rw [Key.generic_other hk]
  | @element l y h hy ih =>
    intro hn c
    rw [KYaml.generic]
    refine .element (genericListK_mem h) (ih ?_ _)
    cases hn with | seq hn => exact hn y h
  | @under kvs k v hc h hv ih =>
    intro hn c
    obtain ⟨hp, hs⟩ := noRepeats_map hn
    rw [KYaml.generic, genericEntriesK_eq hp (by simp), List.nil_append]
    refine .under ?_ (List.mem_map.2 ⟨_, h, rfl⟩) (ih (hs _ h) _)
    intro x hx
    obtain ⟨⟨k', v'⟩, hz, rfl⟩ := List.mem_map.1 hx
    constructor
    · intro e; cases Key.generic_eq_text e; exact (hc v').1 hz
    · intro e; cases Key.generic_eq_text e; exact (hc v').2 hz
  | @returned kvs rs k v h hr hk =>
    intro hn c
    obtain ⟨hp, hs⟩ := noRepeats_map hn
    rw [KYaml.generic, genericEntriesK_eq hp (by simp), List.nil_append]
    have hkey : (textKey gs"returnValueJsonpath").generic = .text gs"returnValueJsonpath" := rfl
    have hr' := noRepeats_map (hs _ h)
    refine .returned (k := k.val) (v := v.generic env.toExt ((c.belowG (.text gs"returnValueJsonpath")).belowG k.generic)) (rs := rs.map fun x => (x.1.generic, x.2.generic env.toExt ((c.belowG (.text gs"returnValueJsonpath")).belowG x.1.generic)))
      (List.mem_map.2 ⟨_, h, ?_⟩) ?_ (List.mem_map.2 ⟨_, hr, by rw [Key.generic_other hk]⟩)
    · rw [hkey, KYaml.generic, genericEntriesK_eq hr'.1 (by simp), List.nil_append]
    · intro w hw
      obtain ⟨⟨k', v'⟩, hz, e⟩ := List.mem_map.1 hw
      simp only [Prod.mk.injEq] at e
      obtain ⟨e1, rfl⟩ := e
      cases Key.generic_eq_text e1
      have : v' = .map rs := pairwise_unique hp hz h
      subst this
      rw [hkey, KYaml.generic, genericEntriesK_eq hr'.1 (by simp), List.nil_append]

theorem decodeConditionsK_misplaced (ho : env.OrdOk) {c : KYaml} (h : Misplaced c) (hn : NoRepeats c) {p : List Nat} {old : Option Node} {r : Option Node × Bool} :
    decodeConditionsK env printed p old c ≠ .ok r := by
  intro e
  have hs := misplaced_stuck (env := env) h hn .plain
  cases c with
  | scalar t v => cases h
  | seq l =>
    rw [decodeConditionsK, Go.bind_eq_ok] at e
    obtain ⟨n, e, -⟩ := e
    exact interpretK_stuck ho hs _ _ _ e
  | map kvs =>
    rw [decodeConditionsK, Go.bind_eq_ok] at e
    obtain ⟨n, e, -⟩ := e
    exact interpretK_stuck ho hs _ _ _ e

theorem names_name {k : Key} {s : Str} (h : Names k s) : k.name = s := by rw [Key.name, if_neg h.1, h.2]
theorem name_names {k : Key} {s : Str} (hs : s ≠ []) (h : k.name = s) : Names k s := Key.name_eq hs h

theorem decodeRuleEntriesK_conditions {p : List Nat} {k : Key} {c : KYaml} (hk : k.name = gs"conditions") : ∀ {kvs : List (Key × KYaml)} {r : Rule} {x : Rule × Bool},
    decodeRuleEntriesK env printed p r kvs = .ok x → (k, c) ∈ kvs → ∃ old z, decodeConditionsK env printed p old c = .ok z
  | (k', y) :: rest, r, x, h, hm => by
    rw [decodeRuleEntriesK] at h
    split at h
    · rw [Go.bind_eq_ok] at h
      obtain ⟨z, h1, h⟩ := h
      rw [Go.bind_eq_ok] at h
      obtain ⟨b, h2, -⟩ := h
      rcases List.mem_cons.1 hm with hm | hm
      · cases hm; exact ⟨_, z, h1⟩
      · exact decodeRuleEntriesK_conditions hk h2 hm
    · rename_i hk'
      rw [Go.bind_eq_ok] at h
      obtain ⟨b, h2, -⟩ := h
      rcases List.mem_cons.1 hm with hm | hm
      · cases hm; exact absurd hk hk'
      · exact decodeRuleEntriesK_conditions hk h2 hm

theorem decodeRuleListK_each {p : List Nat} {y : KYaml} : ∀ {l : List KYaml} {i : Nat} {x : List Rule × Bool}, decodeRuleListK env printed p i l = .ok x → y ∈ l →
    ∃ j z, decodeRuleK env printed (j :: p) y = .ok z
  | z :: zs, i, x, h, hm => by
    rw [decodeRuleListK, Go.bind_eq_ok] at h
    obtain ⟨a, h1, h⟩ := h
    rw [Go.bind_eq_ok] at h
    obtain ⟨b, h2, -⟩ := h
    rcases List.mem_cons.1 hm with rfl | hm
    · exact ⟨i, a, h1⟩
    · exact decodeRuleListK_each h2 hm

theorem decodeRulesEntriesK_each {k : Key} {l : List KYaml} (hk : k.name = gs"rules") : ∀ {kvs : List (Key × KYaml)} {j : Nat} {old : List Rule} {x : List Rule × Bool},
    decodeRulesEntriesK env printed j old kvs = .ok x → (k, .seq l) ∈ kvs → ∃ j z, decodeRuleListK env printed [j] 0 l = .ok z
  | (k', y) :: rest, j, old, x, h, hm => by
    rw [decodeRulesEntriesK] at h
    split at h
    · rw [Go.bind_eq_ok] at h
      obtain ⟨z, h1, h⟩ := h
      rw [Go.bind_eq_ok] at h
      obtain ⟨b, h2, -⟩ := h
      rcases List.mem_cons.1 hm with hm | hm
      · cases hm; exact ⟨_, z, h1⟩
      · exact decodeRulesEntriesK_each hk h2 hm
    · rename_i hk'
      rcases List.mem_cons.1 hm with hm | hm
      · cases hm; exact absurd hk hk'
      · exact decodeRulesEntriesK_each hk h hm

theorem readRulesK_misplaced (ho : env.OrdOk) {y c : KYaml} (hc : ConditionsOf y c) (h : Misplaced c) (hn : NoRepeats c) (rs : List Rule) :
    readRulesK env printed y ≠ .ok (rs, none) := by
  intro e
  obtain ⟨kvs, k, l, rule, k', rfl, hk, hl, hr, hk', hc⟩ := hc
  unfold readRulesK at e
  split at e
  · rename_i rs' hd
    obtain ⟨j, z, h1⟩ := decodeRulesEntriesK_each (names_name hk) hd hl
    obtain ⟨i, z, h2⟩ := decodeRuleListK_each h1 hr
    obtain ⟨old, z, h3⟩ := decodeRuleEntriesK_conditions (names_name hk') h2 hc
    exact decodeConditionsK_misplaced ho h hn h3
  · cases e
  · cases e
  · cases e

/-! ## Crashes -/

theorem genericEntriesK_other {c : Place} {k : Scalar} : ∀ {kvs : List (Key × KYaml)} {acc : List (GKey × KJson)},
    (∃ v, (GKey.other k, v) ∈ acc) ∨ (∃ x ∈ kvs, x.1.generic = .other k) → ∃ v, (GKey.other k, v) ∈ genericEntriesK env.toExt c acc kvs
  | [], acc, h => by
    rcases h with h | ⟨x, hx, -⟩
    · exact h
    · cases hx
  | (k', y) :: rest, acc, h => by
    have set : ∀ (g : GKey) (v : KJson) (acc : List (GKey × KJson)), (∃ v, (GKey.other k, v) ∈ acc) ∨ g = .other k → ∃ w, (GKey.other k, w) ∈ setGKey g v acc := by
      intro g v acc
      induction acc with
      | nil =>
        rintro (⟨v, hv⟩ | rfl)
        · cases hv
        · exact ⟨v, List.mem_cons_self⟩
      | cons x xs ih =>
        obtain ⟨g', v'⟩ := x
        intro h
        rw [setGKey]
        by_cases e : g = g'
        · subst e
          rw [if_pos rfl]
          rcases h with ⟨w, hw⟩ | rfl
          · rcases List.mem_cons.1 hw with hw | hw
            · cases hw; exact ⟨v, List.mem_cons_self⟩
            · exact ⟨w, List.mem_cons_of_mem _ hw⟩
          · exact ⟨v, List.mem_cons_self⟩
        · rw [if_neg e]
          rcases h with ⟨w, hw⟩ | rfl
          · rcases List.mem_cons.1 hw with hw | hw
            · cases hw; exact ⟨_, List.mem_cons_self⟩
            · obtain ⟨u, hu⟩ := ih (.inl ⟨w, hw⟩); exact ⟨u, List.mem_cons_of_mem _ hu⟩
          · obtain ⟨u, hu⟩ := ih (.inr rfl); exact ⟨u, List.mem_cons_of_mem _ hu⟩
    rw [genericEntriesK]
    refine genericEntriesK_other ?_
    rcases h with h | ⟨x, hx, e⟩
    · exact .inl (set _ _ _ (.inl h))
    · rcases List.mem_cons.1 hx with rfl | hx
      · exact .inl (set _ _ _ (.inr e))
      · exact .inr ⟨x, hx, e⟩

theorem decodeConditionsK_crash {kvs : List (Key × KYaml)} {k : Key} {v : KYaml} (h : (k, v) ∈ kvs) (hk : k.val ≠ .str) {p : List Nat} {old : Option Node} :
    decodeConditionsK env printed p old (.map kvs) = .error (.panic .typeAssertion) := by
  obtain ⟨w, hw⟩ := genericEntriesK_other (env := env) (c := .plain) (k := k.val) (kvs := kvs) (acc := []) (.inr ⟨_, h, Key.generic_other hk⟩)
  rw [decodeConditionsK, KYaml.generic, interpretK, textEntries_other (kidsK_other hw)]
  rfl

theorem decodeRuleEntriesK_crash {p : List Nat} {k : Key} {c : KYaml} (hk : k.name = gs"conditions") {x : Panic}
    (hc : ∀ old, decodeConditionsK env printed p old c = .error (.panic x)) : ∀ {kvs kvs' : List (Key × KYaml)} {r : Rule}, (∀ z ∈ kvs, z.1.name ≠ gs"conditions") →
    decodeRuleEntriesK env printed p r (kvs ++ (k, c) :: kvs') = .error (.panic x)
  | [], kvs', r, _ => by rw [List.nil_append, decodeRuleEntriesK, if_pos hk, hc]; rfl
  | (k', y) :: rest, kvs', r, h => by
    rw [List.cons_append, decodeRuleEntriesK, if_neg (h _ List.mem_cons_self)]
    dsimp only
    rw [decodeRuleEntriesK_crash hk hc fun z hz => h z (List.mem_cons_of_mem _ hz)]
    rfl

theorem decodeRuleListK_crash {p : List Nat} {y : KYaml} {x : Panic} (hy : ∀ i, decodeRuleK env printed (i :: p) y = .error (.panic x)) :
    ∀ {a b : List KYaml} {i : Nat} {z : List Rule × Bool}, decodeRuleListK env printed p i a = .ok z → decodeRuleListK env printed p i (a ++ y :: b) = .error (.panic x)
  | [], b, i, z, _ => by rw [List.nil_append, decodeRuleListK, hy]; rfl
  | w :: ws, b, i, z, h => by
    rw [decodeRuleListK, Go.bind_eq_ok] at h
    obtain ⟨u, h1, h⟩ := h
    rw [Go.bind_eq_ok] at h
    obtain ⟨t, h2, -⟩ := h
    rw [List.cons_append, decodeRuleListK, h1, Go.ok_bind, decodeRuleListK_crash hy h2]
    rfl

theorem testYamlK_entries : ∀ {kvs : List (Key × KYaml)}, testYamlEntriesK kvs = true ↔ ∀ x ∈ kvs, testYamlK x.2 = true
  | [] => by simp [testYamlEntriesK]
  | (k, y) :: rest => by rw [testYamlEntriesK, Bool.and_eq_true, testYamlK_entries]; simp

theorem testYamlK_list : ∀ {l : List KYaml}, testYamlListK l = true ↔ ∀ x ∈ l, testYamlK x = true
  | [] => by simp [testYamlListK]
  | y :: ys => by rw [testYamlListK, Bool.and_eq_true, testYamlK_list]; simp

theorem testYamlK_nodup {kvs : List (Key × KYaml)} : (kvs.map (·.1.generic)).Nodup ↔ kvs.Pairwise fun a b => ¬ SameKey a.1 b.1 := by
  rw [List.Nodup, List.pairwise_map]
  exact ⟨fun h => h.imp fun hab e => hab (sameKey_generic.2 e), fun h => h.imp fun hab e => hab (sameKey_generic.1 e)⟩

theorem testYamlK_sound : ∀ (y : KYaml), testYamlK y = true → NoRepeats y
  | .scalar t v, _ => .scalar t v
  | .seq l, h => by
    rw [testYamlK, testYamlK_list] at h
    exact .seq fun y hy => testYamlK_sound y (h y hy)
  | .map kvs, h => by
    rw [testYamlK, Bool.and_eq_true, decide_eq_true_iff, testYamlK_nodup, testYamlK_entries] at h
    exact .map h.1 fun x hx => testYamlK_sound x.2 (h.2 x hx)
termination_by y => sizeOf y
decreasing_by
  · have := List.sizeOf_lt_of_mem hy; simp; omega
  · have := List.sizeOf_lt_of_mem hx
    obtain ⟨k, v⟩ := x
    simp at this ⊢; omega

theorem testYamlK_iff (y : KYaml) : testYamlK y = true ↔ NoRepeats y := by
  refine ⟨testYamlK_sound y, fun h => ?_⟩
  induction h with
  | scalar t v => rfl
  | seq h ih => rw [testYamlK, testYamlK_list]; exact ih
  | map hk h ih => rw [testYamlK, Bool.and_eq_true, decide_eq_true_iff, testYamlK_nodup, testYamlK_entries]; exact ⟨hk, ih⟩

end Mapl

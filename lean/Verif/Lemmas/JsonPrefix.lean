import Verif.Lemmas.JsonText

/-!
# JSON values in front of other text

What the decoder of JSON reads from a text, it reads from every longer text as well.
-/

namespace Mapl

variable {env : Ext}

/-- Nothing but white space is skipped. -/
theorem skipWs_append : ∀ {s : Str} {c : Char} {cs : Str}, skipWs s = c :: cs → ∃ u, s = u ++ c :: cs ∧ ∀ t, skipWs (s ++ t) = c :: cs ++ t
  | [], c, cs, h => by simp [skipWs] at h
  | a :: s, c, cs, h => by
    unfold skipWs at h
    by_cases hw : isJsonWs a = true
    · rw [if_pos hw] at h
      obtain ⟨u, e, hu⟩ := skipWs_append h
      refine ⟨a :: u, by simp [e], fun t => ?_⟩
      rw [List.cons_append, skipWs, if_pos hw, hu]
    · rw [if_neg hw] at h
      cases h
      refine ⟨[], rfl, fun t => ?_⟩
      rw [List.cons_append, skipWs, if_neg hw]

theorem strTail_append (hi : Option Nat) (s : Str) : ∀ {x r : Str}, parseStrTail hi s = some (x, r) →
    (∃ c u, s = (c :: u) ++ r) ∧ ∀ t, parseStrTail hi (s ++ t) = some (x, r ++ t) := by
  fun_induction parseStrTail hi s with
  | case1 => intro x r h; cases h
  | case2 => intro x r h; cases h
  | case3 a b c d cs n hn h hlt ih =>
    intro x r e
    simp only [Option.map_eq_some_iff] at e
    obtain ⟨y, hy, e⟩ := e
    cases e
    obtain ⟨⟨c', u, hu⟩, h2⟩ := ih (x := y.1) (r := y.2) hy
    refine ⟨⟨'\\', 'u' :: a :: b :: c :: d :: c' :: u, by simp [hu]⟩, fun t => ?_⟩
    simp only [List.cons_append]
    rw [parseStrTail]
    simp only [hn, hlt, and_self, if_true, h2 t, Option.map_some]
  | case4 a b c d cs n hn h hlt hlt' ih =>
    intro x r e
    simp only [Option.map_eq_some_iff] at e
    obtain ⟨y, hy, e⟩ := e
    cases e
    obtain ⟨⟨c', u, hu⟩, h2⟩ := ih (x := y.1) (r := y.2) hy
    refine ⟨⟨'\\', 'u' :: a :: b :: c :: d :: c' :: u, by simp [hu]⟩, fun t => ?_⟩
    simp only [List.cons_append]
    rw [parseStrTail]
    simp only [hn]
    rw [if_neg hlt, if_pos hlt', h2 t]; rfl
  | case5 a b c d cs n hn h hlt hlt' ih =>
    intro x r e
    simp only [Option.map_eq_some_iff] at e
    obtain ⟨y, hy, e⟩ := e
    cases e
    obtain ⟨⟨c', u, hu⟩, h2⟩ := ih (x := y.1) (r := y.2) hy
    refine ⟨⟨'\\', 'u' :: a :: b :: c :: d :: c' :: u, by simp [hu]⟩, fun t => ?_⟩
    simp only [List.cons_append]
    rw [parseStrTail]
    simp only [hn]
    rw [if_neg hlt, if_neg hlt', h2 t]; rfl
  | case6 a b c d cs n hn hlt ih =>
    intro x r e
    obtain ⟨⟨c', u, hu⟩, h2⟩ := ih e
    refine ⟨⟨'\\', 'u' :: a :: b :: c :: d :: c' :: u, by simp [hu]⟩, fun t => ?_⟩
    simp only [List.cons_append]
    rw [parseStrTail]
    simp only [hn]
    rw [if_pos hlt, h2 t]
  | case7 a b c d cs n hn hlt ih =>
    intro x r e
    simp only [Option.map_eq_some_iff] at e
    obtain ⟨y, hy, e⟩ := e
    cases e
    obtain ⟨⟨c', u, hu⟩, h2⟩ := ih (x := y.1) (r := y.2) hy
    refine ⟨⟨'\\', 'u' :: a :: b :: c :: d :: c' :: u, by simp [hu]⟩, fun t => ?_⟩
    simp only [List.cons_append]
    rw [parseStrTail]
    simp only [hn]
    rw [if_neg hlt, h2 t]; rfl
  | case8 => intro x r h; cases h
  | case9 hi e cs hno ch he ih =>
    intro x r e'
    simp only [Option.map_eq_some_iff] at e'
    obtain ⟨y, hy, e'⟩ := e'
    cases e'
    obtain ⟨⟨c', u, hu⟩, h2⟩ := ih (x := y.1) (r := y.2) hy
    refine ⟨⟨'\\', e :: c' :: u, by simp [hu]⟩, fun t => ?_⟩
    have hu' : e ≠ 'u' := by rintro rfl; simp [simpleEscape] at he
    simp only [List.cons_append]
    rw [parseStrTail]
    · simp only [he, h2 t, Option.map_some]
    · intro a b c d cs' h; exact absurd h hu'
  | case10 hi cs =>
    intro x r e
    cases e
    refine ⟨⟨'"', [], rfl⟩, fun t => ?_⟩
    rw [List.cons_append, parseStrTail.eq_def]
    split
    · next h => cases h
    · next h => exact absurd (List.cons.inj h).1 (by decide)
    · next h => exact absurd (List.cons.inj h).1 (by decide)
    · next h => cases h; rfl
  | case11 => intro x r h; cases h
  | case12 => intro x r h; cases h
  | case13 hi c cs h1 h2 hq hb hc ih =>
    intro x r e
    simp only [Option.map_eq_some_iff] at e
    obtain ⟨y, hy, e⟩ := e
    cases e
    obtain ⟨⟨c', u, hu⟩, h3⟩ := ih (x := y.1) (r := y.2) hy
    refine ⟨⟨c, c' :: u, by simp [hu]⟩, fun t => ?_⟩
    rw [List.cons_append, parseStrTail.eq_def]
    split
    · next h => cases h
    · next h => exact absurd (List.cons.inj h).1 hb
    · next h => exact absurd (List.cons.inj h).1 hb
    · next h =>
      cases h
      rw [if_neg hq, if_neg hb, if_neg hc, h3 t]; rfl

theorem takeWhile_append {α : Type} {p : α → Bool} : ∀ {s : List α}, s.dropWhile p ≠ [] → ∀ t,
    (s ++ t).takeWhile p = s.takeWhile p ∧ (s ++ t).dropWhile p = s.dropWhile p ++ t
  | [], h, _ => absurd rfl h
  | a :: s, h, t => by
    cases ha : p a with
    | true =>
      rw [List.dropWhile_cons_of_pos ha] at h
      obtain ⟨h1, h2⟩ := takeWhile_append h t
      simp [ha, h1, h2]
    | false => simp [ha]

/-- What is known of a successful run of one of the three parsers on `s` that leaves `r`. -/
def Consumes {α : Type} (P : Nat → Str → Option (α × Str)) (free : Prop) (s : Str) (j : α) (r : Str) : Prop :=
  ∃ c u, s = (c :: u) ++ r ∧ ∀ t f, u.length < f → (r ≠ [] ∨ t = [] ∨ free) → P f (s ++ t) = some (j, r ++ t)

theorem parse_append : ∀ f,
    (∀ s j r, parseValue env f s = some (j, r) → Consumes (parseValue env) (∀ x, j ≠ .num x) s j r) ∧
    (∀ acc s j r, parseMembers env f acc s = some (j, r) → Consumes (fun f => parseMembers env f acc) True s j r) ∧
    (∀ s j r, parseElems env f s = some (j, r) → Consumes (parseElems env) True s j r) := by
  intro f
  induction f with
  | zero => exact ⟨fun s j r h => by simp [parseValue] at h, fun acc s j r h => by simp [parseMembers] at h, fun s j r h => by simp [parseElems] at h⟩
  | succ f ih =>
    obtain ⟨ihv, ihm, ihe⟩ := ih
    refine ⟨?_, ?_, ?_⟩
    · intro s j r h
      unfold parseValue at h
      split at h
      · cases h
      · next c cs hs =>
        obtain ⟨u, rfl, hu⟩ := skipWs_append hs
        -- the rest of a value that does not depend on the bound
        have lit : ∀ {v : Json} {w : Str}, cs = w ++ r → (∀ t f, parseValue env (f + 1) (u ++ c :: cs ++ t) = some (v, r ++ t)) → j = v →
            Consumes (parseValue env) (∀ x, j ≠ .num x) (u ++ c :: cs) j r := by
          rintro v w rfl hp rfl
          have : ∃ c' u', u ++ c :: (w ++ r) = (c' :: u') ++ r := by
            cases u with
            | nil => exact ⟨c, w, by simp⟩
            | cons a u => exact ⟨a, u ++ c :: w, by simp⟩
          obtain ⟨c', u', e⟩ := this
          refine ⟨c', u', e, fun t f hf _ => ?_⟩
          cases f with
          | zero => simp at hf
          | succ f => exact hp t f
        split at h
        · -- object
          next hc =>
          subst hc
          split at h
          · next r' hr =>
            cases h
            obtain ⟨w, rfl, hw⟩ := skipWs_append hr
            refine lit (w := w ++ gs"}") (v := .obj []) (by simp) (fun t f => ?_) rfl
            rw [parseValue, hu t]
            simp only [if_true, List.cons_append]
            rw [hw t]; rfl
          · next hno =>
            simp only [Option.map_eq_some_iff] at h
            obtain ⟨y, hy, e⟩ := h
            cases e
            generalize hsk : skipWs cs = cs' at hy hno
            cases cs' with
            | nil =>
              obtain ⟨c', u', e, -⟩ := ihm _ _ y.1 y.2 hy
              simp at e
            | cons b bs =>
            obtain ⟨w, rfl, hw⟩ := skipWs_append hsk
            obtain ⟨c', u', e, hp⟩ := ihm _ _ y.1 y.2 hy
            have : ∃ c'' u'', u ++ '{' :: (w ++ b :: bs) = (c'' :: u'') ++ y.2 ∧ u'.length + 1 ≤ u''.length := by
              rw [e]
              cases u with
              | nil => exact ⟨'{', w ++ c' :: u', by simp, by simp⟩
              | cons a u => exact ⟨a, u ++ '{' :: (w ++ c' :: u'), by simp, by simp; omega⟩
            obtain ⟨c'', u'', e'', hlen⟩ := this
            refine ⟨c'', u'', e'', fun t g hg hfree => ?_⟩
            cases g with
            | zero => simp at hg
            | succ g =>
              rw [parseValue, hu t]
              simp only [if_true, List.cons_append]
              rw [hw t]
              have hb : b ≠ '}' := fun hb => hno bs (by rw [hb])
              have : parseMembers env g [] (b :: bs ++ t) = some (y.1, y.2 ++ t) := hp t g (by omega) (.inr (.inr trivial))
              split
              · next h => exact absurd (List.cons.inj h).1 hb
              · rw [this]; rfl
        · next hc1 =>
          split at h
          · -- array
            next hc =>
            subst hc
            split at h
            · next r' hr =>
              cases h
              obtain ⟨w, rfl, hw⟩ := skipWs_append hr
              refine lit (w := w ++ gs"]") (v := .arr []) (by simp) (fun t f => ?_) rfl
              rw [parseValue, hu t]
              simp only [if_true, List.cons_append, Char.reduceEq, if_false]
              rw [hw t]; rfl
            · next hno =>
              simp only [Option.map_eq_some_iff] at h
              obtain ⟨y, hy, e⟩ := h
              cases e
              generalize hsk : skipWs cs = cs' at hy hno
              cases cs' with
              | nil =>
                obtain ⟨c', u', e, -⟩ := ihe _ y.1 y.2 hy
                simp at e
              | cons b bs =>
              obtain ⟨w, rfl, hw⟩ := skipWs_append hsk
              obtain ⟨c', u', e, hp⟩ := ihe _ y.1 y.2 hy
              have : ∃ c'' u'', u ++ '[' :: (w ++ b :: bs) = (c'' :: u'') ++ y.2 ∧ u'.length + 1 ≤ u''.length := by
                rw [e]
                cases u with
                | nil => exact ⟨'[', w ++ c' :: u', by simp, by simp⟩
                | cons a u => exact ⟨a, u ++ '[' :: (w ++ c' :: u'), by simp, by simp; omega⟩
              obtain ⟨c'', u'', e'', hlen⟩ := this
              refine ⟨c'', u'', e'', fun t g hg hfree => ?_⟩
              cases g with
              | zero => simp at hg
              | succ g =>
                rw [parseValue, hu t]
                simp only [if_true, List.cons_append, Char.reduceEq, if_false]
                rw [hw t]
                have hb : b ≠ ']' := fun hb => hno bs (by rw [hb])
                have := hp t g (by omega) (.inr (.inr trivial))
                split
                · next h => exact absurd (List.cons.inj h).1 hb
                · rw [this]; rfl
          · next hc2 =>
            split at h
            · next hc =>
              subst hc
              simp only [Option.map_eq_some_iff] at h
              obtain ⟨y, hy, e⟩ := h
              cases e
              obtain ⟨⟨c', u', e⟩, hp⟩ := strTail_append _ _ (x := y.1) (r := y.2) hy
              refine lit (w := c' :: u') (v := .str y.1) e (fun t f => ?_) rfl
              rw [parseValue, hu t]
              simp only [if_true, List.cons_append, Char.reduceEq, if_false]
              rw [hp t]; rfl
            · next hc3 =>
              split at h
              · next hc =>
                subst hc
                split at h
                · cases h
                  refine lit (w := gs"rue") (v := .bool true) rfl (fun t f => ?_) rfl
                  rw [parseValue, hu t]
                  simp only [if_true, List.cons_append, Char.reduceEq, if_false]
                · cases h
              · next hc4 =>
                split at h
                · next hc =>
                  subst hc
                  split at h
                  · cases h
                    refine lit (w := gs"alse") (v := .bool false) rfl (fun t f => ?_) rfl
                    rw [parseValue, hu t]
                    simp only [if_true, List.cons_append, Char.reduceEq, if_false]
                  · cases h
                · next hc5 =>
                  split at h
                  · next hc =>
                    subst hc
                    split at h
                    · cases h
                      refine lit (w := gs"ull") (v := .null) rfl (fun t f => ?_) rfl
                      rw [parseValue, hu t]
                      simp only [if_true, List.cons_append, Char.reduceEq, if_false]
                    · cases h
                  · next hc6 =>
                    simp only at h
                    split at h
                    · next hnum =>
                      simp only [Option.map_eq_some_iff] at h
                      obtain ⟨x, hx, e⟩ := h
                      cases e
                      have hsplit := List.takeWhile_append_dropWhile (p := isNumChar) (l := c :: cs)
                      have hne : (c :: cs).takeWhile isNumChar ≠ [] := by
                        intro h0; rw [h0] at hnum; exact absurd hnum (by decide)
                      have : ∃ c' u', u ++ c :: cs = (c' :: u') ++ (c :: cs).dropWhile isNumChar := by
                        cases u with
                        | nil =>
                          cases ht : (c :: cs).takeWhile isNumChar with
                          | nil => exact absurd ht hne
                          | cons a l => exact ⟨a, l, by rw [← ht, hsplit]; rfl⟩
                        | cons a u => exact ⟨a, u ++ (c :: cs).takeWhile isNumChar, by rw [List.cons_append, List.cons_append, List.append_assoc, hsplit]⟩
                      obtain ⟨c', u', e⟩ := this
                      refine ⟨c', u', e, fun t g hg hfree => ?_⟩
                      cases g with
                      | zero => simp at hg
                      | succ g =>
                        rw [parseValue, hu t]
                        simp only [List.cons_append]
                        rw [if_neg hc1, if_neg hc2, if_neg hc3, if_neg hc4, if_neg hc5, if_neg hc6]
                        have : ((c :: cs) ++ t).takeWhile isNumChar = (c :: cs).takeWhile isNumChar ∧
                            ((c :: cs) ++ t).dropWhile isNumChar = (c :: cs).dropWhile isNumChar ++ t := by
                          rcases hfree with h | rfl | h
                          · exact takeWhile_append h t
                          · simp
                          · exact absurd rfl (h x)
                        rw [List.cons_append] at this
                        rw [this.1, this.2, if_pos hnum, hx]; rfl
                    · cases h
    · intro acc s j r h
      unfold parseMembers at h
      split at h
      · next cs hs =>
        obtain ⟨u, rfl, hu⟩ := skipWs_append hs
        split at h
        · cases h
        · next k r1 hk =>
          obtain ⟨⟨c1, u1, e1⟩, h1⟩ := strTail_append _ _ hk
          split at h
          · next r2 hr2 =>
            obtain ⟨u2, e2, h2⟩ := skipWs_append hr2
            split at h
            · cases h
            · next v r3 hv =>
              obtain ⟨c3, u3, e3, h3⟩ := ihv _ _ _ hv
              split at h
              · next r4 hr4 =>
                obtain ⟨u4, e4, h4⟩ := skipWs_append hr4
                obtain ⟨c5, u5, e5, h5⟩ := ihm _ _ _ _ h
                have : ∃ c' u', u ++ '"' :: cs = (c' :: u') ++ r ∧ u3.length + 1 ≤ u'.length ∧ u5.length + 1 ≤ u'.length := by
                  rw [e1, e2, e3, e4, e5]
                  cases u with
                  | nil => exact ⟨'"', c1 :: u1 ++ u2 ++ ':' :: c3 :: u3 ++ u4 ++ ',' :: c5 :: u5, by simp, by simp; omega, by simp; omega⟩
                  | cons a u => exact ⟨a, u ++ '"' :: (c1 :: u1 ++ u2 ++ ':' :: c3 :: u3 ++ u4 ++ ',' :: c5 :: u5), by simp, by simp; omega, by simp; omega⟩
                obtain ⟨c', u', e, l1, l2⟩ := this
                refine ⟨c', u', e, fun t g hg _ => ?_⟩
                cases g with
                | zero => simp at hg
                | succ g =>
                  have hr3 : r3 ≠ [] := by rw [e4]; simp
                  simp only
                  rw [parseMembers, hu t]
                  simp only [List.cons_append]
                  rw [h1 t]
                  simp only
                  rw [h2 t]
                  simp only [List.cons_append]
                  rw [h3 t g (by omega) (.inl hr3)]
                  simp only
                  rw [h4 t]
                  simp only [List.cons_append]
                  exact h5 t g (by omega) (.inr (.inr trivial))
              · next r4 hr4 =>
                cases h
                obtain ⟨u4, e4, h4⟩ := skipWs_append hr4
                have : ∃ c' u', u ++ '"' :: cs = (c' :: u') ++ r ∧ u3.length + 1 ≤ u'.length := by
                  rw [e1, e2, e3, e4]
                  cases u with
                  | nil => exact ⟨'"', c1 :: u1 ++ u2 ++ ':' :: c3 :: u3 ++ u4 ++ gs"}", by simp, by simp; omega⟩
                  | cons a u => exact ⟨a, u ++ '"' :: (c1 :: u1 ++ u2 ++ ':' :: c3 :: u3 ++ u4 ++ gs"}"), by simp, by simp; omega⟩
                obtain ⟨c', u', e, l1⟩ := this
                refine ⟨c', u', e, fun t g hg _ => ?_⟩
                cases g with
                | zero => simp at hg
                | succ g =>
                  have hr3 : r3 ≠ [] := by rw [e4]; simp
                  simp only
                  rw [parseMembers, hu t]
                  simp only [List.cons_append]
                  rw [h1 t]
                  simp only
                  rw [h2 t]
                  simp only [List.cons_append]
                  rw [h3 t g (by omega) (.inl hr3)]
                  simp only
                  rw [h4 t]
                  rfl
              · cases h
          · cases h
      · cases h
    · intro s j r h
      unfold parseElems at h
      split at h
      · cases h
      · next v r1 hv =>
        obtain ⟨c1, u1, e1, h1⟩ := ihv _ _ _ hv
        split at h
        · next r2 hr2 =>
          obtain ⟨u2, e2, h2⟩ := skipWs_append hr2
          simp only [Option.map_eq_some_iff] at h
          obtain ⟨y, hy, e⟩ := h
          cases e
          obtain ⟨c3, u3, e3, h3⟩ := ihe _ y.1 y.2 hy
          have hr1 : r1 ≠ [] := by rw [e2]; simp
          refine ⟨c1, u1 ++ u2 ++ ',' :: c3 :: u3, by rw [e1, e2, e3]; simp, fun t g hg _ => ?_⟩
          cases g with
          | zero => simp at hg
          | succ g =>
            simp at hg
            rw [parseElems, h1 t g (by omega) (.inl hr1)]
            simp only
            rw [h2 t]
            simp only [List.cons_append]
            rw [h3 t g (by omega) (.inr (.inr trivial))]; rfl
        · next r2 hr2 =>
          cases h
          obtain ⟨u2, e2, h2⟩ := skipWs_append hr2
          have hr1 : r1 ≠ [] := by rw [e2]; simp
          refine ⟨c1, u1 ++ u2 ++ gs"]", by rw [e1, e2]; simp, fun t g hg _ => ?_⟩
          cases g with
          | zero => simp at hg
          | succ g =>
            simp at hg
            rw [parseElems, h1 t g (by omega) (.inl hr1)]
            simp only
            rw [h2 t]
            rfl
        · cases h

theorem skipWs_end {r : Str} (h : skipWs r = []) : ∀ c ∈ r, isJsonWs c = true := by
  induction r with
  | nil => simp
  | cons a r ih =>
    unfold skipWs at h
    by_cases hw : isJsonWs a = true
    · rw [if_pos hw] at h
      intro c hc
      rcases List.mem_cons.1 hc with rfl | hc
      · exact hw
      · exact ih h c hc
    · rw [if_neg hw] at h; cases h

/-- A text that starts with an opening brace, ends with a closing one and is read as a value is read as that value in front of anything. -/
theorem valueText_of_parse {s : Str} {j : Json} (h : jsonScan env (gs"{" ++ s ++ gs"}") = some j) : ValueText env (gs"{" ++ s ++ gs"}") j := by
  unfold jsonScan at h
  split at h
  · next j' r hp =>
    split at h
    · next hr =>
      cases h
      have hnum : ∀ x, j ≠ .num x := by
        rintro x rfl
        simp only [List.cons_append, List.nil_append] at hp
        rw [show 2 * ('{' :: (s ++ gs"}")).length + 2 = (2 * ('{' :: (s ++ gs"}")).length + 1) + 1 from rfl, parseValue, skipWs_cons (by decide)] at hp
        simp only [if_true] at hp
        split at hp
        · cases hp
        · simp at hp
      obtain ⟨c, u, e, hall⟩ := (parse_append _).1 _ _ _ hp
      have hnil : r = [] := by
        rcases List.eq_nil_or_concat r with h0 | ⟨r', a, rfl⟩
        · exact h0
        · have ha := skipWs_end hr a (by simp)
          have : '}' = a := by
            have e' : ('{' :: s) ++ [ '}' ] = (c :: u ++ r') ++ [a] := by simpa using e
            exact (List.append_inj' e' rfl).2 |> fun h => (List.cons.inj h).1
          subst this
          exact absurd ha (by decide)
      subst hnil
      refine ⟨⟨'{', s ++ gs"}", by simp, by simp⟩, fun f t hf => ?_⟩
      have hl : u.length < f := by
        rw [e] at hf; simp at hf; omega
      exact hall t f hl (.inr (.inr hnum))
    · cases h
  · cases h

end Mapl

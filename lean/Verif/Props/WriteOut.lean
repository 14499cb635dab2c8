import Verif.Spec.WriteOut
import Verif.Props.Grow
import Verif.Props.Place

/-!
# C108: a reference may be replaced by the text it stands for

In full: replacing a reference `#name` in a rule by the string or list of that name, written out, changes no decision.
-/

namespace Mapl.Props

open Spec

variable {env : Env} {g t : Predef} {msg : Msg} {text : Str → Str → Str}

/-- The text stands for what the reference stands for. -/
theorem out_resolves (h : WritesOut env t text) {m v w : Str} : ValueResolves env t m (text m v) w ↔ ValueResolves env t m v w := by
  rcases h m v with e | ⟨h1, h2, -⟩
  · rw [e]
  · constructor
    · intro hw
      rw [resolves_unique hw (.plain h2)]
      exact h1
    · intro hw
      rw [resolves_unique hw h1]
      exact .plain h2

mutual
theorem out_meaning (h : WritesOut env t text) : ∀ (f : Statement) (msg : Msg), Meaning env t (f.withValues text) msg ↔ Meaning env t f msg
  | .cond a m v, msg => by simp only [Statement.withValues, Meaning, out_resolves h]
  | .and fs, msg => by simp only [Statement.withValues, Meaning]; exact out_all h fs msg
  | .or fs, msg => by simp only [Statement.withValues, Meaning]; exact out_some h fs msg
  | .not f, msg => by simp only [Statement.withValues, Meaning, out_meaning h f]
  | .any q f, msg => by simp only [Statement.withValues, Meaning, out_meaning h f]
  | .all q f, msg => by simp only [Statement.withValues, Meaning, out_meaning h f]

theorem out_all (h : WritesOut env t text) : ∀ (fs : List Statement) (msg : Msg), MeaningAll env t (Statement.allWithValues text fs) msg ↔ MeaningAll env t fs msg
  | [], _ => Iff.rfl
  | f :: fs, msg => by simp only [Statement.allWithValues, MeaningAll, out_meaning h f, out_all h fs]

theorem out_some (h : WritesOut env t text) : ∀ (fs : List Statement) (msg : Msg), MeaningSome env t (Statement.allWithValues text fs) msg ↔ MeaningSome env t fs msg
  | [], _ => Iff.rfl
  | f :: fs, msg => by simp only [Statement.allWithValues, MeaningSome, out_meaning h f, out_some h fs]
end

mutual
theorem out_defined (h : WritesOut env t text) : ∀ (f : Statement) (msg : Msg), Defined env t (f.withValues text) msg ↔ Defined env t f msg
  | .cond a m v, msg => by simp only [Statement.withValues, Defined, out_resolves h]
  | .and fs, msg => by simp only [Statement.withValues, Defined]; exact out_inTurn h fs msg
  | .or fs, msg => by simp only [Statement.withValues, Defined]; exact out_definedAll h fs msg
  | .not f, msg => by simp only [Statement.withValues, Defined, out_defined h f]
  | .any q f, msg => by simp only [Statement.withValues, Defined, out_defined h f]
  | .all q f, msg => by simp only [Statement.withValues, Defined, out_defined h f]

theorem out_inTurn (h : WritesOut env t text) : ∀ (fs : List Statement) (msg : Msg), DefinedInTurn env t (Statement.allWithValues text fs) msg ↔ DefinedInTurn env t fs msg
  | [], _ => Iff.rfl
  | f :: fs, msg => by simp only [Statement.allWithValues, DefinedInTurn, out_meaning h f, out_defined h f, out_inTurn h fs]

theorem out_definedAll (h : WritesOut env t text) : ∀ (fs : List Statement) (msg : Msg), DefinedAll env t (Statement.allWithValues text fs) msg ↔ DefinedAll env t fs msg
  | [], _ => Iff.rfl
  | f :: fs, msg => by simp only [Statement.allWithValues, DefinedAll, out_defined h f, out_definedAll h fs]
end

theorem out_ne {fs : List Statement} (h : fs ≠ []) : Statement.allWithValues text fs ≠ [] := by
  cases fs with
  | nil => exact absurd rfl h
  | cons f fs => simp [Statement.allWithValues]

mutual
theorem out_sound (h : WritesOut env t text) : ∀ f : Statement, Sound env t f → Sound env t (f.withValues text)
  | .cond a m v, hs => by
    simp only [Statement.withValues, Sound] at hs ⊢
    obtain ⟨h1, h2, h3, w, h4, h5, h6⟩ := hs
    rcases h m v with e | ⟨e1, e2, e3⟩
    · rw [e]; exact ⟨h1, h2, h3, w, h4, h5, h6⟩
    · obtain rfl := resolves_unique h4 e1
      exact ⟨h5, h2, e3, _, .plain e2, h5, h6⟩
  | .and fs, hs => by
    simp only [Statement.withValues, Sound] at hs ⊢
    exact ⟨out_ne hs.1, out_soundAll h fs hs.2⟩
  | .or fs, hs => by
    simp only [Statement.withValues, Sound] at hs ⊢
    exact ⟨out_ne hs.1, out_soundAll h fs hs.2⟩
  | .not f, hs => by
    simp only [Statement.withValues, Sound] at hs ⊢
    exact out_sound h f hs
  | .any q f, hs => by
    simp only [Statement.withValues, Sound] at hs ⊢
    exact ⟨hs.1, out_sound h f hs.2⟩
  | .all q f, hs => by
    simp only [Statement.withValues, Sound] at hs ⊢
    exact ⟨hs.1, out_sound h f hs.2⟩

theorem out_soundAll (h : WritesOut env t text) : ∀ fs : List Statement, SoundAll env t fs → SoundAll env t (Statement.allWithValues text fs)
  | [], _ => trivial
  | f :: fs, hs => by
    simp only [Statement.allWithValues, SoundAll] at hs ⊢
    exact ⟨out_sound h f hs.1, out_soundAll h fs hs.2⟩
end

theorem nameOut_resolves {n s n' : Str} (h : NameOut n s n') (hr : Resolves t n s) : Resolves t n' s := by
  rcases h with rfl | ⟨rfl, h⟩
  · exact hr
  · exact .plain h

/-- The rule with its references replaced is accepted if the rule is, and says the same. -/
theorem referencesOut_stands {r r' : RuleObj} {x x' : Wording} (h : StandsFor env g t msg r x) (ho : ReferencesOut env t x x') (hl : Loaded env g r' x'.body t) :
    StandsFor env g t msg r' x' ∧ (x'.Holds env t msg ↔ x.Holds env t msg) ∧ x'.decision = x.decision := by
  obtain ⟨text, hw, hc⟩ := ho.values
  have hb := ho.rest
  refine ⟨⟨hl, ⟨?_, ?_, ?_, ?_, ?_⟩, ?_⟩, ?_, ?_⟩
  · rw [hb]
  · rw [ho.senderText]; exact nameOut_resolves ho.sender h.ok.sender
  · rw [ho.receiverText]; exact nameOut_resolves ho.receiver h.ok.receiver
  · rw [hb, ho.senderText, ho.receiverText]
    exact ⟨h.ok.texts.sender, h.ok.texts.receiver, h.ok.texts.operation, h.ok.texts.resource⟩
  · intro f hf
    rw [hc] at hf
    obtain ⟨f0, h0, rfl⟩ := Option.map_eq_some_iff.1 hf
    exact out_sound hw f0 (h.ok.sound f0 h0)
  · intro f hf
    rw [hc] at hf
    obtain ⟨f0, h0, rfl⟩ := Option.map_eq_some_iff.1 hf
    exact (out_defined hw f0 msg).2 (h.defined f0 h0)
  · have hp : WrittenParts x'.body x'.sender x'.receiver msg ↔ WrittenParts x.body x.sender x.receiver msg := by
      rw [ho.senderText, ho.receiverText, hb]
      exact ⟨fun ⟨a, b, c, d⟩ => ⟨a, b, c, d⟩, fun ⟨a, b, c, d⟩ => ⟨a, b, c, d⟩⟩
    have hm : (∀ f ∈ x'.conditions, Meaning env t f msg) ↔ ∀ f ∈ x.conditions, Meaning env t f msg := by
      rw [hc]
      constructor
      · intro h f hf
        exact (out_meaning hw f msg).1 (h _ (Option.map_eq_some_iff.2 ⟨f, hf, rfl⟩))
      · intro h f hf
        obtain ⟨f0, h0, rfl⟩ := Option.map_eq_some_iff.1 hf
        exact (out_meaning hw f0 msg).2 (h f0 h0)
    exact and_congr hp hm
  · rw [Wording.decision, Wording.decision, hb]

/-- **C108**, partial: with references replaced by the texts that they stand for, a policy is accepted and decides as before, for every message. (The full statement includes strings
that look like references, and strings with control characters.) -/
theorem C108_partial (he : Assumed env) (hm : MsgOk env msg) {rs rs' : List RuleObj}
    (h : List.Forall₂ (fun r r' => ∃ t x x', StandsFor env g t msg r x ∧ ReferencesOut env t x x' ∧ Loaded env g r' x'.body t) rs rs') :
    ∃ out out', check env g msg rs = .ok out ∧ check env g msg rs' = .ok out' ∧ out.decision = out'.decision ∧ out.decisionString = out'.decisionString ∧ out.results = out'.results := by
  have key : ∃ xs : List (Prop × Decision), List.Forall₂ (fun r x => RuleSays env g msg r x.1 x.2) rs xs ∧ List.Forall₂ (fun r x => RuleSays env g msg r x.1 x.2) rs' xs := by
    induction h with
    | nil => exact ⟨[], .nil, .nil⟩
    | cons h _ ih =>
      obtain ⟨xs, h1, h2⟩ := ih
      obtain ⟨t, x, x', hs, ho, hl⟩ := h
      obtain ⟨a, b, c⟩ := referencesOut_stands hs ho hl
      have := standsFor_says a
      rw [c, propext b] at this
      exact ⟨(_, _) :: xs, .cons (standsFor_says hs) h1, .cons this h2⟩
  obtain ⟨xs, h1, h2⟩ := key
  obtain ⟨out, o1, o2⟩ := C74_policy he hm h1
  obtain ⟨out', o1', o2'⟩ := C74_policy he hm h2
  exact ⟨out, out', o1, o1', decides_unique o2 o2'⟩

/-- **C108 fails** for strings that look like references: `#team` stands for the text `#clients`, which is not looked up again. A rule for the senders `#team` does not block a message from `shop`,
the same rule with the text written out does. -/
theorem C108_violated_reference : ∃ (env : Env) (w t : Predef) (r r' : RuleObj) (m : Msg), env.OrdOk ∧ Validated w t ∧ w.strings = [(gs"team", gs"#clients"), (gs"clients", gs"shop")] ∧
    r.body.senderName = gs"#team" ∧ Resolves t gs"#team" gs"#clients" ∧ r'.body = { r.body with senderName := gs"#clients" } ∧ m.sourceService = gs"shop" ∧
    (check env t m [r]).map (·.decision) = .ok Decision.default.rank ∧ (check env t m [r']).map (·.decision) = .ok Decision.block.rank := by
  refine ⟨Demo.env, { strings := [(gs"team", gs"#clients"), (gs"clients", gs"shop")] }, _,
    { body := { (Demo.rule gs"block").body with senderName := gs"#team", senderType := gs"workload" } },
    { body := { (Demo.rule gs"block").body with senderName := gs"#clients", senderType := gs"workload" } }, { Demo.msgI with sourceService := gs"shop" }, Demo.env_ordOk,
    (C36_accepted _ { strings := [(gs"team", gs"#clients"), (gs"clients", gs"shop")] }).1 rfl, rfl, rfl, .string rfl rfl, rfl, rfl, ?_, ?_⟩ <;> decide +kernel

/-! ## An example -/

/-- `#agents` written out. -/
def agentsOut (m v : Str) : Str := if m = gs"IN" ∧ v = gs"#agents" then gs"curl,wget" else v

/-- The rule of `clientsWording` with both references written out. -/
noncomputable def clientsOut : Wording :=
  { body := { (Demo.rule gs"block").body with senderName := gs"a,b", senderType := gs"workload",
                                              conditions := some ((Statement.cond gs"requestUseragent" gs"IN" gs"curl,wget").tree policyEnv) },
    conditions := some (.cond gs"requestUseragent" gs"IN" gs"curl,wget"), sender := gs"a,b", receiver := gs"*" }

theorem clients_out : ReferencesOut policyEnv moreTables (clientsWording gs"a,b") clientsOut where
  values := by
    refine ⟨agentsOut, fun m v => ?_, ?_⟩
    · unfold agentsOut
      split
      · rename_i h
        obtain ⟨rfl, rfl⟩ := h
        exact .inr ⟨.list (l := [gs"curl", gs"wget"]) rfl (by decide), by simp, by unfold NoControl; decide⟩
      · exact .inl rfl
    · simp [clientsOut, clientsWording, Statement.withValues, agentsOut]
  sender := .inr ⟨rfl, by simp [clientsWording]⟩
  receiver := .inl rfl
  rest := rfl
  senderText := rfl
  receiverText := rfl

/-- The two rules decide every message that the conditions are defined for in the same way; here the message is from `a` by `wget`. -/
example : ∃ out out', check policyEnv moreTables { policyMsg with requestUseragent := gs"wget" } [parsedRule (clientsWording gs"a,b").body] = .ok out ∧
    check policyEnv moreTables { policyMsg with requestUseragent := gs"wget" } [parsedRule clientsOut.body] = .ok out' ∧ out.results = out'.results := by
  have hm : MsgOk policyEnv { policyMsg with requestUseragent := gs"wget" } := ⟨rfl, rfl, policyMsg_ok.3, policyMsg_ok.4, policyMsg_ok.5, policyMsg_ok.6, policyMsg_ok.7, policyMsg_ok.8⟩
  have p2 : ∀ x ∈ [gs"curl", gs"wget"], PlainWord x := by unfold PlainWord; decide
  have s := clients_stands (msg := { policyMsg with requestUseragent := gs"wget" }) (t := moreTables) (l := [gs"a", gs"b"]) (ws := [gs"curl", gs"wget"]) rfl rfl (by decide) p2
    (by simp) more_sound
  have hl : Loaded policyEnv moreTables (parsedRule clientsOut.body) clientsOut.body moreTables := .parsed ⟨rfl, rfl, rfl⟩
  obtain ⟨out, out', h1, h2, -, -, h3⟩ := C108_partial policyEnv_ok hm (.cons ⟨_, _, _, s, clients_out, hl⟩ .nil)
  exact ⟨out, out', h1, h2, h3⟩

end Mapl.Props

import Verif.Props.Files
import Verif.Props.DecodeMessage

/-! # A whole policy in files (C110) -/

namespace Mapl.Props

open Mapl.Spec

/-- C110, part: tables, rules and messages in three files. They are read, whatever else is on the disk, and each message is decided by what the rules say with
the tables, whatever the global tables are. The restrictions are those of C77, C79 and C81 on the documents, and the name of the file of rules has no backslash. -/
theorem C110_policy_partial {env : Env} (he : Assumed env) {disk : Disk} {nz ny nw : Str} {z y w : Yaml} {t t' : Predef} {ms : List Msg} {parse : Str → Option Clock}
    {wild : F64 → Int} (fz : InFile disk nz z) (fy : InFile disk ny y) (fw : InFile disk nw w) (hn : '\\' ∉ ny)
    (hz : Distinct z) (ht : TablesOf z t) (hv : Validated t t') (hy : Distinct y) (hx : NoDash y)
    {bodies : List Rule} (hr : RulesDoc (WritesTree env) y bodies) (hw : Distinct w) (hc : Clear w) (hm : MessagesDoc env w ms)
    (hp : ∀ m ∈ ms, parse m.requestTime ≠ none)
    (hl : ∀ m ∈ ms, ∀ s ∈ [m.sourceService, m.destinationService, m.requestHost, m.requestMethod, m.requestPath, m.destinationPort], OneLine s) :
    tablesFromFile disk nz = .ok (.ok t') ∧ ∃ out, messagesFromFile env.toExt wild parse disk nw = .ok (.ok out) ∧ List.Forall₂ (Completes env parse) ms out ∧
      ∀ m' ∈ out, ∀ xs : List (Prop × Decision), List.Forall₂ (fun b x => WrittenSays env t' m' b x.1 x.2) bodies xs →
        ∃ rules, rulesFromFileWithTables env disk ny t' = .ok (rules, none) ∧ rules.map (·.body) = bodies ∧
          ∀ g, ∃ o, check env g m' rules = .ok o ∧ Decides xs o := by
  obtain ⟨dz, az, bz⟩ := fz
  obtain ⟨dy, ay, bY⟩ := fy
  obtain ⟨dw, aw, bw⟩ := fw
  obtain ⟨h1, out, h2, h3, h4⟩ := C81_policy (wild := wild) (parse := parse) he hz ht hv hy hx hr hw hc hm hp
  refine ⟨(C110_partial env wild parse disk nz {} dz z az bz).2.2.2.2.1 _ h1, out, (C110_partial env wild parse disk nw {} dw w aw bw).2.2.1 _ h2, h3, fun m' hm' xs hs => ?_⟩
  have hok : MsgOk env m' := by
    obtain ⟨m, hmem, hcomp⟩ : ∃ m ∈ ms, Completes env parse m m' := by
      clear h2 h4 hm hp hl
      induction h3 with
      | nil => cases hm'
      | cons h hs ih =>
        rcases List.mem_cons.1 hm' with rfl | hm'
        · exact ⟨_, List.mem_cons_self, h⟩
        · obtain ⟨m, a, b⟩ := ih hm'
          exact ⟨m, List.mem_cons_of_mem _ a, b⟩
    exact C81_message_ok hcomp (hl m hmem)
  obtain ⟨rules, r1, r2, r3⟩ := h4 m' hm' xs hs hok
  have ht' : testYaml y = true := (testYaml_iff y).2 hy
  refine ⟨rules, ?_, r2, r3⟩
  have r1' : readRulesWithTables env t' y = .ok (rules, none) := by
    rwa [readRulesFileWithTables, if_pos ht'] at r1
  exact (C110_partial env wild parse disk ny t' dy y ay bY).2.1 hn ht' _ _ r1'

/-- A disk with three files. -/
def threeFiles (z y w : Yaml) : Disk where
  file n := if n = gs"tables.yaml" then some [1] else if n = gs"rules.yaml" then some [2] else if n = gs"messages.yaml" then some [3] else none
  yaml d := if d = [1] then some z else if d = [2] then some y else if d = [3] then some w else none

/-- Tables, the second rule of C74 and a message, in files. -/
example : ∃ disk m', tablesFromFile disk (gs"tables.yaml") = .ok (.ok policyTables) ∧ messagesFromFile policyEnv.toExt (fun _ => 0) demoClock disk (gs"messages.yaml") = .ok (.ok [m']) ∧
    ∃ rules, rulesFromFileWithTables policyEnv disk (gs"rules.yaml") policyTables = .ok (rules, none) ∧ rules.map (·.body) = policyRules.drop 1 ∧
      ∀ g, ∃ o, check policyEnv g m' rules = .ok o ∧ Decides [(WrittenParts policyRules[1] gs"a*,b" gs"*" m' ∧ True, .allow)] o := by
  have hp : ∀ r ∈ policyRules.drop 1, Plain policyEnv.toExt r := by
    intro r hr
    simp only [policyRules, List.drop, List.mem_cons, List.not_mem_nil, or_false] at hr
    subst hr
    exact ⟨⟨rfl, rfl, rfl, rfl, rfl⟩, by simp [Demo.rule], fun n hn => by simp [Demo.rule] at hn⟩
  obtain ⟨y, h1, h2, h3, -⟩ := C77_every policyEnv_ok.order hp
  obtain ⟨k1, k2⟩ := C79_every (t := policyTables) (by decide) (by decide)
  obtain ⟨w1, w2, w3⟩ := C81_every (env := policyEnv.toExt) (ms := [writtenMsg]) (by
    simp only [List.mem_singleton, forall_eq]
    exact ⟨by decide, rfl, rfl, rfl, rfl, rfl, rfl, rfl, rfl, rfl, rfl, rfl⟩)
  obtain ⟨e1, out, e2, e3, e4⟩ := C110_policy_partial (wild := fun _ => 0) (parse := demoClock) policyEnv_ok
    (disk := threeFiles (tablesYaml policyTables) y (messagesYaml [writtenMsg])) (nz := gs"tables.yaml") (ny := gs"rules.yaml") (nw := gs"messages.yaml")
    ⟨[1], by simp [threeFiles], by simp [threeFiles]⟩ ⟨[2], by simp [threeFiles], by simp [threeFiles]⟩
    ⟨[3], by simp [threeFiles], by simp [threeFiles]⟩ (by decide) k1 k2
    ((C36_accepted _ policyTables).1 rfl) h1 h2 h3 w1 w2 w3 (by simp [writtenMsg, demoClock]) (by
      simp only [forall_eq, List.mem_cons, List.not_mem_nil, or_false]
      rintro s (rfl | rfl | rfl | rfl | rfl | rfl) <;> (show '\n' ∉ _; decide))
  cases e3 with
  | cons a b =>
    cases b
    rename_i m'
    refine ⟨_, m', e1, e2, ?_⟩
    have := e4 m' (by simp) [(WrittenParts policyRules[1] gs"a*,b" gs"*" m' ∧ ∀ f ∈ (none : Option Statement), Meaning policyEnv policyTables f m', .allow)]
      (.cons (WrittenSays.mk (body := policyRules[1]) (c := none) rfl (.list (l := [gs"a*", gs"b"]) rfl) (.plain (by simp [policyRules, Demo.rule]))
        ⟨by show PlainPattern _; decide, by show PlainPattern _; decide, by show PlainPattern gs"read"; decide, by show PlainPattern gs"/x*"; decide⟩ (by simp) (by simp)) .nil)
    simpa using this

end Mapl.Props

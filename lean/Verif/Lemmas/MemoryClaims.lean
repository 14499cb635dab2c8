import Verif.Lemmas.MemoryLast
import Verif.Lemmas.Place
import Verif.Props.Paths

/-! # Claims about the current element, after preparation -/

namespace Mapl.Spec

mutual
/-- The claim is about the current element: its paths start there, and the ANY and ALL in it have one path each. -/
def Claim.OfElement : Claim → Prop
  | .attr _ _ _ => True
  | .test p _ _ => p.start = .element
  | .key _ _ => True
  | .value _ _ => True
  | .and fs => Claim.AllOfElement fs
  | .or fs => Claim.AllOfElement fs
  | .not f => f.OfElement
  | .any ps f => (∃ p, ps = [p] ∧ p.start = .element) ∧ f.OfElement
  | .all ps f => (∃ p, ps = [p] ∧ p.start = .element) ∧ f.OfElement
  | .anyEntry p f => p.start = .element ∧ f.OfElement
  | .allEntries p f => p.start = .element ∧ f.OfElement

def Claim.AllOfElement : List Claim → Prop
  | [] => True
  | f :: fs => f.OfElement ∧ Claim.AllOfElement fs
end

/-- Two paths from the whole document; in the text `t`, the byte behind what the first leads to is not in what the second leads to. -/
def TwoLists (env : MemEnv) (t : Str) (ps : List ListPath) : Prop :=
  ∃ p p', ps = [p, p'] ∧ p.start = .document ∧ p'.start = .document ∧ NotBehind env t (gs"$." ++ (p.tail ++ p.mark.text)) (gs"$." ++ (p'.tail ++ p'.mark.text))

end Mapl.Spec

namespace Mapl
open Spec

section

variable {env : Env} {t t' : Predef}

theorem condNode_about {a m v : Str} {n : Node} (h : (condNode env a m v none).prepare env t = .ok n) (ha : ∀ q, a = gs"jsonpath:" ++ q → pathRel q = true) :
    AboutElement n ∧ Parents (fun a => a.parentArr.length ≤ 1) n := by
  simp only [condNode, Node.prepare, Go.bind_eq_ok] at h
  obtain ⟨c, h1, h2⟩ := h
  cases h2
  obtain ⟨w, -, hw, -⟩ := prepare_inv h1
  have hl := prepare_leaf h1 hw
  refine ⟨?_, by rw [Parents] <;> simp⟩
  unfold AboutElement
  intro hj
  refine ⟨?_, by rw [hl.ret]; simp⟩
  have hat := hl.attr
  generalize hx : a = x at hat
  cases hat with
  | simple h1 h2 => rw [h2] at hj; subst hj; simp [simpleAttributes] at h1
  | senderField h1 => rw [h1] at hj; cases hj
  | receiverField h1 => rw [h1] at hj; cases hj
  | senderLabel h1 => rw [h1] at hj; cases hj
  | receiverLabel h1 => rw [h1] at hj; cases hj
  | path _ _ _ hr => rw [hr]; exact ha _ hx

theorem parent_about {p : ListPath} {a : AnyAll} (ho : (parentOf [p]).Ok env) (hs : p.start = .element) (h : (anyFields env (gs"jsonpath:" ++ (parentOf [p]).text) []).prepare env = .ok a) :
    (∀ q ∈ a.parentArr, isRelativeParent q = true) ∧ a.ret = [] ∧ a.parentArr.length ≤ 1 := by
  obtain ⟨a', h1, -, -, h2, h3⟩ := parent_prepare ho
  rw [h] at h1
  cases h1
  rw [parentOf_element (by simp) (by simpa using hs)] at h3
  rw [h3]
  exact ⟨fun q hq => by simp only [Parent.paths, List.map_cons, List.map_nil, List.mem_singleton] at hq; subst hq; rfl, h2, by simp [Parent.paths]⟩

mutual
theorem claim_about : ∀ (f : Claim) (n : Node), f.OfElement → f.Plain → Sound env t f.statement → (f.statement.tree env).prepare env t' = .ok n →
    AboutElement n ∧ Parents (fun a => a.parentArr.length ≤ 1) n
  | .attr a m v, n, _, hp, _, h => by
    rw [Claim.Plain] at hp
    exact condNode_about h fun q hq => absurd ⟨q, hq⟩ hp
  | .test p m v, n, he, _, _, h => by
    rw [Claim.OfElement] at he
    exact condNode_about h fun q hq => by rw [← List.append_cancel_left hq]; exact (path_rel p).2 he
  | .key m v, n, _, _, _, h => condNode_about h fun q hq => by rw [← List.append_cancel_left (show gs"jsonpath:" ++ gs"$KEY" = gs"jsonpath:" ++ q from hq)]; rfl
  | .value m v, n, _, _, _, h => condNode_about h fun q hq => by rw [← List.append_cancel_left (show gs"jsonpath:" ++ gs"$VALUE" = gs"jsonpath:" ++ q from hq)]; rfl
  | .and fs, n, he, hp, hs, h => by
    rw [Claim.OfElement] at he; rw [Claim.Plain] at hp; rw [Claim.statement, Sound] at hs
    rw [Claim.statement, Statement.tree, Node.prepare, Go.bind_eq_ok] at h
    obtain ⟨ns, h1, h2⟩ := h
    cases h2
    rw [AboutElement, Parents]
    exact claims_about fs ns he hp hs.2 h1
  | .or fs, n, he, hp, hs, h => by
    rw [Claim.OfElement] at he; rw [Claim.Plain] at hp; rw [Claim.statement, Sound] at hs
    rw [Claim.statement, Statement.tree, Node.prepare, Go.bind_eq_ok] at h
    obtain ⟨ns, h1, h2⟩ := h
    cases h2
    rw [AboutElement, Parents]
    exact claims_about fs ns he hp hs.2 h1
  | .not f, n, he, hp, hs, h => by
    rw [Claim.OfElement] at he; rw [Claim.Plain] at hp; rw [Claim.statement, Sound] at hs
    rw [Claim.statement, Statement.tree, Node.prepare, Go.bind_eq_ok] at h
    obtain ⟨n', h1, h2⟩ := h
    cases h2
    rw [AboutElement, Parents]
    exact claim_about f n' he hp hs h1
  | .any ps f, n, he, hp, hs, h => by
    rw [Claim.OfElement] at he; rw [Claim.Plain] at hp; rw [Claim.statement, Sound] at hs
    rw [Claim.statement, Statement.tree, Node.prepare, Go.bind_eq_ok] at h
    obtain ⟨n', h1, h2⟩ := h
    rw [Go.bind_eq_ok] at h2
    obtain ⟨a, h2, h3⟩ := h2
    cases h3
    obtain ⟨⟨p, rfl, hst⟩, he⟩ := he
    obtain ⟨k1, k2, k3⟩ := parent_about hs.1 hst h2
    obtain ⟨k4, k5⟩ := claim_about f n' he hp.2 hs.2 h1
    rw [AboutElement, Parents]
    exact ⟨⟨k1, by rw [k2]; simp, k4⟩, k3, k5⟩
  | .all ps f, n, he, hp, hs, h => by
    rw [Claim.OfElement] at he; rw [Claim.Plain] at hp; rw [Claim.statement, Sound] at hs
    rw [Claim.statement, Statement.tree, Node.prepare, Go.bind_eq_ok] at h
    obtain ⟨n', h1, h2⟩ := h
    rw [Go.bind_eq_ok] at h2
    obtain ⟨a, h2, h3⟩ := h2
    cases h3
    obtain ⟨⟨p, rfl, hst⟩, he⟩ := he
    obtain ⟨k1, k2, k3⟩ := parent_about hs.1 hst h2
    obtain ⟨k4, k5⟩ := claim_about f n' he hp.2 hs.2 h1
    rw [AboutElement, Parents]
    exact ⟨⟨k1, k4⟩, k3, k5⟩
  | .anyEntry p f, n, he, hp, hs, h => by
    rw [Claim.OfElement] at he; rw [Claim.Plain] at hp; rw [Claim.statement, Sound] at hs
    rw [Claim.statement, Statement.tree, Node.prepare, Go.bind_eq_ok] at h
    obtain ⟨n', h1, h2⟩ := h
    rw [Go.bind_eq_ok] at h2
    obtain ⟨a, h2, h3⟩ := h2
    cases h3
    obtain ⟨k1, k2, k3⟩ := parent_about hs.1 he.1 h2
    obtain ⟨k4, k5⟩ := claim_about f n' he.2 hp.2 hs.2 h1
    rw [AboutElement, Parents]
    exact ⟨⟨k1, by rw [k2]; simp, k4⟩, k3, k5⟩
  | .allEntries p f, n, he, hp, hs, h => by
    rw [Claim.OfElement] at he; rw [Claim.Plain] at hp; rw [Claim.statement, Sound] at hs
    rw [Claim.statement, Statement.tree, Node.prepare, Go.bind_eq_ok] at h
    obtain ⟨n', h1, h2⟩ := h
    rw [Go.bind_eq_ok] at h2
    obtain ⟨a, h2, h3⟩ := h2
    cases h3
    obtain ⟨k1, k2, k3⟩ := parent_about hs.1 he.1 h2
    obtain ⟨k4, k5⟩ := claim_about f n' he.2 hp.2 hs.2 h1
    rw [AboutElement, Parents]
    exact ⟨⟨k1, k4⟩, k3, k5⟩

theorem claims_about : ∀ (fs : List Claim) (ns : List Node), Claim.AllOfElement fs → Claim.AllPlain fs → SoundAll env t (Claim.statements fs) →
    prepareNodes env t' (Statement.trees env (Claim.statements fs)) = .ok ns → AboutElements ns ∧ ParentsAll (fun a => a.parentArr.length ≤ 1) ns
  | [], ns, _, _, _, h => by
    rw [Claim.statements, Statement.trees, prepareNodes] at h
    cases h
    rw [AboutElements, ParentsAll]; exact ⟨trivial, trivial⟩
  | f :: fs, ns, he, hp, hs, h => by
    rw [Claim.AllOfElement] at he; rw [Claim.AllPlain] at hp; rw [Claim.statements, SoundAll] at hs
    rw [Claim.statements, Statement.trees, prepareNodes, Go.bind_eq_ok] at h
    obtain ⟨n, h1, h2⟩ := h
    rw [Go.bind_eq_ok] at h2
    obtain ⟨ns', h2, h3⟩ := h2
    cases h3
    obtain ⟨k1, k2⟩ := claim_about f n he.1 hp.1 hs.1 h1
    obtain ⟨k3, k4⟩ := claims_about fs ns' he.2 hp.2 hs.2 h2
    rw [AboutElements, ParentsAll]
    exact ⟨⟨k1, k3⟩, k2, k4⟩
end

end

/-- An ANY or ALL with two paths, after preparation. -/
theorem claim_two {env : MemEnv} {t t' : Predef} {text : Str} {ps : List ListPath} {f : Claim} {n : Node} (hps : TwoLists env text ps) (he : f.OfElement) (hp : f.Plain) :
    (Sound env.toExt t (Claim.any ps f).statement → (((Claim.any ps f).statement).tree env.toExt).prepare env.toExt t' = .ok n → TwoPaths env text n) ∧
    (Sound env.toExt t (Claim.all ps f).statement → (((Claim.all ps f).statement).tree env.toExt).prepare env.toExt t' = .ok n → TwoPaths env text n) := by
  obtain ⟨p, p', rfl, h1, h2, hb⟩ := hps
  have key : ∀ a, (parentOf [p, p']).Ok env.toExt → (anyFields env.toExt (gs"jsonpath:" ++ (parentOf [p, p']).text) []).prepare env.toExt = .ok a →
      TwoParents env text a.parentArr ∧ a.ret = [] := by
    intro a ho h
    obtain ⟨a', k1, -, -, k2, k3⟩ := parent_prepare ho
    rw [h] at k1
    cases k1
    rw [parentOf_document (by simp [h1, h2])] at k3
    exact ⟨⟨_, _, k3, rfl, rfl, hb⟩, k2⟩
  constructor
  · intro hs h
    rw [Claim.statement, Sound] at hs
    rw [Claim.statement, Statement.tree, Node.prepare, Go.bind_eq_ok] at h
    obtain ⟨n', h3, h4⟩ := h
    rw [Go.bind_eq_ok] at h4
    obtain ⟨a, h4, h5⟩ := h4
    cases h5
    obtain ⟨k1, k2⟩ := key a hs.1 h4
    obtain ⟨k3, k4⟩ := claim_about f n' he hp hs.2 h3
    exact .any k1 (by rw [k2]; simp) k4 k3
  · intro hs h
    rw [Claim.statement, Sound] at hs
    rw [Claim.statement, Statement.tree, Node.prepare, Go.bind_eq_ok] at h
    obtain ⟨n', h3, h4⟩ := h
    rw [Go.bind_eq_ok] at h4
    obtain ⟨a, h4, h5⟩ := h4
    cases h5
    obtain ⟨k1, k2⟩ := key a hs.1 h4
    obtain ⟨k3, k4⟩ := claim_about f n' he hp hs.2 h3
    exact .all k1 k4 k3

section

variable {env : Env} {t : Predef}

theorem one_comma {p : ListPath} (h : (parentOf [p]).Ok env) : ',' ∉ (anyFields env (gs"jsonpath:" ++ (parentOf [p]).text) []).parent := by
  rw [parent_fields h]
  show ',' ∉ (parentOf [p]).text
  have key : ∀ {rs : List Str} {r : Str}, rs = [r] → (∀ r ∈ rs, PlainPath r ∧ env.jpOk (gs"$." ++ r) = true) → ',' ∉ r :=
    fun e h => (h _ (by rw [e]; simp)).1.2.2.1
  unfold parentOf at h ⊢
  simp only [List.head?_cons, Option.map_some, List.map_cons, List.map_nil] at h ⊢
  split at h
  · have := key rfl h.2
    simp_all [Parent.text, join]
  · have := key rfl h.2
    simp_all [Parent.text, join]

mutual
theorem claim_one : ∀ (f : Claim), f.OfElement → Sound env t f.statement → OneParent (f.statement.tree env)
  | .attr a m v, _, _ => by rw [Claim.statement, Statement.tree, condNode, OneParent, Parents] <;> simp
  | .test p m v, _, _ => by rw [Claim.statement, Statement.tree, condNode, OneParent, Parents] <;> simp
  | .key m v, _, _ => by rw [Claim.statement, Statement.tree, condNode, OneParent, Parents] <;> simp
  | .value m v, _, _ => by rw [Claim.statement, Statement.tree, condNode, OneParent, Parents] <;> simp
  | .and fs, he, hs => by
    rw [Claim.OfElement] at he; rw [Claim.statement, Sound] at hs
    rw [Claim.statement, Statement.tree, OneParent, Parents]
    exact claims_one fs he hs.2
  | .or fs, he, hs => by
    rw [Claim.OfElement] at he; rw [Claim.statement, Sound] at hs
    rw [Claim.statement, Statement.tree, OneParent, Parents]
    exact claims_one fs he hs.2
  | .not f, he, hs => by
    rw [Claim.OfElement] at he; rw [Claim.statement, Sound] at hs
    rw [Claim.statement, Statement.tree, OneParent, Parents]
    exact claim_one f he hs
  | .any ps f, he, hs => by
    rw [Claim.OfElement] at he; rw [Claim.statement, Sound] at hs
    rw [Claim.statement, Statement.tree, OneParent, Parents]
    obtain ⟨⟨p, rfl, -⟩, he⟩ := he
    exact ⟨one_comma hs.1, claim_one f he hs.2⟩
  | .all ps f, he, hs => by
    rw [Claim.OfElement] at he; rw [Claim.statement, Sound] at hs
    rw [Claim.statement, Statement.tree, OneParent, Parents]
    obtain ⟨⟨p, rfl, -⟩, he⟩ := he
    exact ⟨one_comma hs.1, claim_one f he hs.2⟩
  | .anyEntry p f, he, hs => by
    rw [Claim.OfElement] at he; rw [Claim.statement, Sound] at hs
    rw [Claim.statement, Statement.tree, OneParent, Parents]
    exact ⟨one_comma hs.1, claim_one f he.2 hs.2⟩
  | .allEntries p f, he, hs => by
    rw [Claim.OfElement] at he; rw [Claim.statement, Sound] at hs
    rw [Claim.statement, Statement.tree, OneParent, Parents]
    exact ⟨one_comma hs.1, claim_one f he.2 hs.2⟩

theorem claims_one : ∀ (fs : List Claim), Claim.AllOfElement fs → SoundAll env t (Claim.statements fs) →
    ParentsAll (fun a => ',' ∉ a.parent) (Statement.trees env (Claim.statements fs))
  | [], _, _ => by rw [Claim.statements, Statement.trees, ParentsAll]; trivial
  | f :: fs, he, hs => by
    rw [Claim.AllOfElement] at he; rw [Claim.statements, SoundAll] at hs
    rw [Claim.statements, Statement.trees, ParentsAll]
    exact ⟨claim_one f he.1 hs.1, claims_one fs he.2 hs.2⟩
end

theorem map_one {F : ListPath → Claim} (hF : ∀ p, Sound env t (F p).statement → OneParent ((F p).statement.tree env)) : ∀ (ps : List ListPath),
    SoundAll env t (Claim.statements (ps.map F)) → ParentsAll (fun a => ',' ∉ a.parent) (Statement.trees env (Claim.statements (ps.map F)))
  | [], _ => by rw [List.map_nil, Claim.statements, Statement.trees, ParentsAll]; trivial
  | p :: ps, hs => by
    rw [List.map_cons, Claim.statements, SoundAll] at hs
    rw [List.map_cons, Claim.statements, Statement.trees, ParentsAll]
    exact ⟨hF p hs.1, map_one hF ps hs.2⟩

/-- With one path each there is no comma. -/
theorem apart_one {ps : List ListPath} {f : Claim} (he : f.OfElement) :
    (Sound env t (apartAny ps f).statement → OneParent ((apartAny ps f).statement.tree env)) ∧
    (Sound env t (apartAll ps f).statement → OneParent ((apartAll ps f).statement.tree env)) := by
  constructor
  · intro hs
    rw [apartAny, Claim.statement, Sound] at hs
    rw [apartAny, Claim.statement, Statement.tree, OneParent, Parents]
    refine map_one (fun p hs => ?_) ps hs.2
    rw [Claim.statement, Sound] at hs
    rw [Claim.statement, Statement.tree, OneParent, Parents]
    exact ⟨one_comma hs.1, claim_one f he hs.2⟩
  · intro hs
    rw [apartAll, Claim.statement, Sound] at hs
    rw [apartAll, Claim.statement, Statement.tree, OneParent, Parents]
    refine map_one (fun p hs => ?_) ps hs.2
    rw [Claim.statement, Sound] at hs
    rw [Claim.statement, Statement.tree, OneParent, Parents]
    exact ⟨one_comma hs.1, claim_one f he hs.2⟩

end

end Mapl

import Verif.Model.Check

/-!
# A concrete execution environment and concrete rules

Used only by the `example`s beside the theorems, to show that their hypotheses can be met and that the executable model
behaves as expected on small inputs. Nothing in the theorems depends on this file.
-/

namespace Mapl.Demo

/-- Decimal digits of a natural number. -/
def showNat (n : Nat) : Str := (Nat.toDigits 10 n)

/-- Integers only. -/
def showF64 : F64 → Str
  | .nan => gs"NaN"
  | .posInf => gs"+Inf"
  | .negInf => gs"-Inf"
  | .fin q => if q.num < 0 then '-' :: showNat q.num.natAbs else showNat q.num.natAbs

mutual
/-- Compact JSON text. -/
def render : Json → Str
  | .null => gs"null"
  | .bool true => gs"true"
  | .bool false => gs"false"
  | .num x => showF64 x
  | .str s => quoteJson s
  | .arr l => gs"[" ++ join gs"," (renderList l) ++ gs"]"
  | .obj kvs => gs"{" ++ join gs"," (renderMembers kvs) ++ gs"}"

def renderList : List Json → List Str
  | [] => []
  | x :: xs => render x :: renderList xs

def renderMembers : List (Str × Json) → List Str
  | [] => []
  | (k, v) :: rest => (quoteJson k ++ gs":" ++ render v) :: renderMembers rest
end

/-- Field access along a path. -/
def walk : List Str → Json → Option Json
  | [], j => some j
  | k :: ks, .obj kvs => if k = gs"*" then walk ks (.arr (kvs.map (·.2))) else (lookup k kvs).bind (walk ks)
  | _ :: _, _ => none

/-- `$.a.b` queries. -/
def query (q : Str) (j : Json) : Option Json := walk ((split '.' q).drop 1) j

/-- Patterns without special characters between anchors, and the universal pattern, possibly in parentheses; alternatives. -/
def patMatch1 (p s : Str) : Bool := p == gs"^.*$" || p == gs".*" || p == gs"^" ++ s ++ gs"$" || p == s

/-- Remove the parentheses around a pattern. -/
def unparen (p : Str) : Str :=
  match p with
  | '(' :: t => t.dropLast
  | t => t

def patMatch (p s : Str) : Bool := (split '|' (unparen p)).any (fun q => patMatch1 q s)

/-- Integers only. -/
def parseNum (s : Str) : Option F64 := (parseInt s).map fun n => .fin n

def ext0 : Ext where
  reOk _ := true
  reMatch := patMatch
  parseFloat := parseNum
  rnd q := .fin q
  fmtFloat := showF64
  fmtComposite _ := gs"map"
  jsonMarshal := render
  jsonUnmarshal _ := none
  jpOk q := hasPrefix q gs"$"
  jpGet q j := match query q j with
    | some v => (v, none)
    | none => (.null, some gs"child not found in JSON object at 0")
  jsGet _ _ := ([], false)
  ugly s := s
  md5 s := s

/-- The external functions, with the JSON functions on texts. -/
def ext : Ext :=
  { ext0 with
    jsonUnmarshal := jsonParse ext0
    jsGet := fun s q => match jsonParse ext0 s with
      | none => ([], true)
      | some j => match query q j with
        | some v => (render v, false)
        | none => ([], false) }

/-- Maps are iterated in the order of their lists. -/
def env : Env := { ext with ord := fun _ l => l }

/-- Maps are iterated backwards. -/
def envRev : Env := { ext with ord := fun _ l => l.reverse }

theorem env_ordOk : env.OrdOk := fun _ _ => List.Perm.refl _

theorem envRev_ordOk : envRev.OrdOk := fun _ l => List.reverse_perm l

/-- A rule that applies to every message and has the given decision and conditions. -/
def rule (decision : Str) (conditions : Option Node := none) : RuleObj :=
  { body := { senderName := gs"*", senderType := gs"*", receiverName := gs"*", receiverType := gs"*", protocol := gs"*",
              resourceType := gs"*", resourceName := gs"*", operation := gs"*", decision := decision,
              conditions := conditions, metadata := [(gs"description", gs"rule " ++ decision)] } }

/-- A condition on a field of the raw document. -/
def cond (attr method value : Str) : Node := .cond { attr := attr, method := method, value := value }

/-- ANY over a parent path. -/
def anyOf (parent : Str) (n : Node) : Node := .any (({} : AnyAll).setParent parent) n

/-- ALL over a parent path. -/
def allOf (parent : Str) (n : Node) : Node := .all (({} : AnyAll).setParent parent) n

/-- A document with a scalar, a list of objects and an object. -/
def doc : Json :=
  .obj [(gs"kind", .str gs"Pod"), (gs"replicas", .num (.fin 3)),
        (gs"containers", .arr [.obj [(gs"image", .str gs"nginx"), (gs"cpu", .num (.fin 2))],
                               .obj [(gs"image", .str gs"redis"), (gs"cpu", .num (.fin 7))]]),
        (gs"labels", .obj [(gs"app", .str gs"web"), (gs"tier", .str gs"front")])]

/-- A message with that document, parsed. -/
def msgI : Msg := { sourceService := gs"a", destinationService := gs"b", requestMethod := gs"GET", requestPath := gs"/x", rawI := some doc }

/-- A message with that document, as text. -/
def msgB : Msg := { msgI with rawI := none, jsonRaw := some (render doc) }

/-- What is observable of a result by `decide`. -/
def summary (r : Go CheckOut) : Option (Nat × List Nat × Int × List Nat) :=
  match r with
  | .ok o => some (o.decision, o.results, o.relevantRuleIndex, o.appliedRulesIndices)
  | .error _ => none

/-- Whether a result is there. -/
def isOk {α : Type} : Go α → Bool
  | .ok _ => true
  | .error _ => false

theorem isOk_ok {α : Type} {x : Go α} (h : isOk x = true) : ∃ a, x = .ok a := by
  cases x with
  | ok a => exact ⟨a, rfl⟩
  | error e => simp [isOk] at h

/-- The answer of the condition `a m v` on a message. -/
def answer (env : Env) (t : Predef) (msg : Msg) (a m v : Str) : Option Bool :=
  match (setNumbers env { attr := a, method := m, value := v }).prepare env t with
  | .ok c => match testOneCondition env [] c msg with
    | .ok (b, []) => some b
    | _ => none
  | .error _ => none

/-- Rules used in the examples. -/
def rules : List RuleObj :=
  [rule gs"allow", rule gs"block" (some (.and [cond gs"jsonpath:$.kind" gs"EQ" gs"Pod",
      anyOf gs"jsonpath:$.containers" (cond gs"jsonpath:$RELATIVE.cpu" gs"GT" gs"5")])),
   rule gs"alert" (some (allOf gs"jsonpath:$.containers" (cond gs"jsonpath:$RELATIVE.image" gs"EQ" gs"nginx")))]

example : summary (check env {} msgI rules) = some (3, [1, 3, 0], 1, [0, 1]) := by decide +kernel
example : summary (check env {} msgB rules) = some (3, [1, 3, 0], 1, [0, 1]) := by decide +kernel
example : summary (check envRev {} msgI rules) = some (3, [1, 3, 0], 1, [0, 1]) := by decide +kernel

theorem check_ok : ∃ out, check env {} msgI rules = .ok out ∧ out.decision = 3 ∧ out.results = [1, 3, 0] := by
  have h : summary (check env {} msgI rules) = some (3, [1, 3, 0], 1, [0, 1]) := by decide +kernel
  match hc : check env {} msgI rules with
  | .ok out => rw [hc] at h; simp [summary] at h; exact ⟨out, rfl, h.1, h.2.1⟩
  | .error _ => rw [hc] at h; simp [summary] at h

theorem summary_ok {r : Go CheckOut} {d : Nat} {res : List Nat} {i : Int} {l : List Nat} (h : summary r = some (d, res, i, l)) :
    ∃ out, r = .ok out ∧ out.decision = d := by
  match r with
  | .ok out => simp [summary] at h; exact ⟨out, rfl, h.1⟩
  | .error _ => simp [summary] at h

/-- A rule without conditions gives its decision in every execution. -/
theorem block_always (ord : {α : Type} → List Nat → List α → List α) (p : List Nat) :
    ((rule gs"block").check { ext with ord := ord } {} p msgI).map (·.result) = .ok 3 := rfl

theorem allow_always (ord : {α : Type} → List Nat → List α → List α) (p : List Nat) :
    ((rule gs"allow").check { ext with ord := ord } {} p msgI).map (fun o => (o.result, o.extra)) = .ok (1, []) := rfl

end Mapl.Demo

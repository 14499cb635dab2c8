import Verif.Props.Entries

/-!
# Conditions of the manual

The examples of /repo/docs/MAPL_Conditions_v2.md about lists and objects, as they are written there, and the documents that they are meant for.
-/

namespace Mapl.Spec

/-! ## The conditions -/

/-- Example 6a, MAPL_Conditions_v2.md:137-151: not all containers have a limit for cpu and a limit for memory. -/
def notAllLimited : Statement := .not (.all (.document [gs"spec.containers[:]"])
  (.and [.cond gs"jsonpath:$RELATIVE.resources.limits.cpu" gs"EX" [], .cond gs"jsonpath:$RELATIVE.resources.limits.memory" gs"EX" []]))

/-- Example 6b, MAPL_Conditions_v2.md:152-164, which "is equivalent to the previous one". -/
def anyUnlimited : Statement := .any (.document [gs"spec.containers[:]"])
  (.or [.cond gs"jsonpath:$RELATIVE.resources.limits.cpu" gs"NEX" [], .cond gs"jsonpath:$RELATIVE.resources.limits.memory" gs"NEX" []])

/-- Example 6c, MAPL_Conditions_v2.md:166-177: all containers have a mount with this name. -/
def allMount : Statement := .all (.document [gs"spec.containers[:]"]) (.any (.element [gs"volumeMounts[:]"]) (.cond gs"jsonpath:$RELATIVE.name" gs"EQ" gs"xxx"))

/-- Example 6d, MAPL_Conditions_v2.md:178-195: a label with this key exists. -/
def hasKey : Statement := .any (.document [gs"metadata.labels"]) (.cond gs"jsonpath:$KEY" gs"EQ" gs"abc")

/-- Example 6d, MAPL_Conditions_v2.md:196-209: a label with this value exists. -/
def hasValue : Statement := .any (.document [gs"metadata.labels"]) (.cond gs"jsonpath:$VALUE" gs"EQ" gs"abc")

/-- Example 6d, MAPL_Conditions_v2.md:211-222: a container has a label with this value. -/
def containerHasValue : Statement := .any (.document [gs"spec.containers"]) (.any (.element [gs"metadata.labels"]) (.cond gs"jsonpath:$VALUE" gs"EQ" gs"DEF"))

/-! ## The documents -/

/-- `spec.containers`. -/
def containersPath : List Step := [.field gs"spec", .field gs"containers"]

/-- `resources.limits.cpu` and the like. -/
def limitPath (n : Str) : List Step := [.field gs"resources", .field gs"limits", .field n]

/-- The document has a list of containers, which are objects. -/
structure HasContainers (root : Json) (l : List Json) : Prop where
  list : Leads root containersPath (some (.arr l))
  nonempty : l ≠ []
  objects : ∀ e ∈ l, ∃ kvs, e = .obj kvs

/-- The limits that are there are texts that are not empty, or small whole numbers. -/
structure Limits (root : Json) (l : List Json) : Prop extends HasContainers root l where
  limits : ∀ e ∈ l, ∀ n ∈ [gs"cpu", gs"memory"], ∃ o, Leads e (limitPath n) o ∧ ∀ v ∈ o, ∃ s, s ≠ [] ∧ TextIn v s

/-- All containers have mounts, which have names. -/
structure Mounts (env : Ext) (root : Json) (l : List Json) : Prop extends HasContainers root l where
  mounts : ∀ e ∈ l, ∃ m, Leads e [.field gs"volumeMounts"] (some (.arr m)) ∧ m ≠ [] ∧
    ∀ x ∈ m, ∃ kvs s, x = .obj kvs ∧ lookup gs"name" kvs = some (.str s) ∧ LabelText env s

/-- An object with labels, which are texts, at `metadata.labels`. -/
structure Labelled (env : Ext) (d : Json) (labels : List (Str × Str)) : Prop where
  leads : Leads d [.field gs"metadata", .field gs"labels"] (some (.obj (labels.map fun x => (x.1, .str x.2))))
  texts : ∀ x ∈ labels, LabelText env x.1 ∧ LabelText env x.2

/-! ## Rules -/

/-- The rule has this statement as its conditions, which are accepted; its sender and its receiver are the texts `s` and `v`. -/
structure RuleWith (env : Env) (t : Predef) (body : Rule) (s v : Str) (f : Statement) : Prop where
  conditions : body.conditions = some (f.tree env)
  accepted : Sound env t f
  sender : Resolves t body.senderName s
  receiver : Resolves t body.receiverName v
  texts : TextsOk body s v

/-- Messages like `base` with the document, parsed or as a plainly written text, are checked without a panic, and the rule applies to them exactly if `P` holds and the other parts of the rule
match `base`. -/
def AppliesIf (env : Env) (g : Predef) (r : RuleObj) (body : Rule) (s v : Str) (base : Msg) (root : Json) (P : Prop) : Prop :=
  ∀ msg, Carries env base root msg none → ∀ p, ∃ o, r.check env g p msg = .ok o ∧
    (WrittenParts body s v base ∧ P → o.result = (decisionOf body.decision).rank) ∧ (¬ (WrittenParts body s v base ∧ P) → o.result = Decision.default.rank)

end Mapl.Spec

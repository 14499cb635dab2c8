import Verif.Model.Marshal

/-!
# Text forms and hashes of rules

The `String` methods of /repo/MAPL_engine/conditions_tree.go and definitions_rule.go, and rules_load.go:498-549.
-/

namespace Mapl

/-- `fmt.Sprintf("%v", m)` of a `map[string]string`: sorted by keys. -/
def fmtStringMap (l : List (Str × Str)) : Str :=
  gs"map[" ++ join gs" " ((sortBy (fun a b => strLe a.1 b.1) l).map fun x => x.1 ++ gs":" ++ x.2) ++ gs"]"

/-- definitions_rule.go:265-282. -/
def Condition.string (c : Condition) : Str :=
  gs"<" ++ orOrig c.attr c.origAttr ++ gs"-" ++ orOrig c.method c.origMethod ++ gs"-" ++ orOrig c.value c.origValue ++ gs">"

/-- conditions_tree.go:156-177, given the texts of the children. -/
def andOrString (l : List Str) (sep : Str) : Str :=
  match l with
  | [s] => s
  | l => gs"(" ++ join sep (sortStrings l) ++ gs")"

/-- conditions_tree.go:401-412 (`kw` is ANY) and 570-581 (`kw` is ALL), given the text of the child. -/
def anyAllString (kw : Str) (a : AnyAll) (child : Str) : Str :=
  gs"[" ++ kw ++ gs"<" ++ orOrig a.parent a.parentOrig ++ gs";" ++ fmtStringMap (retOrig a.ret) ++ gs">:" ++ child ++ gs"]"

mutual
/-- The `String` methods of nodes: conditions_tree.go:152-154, 215-217, 239-242, 401-412, 570-581, 638-640, 658-660 and
definitions_rule.go:265-282. A method call on a nil node panics. -/
def Node.string : Node → Go Str
  | .nil => .error (.panic .nilDeref)
  | .and ns => do let l ← stringNodes ns; pure (andOrString l gs" && ")
  | .or ns => do let l ← stringNodes ns; pure (andOrString l gs" || ")
  | .not n => do let s ← n.string; pure (gs"!(" ++ s ++ gs")")
  | .any a n => do let s ← n.string; pure (anyAllString gs"ANY" a s)
  | .all a n => do let s ← n.string; pure (anyAllString gs"ALL" a s)
  | .tt => .ok gs"true"
  | .ff => .ok gs"false"
  | .cond c => .ok c.string

/-- The texts of the nodes of a list. -/
def stringNodes : List Node → Go (List Str)
  | [] => .ok []
  | n :: ns => do let s ← n.string; let l ← stringNodes ns; pure (s :: l)
end

/-- rules_load.go:511-518. -/
def ruleConditionsToString (r : Rule) : Go Str :=
  match r.conditions with
  | some n => n.string
  | none => .ok gs"no conditions"

/-- rules_load.go:500-501. -/
def ruleMainPart (r : Rule) : Str :=
  gs"<" ++ toLower r.decision ++ gs">-<" ++ toLower r.senderType ++ gs":" ++ r.senderName ++ gs">-<" ++ toLower r.receiverType ++ gs":" ++ r.receiverName ++
    gs">-" ++ toLower r.operation ++ gs"-" ++ toLower r.protocol ++ gs"-<" ++ r.resourceType ++ gs"-" ++ r.resourceName ++ gs">"

/-- rules_load.go:498-509. -/
def ruleToString (r : Rule) : Go Str := do
  let c ← ruleConditionsToString r
  pure (ruleMainPart r ++ gs"-" ++ c)

/-- rules_load.go:520-527. `env.md5` is the hexadecimal MD5 sum of a text. -/
def ruleMD5Hash (env : Ext) (r : Rule) : Go Str := (ruleToString r).map env.md5

/-- rules_load.go:529-536. -/
def ruleMD5HashConditions (env : Ext) (r : Rule) : Go Str := (ruleConditionsToString r).map env.md5

/-- rules_load.go:538-540. -/
def conditionsEqual (env : Ext) (r r' : Rule) : Go Bool := do
  let a ← ruleMD5HashConditions env r
  let b ← ruleMD5HashConditions env r'
  pure (a == b)

/-- rules_load.go:542-549. -/
def Rule.lower (r : Rule) : Rule :=
  { r with senderType := toLower r.senderType, receiverType := toLower r.receiverType, resourceType := toLower r.resourceType,
           protocol := toLower r.protocol, operation := toLower r.operation, decision := toLower r.decision }

end Mapl

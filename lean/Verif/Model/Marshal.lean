import Verif.Model.JsonText
import Verif.Model.Parse

/-!
# JSON encoding of trees and the deep copy of rules

`MarshalJSON` methods of /repo/MAPL_engine/conditions_tree.go and definitions_rule.go, and `deepcopy.Copy` as used in
rules_load.go:64-86 and 551-558. `json.Marshal` checks what a `MarshalJSON` method returns: text that is not JSON is an error.
-/

namespace Mapl

/-- The check of `json.Marshal` on the text returned by a `MarshalJSON` method. (The encoder also compacts the text and
escapes `<`, `>`, `&` in it; the decoded value is the same.) -/
def checkJson (env : Ext) (s : Str) : Go Str :=
  match jsonParse env s with
  | some _ => .ok s
  | none => .error (.err .badCopy)

/-- The two replacements at definitions_rule.go:290-291 and 302-303. -/
def escapeField (s : Str) : Str := replaceAll (replaceAll s gs"\\" gs"\\\\") gs"\"" gs"\\\""

/-- `if len(orig) > 0 { x = orig }`, as in definitions_rule.go:286-300 and 268-280, conditions_tree.go:261-264, 402-405, 472-475, 571-574. -/
def orOrig (x orig : Str) : Str := if orig.length > 0 then orig else x

/-- The return map that is written: the original one if it is not empty (definitions_rule.go:305-308,
conditions_tree.go:266-269, 477-480). Both maps have the same keys and are empty together. -/
def retOrig (l : List RetVal) : List (Str × Str) := l.map fun r => (r.name, r.orig)

/-- definitions_rule.go:284-317. -/
def marshalCondition (c : Condition) : Str :=
  let a := escapeField (orOrig c.attr c.origAttr)
  let m := orOrig c.method c.origMethod
  let v := escapeField (orOrig c.value c.origValue)
  let head := gs"{\"condition\":{\"attribute\":\"" ++ a ++ gs"\",\"method\":\"" ++ m ++ gs"\",\"value\":\"" ++ v
  match c.ret with
  | none => head ++ gs"\"}}"
  | some r => head ++ gs"\",\"returnValueJsonpath\":" ++ renderStringMap (retOrig r) ++ gs"}}"

/-- conditions_tree.go:259-284 (`kw` is ANY) and 470-495 (`kw` is ALL), given the text of the child. (ANY writes one blank
after `"returnValueJsonpath":`, ALL none; the model writes none in both.) -/
def marshalAnyAll (kw : Str) (a : AnyAll) (child : Str) : Str :=
  let head := gs"{\"" ++ kw ++ gs"\":{\"parentJsonpathAttribute\":\"" ++ orOrig a.parent a.parentOrig ++ gs"\","
  let mid := if a.ret.length > 0 then gs"\"returnValueJsonpath\":" ++ renderStringMap (retOrig a.ret) ++ gs"," else []
  head ++ mid ++ gs"\"condition\":" ++ child ++ gs"}}"

/-- Comma separated texts. -/
def commaSep : List Str → Str := join gs","

mutual
/-- `json.Marshal` of a node. `And`, `Or`, `Not` (conditions_tree.go:121-123, 182-184, 222-224) use the default encoding of a
struct with one `omitempty` field; `True`, `False` are empty structs; a nil interface is `null`. -/
def marshal (env : Ext) : Node → Go Str
  | .nil => .ok gs"null"
  | .and [] => .ok gs"{}"
  | .and (n :: ns) => do let l ← marshalList env (n :: ns); pure (gs"{\"AND\":[" ++ commaSep l ++ gs"]}")
  | .or [] => .ok gs"{}"
  | .or (n :: ns) => do let l ← marshalList env (n :: ns); pure (gs"{\"OR\":[" ++ commaSep l ++ gs"]}")
  | .not .nil => .ok gs"{}"
  | .not n => do let s ← marshal env n; pure (gs"{\"NOT\":" ++ s ++ gs"}")
  | .any a n => do let s ← marshal env n; checkJson env (marshalAnyAll gs"ANY" a s)
  | .all a n => do let s ← marshal env n; checkJson env (marshalAnyAll gs"ALL" a s)
  | .tt => .ok gs"{}"
  | .ff => .ok gs"{}"
  | .cond c => checkJson env (marshalCondition c)

/-- `json.Marshal` of the elements of a slice of nodes. -/
def marshalList (env : Ext) : List Node → Go (List Str)
  | [] => .ok []
  | n :: ns => do let s ← marshal env n; let l ← marshalList env ns; pure (s :: l)
end

/-- `json.Marshal` of a `ConditionsTree` (conditions_tree.go:18-20; the nil tree is omitted). -/
def marshalConditions (env : Ext) : Option Node → Go Str
  | none => .ok gs"{}"
  | some .nil => .ok gs"{}"
  | some n => do let s ← marshal env n; pure (gs"{\"conditionsTree\":" ++ s ++ gs"}")

/-- Copy of a conditions tree: encode, decode, parse (conditions_tree.go:39-65). -/
def copyConditions (env : Env) (p : List Nat) (t : Option Node) : Go (Option Node) := do
  let s ← marshalConditions env t
  match jsonParse env s with
  | none => .error (.err .badCopy)
  | some j => unmarshalConditions env p j

/-- Copy of an expanded sender or receiver (definitions_rule.go:29-37). A `*regexp.Regexp` has no exported fields and, in
Go 1.18, no text encoding: the copy points to a zero `Regexp`, every use of which is a nil dereference, so it is `none` here. -/
def copySR (e : ExpandedSR) : ExpandedSR := { e with regexp := none }

/-- `deepcopy.Copy(&ruleCopy, rule)` (rules_load.go:68-72): JSON encode and decode. Strings and string maps survive. The tags
`json:"-,omitempty"` do not hide a field but name it "-", so the expanded lists and the flag `converted` are copied,
with unusable regular expressions; the unexported fields (predefined, ready, prepared) are not. -/
def copyRule (env : Env) (p : List Nat) (r : Rule) : Go Rule := do
  let t ← copyConditions env p r.conditions
  pure { r with conditions := t, senderList := r.senderList.map copySR, receiverList := r.receiverList.map copySR,
                resourceNameRegex := none, operationRegex := none }

end Mapl

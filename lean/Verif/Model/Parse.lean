import Verif.Model.Validate
import Verif.Model.Load

/-!
# Parsing of conditions documents

/repo/MAPL_engine/conditions_tree.go:706-984 and definitions_rule.go:132-239.
Simplification: `map[interface{}]interface{}` (YAML) and `map[string]interface{}` (JSON) are one type of object; a YAML key
that is not a string (a panic in `mapInterfaceToMapString`, conditions_tree.go:917-923) is in `Model/Keys` only.
-/

namespace Mapl

/-- definitions_rule.go:200-206. -/
def getKeys (kvs : List (Str × Json)) : List Str := kvs.map (·.1)

/-- definitions_rule.go:208-239. -/
def isConditionNode (kvs : List (Str × Json)) : Bool :=
  let keys := getKeys kvs
  let att := keys.contains gs"Attribute" || keys.contains gs"attribute"
  let met := keys.contains gs"Method" || keys.contains gs"method"
  let val := keys.contains gs"Value" || keys.contains gs"value"
  let val2 := keys.contains gs"ValueInt" || keys.contains gs"valueInt"
  let val3 := keys.contains gs"ValueFloat" || keys.contains gs"valueFloat"
  let extra := if keys.contains gs"ReturnValueJsonpath" || keys.contains gs"returnValueJsonpath" then 1 else 0
  let n := keys.length
  (n == 2 + extra && att && met) || (n == 3 + extra && att && met && val)
    || (n == 4 + extra && att && met && val && val2) || (n == 4 + extra && att && met && val && val3)
    || (n == 5 + extra && att && met && val && val2 && val3)

/-- `x.(string)`. -/
def asString : Json → Go Str
  | .str s => .ok s
  | _ => .error (.panic .typeAssertion)

/-- The value under one of two spellings of a key (definitions_rule.go:170-181). On condition nodes at most one spelling
occurs, so the order of the loop does not matter. -/
def field2 (kvs : List (Str × Json)) (a b : Str) : Option Json :=
  match lookup a kvs with
  | some v => some v
  | none => lookup b kvs

/-- Loop of definitions_rule.go:186-188: all values of a return map must be strings (a panic otherwise). -/
def stringEntries : List (Str × Json) → Go (List (Str × Str))
  | [] => .ok []
  | (k, v) :: rest => do let s ← asString v; let r ← stringEntries rest; pure ((k, s) :: r)

/-- `ConditionNode` (definitions_rule.go:124-130), without the field `ReturnValueJsonpathOriginal`, which is never read. -/
structure ConditionNode where
  attr : Str := []
  method : Str := []
  value : Str := []
  ret : Option (List (Str × Str)) := none
  deriving DecidableEq

/-- definitions_rule.go:167-198. A `returnValueJsonpath` that is not a map leaves an empty, non-nil map. -/
def readCondition (env : Ext) (kvs : List (Str × Json)) : Go ConditionNode := do
  let attr ← match field2 kvs gs"attribute" gs"Attribute" with | some v => asString v | none => pure []
  let method ← match field2 kvs gs"method" gs"Method" with | some v => asString v | none => pure []
  let value := match field2 kvs gs"value" gs"Value" with | some v => fmtV env v | none => []
  let ret ← match field2 kvs gs"returnValueJsonpath" gs"ReturnValueJsonpath" with
    | some (.obj m) => do let l ← stringEntries m; pure (some l)
    | some _ => pure (some [])
    | none => pure none
  pure { attr := attr, method := method, value := value, ret := ret }

/-- Body of the loop of definitions_rule.go:145-161. Line 151 overwrites the result of line 150. -/
def condRetVal (env : Ext) (kv : Str × Str) : RetVal :=
  let q := replaceFirst gs"jsonpath:$" gs"$" kv.2
  { name := kv.1, orig := kv.2, query := q, prepared := jpPrepare env q, rel := hasPrefix kv.2 gs"jsonpath:$RELATIVE" }

/-- definitions_rule.go:132-165. -/
def conditionFromNode (env : Ext) (c : ConditionNode) : Condition :=
  { attr := c.attr, method := c.method, value := c.value, ret := c.ret.map (·.map (condRetVal env)) }

/-- conditions_tree.go:936-947. -/
def prepareOneConditionNode (env : Ext) (c : ConditionNode) : Go Node := do
  let c' ← validateOneCondition env (conditionFromNode env c)
  pure (.cond c')

/-- conditions_tree.go:966-984 followed by one `Append` (lines 138-140, 203-205, 230-232) for each node of the list. -/
def connective (parent : Str) (ns : List Node) : Go Node :=
  if parent = gs"AND" then .ok (.and ns)
  else if parent = gs"OR" then .ok (.or ns)
  else if parent = gs"NOT" then .ok (.not (ns.getLast?.getD .nil))
  else .error (.err .badNode)

/-- conditions_tree.go:787-806. -/
def getNodeCondition (env : Ext) (kvs : List (Str × Json)) (parent : Str) : Go Node := do
  let cn ← readCondition env kvs
  let c ← prepareOneConditionNode env cn
  if parent ≠ [] ∧ parent ≠ gs"condition" ∧ parent ≠ gs"conditionsTree" then connective parent [c]
  else pure c

/-- conditions_tree.go:904-915. -/
def isValidParent (s : Str) : Bool :=
  hasPrefix s gs"jsonpath:." || hasPrefix s gs"jsonpath:$." || hasPrefix s gs"jsonpath:$RELATIVE"

/-- conditions_tree.go:414-417, 583-586. -/
def AnyAll.setParent (a : AnyAll) (s : Str) : AnyAll :=
  { a with parentOrig := s, parent := replaceAll s gs"jsonpath:" [] }

/-- Body of the loop of conditions_tree.go:432-444, 601-614. -/
def anyRetVal (env : Ext) (kv : Str × Str) : RetVal :=
  let q := replaceFirst gs"jsonpath:$RELATIVE" gs"$" kv.2
  { name := kv.1, orig := kv.2, query := q,
    prepared := match prepareJsonpathQuery env q with | .ok p => some p | .error _ => none
    rel := hasPrefix kv.2 gs"jsonpath:$RELATIVE" }

/-- Loop of conditions_tree.go:854-862: which failure, if any, stops it. -/
def checkReturnEntries : List (Str × Json) → Go Unit
  | [] => .ok ()
  | (_, v) :: rest => do
    let s ← asString v
    if hasPrefix s gs"jsonpath:$RELATIVE" then checkReturnEntries rest else throw (.err .badNode)

/-- conditions_tree.go:842-862. The iteration order decides only which failure comes first; the resulting map is listed
in document order. -/
def readReturnMap (env : Env) (p : List Nat) : Json → Go (List RetVal)
  | .obj kvs => do
    checkReturnEntries (env.ord p kvs)
    let l ← stringEntries kvs
    pure (l.map (anyRetVal env))
  | _ => .error (.err .badNode)

/-- Loop of conditions_tree.go:833-870 over the entries in iteration order; each entry carries the result of interpreting
its value under its key (line 864). The state is the node under construction: its fields and its child. -/
def anyAllLoop (env : Env) (p : List Nat) (a : AnyAll) (child : Node) :
    List (Str × Json × Go Node) → Go (AnyAll × Node)
  | [] => .ok (a, child)
  | (key, val, sub) :: rest =>
    if key = gs"parentJsonpathAttribute" then do
      let s ← asString val
      if isValidParent s then anyAllLoop env p (a.setParent s) child rest else throw (.err .badNode)
    else if key = gs"returnValueJsonpath" then do
      let r ← readReturnMap env (1 :: p) val
      anyAllLoop env p { a with ret := r } child rest
    else do
      let n ← sub
      anyAllLoop env p a n rest

/-- conditions_tree.go:808-817. -/
def isValidAnyAllNode (keys : List Str) : Bool :=
  (keys.length == 2 || keys.length == 3) && keys.contains gs"parentJsonpathAttribute"

/-- conditions_tree.go:819-876. -/
def getAnyAllNode (env : Env) (p : List Nat) (parent : Str) (kids : List (Str × Json × Go Node)) : Go Node :=
  if isValidAnyAllNode (kids.map (·.1)) then do
    let r ← anyAllLoop env p {} .nil (env.ord (0 :: p) kids)
    if r.1.parent = [] then throw (.err .badNode)
    if parent = gs"ANY" then pure (.any r.1 r.2) else pure (.all r.1 r.2)
  else .error (.err .badNode)

/-- conditions_tree.go:925-934 followed by `InterpretNode(val, nodeType)`. -/
def singleKid (kids : List (Str × Json × Go Node)) : Go Node :=
  match kids with
  | [(_, _, sub)] => sub
  | _ => .error (.err .badNode)

/-- conditions_tree.go:750-785 (and 886-902 for NOT). `kids` is the object's entries, each with the interpretation of its
value under its key. -/
def handleMap (env : Env) (p : List Nat) (parent : Str) (kvs : List (Str × Json)) (kids : List (Str × Json × Go Node)) :
    Go Node :=
  if isConditionNode kvs then getNodeCondition env kvs parent
  else if parent = gs"ANY" ∨ parent = gs"ALL" then getAnyAllNode env p parent kids
  else if parent = gs"NOT" then do let n ← singleKid kids; pure (.not n)
  else if parent = gs"OR" ∨ parent = gs"AND" ∨ parent = [] ∨ parent = gs"condition" ∨ parent = gs"conditions"
      ∨ parent = gs"conditionsTree" then singleKid kids
  else .error (.err .badNode)

/-- All results, or the first failure (loop of conditions_tree.go:956-962). -/
def sequenceNodes : List (Go Node) → Go (List Node)
  | [] => .ok []
  | r :: rest => do let n ← r; let ns ← sequenceNodes rest; pure (n :: ns)

/-- conditions_tree.go:726-735 and 949-964. -/
def handleArray (parent : Str) (subs : List (Go Node)) : Go Node :=
  if parent = [] then
    match subs with
    | [r] => r
    | _ => .error (.err .badNode)
  else do
    let _ ← connective parent []
    let ns ← sequenceNodes subs
    connective parent ns

mutual
/-- conditions_tree.go:716-741. The recursion of the Go code interprets a value when it needs it; here the values of an
object or array are interpreted first and the results used when needed, which is the same for a pure function. `p` is the
position in the document, for the iteration oracle. -/
def interpret (env : Env) : Json → Str → List Nat → Go Node
  | .obj kvs, parent, p => handleMap env p parent kvs (interpretKids env kvs p 2)
  | .arr l, parent, p => handleArray parent (interpretList env l p 2)
  | .null, _, _ => .error (.err .badNode)
  | .bool _, _, _ => .error (.err .badNode)
  | .num _, _, _ => .error (.err .badNode)
  | .str _, _, _ => .error (.err .badNode)

/-- Values of an object interpreted under their keys. -/
def interpretKids (env : Env) : List (Str × Json) → List Nat → Nat → List (Str × Json × Go Node)
  | [], _, _ => []
  | (k, v) :: rest, p, i => (k, v, interpret env v k (i :: p)) :: interpretKids env rest p (i + 1)

/-- Elements of an array interpreted without a keyword. -/
def interpretList (env : Env) : List Json → List Nat → Nat → List (Go Node)
  | [], _, _ => []
  | v :: rest, p, i => interpret env v [] (i :: p) :: interpretList env rest p (i + 1)
end

/-- conditions_tree.go:706-714. `p` identifies this run of the parser. -/
def parseConditionsTree (env : Env) (p : List Nat) (j : Json) : Go Node := interpret env j [] p

/-- conditions_tree.go:39-65, on the decoded value: an empty object or array is a nil tree. Simplification: the code
compares the two bytes of the text, so `{ }` with a blank is not recognised there (it then fails: an empty map is no node);
the model's callers only pass compact text. -/
def unmarshalConditions (env : Env) (p : List Nat) : Json → Go (Option Node)
  | .obj [] => .ok none
  | .arr [] => .ok none
  | j => do let n ← parseConditionsTree env p j; pure (some n)

end Mapl

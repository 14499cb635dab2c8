import Verif.Model.Check

/-!
# Translation of conditions to MongoDB queries

/repo/MAPL_engine/mongo_plugin.go and rule_mongo_plugin.go. A `bson.M` is a term of the syntax below instead of a map.
Simplification: the name of a field and an operator like `$and` are never confused, although both are keys of the map.
-/

namespace Mapl

/-- The value in a comparison: mongo_plugin.go:183-189. -/
inductive MVal
  | num (x : F64)
  | str (s : Str)
  deriving DecidableEq

/-- `{op: value}`: the operators at mongo_plugin.go:193-219. -/
inductive MOp
  | eq (v : MVal)
  | ne (v : MVal)
  | gt (v : MVal)
  | gte (v : MVal)
  | lt (v : MVal)
  | lte (v : MVal)
  | exist (b : Bool)
  | regex (p : Str)
  /-- `{$not: {$regex: p}}` -/
  | notRegex (p : Str)
  deriving DecidableEq

/-- Queries. -/
inductive MQuery
  /-- `{}` -/
  | empty
  /-- `{$and: [...]}` -/
  | and (l : List MQuery)
  /-- `{$or: [...]}` -/
  | or (l : List MQuery)
  /-- `{$nor: [...]}` -/
  | nor (l : List MQuery)
  /-- `{field: {op: value}}` -/
  | field (f : Str) (op : MOp)
  /-- `{field: {$elemMatch: query}}` -/
  | elem (f : Str) (q : MQuery)

/-- `{$addFields: {new: {$objectToArray: "$" + source}}}` -/
structure MStep where
  new : Str
  source : Str
  deriving DecidableEq

/-- Every failure of the translation. -/
def notTranslatable {α : Type} : Go α := .error (.err .notTranslatable)

/-- The loop at mongo_plugin.go:250-257. -/
def collapseDots : Nat → Str → Str
  | 0, s => s
  | n + 1, s =>
    let s := replaceAll s gs".." gs"."
    if countSub s gs".." = 0 then s else collapseDots n s

/-- mongo_plugin.go:231-260. -/
def mongoRemoveQuotes (s : Str) : Go Str :=
  if countSub s gs"\"" % 2 ≠ 0 ∨ countSub s gs"'" % 2 ≠ 0 then notTranslatable
  else if countSub s gs"[" ≠ countSub s gs"]" then notTranslatable
  else
    let s := replaceAll s gs"\"" []
    let s := replaceAll s gs"'" []
    let s := replaceAll s gs"[" gs"."
    let s := replaceAll s gs"]" []
    .ok (collapseDots (countSub s gs"..") s)

/-- mongo_plugin.go:129-176: the field for an attribute, and the steps that add it. The four tests exclude each other. -/
def mongoField (base ps : Str) (k : Nat) (a : Str) : Go (Str × List MStep) :=
  if hasPrefix a gs"jsonpath:$RELATIVE" then .ok (replaceFirst gs"jsonpath:$RELATIVE." [] a, [])
  else if hasPrefix a gs"jsonpath:$VALUE" then
    if k ≥ 2 then notTranslatable
    else .ok (gs"addedField." ++ ps ++ gs".v" ++ replaceFirst gs"jsonpath:$VALUE" [] a, [⟨gs"addedField." ++ ps, ps⟩])
  else if hasPrefix a gs"jsonpath:$KEY" then
    if k ≥ 2 then notTranslatable
    else if contains a gs"jsonpath:$KEY." then notTranslatable
    else .ok (gs"addedField." ++ ps ++ gs".k", [⟨gs"addedField." ++ ps, ps⟩])
  else if hasPrefix a gs"jsonpath:$." then
    .ok (replaceFirst gs"jsonpath:$." (if base.length > 0 then base ++ gs"." else []) a, [])
  else .ok ([], [])

/-- mongo_plugin.go:183-189, 224-229. -/
def mongoValue (env : Ext) (v : Str) : MVal :=
  match env.parseFloat v with
  | some x => .num x
  | none => .str v

/-- mongo_plugin.go:191-219. -/
def mongoMatch (env : Ext) (f m v : Str) : Go MQuery :=
  let m := toUpper m
  if m = gs"EQ" then .ok (.field f (.eq (mongoValue env v)))
  else if m = gs"NEQ" ∨ m = gs"NE" then .ok (.field f (.ne (mongoValue env v)))
  else if m = gs"GT" then .ok (.field f (.gt (mongoValue env v)))
  else if m = gs"GE" then .ok (.field f (.gte (mongoValue env v)))
  else if m = gs"LT" then .ok (.field f (.lt (mongoValue env v)))
  else if m = gs"LE" then .ok (.field f (.lte (mongoValue env v)))
  else if m = gs"EX" then .ok (.field f (.exist true))
  else if m = gs"NEX" then .ok (.field f (.exist false))
  else if m = gs"RE" then .ok (.field f (.regex v))
  else if m = gs"NRE" then .ok (.and [.field f (.notRegex v), .field f (.exist true)])
  else if m = gs"IN" ∨ m = gs"NIN" then notTranslatable
  else .ok .empty

/-- mongo_plugin.go:119-222. -/
def Condition.toMongo (env : Ext) (base ps : Str) (k : Nat) (c : Condition) : Go (MQuery × List MStep) :=
  if c.attr ≠ gs"jsonpath" then notTranslatable
  else do
    let fs ← mongoField base ps k c.origAttr
    let f ← mongoRemoveQuotes fs.1
    let q ← mongoMatch env f c.method c.value
    pure (q, fs.2)

/-- mongo_plugin.go:64-66, 93-95. -/
def arrayDepth (a : AnyAll) (k : Nat) : Nat :=
  if hasSuffix a.parentOrig gs"[:]" ∨ hasSuffix a.parentOrig gs"[*]" then k + 1 else k

/-- mongo_plugin.go:70-73, 100-103. -/
def mongoParent (base : Str) (a : AnyAll) : Str :=
  let s := replaceFirst gs"jsonpath:$." (base ++ gs".") a.parentOrig
  let s := replaceFirst gs"jsonpath:$RELATIVE." [] s
  let s := replaceAll s gs"[:]" []
  replaceAll s gs"[*]" []

/-- mongo_plugin.go:79-85. -/
def mongoAll (base : Str) (a : AnyAll) (x : MQuery × List MStep) : Go (MQuery × List MStep) :=
  if x.2.length ≠ 0 then notTranslatable
  else .ok (.nor [.elem (mongoParent base a) (.nor [x.1])], x.2)

/-- mongo_plugin.go:110-116. -/
def mongoAny (base : Str) (a : AnyAll) (x : MQuery × List MStep) : MQuery × List MStep :=
  (if x.2.length = 0 then .elem (mongoParent base a) x.1 else x.1, x.2)

mutual
/-- The `ToMongoQuery` methods of nodes: mongo_plugin.go:10-222 and conditions_tree.go:641-643, 661-663. A method call on a
nil node panics. -/
def Node.toMongo (env : Ext) (base ps : Str) (k : Nat) : Node → Go (MQuery × List MStep)
  | .nil => .error (.panic .nilDeref)
  | .and ns => do let x ← toMongoNodes env base k ns; pure (.and (x.map (·.1)), x.flatMap (·.2))
  | .or ns => do let x ← toMongoNodes env base k ns; pure (.or (x.map (·.1)), x.flatMap (·.2))
  | .not n => do let x ← n.toMongo env base [] k; pure (.nor [x.1], x.2)
  | .all a n =>
    if hasPrefix a.parentOrig gs"jsonpath:$.." then notTranslatable
    else do let x ← n.toMongo env base [] (arrayDepth a k + 1); mongoAll base a x
  | .any a n =>
    if hasPrefix a.parentOrig gs"jsonpath:$.." then notTranslatable
    else do let x ← n.toMongo env base (mongoParent base a) (arrayDepth a k + 1); pure (mongoAny base a x)
  | .tt => notTranslatable
  | .ff => notTranslatable
  | .cond c => c.toMongo env base ps k

/-- The loops over children, mongo_plugin.go:15-24, 35-44. -/
def toMongoNodes (env : Ext) (base : Str) (k : Nat) : List Node → Go (List (MQuery × List MStep))
  | [] => .ok []
  | n :: ns => do let x ← n.toMongo env base [] k; let l ← toMongoNodes env base k ns; pure (x :: l)
end

/-- `MaplToMongoResult` (rule_mongo_plugin.go:12-15): a query, or steps followed by `{$match: query}`. -/
inductive MResult
  | simple (q : MQuery)
  | aggregate (steps : List MStep) (q : MQuery)

/-- rule_mongo_plugin.go:23-38, for the prepared rule. -/
def Rule.toMongo (env : Ext) (base : Str) (r : Rule) : Go MResult :=
  match r.conditions with
  | none => .ok (.simple .empty)
  | some n => do
    let x ← n.toMongo env base [] 0
    pure (if x.2.length = 0 then .simple x.1 else .aggregate x.2 x.1)

/-- rule_mongo_plugin.go:17-40: lazy preparation with the global tables (its error is dropped), then the translation. The rule
afterwards, and the result or error. -/
def RuleObj.toMongoQuery (env : Env) (global : Predef) (p : List Nat) (r : RuleObj) (base : Str) : Go (RuleObj × Go MResult) := do
  let r ← r.ensure env p global
  let rule ← deref r.prepared
  match rule.toMongo env base with
  | .error (.panic x) => .error (.panic x)
  | .error (.err e) => pure (r, .error (.err e))
  | .ok q => pure (r, .ok q)

end Mapl

import Verif.Lemmas.Go
import Verif.Model.Check

/-! # Moving a computation to another position of the iteration oracle -/

namespace Mapl

/-- `env'` at positions ending in `p'` iterates as `env` at positions ending in `p`. -/
structure Reroot (env env' : Env) (p p' : List Nat) : Prop where
  ext : env'.toExt = env.toExt
  ord : ∀ {α : Type} (q : List Nat) (l : List α), env'.ord (q ++ p') l = env.ord (q ++ p) l

variable {env env' : Env} {p p' : List Nat}

theorem Reroot.cons (h : Reroot env env' p p') (i : Nat) : Reroot env env' (i :: p) (i :: p') where
  ext := h.ext
  ord q l := by
    have := h.ord (q ++ [i]) l
    simpa using this

theorem Reroot.here (h : Reroot env env' p p') {α : Type} (l : List α) : env'.ord p' l = env.ord p l := h.ord [] l

theorem getKeyValueFromInterface_reroot (h : Reroot env env' p p') (c : Condition) (d : Json) :
    getKeyValueFromInterface env' p' c d = getKeyValueFromInterface env p c d := by
  unfold getKeyValueFromInterface
  cases d <;> simp [h.here, h.ext]

theorem testJsonpathOnInterface_reroot (h : Reroot env env' p p') (c : Condition) (m : Msg) :
    testJsonpathOnInterface env' p' c m = testJsonpathOnInterface env p c m := by
  unfold testJsonpathOnInterface
  simp only [getKeyValueFromInterface_reroot h, h.ext]

theorem testOneCondition_reroot (h : Reroot env env' p p') (c : Condition) (m : Msg) :
    testOneCondition env' p' c m = testOneCondition env p c m := by
  unfold testOneCondition testJsonpathFlag
  simp only [testJsonpathOnInterface_reroot h, h.ext]

theorem arrangeArray_reroot (h : Reroot env env' p p') (d : Json) : arrangeArray env' p' d = arrangeArray env p d := by
  cases d <;> simp [arrangeArray, h.here]

theorem queryElements_reroot (h : Reroot env env' p p') (d : Option Json) :
    ∀ (qs : List JPath) (j : Nat), queryElements env' p' d j qs = queryElements env p d j qs
  | [], _ => rfl
  | q :: qs, j => by
    simp only [queryElements, arrangeArray_reroot ((h.cons j).cons 0), h.ext, queryElements_reroot h d qs]

theorem getArrayOfInterfaces_reroot (h : Reroot env env' p p') (a : AnyAll) (m : Msg) :
    getArrayOfInterfaces env' p' a m = getArrayOfInterfaces env p a m := by
  unfold getArrayOfInterfaces
  simp only [queryElements_reroot h, ((h.cons 0).cons 0).here]

theorem getArrayOfJsons_reroot (h : Reroot env env' p p') (a : AnyAll) (m : Msg) :
    getArrayOfJsons env' p' a m = getArrayOfJsons env p a m := by
  unfold getArrayOfJsons getArrayOfJsonsFromMap
  simp only [h.ext, ((h.cons 0).cons 0).here]

theorem evalAny_reroot (h : Reroot env env' p p') (a : AnyAll) (child : Nat → Msg → Go EvalOut) (m : Msg) :
    evalAny env' p' a child m = evalAny env p a child m := by
  unfold evalAny
  simp only [getArrayOfInterfaces_reroot h, getArrayOfJsons_reroot h, h.ext]

theorem evalAll_reroot (h : Reroot env env' p p') (a : AnyAll) (child : Nat → Msg → Go EvalOut) (m : Msg) :
    evalAll env' p' a child m = evalAll env p a child m := by
  unfold evalAll
  simp only [getArrayOfInterfaces_reroot h, getArrayOfJsons_reroot h]

mutual
theorem eval_reroot {env env' : Env} : ∀ (n : Node) {p p' : List Nat} (_ : Reroot env env' p p') (m : Msg),
    eval env' n p' m = eval env n p m
  | .nil, _, _, _, _ => by simp [eval]
  | .and ns, _, _, h, m => by simp only [eval]; exact evalAnd_reroot ns h 1 [] m
  | .or ns, _, _, h, m => by simp only [eval]; exact evalOr_reroot ns h 1 false [] m
  | .not n, _, _, h, m => by simp only [eval, eval_reroot n (h.cons 1)]
  | .any a n, p, p', h, m => by
    have : (fun i m' => eval env' n (i :: p') m') = (fun i m' => eval env n (i :: p) m') := by
      funext i m'; exact eval_reroot n (h.cons i) m'
    simp only [eval, this, evalAny_reroot h]
  | .all a n, p, p', h, m => by
    have : (fun i m' => eval env' n (i :: p') m') = (fun i m' => eval env n (i :: p) m') := by
      funext i m'; exact eval_reroot n (h.cons i) m'
    simp only [eval, this, evalAll_reroot h]
  | .tt, _, _, _, _ => by simp [eval]
  | .ff, _, _, _, _ => by simp [eval]
  | .cond c, _, _, h, m => by simp only [eval, testOneCondition_reroot ((h.cons 0).cons 0)]

theorem evalAnd_reroot {env env' : Env} : ∀ (ns : List Node) {p p' : List Nat} (_ : Reroot env env' p p') (i : Nat)
    (acc : List Extra) (m : Msg), evalAnd env' ns p' i acc m = evalAnd env ns p i acc m
  | [], _, _, _, _, _, _ => by simp [evalAnd]
  | n :: ns, _, _, h, i, acc, m => by
    simp only [evalAnd, eval_reroot n (h.cons i)]
    congr 1; funext o
    split
    · rfl
    · exact evalAnd_reroot ns h _ _ _

theorem evalOr_reroot {env env' : Env} : ∀ (ns : List Node) {p p' : List Nat} (_ : Reroot env env' p p') (i : Nat)
    (f : Bool) (acc : List Extra) (m : Msg), evalOr env' ns p' i f acc m = evalOr env ns p i f acc m
  | [], _, _, _, _, _, _, _ => by simp [evalOr]
  | n :: ns, _, _, h, i, f, acc, m => by
    simp only [evalOr, eval_reroot n (h.cons i)]
    congr 1; funext o
    exact evalOr_reroot ns h _ _ _ _
end

/-! ## Parsing, copying, checking -/

theorem readReturnMap_reroot (h : Reroot env env' p p') (j : Json) : readReturnMap env' p' j = readReturnMap env p j := by
  cases j <;> simp [readReturnMap, h.here, h.ext]

theorem anyAllLoop_reroot (h : Reroot env env' p p') : ∀ (l : List (Str × Json × Go Node)) (a : AnyAll) (c : Node),
    anyAllLoop env' p' a c l = anyAllLoop env p a c l
  | [], _, _ => rfl
  | (k, v, s) :: rest, a, c => by
    simp only [anyAllLoop, readReturnMap_reroot (h.cons 1), anyAllLoop_reroot h rest]

theorem getAnyAllNode_reroot (h : Reroot env env' p p') (parent : Str) (kids : List (Str × Json × Go Node)) :
    getAnyAllNode env' p' parent kids = getAnyAllNode env p parent kids := by
  unfold getAnyAllNode
  simp only [anyAllLoop_reroot h, (h.cons 0).here]

theorem handleMap_reroot (h : Reroot env env' p p') (parent : Str) (kvs : List (Str × Json))
    (kids : List (Str × Json × Go Node)) :
    handleMap env' p' parent kvs kids = handleMap env p parent kvs kids := by
  unfold handleMap
  simp only [getAnyAllNode_reroot h, h.ext]

mutual
theorem interpret_reroot {env env' : Env} : ∀ (j : Json) (s : Str) {p p' : List Nat} (_ : Reroot env env' p p'),
    interpret env' j s p' = interpret env j s p
  | .obj kvs, s, _, _, h => by simp only [interpret, handleMap_reroot h, interpretKids_reroot kvs h]
  | .arr l, s, _, _, h => by simp only [interpret, interpretList_reroot l h]
  | .null, _, _, _, _ => by simp [interpret]
  | .bool _, _, _, _, _ => by simp [interpret]
  | .num _, _, _, _, _ => by simp [interpret]
  | .str _, _, _, _, _ => by simp [interpret]

theorem interpretKids_reroot {env env' : Env} : ∀ (kvs : List (Str × Json)) {p p' : List Nat}
    (_ : Reroot env env' p p') {i : Nat}, interpretKids env' kvs p' i = interpretKids env kvs p i
  | [], _, _, _, _ => by simp [interpretKids]
  | (k, v) :: rest, _, _, h, i => by
    simp only [interpretKids, interpret_reroot v k (h.cons i), interpretKids_reroot rest h]

theorem interpretList_reroot {env env' : Env} : ∀ (l : List Json) {p p' : List Nat}
    (_ : Reroot env env' p p') {i : Nat}, interpretList env' l p' i = interpretList env l p i
  | [], _, _, _, _ => by simp [interpretList]
  | v :: rest, _, _, h, i => by
    simp only [interpretList, interpret_reroot v [] (h.cons i), interpretList_reroot rest h]
end

theorem unmarshalConditions_reroot (h : Reroot env env' p p') (j : Json) :
    unmarshalConditions env' p' j = unmarshalConditions env p j := by
  unfold unmarshalConditions parseConditionsTree
  simp only [interpret_reroot _ _ h]

theorem copyRule_reroot (h : Reroot env env' p p') (r : Rule) : copyRule env' p' r = copyRule env p r := by
  unfold copyRule copyConditions
  simp only [h.ext, unmarshalConditions_reroot h]

theorem setPredefined_reroot (h : Reroot env env' p p') (t : Predef) (r : RuleObj) :
    r.setPredefined env' p' t = r.setPredefined env p t := by
  unfold RuleObj.setPredefined
  simp only [copyRule_reroot h, h.ext]

theorem ensure_reroot (h : Reroot env env' p p') (t : Predef) (r : RuleObj) :
    r.ensure env' p' t = r.ensure env p t := by
  unfold RuleObj.ensure
  simp only [setPredefined_reroot h]

theorem testConditions_reroot (h : Reroot env env' p p') (t : Predef) (r : RuleObj) (m : Msg) :
    r.testConditions env' t p' m = r.testConditions env t p m := by
  unfold RuleObj.testConditions testPreparedConditions
  simp only [ensure_reroot (h.cons 0), eval_reroot _ (h.cons 1)]

/-- Checking one rule does not depend on where the iteration oracle is consulted, only on its answers. -/
theorem ruleCheck_reroot (h : Reroot env env' p p') (t : Predef) (r : RuleObj) (m : Msg) :
    r.check env' t p' m = r.check env t p m := by
  unfold RuleObj.check
  simp only [ensure_reroot (h.cons 0), testConditions_reroot (h.cons 1), h.ext]

end Mapl

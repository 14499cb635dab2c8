import Verif.Model.Str

/-!
# Failures, numbers, JSON values, the environment of external functions
-/

namespace Mapl

/-- Why a Go function panics. -/
inductive Panic
  | nilDeref        -- nil pointer dereference, or method call on a nil interface
  | typeAssertion   -- failed `x.(T)`
  | outOfRange      -- index or slice bounds out of range
  deriving DecidableEq, Repr

/-- Kinds of errors returned by the code. Only the distinction error / no error is observable by the code itself;
the kinds are kept for readability. -/
inductive Err
  | undefinedRef       -- '#name' that is not predefined
  | badRegex           -- regexp.Compile failed
  | badAttribute       -- attribute not supported or malformed
  | badMethod          -- method not supported, or not for this attribute
  | badNumber          -- numeric method with a non-numeric value
  | badJsonpath        -- jsonpath.Prepare failed
  | badSubnet          -- type subnet, but not an IP or CIDR
  | badNode            -- malformed conditions document
  | badCopy            -- JSON copy of the rule failed
  | notTranslatable    -- no Mongo translation
  | badTime            -- time.Parse failed
  deriving DecidableEq, Repr

/-- How a Go function can fail: a returned error or a panic. -/
inductive Fail
  | err (e : Err)
  | panic (p : Panic)
  deriving DecidableEq, Repr

/-- Result of a Go function. -/
abbrev Go (α : Type) := Except Fail α

/-- `*p` for a pointer `p`. -/
def deref {α : Type} : Option α → Go α
  | some a => .ok a
  | none => .error (.panic .nilDeref)

/-- `if p { return err }`. -/
def failIf (p : Prop) [Decidable p] (e : Err) : Go Unit := if p then .error (.err e) else .ok ()

/-- `if p { ... }` for a body that may return an error. -/
def given (p : Prop) [Decidable p] (x : Go Unit) : Go Unit := if p then x else .ok ()

/-- A float64: NaN, an infinity, or the exact rational value of a finite float.
(+0 and -0 are identified; no operation of the code distinguishes them.) -/
inductive F64
  | nan
  | negInf
  | posInf
  | fin (q : Rat)
  deriving DecidableEq

/-- Go's `<` on float64. -/
def F64.lt : F64 → F64 → Bool
  | .nan, _ => false
  | _, .nan => false
  | .negInf, .negInf => false
  | .negInf, _ => true
  | _, .negInf => false
  | .posInf, _ => false
  | _, .posInf => true
  | .fin a, .fin b => a < b

/-- Go's `==` on float64. -/
def F64.eq : F64 → F64 → Bool
  | .nan, _ => false
  | a, b => a = b

/-- Go's `<=` on float64. -/
def F64.le (a b : F64) : Bool := a.lt b || a.eq b

/-- A JSON value as produced by `json.Unmarshal` into `interface{}`. Objects are association lists with distinct keys. -/
inductive Json
  | null
  | bool (b : Bool)
  | num (x : F64)
  | str (s : Str)
  | arr (l : List Json)
  | obj (kvs : List (Str × Json))

/-- External functions that are functions of their arguments. Theorems quantify over all of them. -/
structure Ext where
  /-- `regexp.Compile(p)` succeeds -/
  reOk : Str → Bool
  /-- `regexp.MustCompile(p).MatchString(s)` -/
  reMatch : Str → Str → Bool
  /-- `strconv.ParseFloat(s, 64)`; `none` on error -/
  parseFloat : Str → Option F64
  /-- rounding of a rational to float64 (constants and products) -/
  rnd : Rat → F64
  /-- `fmt.Sprintf("%v", x)` for a float64 -/
  fmtFloat : F64 → Str
  /-- `fmt.Sprintf("%v", x)` for a map or a slice -/
  fmtComposite : Json → Str
  /-- `json.Marshal` of a generic value, as text -/
  jsonMarshal : Json → Str
  /-- `json.Unmarshal` into `interface{}` -/
  jsonUnmarshal : Str → Option Json
  /-- `yalp/jsonpath.Prepare(q)` succeeds -/
  jpOk : Str → Bool
  /-- the prepared query applied to a value: result and error text (`none` is a nil error) -/
  jpGet : Str → Json → Json × Option Str
  /-- `bhmj/jsonslice.Get(data, query)`: result and whether the error is non-nil -/
  jsGet : Str → Str → Str × Bool
  /-- `tidwall/pretty.Ugly` -/
  ugly : Str → Str
  /-- `fmt.Sprintf("%x", md5.Sum(data))` -/
  md5 : Str → Str

/-- The environment: external functions and the one source of nondeterminism. -/
structure Env extends Ext where
  /-- Order in which a `range` over a map visits its entries; the first argument identifies the dynamic
  occurrence of the range statement. -/
  ord : {α : Type} → List Nat → List α → List α

instance : Coe Env Ext := ⟨Env.toExt⟩

/-- The only fact about map iteration that holds in Go: every entry is visited exactly once. -/
def Env.OrdOk (env : Env) : Prop := ∀ {α : Type} (p : List Nat) (l : List α), (env.ord p l).Perm l

/-- Go's `*` on float64. -/
def fmul (env : Ext) : F64 → F64 → F64
  | .nan, _ => .nan
  | _, .nan => .nan
  | .fin a, .fin b => env.rnd (a * b)
  | .fin a, .posInf => if a = 0 then .nan else if 0 < a then .posInf else .negInf
  | .fin a, .negInf => if a = 0 then .nan else if 0 < a then .negInf else .posInf
  | .posInf, .fin a => if a = 0 then .nan else if 0 < a then .posInf else .negInf
  | .negInf, .fin a => if a = 0 then .nan else if 0 < a then .negInf else .posInf
  | .posInf, .posInf => .posInf
  | .negInf, .negInf => .posInf
  | .posInf, .negInf => .negInf
  | .negInf, .posInf => .negInf

/-- `fmt.Sprintf("%v", x)` for a generic value. -/
def fmtV (env : Ext) : Json → Str
  | .null => gs"<nil>"
  | .bool true => gs"true"
  | .bool false => gs"false"
  | .num x => env.fmtFloat x
  | .str s => s
  | .arr l => env.fmtComposite (.arr l)
  | .obj kvs => env.fmtComposite (.obj kvs)

/-- A compiled `*regexp.Regexp`, represented by its source text (compilation is a function of the text). -/
structure Re where
  src : Str
  deriving DecidableEq, Repr

/-- `regexp.Compile(p)`. -/
def compile (env : Ext) (p : Str) : Option Re := if env.reOk p then some ⟨p⟩ else none

/-- `re.MatchString(s)`, `re.Match([]byte(s))`. -/
def Re.matches (env : Ext) (re : Re) (s : Str) : Bool := env.reMatch re.src s

/-- Method call on a possibly nil `*regexp.Regexp`. -/
def matchPtr (env : Ext) (re : Option Re) (s : Str) : Go Bool :=
  match re with
  | some r => .ok (r.matches env s)
  | none => .error (.panic .nilDeref)

/-- A prepared `jsonpath.FilterFunc`, represented by the query text it was prepared from. -/
structure JPath where
  src : Str
  deriving DecidableEq, Repr

/-- `jsonpath.Prepare(q)`. -/
def jpPrepare (env : Ext) (q : Str) : Option JPath := if env.jpOk q then some ⟨q⟩ else none

end Mapl

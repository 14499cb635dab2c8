import Verif.Model.Net
import Verif.Model.JsonText
import Verif.Model.Types

/-!
# Derived fields of messages

/repo/MAPL_engine/messages_load.go:73-172. Reading files and YAML is not modelled: a list of messages is given with the fields that
the YAML decoder fills in.
-/

namespace Mapl

/-- messages_load.go:74-85. -/
def addResourceType (m : Msg) : Msg :=
  let m := { m with contextType := [] }
  if m.contextProtocol = gs"HTTP" ∨ m.contextProtocol = gs"http" then { m with contextType := gs"path" }
  else if m.contextProtocol = gs"TCP" ∨ m.contextProtocol = gs"tcp" then { m with contextType := gs"port" }
  else m

/-- What `time.Parse` returns, as far as it is used: the time of day in the zone that the text names (`Hour`, `Minute`, `Second`, `Nanosecond`
of package time, with the ranges given there), and how far that zone is ahead of UTC, in seconds. -/
structure Clock where
  hour : Fin 24
  minute : Fin 60
  second : Fin 60
  nano : Fin 1000000000
  zone : Int

/-- Go's `/` on float64, for a divisor that is finite and not zero. -/
def fdiv (env : Ext) (x : F64) (d : Rat) : F64 :=
  match x with
  | .fin a => env.rnd (a / d)
  | .nan => .nan
  | .posInf => if 0 < d then .posInf else .negInf
  | .negInf => if 0 < d then .negInf else .posInf

/-- messages_load.go:98-118. `parse` is `time.Parse(time.RFC3339, …)`; `none` is its error. -/
def addTimeInfo (env : Ext) (parse : Str → Option Clock) (m : Msg) : Go Msg :=
  match parse m.requestTime with
  | none => .error (.err .badTime)
  | some t =>
    let nanos : Int := ((t.hour.val * 60 + t.minute.val) * 60 + t.second.val) * 1000000000 + t.nano.val
    let x := env.rnd nanos
    let sec := fdiv env x 1000000000
    let min := fdiv env (fdiv env x 1000000000) 60
    let hour := fdiv env (fdiv env (fdiv env x 1000000000) 60) 60
    .ok { m with secondsFromMidnight := sec, minutesFromMidnight := min, hoursFromMidnight := hour }

/-- messages_load.go:121-132. -/
def addTimeInfoAll (env : Ext) (parse : Str → Option Clock) : List Msg → Go (List Msg)
  | [] => .ok []
  | m :: ms => do
    let m ← addTimeInfo env parse m
    let ms ← addTimeInfoAll env parse ms
    pure (m :: ms)

/-- messages_load.go:135-138. -/
def addNetIp (env : Ext) (m : Msg) : Msg :=
  { m with sourceNetIp := parseIP env m.sourceIp, destinationNetIp := parseIP env m.destinationIp }

/-- messages_load.go:164-172. -/
def addQuotes (s : Str) : Str :=
  let s := replaceAll s gs" " []
  let s := replaceAll s gs"{" gs"{\""
  let s := replaceAll s gs"," gs"\",\""
  let s := replaceAll s gs":" gs"\":\""
  replaceAll s gs"}" gs"\"}"

/-- `json.Unmarshal` into a `*map[string]string` with an ignored error. A text that is not JSON, or no object, leaves the map as it is;
an object adds its members to the map; `null` sets it to nil. (A member that is no string gets the zero value.) -/
def unmarshalLabels (env : Ext) (s : Str) (old : List (Str × Str)) : List (Str × Str) :=
  match jsonParse env s with
  | some (.obj kvs) => kvs.foldl (fun l x => setKey x.1 (match x.2 with | .str v => v | _ => []) l) old
  | some .null => []
  | _ => old

/-- messages_load.go:148-156. -/
def parseLabels (env : Ext) (m : Msg) : Msg :=
  { m with sourceLabels := unmarshalLabels env (addQuotes m.sourceLabelsJson) m.sourceLabels
           destinationLabels := unmarshalLabels env (addQuotes m.destinationLabelsJson) m.destinationLabels }

/-- messages_load.go:47-55, after the YAML text was decoded into `ms`. -/
def loadMessages (env : Ext) (parse : Str → Option Clock) (ms : List Msg) : Go (List Msg) := do
  let ms := ms.map addResourceType
  let ms ← addTimeInfoAll env parse ms
  let ms := ms.map (addNetIp env)
  pure (ms.map (parseLabels env))

end Mapl

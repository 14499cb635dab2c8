import Verif.Model.Decode
import Verif.Model.DecodeMessage

/-! # Reading files

The operating system is an argument: a `Disk` says what can be opened under a name. Bytes are `UInt8`. The parser of YAML is an argument as well,
from bytes to trees (see Model/Decode). -/

namespace Mapl

/-- What goes wrong when a file is read; `document` is an error of the function that reads the text. -/
inductive FileErr
  | noFile
  | noStat
  | eof
  | broken
  | notYaml
  | document (e : Err)
  deriving DecidableEq, Repr

/-- An open file (`*os.File`): the size that `Stat` gives, and the bytes and the error of one call of `Read` with room for `n` bytes.
Only the first `Read` after opening is described; the code makes no second one. -/
structure OpenFile where
  size : Except FileErr Nat
  read : Nat → List UInt8 × Option FileErr

/-- The length of the buffer of `bufio.NewReader` (`defaultBufSize` of Go's bufio). -/
def bufioSize : Nat := 4096

/-- The first call of `(*bufio.Reader).Read` on a new reader, with room for `n` bytes: it reads from the file at most once
(Go 1.18, bufio.go; the source is not in /repo). -/
def bufioRead (f : OpenFile) (n : Nat) : List UInt8 × Option FileErr :=
  if n = 0 then ([], none)
  else if bufioSize ≤ n then f.read n
  else
    let r := f.read bufioSize
    if r.1 = [] then ([], r.2) else (r.1.take n, none)

/-- `ReadBinaryFile` (tools.go:185-209). The bytes that were not read are those of `make`, zeros. Simplification: there is always enough memory. -/
def readBinaryFile (disk : Str → Option OpenFile) (name : Str) : List UInt8 × Option FileErr :=
  match disk name with
  | none => ([], some .noFile)
  | some f =>
    match f.size with
    | .error e => ([], some e)
    | .ok size =>
      let r := bufioRead f size
      (r.1 ++ List.replicate (size - r.1.length) 0, r.2)

/-- What the readers of documents see: the bytes under a name if `ioutil.ReadFile` can read them, and the tree of a text if it is YAML. -/
structure Disk where
  file : Str → Option (List UInt8)
  yaml : List UInt8 → Option Yaml

/-- `strings.Replace(filename, "\\", "/", -1)` (rules_load.go:48 and rules_load.go:124). -/
def slashes (name : Str) : Str := name.map fun c => if c = '\\' then '/' else c

/-- The error of reading the text, as an error of reading the file. -/
def inFile {α : Type} : Go (List α × Option Err) → Go (List α × Option FileErr)
  | .ok (l, e) => .ok (l, e.map .document)
  | .error e => .error e

/-- `YamlReadRulesFromFile` (rules_load.go:46-62). -/
def rulesFromFile (env : Env) (disk : Disk) (name : Str) : Go (List Rule × Option FileErr) :=
  match disk.file (slashes name) with
  | none => .ok ([], some .noFile)
  | some data =>
    match disk.yaml data with
    | none => .ok ([], some .notYaml)
    | some y => inFile (readRulesFile env y)

/-- `YamlReadRulesFromFileWithPredefinedStrings` (rules_load.go:122-138). -/
def rulesFromFileWithTables (env : Env) (disk : Disk) (name : Str) (t : Predef) : Go (List RuleObj × Option FileErr) :=
  match disk.file (slashes name) with
  | none => .ok ([], some .noFile)
  | some data =>
    match disk.yaml data with
    | none => .ok ([], some .notYaml)
    | some y => inFile (readRulesFileWithTables env t y)

/-- The result of a reader that returns nothing but the error if there is one. -/
def orFileErr {α : Type} : Go α → Go (Except FileErr α)
  | .ok a => .ok (.ok a)
  | .error (.err e) => .ok (.error (.document e))
  | .error (.panic p) => .error (.panic p)

/-- `YamlReadMessagesFromFile` (messages_load.go:60-72): the name is used as it is. -/
def messagesFromFile (env : Ext) (wild : F64 → Int) (parse : Str → Option Clock) (disk : Disk) (name : Str) : Go (Except FileErr (List Msg)) :=
  match disk.file name with
  | none => .ok (.error .noFile)
  | some data =>
    match disk.yaml data with
    | none => .ok (.error .notYaml)
    | some y => orFileErr (readMessages env wild parse y)

/-- `YamlReadStringListsFromFile` (predefined_lists_load.go:29-41): the name is used as it is. -/
def tablesFromFile (disk : Disk) (name : Str) : Go (Except FileErr Predef) :=
  match disk.file name with
  | none => .ok (.error .noFile)
  | some data =>
    match disk.yaml data with
    | none => .ok (.error .notYaml)
    | some y => orFileErr (readTables y)

end Mapl

import Verif.Model.Files

/-! # Files (C109, C110) -/

namespace Mapl.Spec

/-- The most that Go's `os.File` asks the operating system for in one read (`maxRW` of internal/poll): one gigabyte. -/
def oneRead : Nat := 2 ^ 30

/-- One read delivers the beginning of the content, at least one byte if there is room and content, and at most what there is room for.
At the end of the content it reports that. -/
structure Delivers (f : OpenFile) (content : List UInt8) : Prop where
  first : ∀ n, 0 < n → content ≠ [] → ∃ k, 0 < k ∧ k ≤ n ∧ f.read n = (content.take k, none)
  none : ∀ n, 0 < n → content = [] → f.read n = ([], some .eof)

/-- A regular file with this content, which nobody changes meanwhile: `Stat` gives its length, one read delivers as much as there is room for,
up to a gigabyte. -/
structure RegularFile (f : OpenFile) (content : List UInt8) : Prop where
  size : f.size = .ok content.length
  full : ∀ n, 0 < n → content ≠ [] → f.read n = (content.take (min n oneRead), Option.none)
  empty : ∀ n, 0 < n → content = [] → f.read n = ([], some .eof)

/-- The file with this name is the document. -/
def InFile (disk : Disk) (name : Str) (y : Yaml) : Prop := ∃ data, disk.file name = some data ∧ disk.yaml data = some y

end Mapl.Spec

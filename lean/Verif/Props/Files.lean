import Verif.Spec.Files

/-! # Files (C109, C110) -/

namespace Mapl.Props

open Mapl.Spec

theorem regular_delivers {f : OpenFile} {content : List UInt8} (h : RegularFile f content) : Delivers f content :=
  ⟨fun n hn hc => ⟨min n oneRead, by simp only [oneRead]; omega, Nat.min_le_left _ _, h.full n hn hc⟩, h.empty⟩

/-- C109, part: the bytes of a regular file of at most a gigabyte are its content, and there is no error. Missing: longer files
(`C109_violated_long`), files that are delivered in parts (`C109_violated_parts`) and files whose size is not known before they are read
(`C109_violated_size`). -/
theorem C109_partial (disk : Str → Option OpenFile) (name : Str) (f : OpenFile) (content : List UInt8) (hd : disk name = some f)
    (hf : RegularFile f content) (hl : content.length ≤ oneRead) : readBinaryFile disk name = (content, none) := by
  unfold readBinaryFile
  simp only [hd, hf.size]
  unfold bufioRead
  by_cases hc : content = []
  · subst hc; simp
  have h0 : content.length ≠ 0 := by simpa using hc
  simp only [h0, if_false]
  by_cases hb : bufioSize ≤ content.length
  · simp only [hb, if_true, hf.full _ (Nat.pos_of_ne_zero h0) hc, Nat.min_eq_left hl]
    simp
  · have h4 : (0 : Nat) < bufioSize := by decide
    have hm : content.length ≤ min bufioSize oneRead := by
      have : bufioSize ≤ oneRead := by decide
      omega
    simp only [hb, if_false, hf.full _ h4 hc, List.take_of_length_le hm, hc]
    simp

/-- C109: a file that cannot be opened, or whose size cannot be found out, gives an error and no bytes; nothing is read from other files. -/
theorem C109_error (disk : Str → Option OpenFile) (name : Str) (h : ∀ f, disk name = some f → ∃ e, f.size = .error e) :
    ∃ e, readBinaryFile disk name = ([], some e) := by
  unfold readBinaryFile
  cases hd : disk name with
  | none => exact ⟨_, rfl⟩
  | some f =>
    obtain ⟨e, he⟩ := h f hd
    exact ⟨e, by simp only [he]⟩

/-- C109: the number of bytes is the size that `Stat` gives, whatever was read. -/
theorem C109_length (disk : Str → Option OpenFile) (name : Str) (f : OpenFile) (content : List UInt8) (size : Nat) (hd : disk name = some f)
    (hs : f.size = .ok size) (hf : Delivers f content) : (readBinaryFile disk name).1.length = size := by
  unfold readBinaryFile
  simp only [hd, hs, List.length_append, List.length_replicate]
  have h4 : (0 : Nat) < bufioSize := by decide
  have : (bufioRead f size).1.length ≤ size := by
    unfold bufioRead
    split
    · simp
    split
    · by_cases hc : content = []
      · rw [hf.none _ (by omega) hc]; simp
      · obtain ⟨k, _, hk, hr⟩ := hf.first size (by omega) hc
        rw [hr]; simp; omega
    · dsimp only
      split
      · simp
      · simp; omega
  omega

/-- C109 is violated: whenever the first read delivers less than the whole content, the rest of the result is zeros, and no error is reported. -/
theorem C109_violated_parts (disk : Str → Option OpenFile) (name : Str) (f : OpenFile) (content : List UInt8) (k : Nat) (hd : disk name = some f)
    (hs : f.size = .ok content.length) (h0 : 0 < k) (hk : k < content.length)
    (hr : f.read (max content.length bufioSize) = (content.take k, none)) :
    readBinaryFile disk name = (content.take k ++ List.replicate (content.length - k) 0, none) := by
  have hn : content.length ≠ 0 := by omega
  have hc : content.take k ≠ [] := by
    intro h
    have hh := congrArg List.length h
    rw [List.length_take, List.length_nil] at hh
    omega
  unfold readBinaryFile
  simp only [hd, hs]
  unfold bufioRead
  simp only [hn, if_false]
  by_cases hb : bufioSize ≤ content.length
  · rw [Nat.max_eq_left hb] at hr
    simp only [hb, if_true, hr, List.length_take, Nat.min_eq_left (Nat.le_of_lt hk)]
  · rw [Nat.max_eq_right (by omega)] at hr
    simp only [hb, if_false, hr, hc, List.take_take, List.length_take]
    rw [Nat.min_eq_right (Nat.le_of_lt hk), Nat.min_eq_left (Nat.le_of_lt hk)]

/-- C109 is violated for every regular file of more than a gigabyte that has something other than a zero after that: the result is not the content,
although there is no error. -/
theorem C109_violated_long (disk : Str → Option OpenFile) (name : Str) (f : OpenFile) (content : List UInt8) (hd : disk name = some f)
    (hf : RegularFile f content) (hl : oneRead < content.length) (hz : ∃ b ∈ content.drop oneRead, b ≠ 0) :
    (readBinaryFile disk name).2 = none ∧ (readBinaryFile disk name).1.length = content.length ∧ (readBinaryFile disk name).1 ≠ content := by
  have hb : bufioSize ≤ oneRead := by decide
  have h0 : 0 < oneRead := by decide
  have hc : content ≠ [] := by
    intro h; rw [h] at hl; exact Nat.not_lt_zero _ hl
  have hm : min (max content.length bufioSize) oneRead = oneRead := by omega
  have e := C109_violated_parts disk name f content oneRead hd hf.size h0 hl (by rw [hf.full _ (by omega) hc, hm])
  refine ⟨by rw [e], C109_length disk name f content _ hd hf.size (regular_delivers hf), ?_⟩
  rw [e]
  intro h
  obtain ⟨b, hb', hne⟩ := hz
  have hd' : content.drop oneRead = List.replicate (content.length - oneRead) 0 := by
    have := congrArg (List.drop oneRead) h
    rw [List.drop_left' (by rw [List.length_take]; omega)] at this
    exact this.symm
  rw [hd'] at hb'
  exact hne (List.eq_of_mem_replicate hb')

/-- C109 is violated: a file whose size is given as zero before it is read, as for pipes and for the files under /proc, gives no bytes and no error,
whatever its content. -/
theorem C109_violated_size (disk : Str → Option OpenFile) (name : Str) (f : OpenFile) (hd : disk name = some f) (hs : f.size = .ok 0) :
    readBinaryFile disk name = ([], none) := by
  unfold readBinaryFile
  simp only [hd, hs]
  rfl

/-- A regular file with the given content. -/
def regularFile (content : List UInt8) : OpenFile where
  size := .ok content.length
  read n := if content = [] then ([], some .eof) else (content.take (min n oneRead), none)

theorem regularFile_ok (content : List UInt8) : RegularFile (regularFile content) content :=
  ⟨rfl, fun _ _ hc => by simp [regularFile, hc], fun _ _ hc => by simp [regularFile, hc]⟩

/-- There are files of every length that meet the hypotheses of `C109_partial` and of `C109_violated_long`. -/
example : readBinaryFile (fun n => if n = gs"a.json" then some (regularFile [123, 125]) else none) (gs"a.json") = ([123, 125], none) :=
  C109_partial _ _ _ _ rfl (regularFile_ok _) (by decide)

example : ∃ content, oneRead < content.length ∧ RegularFile (regularFile content) content ∧ ∃ b ∈ content.drop oneRead, b ≠ 0 := by
  generalize oneRead = n
  refine ⟨List.replicate n 1 ++ [1], ?_, regularFile_ok _, 1, ?_, by decide⟩
  · rw [List.length_append, List.length_replicate, List.length_singleton]; exact Nat.lt_succ_self n
  · rw [List.drop_left' List.length_replicate]
    exact List.mem_singleton.2 rfl

/-- A file under /proc: no size, but content. -/
example : ∃ f : OpenFile, f.size = .ok 0 ∧ Delivers f [123, 125] :=
  ⟨{ size := .ok 0, read := fun n => ([123, 125].take n, none) }, rfl, fun n hn _ => ⟨n, hn, Nat.le_refl _, rfl⟩, fun _ _ h => by cases h⟩

/-! ## Documents -/

theorem slashes_same {name : Str} (h : '\\' ∉ name) : slashes name = name := by
  unfold slashes
  conv => rhs; rw [← List.map_id name]
  refine List.map_congr_left fun c hc => ?_
  have : c ≠ '\\' := fun e => h (e ▸ hc)
  simp [this]

/-- C110, part: the functions that read messages and tables from a file give what the functions that read the same text give, and so do those that read
rules if the name has no backslash and no key is repeated. Missing: rules from files whose names have backslashes (`C110_violated_backslash`). -/
theorem C110_partial (env : Env) (wild : F64 → Int) (parse : Str → Option Clock) (disk : Disk) (name : Str) (t : Predef) (data : List UInt8) (y : Yaml)
    (hd : disk.file name = some data) (hy : disk.yaml data = some y) :
    ('\\' ∉ name → testYaml y = true → ∀ rs e, readRules env y = .ok (rs, e) → rulesFromFile env disk name = .ok (rs, e.map .document)) ∧
    ('\\' ∉ name → testYaml y = true → ∀ rs e, readRulesWithTables env t y = .ok (rs, e) → rulesFromFileWithTables env disk name t = .ok (rs, e.map .document)) ∧
    (∀ ms, readMessages env.toExt wild parse y = .ok ms → messagesFromFile env.toExt wild parse disk name = .ok (.ok ms)) ∧
    (∀ e, readMessages env.toExt wild parse y = .error (.err e) → messagesFromFile env.toExt wild parse disk name = .ok (.error (.document e))) ∧
    (∀ p, readTables y = .ok p → tablesFromFile disk name = .ok (.ok p)) ∧
    (∀ e, readTables y = .error (.err e) → tablesFromFile disk name = .ok (.error (.document e))) := by
  refine ⟨fun hn ht rs e h => ?_, fun hn ht rs e h => ?_, fun ms h => ?_, fun e h => ?_, fun p h => ?_, fun e h => ?_⟩
  · simp only [rulesFromFile, slashes_same hn, hd, hy, readRulesFile, ht, if_true, h, inFile]
  · simp only [rulesFromFileWithTables, slashes_same hn, hd, hy, readRulesFileWithTables, ht, if_true, h, inFile]
  · simp only [messagesFromFile, hd, hy, h, orFileErr]
  · simp only [messagesFromFile, hd, hy, h, orFileErr]
  · simp only [tablesFromFile, hd, hy, h, orFileErr]
  · simp only [tablesFromFile, hd, hy, h, orFileErr]

/-- C110: a file that is not there, or is not YAML, is an error of all four functions, with no rules, messages or tables, and no crash. -/
theorem C110_error (env : Env) (wild : F64 → Int) (parse : Str → Option Clock) (disk : Disk) (name : Str) (t : Predef)
    (h : ∀ data, disk.file name = some data → disk.yaml data = none) :
    ∃ e, ('\\' ∉ name → rulesFromFile env disk name = .ok ([], some e) ∧ rulesFromFileWithTables env disk name t = .ok ([], some e)) ∧
      messagesFromFile env.toExt wild parse disk name = .ok (.error e) ∧ tablesFromFile disk name = .ok (.error e) := by
  cases hd : disk.file name with
  | none =>
    refine ⟨.noFile, fun hn => ⟨?_, ?_⟩, by simp only [messagesFromFile, hd], by simp only [tablesFromFile, hd]⟩
    · simp only [rulesFromFile, slashes_same hn, hd]
    · simp only [rulesFromFileWithTables, slashes_same hn, hd]
  | some data =>
    have hy := h data hd
    refine ⟨.notYaml, fun hn => ⟨?_, ?_⟩, by simp only [messagesFromFile, hd, hy], by simp only [tablesFromFile, hd, hy]⟩
    · simp only [rulesFromFile, slashes_same hn, hd, hy]
    · simp only [rulesFromFileWithTables, slashes_same hn, hd, hy]

/-- C110: a repeated key anywhere in the document is an error of the functions that read rules from a file. -/
theorem C110_repeated (env : Env) (disk : Disk) (name : Str) (t : Predef) (data : List UInt8) (y : Yaml) (hn : '\\' ∉ name)
    (hd : disk.file name = some data) (hy : disk.yaml data = some y) (ht : testYaml y = false) :
    (∃ e, rulesFromFile env disk name = .ok ([], some e)) ∧ ∃ e, rulesFromFileWithTables env disk name t = .ok ([], some e) := by
  constructor
  · exact ⟨_, by simp only [rulesFromFile, slashes_same hn, hd, hy, readRulesFile, ht, inFile]; rfl⟩
  · exact ⟨_, by simp only [rulesFromFileWithTables, slashes_same hn, hd, hy, readRulesFileWithTables, ht, inFile]; rfl⟩

/-- One file, with a list of rules, and one with a repeated key. -/
def oneDisk : Disk where
  file n := if n = gs"rules/a.yaml" then some [1] else if n = gs"twice.yaml" then some [2] else none
  yaml
    | [1] => some (.map [(gs"rules", .seq [])])
    | [2] => some (.map [(gs"rules", .seq []), (gs"rules", .seq [])])
    | _ => none

/-- The hypotheses of `C110_partial`, `C110_repeated` and `C110_error` can be met. -/
example : '\\' ∉ gs"rules/a.yaml" ∧ oneDisk.file (gs"rules/a.yaml") = some [1] ∧ oneDisk.yaml [1] = some (.map [(gs"rules", .seq [])]) ∧
    testYaml (.map [(gs"rules", .seq [])]) = true := by
  refine ⟨by decide, by decide, rfl, by decide⟩

example : '\\' ∉ gs"twice.yaml" ∧ oneDisk.file (gs"twice.yaml") = some [2] ∧ testYaml (.map [(gs"rules", .seq []), (gs"rules", .seq [])]) = false ∧
    oneDisk.file (gs"b.yaml") = none := by
  refine ⟨by decide, by decide, by decide, by decide⟩

/-- C110 is violated for every name with a backslash: the rules are those of the file whose name has slashes in their place, whatever is in the file
of that name. -/
theorem C110_violated_backslash (env : Env) (disk : Disk) (name : Str) (t : Predef) (hn : '\\' ∈ name) :
    slashes name ≠ name ∧ rulesFromFile env disk name = rulesFromFile env disk (slashes name) ∧
      rulesFromFileWithTables env disk name t = rulesFromFileWithTables env disk (slashes name) t ∧
      ∀ data, ∀ disk' : Disk, disk' = { disk with file := fun n => if n = name then some data else disk.file n } →
        rulesFromFile env disk' name = rulesFromFile env disk name ∧
        rulesFromFileWithTables env disk' name t = rulesFromFileWithTables env disk name t := by
  have hs : '\\' ∉ slashes name := by
    unfold slashes
    intro h
    obtain ⟨c, _, hc⟩ := List.mem_map.1 h
    split at hc
    · exact absurd hc (by decide)
    · contradiction
  have hne : slashes name ≠ name := fun h => hs (by rw [h]; exact hn)
  have hss : slashes (slashes name) = slashes name := slashes_same hs
  refine ⟨hne, ?_, ?_, ?_⟩
  · simp only [rulesFromFile, hss]
  · simp only [rulesFromFileWithTables, hss]
  · rintro data disk' rfl
    simp only [rulesFromFile, rulesFromFileWithTables, if_neg hne, and_self]

/-- The same name for rules and for messages: two different files. -/
example : (∃ data, oneDisk.file (slashes (gs"rules\\a.yaml")) = some data) ∧ oneDisk.file (gs"rules\\a.yaml") = none := by
  refine ⟨⟨[1], by decide⟩, by decide⟩

end Mapl.Props

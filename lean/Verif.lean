import Verif.Model.Load
import Verif.Model.Eval
import Verif.Model.Parse
import Verif.Model.Marshal
import Verif.Model.Check
import Verif.Demo
import Verif.Props.Decision
import Verif.Props.Match
import Verif.Props.Tree
import Verif.Props.Names
import Verif.Props.Validate
import Verif.Spec.Ints
import Verif.Spec.Leaf
import Verif.Props.Hash
import Verif.Props.Leaf
import Verif.Props.Synonyms
import Verif.Props.Units
import Verif.Lemmas.Ints
import Verif.Lemmas.Reroot
import Verif.Lemmas.Report
import Verif.Lemmas.Match
import Verif.Props.Documents
import Verif.Props.Copy
import Verif.Props.Crash
import Verif.Props.State
import Verif.Props.Parse
import Verif.Props.Mongo
import Verif.Props.Coverage
import Verif.Props.Split
import Verif.Props.Messages
import Verif.Props.Concurrent
import Verif.Props.InPlace
import Verif.Props.Lists
import Verif.Props.Identity
import Verif.Props.Display
import Verif.Spec.Returns
import Verif.Props.Returns
import Verif.Model.Loading
import Verif.Props.Loading
import Verif.Props.Numbers
import Verif.Props.Lower
import Verif.Spec.Texts
import Verif.Props.Texts
import Verif.Spec.Policy
import Verif.Lemmas.Policy
import Verif.Props.Policy
import Verif.Spec.Frame
import Verif.Lemmas.Frame
import Verif.Props.Frame
import Verif.Spec.Refactor
import Verif.Lemmas.Refactor
import Verif.Lemmas.Trees
import Verif.Lemmas.Elements
import Verif.Lemmas.TreeLaws
import Verif.Props.Refactor
import Verif.Lemmas.Lists
import Verif.Props.SplitLists
import Verif.Model.Decode
import Verif.Spec.Decode
import Verif.Lemmas.Decode
import Verif.Props.Decode
import Verif.Lemmas.Texts
import Verif.Props.Loads
import Verif.Lemmas.Tables
import Verif.Props.Tables
import Verif.Props.Compound
import Verif.Model.DecodeMessage
import Verif.Spec.DecodeMessage
import Verif.Lemmas.DecodeMessage
import Verif.Props.DecodeMessage
import Verif.Spec.Bare
import Verif.Lemmas.Bare
import Verif.Props.Bare
import Verif.Lemmas.JsonPrefix
import Verif.Model.JsonRule
import Verif.Spec.JsonRule
import Verif.Lemmas.JsonRule
import Verif.Lemmas.JsonYaml
import Verif.Props.JsonRule
import Verif.Model.Bson
import Verif.Spec.Bson
import Verif.Spec.JsonGrammar
import Verif.Lemmas.Shuffle
import Verif.Lemmas.Bson
import Verif.Lemmas.JsonGrammar
import Verif.Props.Bson
import Verif.Props.JsonGrammar
import Verif.Props.Stored
import Verif.Props.Fields
import Verif.Props.Memory
import Verif.Props.MemoryResults
import Verif.Props.MemoryRules
import Verif.Props.MemoryFrame
import Verif.Props.MemoryOutside
import Verif.Props.MemoryPaths
import Verif.Props.Shared
import Verif.Props.Keys
import Verif.Props.Address
import Verif.Spec.Place
import Verif.Lemmas.Place
import Verif.Props.Place
import Verif.Model.InPlace
import Verif.Spec.InPlace
import Verif.Lemmas.InPlace
import Verif.Props.Again
import Verif.Spec.Narrow
import Verif.Props.Narrow
import Verif.Spec.Find
import Verif.Lemmas.Added
import Verif.Lemmas.Find
import Verif.Props.Find
import Verif.Props.Paths
import Verif.Props.Entries
import Verif.Model.Nodes
import Verif.Spec.Nodes
import Verif.Lemmas.Nodes
import Verif.Props.Nodes
import Verif.Spec.Panics
import Verif.Lemmas.OnlyPanics
import Verif.Lemmas.Panics
import Verif.Props.Panics
import Verif.Spec.Harmless
import Verif.Spec.Manual
import Verif.Props.Harmless
import Verif.Props.Manual
import Verif.Spec.Examples
import Verif.Props.Examples
import Verif.Props.Repeated
import Verif.Model.Original
import Verif.Props.SplitValues
import Verif.Props.FieldLabels
import Verif.Spec.Hours
import Verif.Props.Hours
import Verif.Spec.Reported
import Verif.Lemmas.Reported
import Verif.Props.Reported
import Verif.Spec.Deep
import Verif.Lemmas.Deep
import Verif.Props.Deep
import Verif.Spec.Alone
import Verif.Props.Alone
import Verif.Spec.Grow
import Verif.Props.Grow
import Verif.Spec.WriteOut
import Verif.Props.WriteOut
import Verif.Spec.Runs
import Verif.Props.Runs
import Verif.Spec.Together
import Verif.Props.Together
import Verif.Model.Files
import Verif.Spec.Files
import Verif.Props.Files
import Verif.Props.FilePolicy

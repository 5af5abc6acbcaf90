import Verif.Common.Sched
import Verif.Common.Sort
import Verif.Common.Pdq
import Verif.Common.GoMap
import Verif.Common.Strings
import Verif.Rbac.Theorems
import Verif.Common.All2
import Verif.Common.GoStrings
import Verif.Webhook.Theorems
import Verif.Crd.Schema
import Verif.Desc.Theorems
import Verif.Common.Text
import Verif.Markers.RegistryTheorems
import Verif.Markers.Scanner
import Verif.Markers.Parse
import Verif.Markers.ParseSpec
import Verif.Markers.ParseLemmas
import Verif.Markers.ParseScalar
import Verif.Markers.ParseCompound
import Verif.Markers.ParseSuffix
import Verif.Markers.ParseArgs
import Verif.Markers.ParseTheorems
import Verif.Markers.Raw
import Verif.Markers.ParseExamples
import Verif.Crd.SchemaSpec
import Verif.Crd.AllOf
import Verif.Crd.AllOfBase
import Verif.Crd.AllOfSem
import Verif.Crd.AllOfWalk
import Verif.Crd.AllOfCollect
import Verif.Crd.AllOfTheorems
import Verif.Crd.Refs
import Verif.Crd.Flat
import Verif.Crd.FlatSteps
import Verif.Crd.FlatSpec
import Verif.Crd.FlatTerm
import Verif.Crd.FlatRefs
import Verif.Crd.FlatExpand
import Verif.Crd.FlatSem
import Verif.Crd.FlatTheorems
import Verif.Crd.FlatCut
import Verif.Crd.FlatCutTheorems
import Verif.Crd.Marks
import Verif.Crd.MarksSpec
import Verif.Crd.MarksLemmas
import Verif.Crd.MarksOrder
import Verif.Crd.MarksTheorems
import Verif.Loader.Paths
import Verif.Crd.Gen
import Verif.Crd.GenSpec
import Verif.Crd.GenLemmas
import Verif.Crd.GenTheorems
import Verif.Crd.GenMore
import Verif.Crd.EncSpec
import Verif.Crd.EncTheorems
import Verif.Crd.EncExamples
import Verif.Crd.Need
import Verif.Crd.NeedSpec
import Verif.Crd.NeedRefs
import Verif.Crd.NeedLemmas
import Verif.Crd.NeedTerm
import Verif.Crd.NeedTheorems
import Verif.Crd.NeedExamples
import Verif.Crd.BreakSpec
import Verif.Crd.BreakMarks
import Verif.Crd.BreakLemmas
import Verif.Crd.BreakTheorems
import Verif.Crd.BreakEnd
import Verif.Crd.AliasExamples
import Verif.Crd.FromSource
import Verif.Crd.FromSourceSpec
import Verif.Crd.FromSourceTheorems
import Verif.Crd.FromSourceExamples
import Verif.Crd.StructSpec
import Verif.Crd.StructMerge
import Verif.Crd.StructFlat
import Verif.Crd.StructRaw
import Verif.Crd.StructGen
import Verif.Crd.StructTheorems
import Verif.Crd.RegexSpec
import Verif.Crd.KnownSpec
import Verif.Crd.KnownTheorems
import Verif.CrdGen.Model
import Verif.CrdGen.Spec
import Verif.CrdGen.Lemmas
import Verif.CrdGen.Lemmas2
import Verif.CrdGen.Theorems
import Verif.CrdGen.Examples
import Verif.CrdGen.Generate
import Verif.CrdGen.GenerateSpec
import Verif.CrdGen.GenerateLemmas
import Verif.CrdGen.GenerateTheorems
import Verif.CrdGen.GenerateExamples
import Verif.DeepCopy.Model
import Verif.DeepCopy.Go
import Verif.DeepCopy.Spec
import Verif.DeepCopy.Lemmas
import Verif.DeepCopy.Lemmas2
import Verif.DeepCopy.Lemmas3
import Verif.DeepCopy.Lemmas4
import Verif.DeepCopy.Lemmas5
import Verif.DeepCopy.Lemmas6
import Verif.DeepCopy.Theorems
import Verif.DeepCopy.Examples
import Verif.DeepCopy.SupportedSpec
import Verif.DeepCopy.SupportedTheorems
import Verif.DeepCopy.SupportedExamples
import Verif.DeepCopy.Imports
import Verif.DeepCopy.ImportsSpec
import Verif.DeepCopy.ImportsTheorems
import Verif.DeepCopy.ImportsExamples
import Verif.DeepCopy.Enable
import Verif.DeepCopy.EnableSpec
import Verif.DeepCopy.EnableTheorems
import Verif.DeepCopy.EnableExamples
import Verif.Loader.Check
import Verif.Loader.CheckSpec
import Verif.Loader.CheckLemmas
import Verif.Loader.CheckLemmas2
import Verif.Loader.CheckTheorems
import Verif.Loader.Errors
import Verif.Loader.ErrorsTheorems
import Verif.Loader.Roots
import Verif.Loader.RootsTheorems
import Verif.Loader.Load
import Verif.Loader.LoadTheorems
import Verif.Loader.Refs
import Verif.Loader.RefsTheorems
import Verif.Markers.Doc
import Verif.Markers.DocTheorems
import Verif.Markers.Collect
import Verif.Markers.CollectSpec
import Verif.Markers.CollectLemmas
import Verif.Markers.CollectLemmas2
import Verif.Markers.CollectLemmas3
import Verif.Markers.CollectTheorems
import Verif.Markers.CollectExamples
import Verif.Markers.Cache
import Verif.Markers.CacheTheorems
import Verif.Markers.Each
import Verif.Patch.Yaml
import Verif.Patch.YamlLemmas
import Verif.Patch.YamlSpec
import Verif.Patch.YamlTheorems
import Verif.Patch.Crd
import Verif.Patch.CrdSpec
import Verif.Patch.CrdTheorems
import Verif.Patch.Generate
import Verif.Patch.GenerateTheorems
import Verif.Genall.Options
import Verif.Genall.OptionsSpec
import Verif.Genall.OptionsLemmas
import Verif.Genall.OptionsTheorems
import Verif.Genall.OptionsExamples
import Verif.Genall.Run
import Verif.Genall.RunTheorems
import Verif.Genall.Output
import Verif.Genall.OutputTheorems
import Verif.Genall.WriteYaml
import Verif.Genall.WriteYamlSpec
import Verif.Genall.WriteYamlTheorems
import Verif.Genall.CrdFiles
import Verif.Markers.Define
import Verif.Markers.DefineTheorems
import Verif.Help.Model
import Verif.Help.Spec
import Verif.Help.Lemmas
import Verif.Help.Theorems
import Verif.Help.Examples
import Verif.Help.Pretty
import Verif.Help.PrettyTheorems
import Verif.Help.DetailTheorems
import Verif.Markers.Shipped
import Verif.Markers.ShippedTable
import Verif.Markers.ShippedTheorems
import Verif.Markers.SourceTheorems
import Verif.Markers.SourceShipped
import Verif.Markers.SourceSpec
import Verif.Markers.SourceShippedTheorems
import Verif.Markers.Info
import Verif.Markers.InfoSpec
import Verif.Markers.InfoTheorems
import Verif.Markers.InfoExamples
import Verif.Rbac.Source
import Verif.Rbac.SourceSpec
import Verif.Rbac.SourceTheorems
import Verif.Rbac.SourceExamples
import Verif.Markers.Package
import Verif.Markers.PackageTheorems
import Verif.Apply.Model
import Verif.Apply.Spec
import Verif.Apply.Theorems
import Verif.Genall.Header
import Verif.Helpgen.Model
import Verif.Helpgen.Spec
import Verif.Helpgen.Theorems
import Verif.Genall.OptionTable
import Verif.Genall.OptionTableTheorems
import Verif.Scaffold.Model
import Verif.Scaffold.Spec
import Verif.Scaffold.Theorems
import Verif.Patch.Directory
import Verif.Patch.DirectoryTheorems
import Verif.Genall.Main
import Verif.Genall.MainTheorems
import Verif.Markers.Manual
import Verif.Genall.OptionManual
import Verif.Json.Spec
import Verif.Json.Model
import Verif.Json.Lemmas
import Verif.Json.Decode
import Verif.Json.Encode
import Verif.Json.Default
import Verif.Json.DefaultSpec
import Verif.Json.DefaultLemmas
import Verif.Json.DefaultTheorems
import Verif.Json.Examples
import Verif.Markers.SourceList
import Verif.Markers.Args
import Verif.Markers.ArgSpec
import Verif.Markers.ArgLemmas
import Verif.Webhook.Source
import Verif.Webhook.SourceSpec
import Verif.Webhook.SourceTheorems
import Verif.Webhook.SourceExamples
import Verif.Markers.SourceWritten
import Verif.CrdGen.Source
import Verif.CrdGen.SourceSpec
import Verif.CrdGen.SourceTheorems
import Verif.CrdGen.SourceExamples
import Verif.Crd.FlatGrow
import Verif.CrdGen.Printed
import Verif.CrdGen.EnforcedSpec
import Verif.CrdGen.Enforced
import Verif.CrdGen.EnforcedSource
import Verif.CrdGen.EnforcedExamples
import Verif.Markers.OnExamples
import Verif.DeepCopy.Source
import Verif.DeepCopy.SourceSpec
import Verif.DeepCopy.SourceTheorems
import Verif.DeepCopy.SourceExamples
import Verif.Markers.CommentSpec
import Verif.Markers.CommentLemmas
import Verif.Apply.Source
import Verif.Apply.SourceSpec
import Verif.Apply.SourceTheorems
import Verif.Apply.SourceExamples
import Verif.Patch.Source
import Verif.Patch.SourceSpec
import Verif.Patch.SourceTheorems
import Verif.Patch.SourceExamples
import Verif.Help.ShippedTable
import Verif.Help.Shipped
import Verif.Help.ShippedTheorems
import Verif.Help.ShippedDeprecated
import Verif.Genall.Artifacts
import Verif.Genall.ArtifactsSpec
import Verif.Genall.ArtifactsTheorems
import Verif.Genall.ArtifactsExamples
import Verif.Genall.Again
import Verif.Genall.Crash
import Verif.Genall.AgainSpec
import Verif.Genall.AgainTheorems
import Verif.Genall.AgainExamples
import Verif.Genall.CrashTheorems
import Verif.Genall.CrashExamples
import Verif.Genall.StdoutTheorems
import Verif.Genall.StdoutExamples
import Verif.Crd.GenSame
import Verif.CrdGen.SameSpec
import Verif.CrdGen.SameTheorems
import Verif.CrdGen.SameExamples
import Verif.Patch.AgreeSpec
import Verif.Patch.AgreeTheorems
import Verif.Patch.AgreeExamples
import Verif.Patch.AgainSpec
import Verif.Patch.AgainTheorems
import Verif.Patch.AgainExamples
import Verif.Rbac.TogetherTheorems
import Verif.Rbac.TogetherExamples
import Verif.Webhook.TogetherTheorems
import Verif.Webhook.TogetherExamples
import Verif.Markers.SourcePerm
import Verif.DeepCopy.AloneTheorems
import Verif.DeepCopy.AloneExamples
import Verif.Apply.AloneTheorems
import Verif.Apply.AloneExamples

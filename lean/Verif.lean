import Verif.Base.Json
import Verif.Base.Res
import Verif.Base.Str
import Verif.Model.Args
import Verif.Model.Build
import Verif.Model.Cli
import Verif.Model.Cmds
import Verif.Model.Container
import Verif.Model.Format
import Verif.Model.Fragment
import Verif.Model.Gabs
import Verif.Model.GoDefaults
import Verif.Model.GoHeap
import Verif.Model.GoMerge
import Verif.Model.GoResolver
import Verif.Model.GoScan
import Verif.Model.GoTypes
import Verif.Model.GoWhole
import Verif.Model.JsonText
import Verif.Model.Load
import Verif.Model.Main
import Verif.Model.Merge
import Verif.Model.OAPI
import Verif.Model.Pkgs
import Verif.Model.Pointer
import Verif.Model.Process
import Verif.Model.PtrJson
import Verif.Model.Read
import Verif.Model.Regex
import Verif.Model.Resolver
import Verif.Model.Route
import Verif.Model.Scan
import Verif.Model.SliceHeap
import Verif.Model.SpecJson
import Verif.Model.SpecUtil
import Verif.Model.Specs
import Verif.Model.System
import Verif.Model.Tag
import Verif.Model.TagText
import Verif.Model.Types
import Verif.Model.Url
import Verif.Model.Values
import Verif.Model.Writers
import Verif.Proofs.Args
import Verif.Proofs.Build
import Verif.Proofs.Check
import Verif.Proofs.Cli
import Verif.Proofs.CmdText
import Verif.Proofs.Cmds
import Verif.Proofs.Crash1
import Verif.Proofs.Crash2
import Verif.Proofs.Crash3
import Verif.Proofs.Crash4
import Verif.Proofs.Defaults
import Verif.Proofs.Defaults2
import Verif.Proofs.Defaults3
import Verif.Proofs.Defaults4
import Verif.Proofs.Det1
import Verif.Proofs.Det10
import Verif.Proofs.Det11
import Verif.Proofs.Det12
import Verif.Proofs.Det13
import Verif.Proofs.Det2
import Verif.Proofs.Det3
import Verif.Proofs.Det4
import Verif.Proofs.Det5
import Verif.Proofs.Det6
import Verif.Proofs.Det7
import Verif.Proofs.Det8
import Verif.Proofs.Det9
import Verif.Proofs.Dots
import Verif.Proofs.Extract
import Verif.Proofs.Flatten
import Verif.Proofs.Fragment
import Verif.Proofs.Fuel
import Verif.Proofs.Gabs
import Verif.Proofs.Gabs2
import Verif.Proofs.GoHeap1
import Verif.Proofs.GoHeap10
import Verif.Proofs.GoHeap11
import Verif.Proofs.GoHeap12
import Verif.Proofs.GoHeap13
import Verif.Proofs.GoHeap14
import Verif.Proofs.GoHeap15
import Verif.Proofs.GoHeap16
import Verif.Proofs.GoHeap17
import Verif.Proofs.GoHeap2
import Verif.Proofs.GoHeap3
import Verif.Proofs.GoHeap4
import Verif.Proofs.GoHeap5
import Verif.Proofs.GoHeap6
import Verif.Proofs.GoHeap7
import Verif.Proofs.GoHeap8
import Verif.Proofs.GoHeap9
import Verif.Proofs.GoString
import Verif.Proofs.GoTypes1
import Verif.Proofs.GoTypes2
import Verif.Proofs.GoTypes3
import Verif.Proofs.GoTypes4
import Verif.Proofs.GoWhole
import Verif.Proofs.HostName
import Verif.Proofs.Idle
import Verif.Proofs.Irrelevant
import Verif.Proofs.Json
import Verif.Proofs.JsonClone
import Verif.Proofs.JsonCompact
import Verif.Proofs.JsonDecode
import Verif.Proofs.JsonEnc
import Verif.Proofs.JsonFormat
import Verif.Proofs.JsonIndent
import Verif.Proofs.JsonScan
import Verif.Proofs.JsonSound
import Verif.Proofs.JsonStr
import Verif.Proofs.Load
import Verif.Proofs.Merge
import Verif.Proofs.Merge2
import Verif.Proofs.Pkgs
import Verif.Proofs.Pointer
import Verif.Proofs.Prep1
import Verif.Proofs.Prep2
import Verif.Proofs.Prep3
import Verif.Proofs.Prep4
import Verif.Proofs.Prep5
import Verif.Proofs.PrepText
import Verif.Proofs.Process
import Verif.Proofs.PtrJson
import Verif.Proofs.PutKeys
import Verif.Proofs.Read
import Verif.Proofs.RefCheck
import Verif.Proofs.Refs
import Verif.Proofs.Regex
import Verif.Proofs.Regex2
import Verif.Proofs.Resolver1
import Verif.Proofs.Resolver2
import Verif.Proofs.Resolver3
import Verif.Proofs.Resolver4
import Verif.Proofs.Resolver5
import Verif.Proofs.Resolver6
import Verif.Proofs.Resolver7
import Verif.Proofs.Root
import Verif.Proofs.Route
import Verif.Proofs.Scan1
import Verif.Proofs.Scan2
import Verif.Proofs.Settled
import Verif.Proofs.Settled2
import Verif.Proofs.SliceHeap
import Verif.Proofs.SpecJson
import Verif.Proofs.SpecJson2
import Verif.Proofs.SpecJson3
import Verif.Proofs.Specs
import Verif.Proofs.Str
import Verif.Proofs.Subst
import Verif.Proofs.System1
import Verif.Proofs.System2
import Verif.Proofs.System3
import Verif.Proofs.Tag
import Verif.Proofs.TagText
import Verif.Proofs.Types1
import Verif.Proofs.Types2
import Verif.Proofs.Types3
import Verif.Proofs.Types4
import Verif.Proofs.Types5
import Verif.Proofs.Types6
import Verif.Proofs.Types7
import Verif.Proofs.Types8
import Verif.Proofs.Url
import Verif.Proofs.UrlAuth
import Verif.Proofs.Writers
import Verif.Props.Args
import Verif.Props.Build
import Verif.Props.BuildEx
import Verif.Props.Cli
import Verif.Props.Cmds
import Verif.Props.Container
import Verif.Props.Crash
import Verif.Props.DefRefs
import Verif.Props.DefRefsEx
import Verif.Props.Defaults
import Verif.Props.Dots
import Verif.Props.EndToEnd
import Verif.Props.Format
import Verif.Props.Fragment
import Verif.Props.GoDefaults
import Verif.Props.GoHeap
import Verif.Props.GoJson
import Verif.Props.GoMerge
import Verif.Props.GoResolver
import Verif.Props.GoScan
import Verif.Props.GoString
import Verif.Props.GoTypes
import Verif.Props.GoWhole
import Verif.Props.HalfMerged
import Verif.Props.Idle
import Verif.Props.Irrelevant
import Verif.Props.JsonText
import Verif.Props.JsonTextEx
import Verif.Props.Load
import Verif.Props.LoadEx
import Verif.Props.Main
import Verif.Props.Merge
import Verif.Props.Path
import Verif.Props.PkgFiles
import Verif.Props.PkgFilesEx
import Verif.Props.Pkgs
import Verif.Props.Pointer
import Verif.Props.Prepare
import Verif.Props.PrepareEx
import Verif.Props.Process
import Verif.Props.ProcessEx
import Verif.Props.PtrJson
import Verif.Props.Read
import Verif.Props.Regex
import Verif.Props.Resolver
import Verif.Props.Root
import Verif.Props.Route
import Verif.Props.Scan
import Verif.Props.ScanEx
import Verif.Props.SchemaJson
import Verif.Props.Settled
import Verif.Props.SettledEx
import Verif.Props.SpecJson
import Verif.Props.SpecJsonEx
import Verif.Props.SpecUtil
import Verif.Props.System
import Verif.Props.SystemEx
import Verif.Props.Tag
import Verif.Props.TagText
import Verif.Props.Twice
import Verif.Props.Types
import Verif.Props.TypesEx
import Verif.Props.Unused
import Verif.Props.UnusedEx
import Verif.Props.Values
import Verif.Props.Views
import Verif.Props.Whole
import Verif.Props.WholeEx
import Verif.Props.Writers
import Verif.Spec.Args
import Verif.Spec.Build
import Verif.Spec.Cli
import Verif.Spec.Cmds
import Verif.Spec.Crash
import Verif.Spec.Doc
import Verif.Spec.Format
import Verif.Spec.Fragment
import Verif.Spec.GoHeap
import Verif.Spec.GoJson
import Verif.Spec.GoScan
import Verif.Spec.GoString
import Verif.Spec.GoWhole
import Verif.Spec.Idle
import Verif.Spec.Irrelevant
import Verif.Spec.JsonText
import Verif.Spec.Load
import Verif.Spec.Merge
import Verif.Spec.OAPI
import Verif.Spec.Path
import Verif.Spec.Pkgs
import Verif.Spec.Pointer
import Verif.Spec.Prepare
import Verif.Spec.Process
import Verif.Spec.PtrJson
import Verif.Spec.Read
import Verif.Spec.Regex
import Verif.Spec.Resolver
import Verif.Spec.Route
import Verif.Spec.Scan
import Verif.Spec.Settled
import Verif.Spec.SpecJson
import Verif.Spec.Subst
import Verif.Spec.System
import Verif.Spec.Tag
import Verif.Spec.TagText
import Verif.Spec.TypeSchema
import Verif.Spec.Types
import Verif.Spec.Whole

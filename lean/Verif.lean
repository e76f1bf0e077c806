import Verif.Base.Val
import Verif.Checker.Answers
import Verif.Checker.Blocked
import Verif.Checker.Clean
import Verif.Checker.Flow
import Verif.Checker.FlowLemmas
import Verif.Checker.FlowProps
import Verif.Checker.FlowSound
import Verif.Checker.FlowWitness
import Verif.Checker.Model
import Verif.Checker.Props
import Verif.Checker.Raised
import Verif.Checker.RaisedSteps
import Verif.Checker.Table
import Verif.Checker.Verdict
import Verif.Checker.Verdict12
import Verif.Docker.Document
import Verif.Docker.DocumentExamples
import Verif.Docker.DocumentLemmas
import Verif.Docker.DocumentProps
import Verif.Docker.DocumentTable
import Verif.Docker.ImageProps
import Verif.Docker.Images
import Verif.Docker.Model
import Verif.Docker.NamesExact
import Verif.Docker.Props
import Verif.Docker.Saved
import Verif.Expr.DoEval
import Verif.Expr.EmptyIndex
import Verif.Expr.EvalLemmas
import Verif.Expr.ExpandSpec
import Verif.Expr.InterpLemmas
import Verif.Expr.Interpolate
import Verif.Expr.JsLit
import Verif.Expr.MoreLemmas
import Verif.Expr.ParamLemmas
import Verif.Expr.ParamRef
import Verif.Expr.ParamShape
import Verif.Expr.ParamSpec
import Verif.Expr.Props
import Verif.Expr.RealJson
import Verif.Expr.ScanLemmas
import Verif.Expr.ScanSpec
import Verif.Expr.Scanner
import Verif.Expr.SeenLemmas
import Verif.Expr.SeenProps
import Verif.Expr.SeenSpec
import Verif.Formats.Model
import Verif.Formats.Props
import Verif.Front.Model
import Verif.Front.Paths
import Verif.Front.PathsLemmas
import Verif.Front.PathsProps
import Verif.Front.Props
import Verif.Front.SaveOk
import Verif.Json.BackLemmas
import Verif.Json.HalfLemmas
import Verif.Json.Props
import Verif.Json.Read
import Verif.Json.ReadLemmas
import Verif.Json.ReadProps
import Verif.Json.Spec
import Verif.Json.Strict
import Verif.Json.Write
import Verif.Json.WriteProps
import Verif.JsonSchema.Accept
import Verif.JsonSchema.Demo
import Verif.JsonSchema.Gen
import Verif.JsonSchema.GenProps
import Verif.JsonSchema.Job
import Verif.JsonSchema.JobProps
import Verif.JsonSchema.Meaning
import Verif.JsonSchema.Program
import Verif.JsonSchema.Sanitised
import Verif.JsonSchema.Semantics
import Verif.JsonSchema.Slim
import Verif.JsonSchema.SlimProps
import Verif.Loader.Full
import Verif.Loader.FullDefaults
import Verif.Loader.FullDefaultsProps
import Verif.Loader.FullEnds
import Verif.Loader.FullEndsProps
import Verif.Loader.FullNewer
import Verif.Loader.FullNewerLemmas
import Verif.Loader.FullNewerMain
import Verif.Loader.FullNewerProps
import Verif.Loader.FullNewerSim
import Verif.Loader.FullReload
import Verif.Loader.FullSave
import Verif.Loader.FullSaveCheck
import Verif.Loader.FullSaveLemmas
import Verif.Loader.FullSaveProps
import Verif.Loader.FullSaveRes
import Verif.Loader.FullScope
import Verif.Loader.FullScopeProps
import Verif.Loader.FullScopeStays
import Verif.Loader.FullTable
import Verif.Loader.FullTypes
import Verif.Loader.FullTypesLemmas
import Verif.Loader.FullTypesProps
import Verif.Loader.FullWeights
import Verif.Loader.Import
import Verif.Loader.ImportCases
import Verif.Loader.ImportClaims
import Verif.Loader.ImportEval
import Verif.Loader.ImportParts
import Verif.Loader.ImportProps
import Verif.Loader.ImportRun
import Verif.Loader.ImportSpec
import Verif.Loader.Inputs
import Verif.Loader.InputsProps
import Verif.Loader.Model
import Verif.Loader.Props
import Verif.Loader.RecordEq
import Verif.Loader.RecordProps
import Verif.Loader.RecordSave
import Verif.Loader.RecordTable
import Verif.Loader.Records
import Verif.Loader.ReqMap
import Verif.Loader.Schema
import Verif.Loader.Uri
import Verif.Loader.UriCases
import Verif.Loader.UriLemmas
import Verif.Loader.UriProps
import Verif.Pack.Again
import Verif.Pack.AgainProps
import Verif.Pack.Imports
import Verif.Pack.ImportsLeft
import Verif.Pack.Lemmas
import Verif.Pack.Model
import Verif.Pack.Moved
import Verif.Pack.Normalize
import Verif.Pack.NormalizeProps
import Verif.Pack.Process
import Verif.Pack.Props
import Verif.Pack.Spec
import Verif.Pack.Steps
import Verif.Refactor.DirentJs
import Verif.Refactor.EscapeExact
import Verif.Refactor.Etool
import Verif.Refactor.EtoolProps
import Verif.Refactor.LoneStep
import Verif.Refactor.Mock
import Verif.Refactor.MockProps
import Verif.Refactor.Model
import Verif.Refactor.Nested
import Verif.Refactor.NestedProps
import Verif.Refactor.OutEvalCases
import Verif.Refactor.OutEvalProps
import Verif.Refactor.PickJs
import Verif.Refactor.PickValue
import Verif.Refactor.PickValueProps
import Verif.Refactor.Props
import Verif.Refactor.ReloadProps
import Verif.Refactor.Reports
import Verif.Refactor.Steps
import Verif.Refactor.StepsCases
import Verif.Refactor.StepsProps
import Verif.Refactor.ToolBindings
import Verif.Refactor.ToolExprs
import Verif.Refactor.ToolExprsCases
import Verif.Refactor.ToolExprsProps
import Verif.Refactor.ToolLibProps
import Verif.Refactor.ToolReqs
import Verif.Refactor.ToolReqsCases
import Verif.Refactor.ToolReqsClaims
import Verif.Refactor.ToolReqsListing
import Verif.Refactor.ToolReqsProps
import Verif.Refactor.Traverse
import Verif.Refactor.TraverseCases
import Verif.Refactor.TraverseMeaning
import Verif.Refactor.TraverseProps
import Verif.Refactor.WfReqs
import Verif.Refactor.WfReqsProps
import Verif.Refactor.Wrap
import Verif.Refactor.WrapProps
import Verif.Sandbox.Engine
import Verif.Sandbox.EngineProps
import Verif.Sandbox.Exec
import Verif.Sandbox.ExecLemmas
import Verif.Sandbox.History
import Verif.Sandbox.HistoryProps
import Verif.Sandbox.NewProc
import Verif.Sandbox.NewProcLemmas
import Verif.Sandbox.NewProcProps
import Verif.Sandbox.Props
import Verif.Sandbox.Release
import Verif.Sandbox.ReleaseProps
import Verif.Sandbox.Report
import Verif.Sandbox.ReportLemmas
import Verif.Sandbox.ReportProps
import Verif.Sandbox.Threads
import Verif.Sandbox.ThreadsProps
import Verif.Sandbox.ThreadsResult
import Verif.Sandbox.ThreadsTimer
import Verif.Sandbox.Utf8
import Verif.Sandbox.Version
import Verif.Sandbox.VersionLemmas
import Verif.SchemaDef.Finish
import Verif.SchemaDef.Inline
import Verif.SchemaDef.Lemmas
import Verif.SchemaDef.Meaning
import Verif.SchemaDef.PortsOk
import Verif.SchemaDef.Props
import Verif.SchemaDef.Resolves
import Verif.SchemaDef.Same
import Verif.SchemaDef.Spec
import Verif.SchemaDef.TableOk
import Verif.Split.Accepts
import Verif.Split.Alternatives
import Verif.Split.Files
import Verif.Split.Model
import Verif.Split.Program
import Verif.Split.ProgramComplete
import Verif.Split.ProgramProps
import Verif.Split.Props
import Verif.Split.SameFile
import Verif.Split.TypeFiles
import Verif.Tool.Model
import Verif.Tool.Props
import Verif.Types.Assign
import Verif.Types.AssignProps
import Verif.Types.AssignSpec
import Verif.Types.CleanIds
import Verif.Types.Compare
import Verif.Types.Rejected
import Verif.Types.Sources
import Verif.Types.SourcesFound
import Verif.Types.SourcesLost
import Verif.Types.SourcesProps
import Verif.Types.Tame
import Verif.Types.Ty
import Verif.Types.Warned
import Verif.Utils.ArrayLevels
import Verif.Utils.Bytes
import Verif.Utils.BytesLeft
import Verif.Utils.BytesSpec
import Verif.Utils.Collections
import Verif.Utils.Lemmas
import Verif.Utils.Linked
import Verif.Utils.LinkedProps
import Verif.Utils.Names
import Verif.Utils.Props
import Verif.Utils.Sanitise

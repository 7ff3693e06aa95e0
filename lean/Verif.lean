import Verif.ModArith
import Verif.ModArithLemmas
import Verif.Props.ModArith
import Verif.CMap
import Verif.CMapLemmas
import Verif.Algebra
import Verif.AlgebraLemmas
import Verif.Props.Algebra
import Verif.Props.Algebra2
import Verif.BMap
import Verif.BMapLemmas
import Verif.Linear
import Verif.LinearLemmas
import Verif.NonoverlapLemmas
import Verif.Linear3Lemmas
import Verif.Linear4Lemmas
import Verif.Linear4Process
import Verif.SimplifyLemmas
import Verif.Props.Linear
import Verif.Clusters
import Verif.ClustersLemmas
import Verif.Props.Clusters
import Verif.Simplification
import Verif.FastLemmas
import Verif.EqLemmas
import Verif.PhaseLemmas
import Verif.ConstLemmas
import Verif.StartLemmas
import Verif.RoundLemmas
import Verif.ConcludeLemmas
import Verif.Props.Simplification
import Verif.Bytes
import Verif.BytesLemmas
import Verif.Storage
import Verif.StorageLemmas
import Verif.Props.Storage
import Verif.R1cs
import Verif.R1csLemmas
import Verif.Props.R1cs
import Verif.Dag
import Verif.DagLemmas
import Verif.TreeLemmas
import Verif.WalkLemmas
import Verif.NameLemmas
import Verif.MapLemmas
import Verif.AddressLemmas
import Verif.PlaceLemmas
import Verif.Props.Dag
import Verif.ExportLemmas
import Verif.Props.Export
import Verif.Memory
import Verif.MemoryLemmas
import Verif.Props.Memory
import Verif.Exec
import Verif.ExecLemmas
import Verif.ExecSteps
import Verif.ExecUnknown
import Verif.ExecSim
import Verif.ExecLog
import Verif.ExecTame
import Verif.Props.Exec
import Verif.Analysis
import Verif.Props.Analysis
import Verif.Props.Scope
import Verif.Preprocess
import Verif.Props.Preprocess
import Verif.Returns
import Verif.Props.Returns
import Verif.Include
import Verif.IncludeLemmas
import Verif.Props.Include
import Verif.HashMap
import Verif.HashMapLemmas
import Verif.Inputs
import Verif.InputsLemmas
import Verif.InputsLoad
import Verif.Props.HashMap
import Verif.Props.Inputs
import Verif.Tags
import Verif.TagsLemmas
import Verif.Props.Tags
import Verif.Slots
import Verif.SlotsLemmas
import Verif.Props.Slots
import Verif.Address
import Verif.IndexLemmas
import Verif.Props.Address
import Verif.Mapped
import Verif.MappedLemmas
import Verif.MappedTables
import Verif.Props.Mapped
import Verif.Copy
import Verif.CopyLemmas
import Verif.Props.Copy
import Verif.Runs
import Verif.RunsLemmas
import Verif.RunsTop
import Verif.Props.Runs
import Verif.Fill
import Verif.FillLemmas
import Verif.FillTop
import Verif.Props.Fill
import Verif.Sugar
import Verif.SugarLemmas
import Verif.SugarExpr
import Verif.SugarNames
import Verif.SugarSplit
import Verif.SugarStmt
import Verif.SugarMain
import Verif.SugarFns
import Verif.SugarFlat
import Verif.Props.Sugar
import Verif.Filters
import Verif.FiltersLemmas
import Verif.FiltersSim
import Verif.FiltersTame
import Verif.FiltersLoud
import Verif.Props.Filters
import Verif.Known
import Verif.KnownLemmas
import Verif.KnownSound
import Verif.KnownMain
import Verif.Props.Known
import Verif.Anon
import Verif.AnonSem
import Verif.AnonClean
import Verif.AnonBind
import Verif.AnonExpr
import Verif.AnonEnv
import Verif.AnonStmt
import Verif.AnonRun
import Verif.AnonTuple
import Verif.AnonMain
import Verif.AnonTop
import Verif.AnonTotal
import Verif.Props.Anon
import Verif.ArrExec
import Verif.ArrExecMem
import Verif.ArrExecLemmas
import Verif.ArrExecSim
import Verif.ArrExecStatic
import Verif.Props.ArrExec
import Verif.Types
import Verif.TypesExec
import Verif.TypesPure
import Verif.TypesCheck
import Verif.TypesNames
import Verif.Props.Types
import Verif.Ir
import Verif.IrLemmas
import Verif.IrSim
import Verif.IrPass
import Verif.IrStmt
import Verif.IrProg
import Verif.Props.Ir
import Verif.Gold
import Verif.GoldLemmas
import Verif.Props.Gold
import Verif.Frg
import Verif.FrgLemmas
import Verif.FrgElLemmas
import Verif.FrgBitLemmas
import Verif.Props.Frg
import Verif.Wtns
import Verif.WtnsLemmas
import Verif.Props.Wtns
import Verif.JsonIn
import Verif.JsonInLemmas
import Verif.JsonDomLemmas
import Verif.JsonNumLemmas
import Verif.JsonEncLemmas
import Verif.JsonTopLemmas
import Verif.Props.JsonIn
import Verif.WFrInt
import Verif.WFr
import Verif.WFrIntLemmas
import Verif.WFrMulLemmas
import Verif.WFrDivLemmas
import Verif.WFrBitLemmas
import Verif.WFrElLemmas
import Verif.WFrOpLemmas
import Verif.WFrShLemmas
import Verif.Props.WFr
import Verif.WMem
import Verif.WMemLemmas
import Verif.WMemInit
import Verif.WMemRun
import Verif.Props.WMem
import Verif.Grammar
import Verif.GrammarParse
import Verif.GrammarLemmas
import Verif.GrammarStmts
import Verif.GrammarPrint
import Verif.GrammarMore
import Verif.Props.Grammar
import Verif.Props.GrammarDecl
import Verif.Lexer
import Verif.LexerLemmas
import Verif.LexerRun
import Verif.Props.Lexer
import Verif.Inst
import Verif.InstLemmas
import Verif.InstLink
import Verif.InstRet
import Verif.InstEnds
import Verif.InstMake
import Verif.Props.Inst
import Verif.Inspect
import Verif.InspectLemmas
import Verif.InspectNames
import Verif.InspectNode
import Verif.InspectAll
import Verif.Props.Inspect
import Verif.Expand
import Verif.ExpandEnv
import Verif.ExpandSpec
import Verif.ExpandInfer
import Verif.ExpandSim
import Verif.ExpandRun
import Verif.ExpandNamed
import Verif.Props.Expand
import Verif.Struct
import Verif.StructLemmas
import Verif.Props.Struct
import Verif.Log
import Verif.LogLemmas
import Verif.Props.Log
import Verif.Infer
import Verif.InferLemmas
import Verif.InferSim
import Verif.Props.Infer
import Verif.Reduce
import Verif.ReduceLemmas
import Verif.Props.Reduce
import Verif.JsonOut
import Verif.JsonOutLemmas
import Verif.Props.JsonOut
import Verif.Archive
import Verif.ArchiveLemmas
import Verif.Props.Archive
import Verif.Driver
import Verif.DriverLemmas
import Verif.Props.Driver
import Verif.TableSize
import Verif.TableSizeLemmas
import Verif.Props.TableSize
import Verif.SymText
import Verif.SymTextLemmas
import Verif.Props.SymText
import Verif.PrimeCert
import Verif.FieldData
import Verif.Props.Primes
import Verif.Pragma
import Verif.Props.Pragma
import Verif.Public
import Verif.Props.Public
import Verif.Stages
import Verif.Props.Stages
import Verif.MainTags
import Verif.Props.MainTags
import Verif.RunParser
import Verif.Props.RunParser

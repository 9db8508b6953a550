import Verif.Lemmas.Constituents
import Verif.Lemmas.FortranWriter
import Verif.Lemmas.Preproc
import Verif.Lemmas.SuiteCap
import Verif.Lemmas.VarCompat
import Verif.Model.ArgWrap
import Verif.Model.CapgenClean
import Verif.Model.CapgenFiles
import Verif.Model.Checkers
import Verif.Model.CodeBlock
import Verif.Model.CondText
import Verif.Model.Conditions
import Verif.Model.Constituents
import Verif.Model.DataFlow
import Verif.Model.DataTable
import Verif.Model.DebugCheck
import Verif.Model.DimSources
import Verif.Model.ErrorVars
import Verif.Model.FileUtils
import Verif.Model.FixedForm
import Verif.Model.FortranDecl
import Verif.Model.FortranFile
import Verif.Model.FortranLines
import Verif.Model.FortranMeta
import Verif.Model.FortranScheme
import Verif.Model.FortranWriter
import Verif.Model.FrameworkEnv
import Verif.Model.GroupLocals
import Verif.Model.HashTable
import Verif.Model.HostCall
import Verif.Model.HostCap
import Verif.Model.HostConst
import Verif.Model.HostModel
import Verif.Model.HtmlTable
import Verif.Model.Inspect
import Verif.Model.KindsFile
import Verif.Model.LatexDoc
import Verif.Model.LeafElements
import Verif.Model.Literals
import Verif.Model.LongName
import Verif.Model.LoopActions
import Verif.Model.MatchDims
import Verif.Model.MetadataFile
import Verif.Model.ParseContext
import Verif.Model.ParseObject
import Verif.Model.PrebuildArgs
import Verif.Model.PrebuildDecls
import Verif.Model.PrebuildFiles
import Verif.Model.PrebuildMatch
import Verif.Model.PrebuildNames
import Verif.Model.PrebuildRefs
import Verif.Model.PrebuildSdfs
import Verif.Model.PrebuildSections
import Verif.Model.PrebuildSuite
import Verif.Model.PrebuildValues
import Verif.Model.Preproc
import Verif.Model.PreprocExpr
import Verif.Model.PrettyPrint
import Verif.Model.ProtoMeta
import Verif.Model.ReadMetadata
import Verif.Model.RefCheck
import Verif.Model.Regex
import Verif.Model.ReqVars
import Verif.Model.SchemaVersion
import Verif.Model.SchemeTables
import Verif.Model.SchemeTransform
import Verif.Model.Snippets
import Verif.Model.SourcePlace
import Verif.Model.StateMachine
import Verif.Model.StaticApi
import Verif.Model.SuiteCalls
import Verif.Model.SuiteCap
import Verif.Model.Text
import Verif.Model.TrackVariables
import Verif.Model.TransformText
import Verif.Model.Units
import Verif.Model.VarCompat
import Verif.Model.VarDictionary
import Verif.Model.VarEntry
import Verif.Model.VarRef
import Verif.Model.VarText
import Verif.Model.VariableTables
import Verif.Model.XmlFile
import Verif.Props.ArgWrap
import Verif.Props.ArgWrapEx
import Verif.Props.CapgenClean
import Verif.Props.CapgenCleanEx
import Verif.Props.CapgenCleanThm
import Verif.Props.CapgenFiles
import Verif.Props.CapgenFilesEx
import Verif.Props.CapgenFilesOrder
import Verif.Props.CapgenFilesThm
import Verif.Props.Checkers
import Verif.Props.CodeBlock
import Verif.Props.CondText
import Verif.Props.Conditions
import Verif.Props.ConditionsAll
import Verif.Props.ConditionsEx
import Verif.Props.ConditionsThm
import Verif.Props.Constituents
import Verif.Props.DataFlow
import Verif.Props.DataFlowExec
import Verif.Props.DataFlowViol
import Verif.Props.DataTable
import Verif.Props.DataTableExamples
import Verif.Props.DataTableNorm
import Verif.Props.DataTableVars
import Verif.Props.DataTableViolations
import Verif.Props.DataTableWrite
import Verif.Props.DebugCheck
import Verif.Props.DebugCheckElems
import Verif.Props.DebugCheckEx
import Verif.Props.DebugCheckReads
import Verif.Props.DebugCheckThm
import Verif.Props.DimSources
import Verif.Props.DimSourcesEx
import Verif.Props.ErrorVars
import Verif.Props.FileUtils
import Verif.Props.FixedForm
import Verif.Props.FortranDecl
import Verif.Props.FortranFile
import Verif.Props.FortranFileEx
import Verif.Props.FortranFileMain
import Verif.Props.FortranFileMod
import Verif.Props.FortranFilePre
import Verif.Props.FortranFileSpec
import Verif.Props.FortranFileStmt
import Verif.Props.FortranLines
import Verif.Props.FortranList
import Verif.Props.FortranMeta
import Verif.Props.FortranMetaMain
import Verif.Props.FortranParse
import Verif.Props.FortranParseViol
import Verif.Props.FortranRoundTrip
import Verif.Props.FortranScheme
import Verif.Props.FortranSchemeMain
import Verif.Props.FortranSchemeViol
import Verif.Props.FortranStmts
import Verif.Props.FortranType
import Verif.Props.FortranWriter
import Verif.Props.FrameworkEnv
import Verif.Props.GroupLocals
import Verif.Props.HashTable
import Verif.Props.HostCall
import Verif.Props.HostCap
import Verif.Props.HostConst
import Verif.Props.HostConstEx
import Verif.Props.HostConstReg
import Verif.Props.HostConstThm
import Verif.Props.HostConstVars
import Verif.Props.HostModel
import Verif.Props.HostModelAccept
import Verif.Props.HostModelBuild
import Verif.Props.HostModelExamples
import Verif.Props.HostModelPaths
import Verif.Props.HostModelRef
import Verif.Props.HostModelUse
import Verif.Props.HtmlTable
import Verif.Props.Inspect
import Verif.Props.KindsFile
import Verif.Props.LatexDoc
import Verif.Props.LeafElements
import Verif.Props.Literals
import Verif.Props.LiteralsEx
import Verif.Props.LiteralsThm
import Verif.Props.LongName
import Verif.Props.LoopActions
import Verif.Props.LoopActionsEx
import Verif.Props.LoopNames
import Verif.Props.MatchDims
import Verif.Props.MetadataEffect
import Verif.Props.MetadataExamples
import Verif.Props.MetadataFile
import Verif.Props.MetadataFileMain
import Verif.Props.MetadataHeads
import Verif.Props.MetadataMeaning
import Verif.Props.MetadataText
import Verif.Props.MetadataVarLine
import Verif.Props.ParseContext
import Verif.Props.ParseObject
import Verif.Props.PrebuildArgs
import Verif.Props.PrebuildArgsMore
import Verif.Props.PrebuildClean
import Verif.Props.PrebuildCompare
import Verif.Props.PrebuildConv
import Verif.Props.PrebuildDecls
import Verif.Props.PrebuildExamples
import Verif.Props.PrebuildFiles
import Verif.Props.PrebuildFilter
import Verif.Props.PrebuildMain
import Verif.Props.PrebuildMatch
import Verif.Props.PrebuildNames
import Verif.Props.PrebuildNamesEx
import Verif.Props.PrebuildRefs
import Verif.Props.PrebuildSdfs
import Verif.Props.PrebuildSections
import Verif.Props.PrebuildSectionsEx
import Verif.Props.PrebuildSectionsMain
import Verif.Props.PrebuildSectionsThm
import Verif.Props.PrebuildSuite
import Verif.Props.PrebuildSuiteExamples
import Verif.Props.PrebuildText
import Verif.Props.PrebuildValues
import Verif.Props.PrebuildValuesEx
import Verif.Props.PrebuildValuesGroup
import Verif.Props.PrebuildValuesMain
import Verif.Props.Preproc
import Verif.Props.PreprocExpr
import Verif.Props.PreprocLines
import Verif.Props.PrettyPrint
import Verif.Props.ProtoMeta
import Verif.Props.ReadMetadata
import Verif.Props.ReadMetadataEx
import Verif.Props.RefCheck
import Verif.Props.RefCheckEx
import Verif.Props.RefCheckThm
import Verif.Props.Regex
import Verif.Props.ReqVars
import Verif.Props.SchemaVersion
import Verif.Props.SchemeTables
import Verif.Props.SchemeTablesEx
import Verif.Props.SchemeTablesRef
import Verif.Props.SchemeTablesScan
import Verif.Props.SchemeTablesThm
import Verif.Props.SchemeTransform
import Verif.Props.Snippets
import Verif.Props.SourcePlace
import Verif.Props.StateMachine
import Verif.Props.StaticApi
import Verif.Props.SuiteCalls
import Verif.Props.SuiteCallsMain
import Verif.Props.SuiteCap
import Verif.Props.SuiteExamples
import Verif.Props.SuiteLibrary
import Verif.Props.SuitePhases
import Verif.Props.TrackVariables
import Verif.Props.TrackVariablesEx
import Verif.Props.TrackVariablesThm
import Verif.Props.TransformText
import Verif.Props.TransformTextEx
import Verif.Props.Units
import Verif.Props.UnitsAngle
import Verif.Props.VarCompat
import Verif.Props.VarDictionary
import Verif.Props.VarEntry
import Verif.Props.VarEntryCoherent
import Verif.Props.VarEntryDict
import Verif.Props.VarEntryEx
import Verif.Props.VarEntryOrder
import Verif.Props.VarEntryRead
import Verif.Props.VarEntryThm
import Verif.Props.VarEntryVar
import Verif.Props.VarRef
import Verif.Props.VarRefEx
import Verif.Props.VarText
import Verif.Props.VarTextEx
import Verif.Props.VarTextMain
import Verif.Props.VarTextThm
import Verif.Props.VariableTables
import Verif.Props.VariableTablesEx
import Verif.Props.VariableTablesRef
import Verif.Props.VariableTablesScan
import Verif.Props.VariableTablesThm
import Verif.Props.XmlFile
import Verif.Props.XmlFileExamples
import Verif.Props.XmlStrings
import Verif.Props.XmlTokens
import Verif.Props.XmlWrite
import Verif.Spec.ArgWrap
import Verif.Spec.CapgenClean
import Verif.Spec.CapgenFiles
import Verif.Spec.Checkers
import Verif.Spec.CodeBlock
import Verif.Spec.CondText
import Verif.Spec.Conditions
import Verif.Spec.Constituents
import Verif.Spec.DataFlow
import Verif.Spec.DataTable
import Verif.Spec.DebugCheck
import Verif.Spec.DimSources
import Verif.Spec.ErrorVars
import Verif.Spec.FileUtils
import Verif.Spec.FixedForm
import Verif.Spec.FortranDecl
import Verif.Spec.FortranFile
import Verif.Spec.FortranLines
import Verif.Spec.FortranMeta
import Verif.Spec.FortranScheme
import Verif.Spec.FortranWriter
import Verif.Spec.FrameworkEnv
import Verif.Spec.GroupLocals
import Verif.Spec.HostCall
import Verif.Spec.HostConst
import Verif.Spec.HostModel
import Verif.Spec.HtmlTable
import Verif.Spec.Inspect
import Verif.Spec.KindsFile
import Verif.Spec.LatexDoc
import Verif.Spec.LeafElements
import Verif.Spec.Literals
import Verif.Spec.LongName
import Verif.Spec.LoopActions
import Verif.Spec.MatchDims
import Verif.Spec.MetadataEffect
import Verif.Spec.MetadataFile
import Verif.Spec.PrebuildArgs
import Verif.Spec.PrebuildDecls
import Verif.Spec.PrebuildFiles
import Verif.Spec.PrebuildMatch
import Verif.Spec.PrebuildNames
import Verif.Spec.PrebuildRefs
import Verif.Spec.PrebuildSdfs
import Verif.Spec.PrebuildSections
import Verif.Spec.PrebuildSuite
import Verif.Spec.PrebuildValues
import Verif.Spec.Preproc
import Verif.Spec.PreprocLines
import Verif.Spec.PrettyPrint
import Verif.Spec.ProtoMeta
import Verif.Spec.ReadMetadata
import Verif.Spec.RefCheck
import Verif.Spec.ReqVars
import Verif.Spec.SchemaVersion
import Verif.Spec.SchemeTables
import Verif.Spec.Snippets
import Verif.Spec.SourcePlace
import Verif.Spec.StateMachine
import Verif.Spec.StaticApi
import Verif.Spec.SuiteCalls
import Verif.Spec.SuiteCap
import Verif.Spec.TrackVariables
import Verif.Spec.TransformText
import Verif.Spec.Units
import Verif.Spec.VarCompat
import Verif.Spec.VarDictionary
import Verif.Spec.VarEntry
import Verif.Spec.VarRef
import Verif.Spec.VarText
import Verif.Spec.VariableTables
import Verif.Spec.XmlFile

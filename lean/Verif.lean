import Verif.Props.ResBuf
import Verif.Props.Package
import Verif.Props.CompMath
import Verif.Props.Resource
import Verif.Props.Tracker
import Verif.Props.Precond
import Verif.Props.Greedy
import Verif.Props.Portfolio
import Verif.Props.Translator
import Verif.Props.Executor
import Verif.Props.ResourceExchange
import Verif.Props.Timer
import Verif.Props.Agent
import Verif.Props.Fleet
import Verif.Props.Recorder
import Verif.Props.Query
import Verif.Props.VL
import Verif.Props.SimInit
import Verif.Props.Loader
import Verif.Props.ProgTranslator
import Verif.Props.BuyPolicy
import Verif.Props.BuyCycle
import Verif.Props.SellPolicy
import Verif.Props.Enrichment
import Verif.Props.Functions
import Verif.Props.Commodity
import Verif.Props.RecipeContext
import Verif.Props.Cycpp
import Verif.Props.CycppState
import Verif.Props.MemBack
import Verif.Props.Server
import Verif.Props.Decay
import Verif.Props.Inventory
import Verif.Model.MatQuery
import Verif.Lemmas.MatQuery
import Verif.Props.MatQuery
import Verif.Model.ResMap
import Verif.Props.ResMap
import Verif.Model.Discovery
import Verif.Props.Discovery
import Verif.Model.Position
import Verif.Props.Position
import Verif.Model.Archetypes
import Verif.Props.Archetypes
import Verif.Model.LMatrix
import Verif.Spec.LMatrix
import Verif.Lemmas.LMatrix
import Verif.Props.LMatrix
import Verif.Model.UniformTaylor
import Verif.Lemmas.MatrixExp
import Verif.Lemmas.UniformTaylor
import Verif.Props.UniformTaylor
import Verif.Model.Decayer
import Verif.Spec.Decayer
import Verif.Lemmas.Decayer
import Verif.Props.Decayer
import Verif.Model.Random
import Verif.Props.Random
import Verif.Model.Registry
import Verif.Lemmas.Registry
import Verif.Props.Registry
import Verif.Model.SimInfo
import Verif.Props.SimInfo
import Verif.Model.Infile
import Verif.Props.Infile
import Verif.Model.Convert
import Verif.Props.ToXml
import Verif.Props.ToJson
import Verif.Model.Schema
import Verif.Props.Schema
import Verif.Model.Initial
import Verif.Props.Initial
import Verif.Model.Nuc
import Verif.Props.Nuc
import Verif.Model.Diag
import Verif.Props.Diag
import Verif.Model.Cli
import Verif.Props.Cli
import Verif.Model.Stock
import Verif.Lemmas.Stock
import Verif.Props.Stock
import Verif.Model.SolverConf
import Verif.Props.SolverConf
import Verif.Model.SqliteValues
import Verif.Props.SqliteValues
import Verif.Model.Threads
import Verif.Props.Threads
import Verif.Model.Kahan
import Verif.Props.Kahan
import Verif.Model.Hdf5Rows
import Verif.Spec.Hdf5Rows
import Verif.Lemmas.Hdf5Rows
import Verif.Props.Hdf5Rows
import Verif.Model.VLFiles
import Verif.Spec.VLFiles
import Verif.Lemmas.VLFiles
import Verif.Props.VLFiles
import Verif.Model.NucTables
import Verif.Model.NucForms
import Verif.Props.NucForms
import Verif.Model.JsonText
import Verif.Spec.JsonText
import Verif.Lemmas.JsonText
import Verif.Lemmas.JsonRead
import Verif.Lemmas.JsonWrite
import Verif.Lemmas.JsonSame
import Verif.Props.JsonText
import Verif.Model.InfileGen
import Verif.Spec.InfileGen
import Verif.Lemmas.InfileGen
import Verif.Lemmas.InfileRead
import Verif.Lemmas.InfileSays
import Verif.Lemmas.InfileDflt
import Verif.Lemmas.InfileSchema
import Verif.Lemmas.InfileRun
import Verif.Props.InfileGen
import Verif.Model.CycppScan
import Verif.Spec.CycppScan
import Verif.Lemmas.CycppScan
import Verif.Props.CycppScan
import Verif.Model.CycppType
import Verif.Spec.CycppType
import Verif.Lemmas.CycppType
import Verif.Props.CycppType
import Verif.Model.CycppText
import Verif.Spec.CycppText
import Verif.Spec.CycppGrammar
import Verif.Lemmas.CycppText
import Verif.Lemmas.CycppGrammar
import Verif.Props.CycppText
import Verif.Model.CycppGen
import Verif.Spec.CycppGen
import Verif.Lemmas.CycppGen
import Verif.Props.CycppGen
import Verif.Model.CycppLine
import Verif.Spec.CycppLine
import Verif.Lemmas.CycppLine
import Verif.Props.CycppLine
import Verif.Model.PyInfile
import Verif.Spec.PyInfile
import Verif.Lemmas.PyInfile
import Verif.Props.PyInfile
import Verif.Model.PyAgent
import Verif.Spec.PyAgent
import Verif.Lemmas.PyAgent
import Verif.Props.PyAgent
import Verif.Model.PyInv
import Verif.Spec.PyInv
import Verif.Lemmas.PyInv
import Verif.Props.PyInv
import Verif.Model.PyTrade
import Verif.Model.PyPrefs
import Verif.Spec.PyTrade
import Verif.Spec.PyPrefs
import Verif.Lemmas.PyTrade
import Verif.Lemmas.PyPrefs
import Verif.Props.PyTrade
import Verif.Props.PyPrefs
import Verif.Model.PostCython
import Verif.Spec.PostCython
import Verif.Lemmas.PostCython
import Verif.Props.PostCython
import Verif.Model.PyExec
import Verif.Spec.PyExec
import Verif.Props.PyExec
import Verif.Model.PyJson
import Verif.Spec.PyJson
import Verif.Lemmas.PyJson
import Verif.Props.PyJson
import Verif.Model.MockSim
import Verif.Spec.MockSim
import Verif.Lemmas.MockSim
import Verif.Props.MockSim
import Verif.Model.ProgSolver
import Verif.Spec.ProgSolver
import Verif.Lemmas.LinProg
import Verif.Lemmas.ProgSolver
import Verif.Props.ProgSolver
import Verif.Model.AnyHold
import Verif.Spec.AnyHold
import Verif.Lemmas.AnyHold
import Verif.Props.AnyHold
import Verif.Model.PyDb
import Verif.Spec.PyDb
import Verif.Lemmas.PyDb
import Verif.Props.PyDb
import Verif.Model.Styled
import Verif.Spec.Styled
import Verif.Lemmas.Styled
import Verif.Props.Styled
import Verif.Model.DynMod
import Verif.Spec.DynMod
import Verif.Lemmas.DynMod
import Verif.Props.DynMod
import Verif.Model.PyLife
import Verif.Spec.PyLife
import Verif.Lemmas.PyLife
import Verif.Props.PyLife
import Verif.Model.PyMain
import Verif.Spec.PyMain
import Verif.Lemmas.PyMain
import Verif.Props.PyMain
import Verif.Model.PySource
import Verif.Spec.PySource
import Verif.Lemmas.PySource
import Verif.Props.PySource
import Verif.Model.PyLoop
import Verif.Spec.PyLoop
import Verif.Lemmas.PyLoop
import Verif.Props.PyLoop
import Verif.Model.EnvPaths
import Verif.Spec.EnvPaths
import Verif.Lemmas.EnvPaths
import Verif.Props.EnvPaths
import Verif.Model.Validator
import Verif.Spec.Validator
import Verif.Lemmas.Validator
import Verif.Props.Validator
import Verif.Model.ProgDiff
import Verif.Spec.ProgDiff
import Verif.Lemmas.ProgDiff
import Verif.Props.ProgDiff
import Verif.Model.StateTables
import Verif.Spec.StateTables
import Verif.Lemmas.StateTables
import Verif.Props.StateTables
import Verif.Model.Stub
import Verif.Spec.Stub
import Verif.Lemmas.Stub
import Verif.Props.Stub

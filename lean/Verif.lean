import Verif.Model.Opcodes
import Verif.Model.VM
import Verif.Lemmas.VM
import Verif.Props.Core
import Verif.Props.DivShift
import Verif.Props.Memory
import Verif.Props.Frames
import Verif.Props.Fetch
import Verif.Props.Startup
import Verif.Props.Sets
import Verif.Props.Long
import Verif.Props.Heap
import Verif.Props.Encoding
import Verif.Props.Strings
import Verif.Props.Strings2
import Verif.Props.Strings3
import Verif.Props.Stack
import Verif.Props.Labels
import Verif.Props.Labels2
import Verif.Props.Peephole
import Verif.Props.Peephole2
import Verif.Props.Peephole3
import Verif.Props.Peephole4
import Verif.Props.Peephole5
import Verif.Props.Peephole6
import Verif.Model.Poff
import Verif.Model.PoffFile
import Verif.Spec.Poff
import Verif.Spec.ObjectFile
import Verif.Lemmas.Poff
import Verif.Lemmas.PoffBytes
import Verif.Lemmas.PoffSwap
import Verif.Lemmas.PoffFile
import Verif.Lemmas.PoffRound
import Verif.Lemmas.PoffOps
import Verif.Props.Poff
import Verif.Props.Lines
import Verif.Props.DebugInfo
import Verif.Props.ObjectFile
import Verif.Props.SwapTables
import Verif.Model.Link
import Verif.Spec.Link
import Verif.Spec.LinkAll
import Verif.Lemmas.Link
import Verif.Lemmas.LinkSym
import Verif.Lemmas.LinkRel
import Verif.Lemmas.LinkLoad
import Verif.Lemmas.LinkMain
import Verif.Props.Link
import Verif.Model.Names
import Verif.Spec.Names
import Verif.Lemmas.Names
import Verif.Props.Names
import Verif.Model.Token
import Verif.Spec.Tokens
import Verif.Lemmas.Token
import Verif.Props.Tokens
import Verif.Model.FileName
import Verif.Spec.FileName
import Verif.Props.FileName
import Verif.Model.Compile
import Verif.Spec.Pascal
import Verif.Spec.Storage
import Verif.Lemmas.Source
import Verif.Lemmas.CompExpr
import Verif.Lemmas.CompRun
import Verif.Props.Compile
import Verif.Spec.Statements
import Verif.Lemmas.CompStmt
import Verif.Lemmas.CompParse
import Verif.Lemmas.CompExec
import Verif.Lemmas.CompSim
import Verif.Lemmas.CompLabel
import Verif.Props.Statements
import Verif.Model.Block
import Verif.Model.Toolchain
import Verif.Spec.Program
import Verif.Lemmas.Declare
import Verif.Lemmas.CompProgram
import Verif.Lemmas.ProgRun
import Verif.Lemmas.Toolchain
import Verif.Props.Program
import Verif.Model.ConstExpr
import Verif.Spec.Constants
import Verif.Lemmas.ConstExpr
import Verif.Lemmas.ConstSet
import Verif.Props.Constants
import Verif.Model.Optimize
import Verif.Lemmas.OptRules
import Verif.Lemmas.OptTable
import Verif.Lemmas.OptSteps
import Verif.Lemmas.OptLong
import Verif.Lemmas.OptPass
import Verif.Lemmas.OptDriver
import Verif.Lemmas.OptReloc
import Verif.Spec.Optimize
import Verif.Props.Optimize
import Verif.Model.FloatOps
import Verif.Spec.Float
import Verif.Lemmas.Float
import Verif.Props.Float
import Verif.Model.IoState
import Verif.Model.SysIo
import Verif.Model.Convert
import Verif.Model.Library
import Verif.Spec.Library
import Verif.Lemmas.LibEffect
import Verif.Lemmas.IoEffect
import Verif.Props.Library
import Verif.Spec.Files
import Verif.Lemmas.Files
import Verif.Lemmas.FilesRead
import Verif.Lemmas.KeepIo
import Verif.Lemmas.FilesOnly
import Verif.Props.Files
import Verif.Props.FilesRead
import Verif.Lemmas.FileUse
import Verif.Spec.FileNumbers
import Verif.Props.FileNumbers
import Verif.Props.FilePos
import Verif.Props.FileOpen
import Verif.Spec.Convert
import Verif.Props.Convert
import Verif.Lemmas.FilesWrite
import Verif.Lemmas.CompWrite
import Verif.Lemmas.CompOut
import Verif.Props.Write
import Verif.Model.Source
import Verif.Spec.Source
import Verif.Lemmas.SourceText
import Verif.Props.Source
import Verif.Spec.Calls
import Verif.Lemmas.CompCall
import Verif.Lemmas.CallRun
import Verif.Lemmas.CompLayout
import Verif.Lemmas.TokenErrors
import Verif.Props.Procedures
import Verif.Props.LongConst
import Verif.Props.Arrays
import Verif.Props.ArrayProgram
import Verif.Props.PoffMem
import Verif.Props.Debugger
import Verif.Model.Disasm
import Verif.Spec.Listing
import Verif.Lemmas.Listing
import Verif.Props.Listing
import Verif.Lemmas.TokenReal
import Verif.Props.CharArrays
import Verif.Spec.RealRead
import Verif.Lemmas.RealRead
import Verif.Props.RealRead
import Verif.Props.ConstProgram
import Verif.Model.Chain
import Verif.Spec.Chain
import Verif.Lemmas.Chain
import Verif.Props.Chain
import Verif.Spec.Read
import Verif.Props.Read
import Verif.Lemmas.CompIn
import Verif.Lemmas.CompRead
import Verif.Lemmas.FilesReadExec
import Verif.Lemmas.OptString
import Verif.Props.StringPass
import Verif.Lemmas.OptLocal
import Verif.Lemmas.OptLongRule
import Verif.Props.LocalPass
import Verif.Spec.Accept
import Verif.Lemmas.AcceptExpr
import Verif.Lemmas.AcceptStmt
import Verif.Props.Accept
import Verif.Spec.AcceptProg
import Verif.Lemmas.AcceptConst
import Verif.Lemmas.AcceptProg
import Verif.Lemmas.AcceptNames
import Verif.Props.AcceptProg
import Verif.Spec.Forever
import Verif.Lemmas.Forever
import Verif.Lemmas.ForeverRun
import Verif.Lemmas.ForeverCases
import Verif.Props.Forever
import Verif.Props.ForeverSource
import Verif.Lemmas.AcceptPeriod
import Verif.Props.AcceptFile
import Verif.Spec.Spelling
import Verif.Lemmas.Spelling
import Verif.Lemmas.SpellingToken
import Verif.Lemmas.SpellingFile
import Verif.Lemmas.SpellingEnd
import Verif.Props.Spelling
import Verif.Model.LineTable
import Verif.Spec.LineTable
import Verif.Props.LineTable
import Verif.Model.Prun
import Verif.Spec.Prun
import Verif.Props.Prun
import Verif.Model.PoffOwn
import Verif.Spec.PoffOwn
import Verif.Props.PoffOwn
import Verif.Model.LabelTab
import Verif.Spec.LabelTab
import Verif.Props.LabelTab
import Verif.Model.LinkFree
import Verif.Props.LinkFree
import Verif.Model.MkConfig
import Verif.Spec.MkConfig
import Verif.Props.MkConfig
import Verif.Model.RelocDump
import Verif.Spec.RelocDump
import Verif.Props.RelocDump
import Verif.Model.SymDump
import Verif.Spec.SymDump
import Verif.Props.SymDump

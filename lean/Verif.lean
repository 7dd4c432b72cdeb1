import Verif.Model.Alloc
import Verif.Model.ArrayInit
import Verif.Model.Arrays
import Verif.Model.Binding
import Verif.Model.BitSet
import Verif.Model.CallArgs
import Verif.Model.Cfg
import Verif.Model.CodeGen
import Verif.Model.Cond
import Verif.Model.Convert
import Verif.Model.DataSection
import Verif.Model.DebugVars
import Verif.Model.EnumDecl
import Verif.Model.Errors
import Verif.Model.ExprParser
import Verif.Model.FloatExpr
import Verif.Model.FunDecl
import Verif.Model.FunTable
import Verif.Model.Graph
import Verif.Model.HeapScope
import Verif.Model.Include
import Verif.Model.Insn
import Verif.Model.Interp
import Verif.Model.Invoke
import Verif.Model.Jit
import Verif.Model.JitCall
import Verif.Model.JitEdges
import Verif.Model.JitFlow
import Verif.Model.JitTrace
import Verif.Model.Labels
import Verif.Model.Lexer
import Verif.Model.Lines
import Verif.Model.Liveness
import Verif.Model.LocalVar
import Verif.Model.Long
import Verif.Model.Lookup
import Verif.Model.Macro
import Verif.Model.Md5
import Verif.Model.Mem
import Verif.Model.Methodmap
import Verif.Model.Names
import Verif.Model.Reports
import Verif.Model.Returns
import Verif.Model.Rtti
import Verif.Model.Runtime
import Verif.Model.Smx
import Verif.Model.Source
import Verif.Model.StackUsage
import Verif.Model.StmtGen
import Verif.Model.StmtParser
import Verif.Model.Storage
import Verif.Model.Strings
import Verif.Model.TimeoutPatch
import Verif.Model.Tokens
import Verif.Model.Types
import Verif.Model.Unused
import Verif.Model.Verifier
import Verif.Model.Watchdog
import Verif.Model.X64Asm
import Verif.Model.X64Link
import Verif.Spec.Alloc
import Verif.Spec.ArrayInit
import Verif.Spec.Arrays
import Verif.Spec.Binding
import Verif.Spec.CallArgs
import Verif.Spec.Cfg
import Verif.Spec.Compiled
import Verif.Spec.Cond
import Verif.Spec.Convert
import Verif.Spec.DataSection
import Verif.Spec.DebugVars
import Verif.Spec.EnumDecl
import Verif.Spec.Errors
import Verif.Spec.ExprGrammar
import Verif.Spec.FloatExpr
import Verif.Spec.FunTable
import Verif.Spec.Graph
import Verif.Spec.HeapScope
import Verif.Spec.Include
import Verif.Spec.Jit
import Verif.Spec.JitCall
import Verif.Spec.JitEdges
import Verif.Spec.JitFlow
import Verif.Spec.JitTrace
import Verif.Spec.Lang
import Verif.Spec.Lines
import Verif.Spec.LocalVar
import Verif.Spec.Long
import Verif.Spec.Macro
import Verif.Spec.Md5
import Verif.Spec.Memory
import Verif.Spec.Methodmap
import Verif.Spec.Names
import Verif.Spec.Nesting
import Verif.Spec.Program
import Verif.Spec.Reports
import Verif.Spec.Rtti
import Verif.Spec.Source
import Verif.Spec.StmtGrammar
import Verif.Spec.Storage
import Verif.Spec.Text
import Verif.Spec.TimeoutPatch
import Verif.Spec.Tokens
import Verif.Spec.Unused
import Verif.Spec.Verifiable
import Verif.Spec.Verifier
import Verif.Spec.Watchdog
import Verif.Spec.X64
import Verif.Spec.X64Calls
import Verif.Spec.X64Exec
import Verif.Spec.X64Frames
import Verif.Spec.X64Link
import Verif.Spec.X64Run
import Verif.Proofs.Accept
import Verif.Proofs.AcceptBuild
import Verif.Proofs.AcceptScan
import Verif.Proofs.AcceptVerify
import Verif.Proofs.Alloc
import Verif.Proofs.Arith
import Verif.Proofs.ArrayInit
import Verif.Proofs.ArrayRank
import Verif.Proofs.Arrays
import Verif.Proofs.Binding
import Verif.Proofs.Blocks
import Verif.Proofs.CallArgs
import Verif.Proofs.Checks
import Verif.Proofs.Cond
import Verif.Proofs.CondEnd
import Verif.Proofs.CondSim
import Verif.Proofs.Consts
import Verif.Proofs.Convert
import Verif.Proofs.DataSection
import Verif.Proofs.DebugVars
import Verif.Proofs.Dom
import Verif.Proofs.DomTree
import Verif.Proofs.EnumDecl
import Verif.Proofs.Exec
import Verif.Proofs.ExprGrammar
import Verif.Proofs.ExprParser
import Verif.Proofs.FloatExpr
import Verif.Proofs.FloatMain
import Verif.Proofs.FloatSound
import Verif.Proofs.FloatStep
import Verif.Proofs.FloatTest
import Verif.Proofs.Frag
import Verif.Proofs.FunTable
import Verif.Proofs.FunTableMain
import Verif.Proofs.GenAll
import Verif.Proofs.GenArray
import Verif.Proofs.GenAssign
import Verif.Proofs.GenBase
import Verif.Proofs.GenCall
import Verif.Proofs.GenExpr
import Verif.Proofs.GenFlow
import Verif.Proofs.GenLoop
import Verif.Proofs.GenOps
import Verif.Proofs.GenProg
import Verif.Proofs.GenStmt
import Verif.Proofs.GenSwitch
import Verif.Proofs.GenTyped
import Verif.Proofs.GenTypedExpr
import Verif.Proofs.GenTypedStmt
import Verif.Proofs.Globals
import Verif.Proofs.HeapScope
import Verif.Proofs.History
import Verif.Proofs.HistoryExec
import Verif.Proofs.Include
import Verif.Proofs.JitAddr
import Verif.Proofs.JitAll
import Verif.Proofs.JitArith
import Verif.Proofs.JitBack
import Verif.Proofs.JitBlock
import Verif.Proofs.JitCallSim
import Verif.Proofs.JitCalls
import Verif.Proofs.JitCips
import Verif.Proofs.JitEmit
import Verif.Proofs.JitErr
import Verif.Proofs.JitFloat
import Verif.Proofs.JitFrag
import Verif.Proofs.JitFrame
import Verif.Proofs.JitGraph
import Verif.Proofs.JitHeap
import Verif.Proofs.JitInt64
import Verif.Proofs.JitInv
import Verif.Proofs.JitKeep
import Verif.Proofs.JitMethod
import Verif.Proofs.JitPush
import Verif.Proofs.JitRegs
import Verif.Proofs.JitSim
import Verif.Proofs.JitStep
import Verif.Proofs.JitSwap
import Verif.Proofs.JitSwitch
import Verif.Proofs.JitThunk
import Verif.Proofs.JitWatch
import Verif.Proofs.Joins
import Verif.Proofs.LangMono
import Verif.Proofs.Lines
import Verif.Proofs.LinesMain
import Verif.Proofs.LocalVar
import Verif.Proofs.LocalVarMain
import Verif.Proofs.Long
import Verif.Proofs.LongExpr
import Verif.Proofs.LongInc
import Verif.Proofs.LongMain
import Verif.Proofs.LongSound
import Verif.Proofs.LongStep
import Verif.Proofs.LongStmt
import Verif.Proofs.Lookup
import Verif.Proofs.Macro
import Verif.Proofs.MacroComment
import Verif.Proofs.MacroEnds
import Verif.Proofs.MacroText
import Verif.Proofs.Mem
import Verif.Proofs.Methodmap
import Verif.Proofs.MethodmapMain
import Verif.Proofs.Names
import Verif.Proofs.Order
import Verif.Proofs.Reader
import Verif.Proofs.ReaderTotal
import Verif.Proofs.Replay
import Verif.Proofs.Reports
import Verif.Proofs.ReportsMain
import Verif.Proofs.Rtti
import Verif.Proofs.Runs
import Verif.Proofs.Scan
import Verif.Proofs.ScanUb
import Verif.Proofs.Smx
import Verif.Proofs.Source
import Verif.Proofs.StackUse
import Verif.Proofs.Steps
import Verif.Proofs.StmtGrammar
import Verif.Proofs.StmtMain
import Verif.Proofs.Storage
import Verif.Proofs.StorageCode
import Verif.Proofs.Text
import Verif.Proofs.Tokens
import Verif.Proofs.TokensCache
import Verif.Proofs.TokensMain
import Verif.Proofs.TokensWritten
import Verif.Proofs.Unused
import Verif.Proofs.UnusedCheck
import Verif.Proofs.UnusedProgram
import Verif.Proofs.VerifyFuel
import Verif.Proofs.X64Asm
import Verif.Proofs.X64Bytes
import Verif.Proofs.X64Calls
import Verif.Proofs.X64Link
import Verif.Proofs.X64LinkDec
import Verif.Proofs.X64LinkRun
import Verif.Proofs.X64Pos
import Verif.Proofs.X64Prefix
import Verif.Proofs.X64World
import Verif.Props.C01
import Verif.Props.C02
import Verif.Props.C04
import Verif.Props.C06
import Verif.Props.C07
import Verif.Props.C08
import Verif.Props.C09
import Verif.Props.C12
import Verif.Props.C13
import Verif.Props.C15
import Verif.Props.C18
import Verif.Props.C20
import Verif.Props.C23
import Verif.Props.C24
import Verif.Props.C25
import Verif.Props.C26
import Verif.Props.C27
import Verif.Props.C29
import Verif.Props.C31
import Verif.Props.C32
import Verif.Props.C33
import Verif.Props.C34
import Verif.Props.C37
import Verif.Props.C38
import Verif.Props.C39
import Verif.Props.C40
import Verif.Props.C41
import Verif.Props.C42
import Verif.Props.C45
import Verif.Props.C46
import Verif.Props.C47
import Verif.Props.C48
import Verif.Props.C49
import Verif.Props.C52
import Verif.Props.C53
import Verif.Props.C54
import Verif.Props.C57
import Verif.Props.C58
import Verif.Props.C59
import Verif.Props.C60
import Verif.Props.C61
import Verif.Props.C62
import Verif.Props.C63
import Verif.Props.C64
import Verif.Props.C65
import Verif.Props.C66
import Verif.Props.C67
import Verif.Props.C68
import Verif.Props.C69
import Verif.Props.C70
import Verif.Props.C71
import Verif.Props.C72
import Verif.Props.C73
import Verif.Props.C74
import Verif.Props.C75
import Verif.Props.C76
import Verif.Props.C77
import Verif.Props.C78
import Verif.Props.C79
import Verif.Props.C80
import Verif.Props.C81
import Verif.Props.C82
import Verif.Props.C83
import Verif.Props.C84
import Verif.Props.C85
import Verif.Props.C86
import Verif.Props.C87
import Verif.Props.C88
import Verif.Props.C89
import Verif.Props.C90
import Verif.Props.C91
import Verif.Props.C92
import Verif.Props.C93
import Verif.Props.C94

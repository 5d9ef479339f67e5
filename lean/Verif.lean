import Verif.Model.Types
import Verif.Model.Bytecode
import Verif.Lemmas.Bytecode
import Verif.Props.Bytecode
import Verif.Model.Mem
import Verif.Model.Arith
import Verif.Spec.Arith
import Verif.Props.Arith
import Verif.Spec.Mem
import Verif.Lemmas.Mem
import Verif.Props.Mem
import Verif.Model.Vm
import Verif.Spec.Vm
import Verif.Model.Run
import Verif.Lemmas.Vm
import Verif.Lemmas.VmRun
import Verif.Props.Vm
import Verif.Lemmas.Progress
import Verif.Props.Progress
import Verif.Model.Strings
import Verif.Spec.Strings
import Verif.Props.Strings
import Verif.Model.Library
import Verif.Spec.Library
import Verif.Props.Library
import Verif.Model.Storage
import Verif.Spec.Storage
import Verif.Lemmas.Storage
import Verif.Lemmas.StorageRun
import Verif.Props.Storage
import Verif.Model.Ast
import Verif.Model.Codegen
import Verif.Model.CompExpr
import Verif.Model.CompStmt
import Verif.Model.Lexer
import Verif.Model.Parser
import Verif.Spec.Ops
import Verif.Props.ArithOps
import Verif.Model.Source
import Verif.Spec.Lexer
import Verif.Lemmas.Lexer
import Verif.Props.Lexer
import Verif.Spec.Expr
import Verif.Lemmas.ParserExpr
import Verif.Lemmas.ParserSound
import Verif.Lemmas.ParserGroup
import Verif.Props.Parser
import Verif.Spec.Compiler
import Verif.Lemmas.Ids
import Verif.Lemmas.CompExpr
import Verif.Lemmas.CompStmt
import Verif.Lemmas.Session
import Verif.Lemmas.Blocks
import Verif.Lemmas.Names
import Verif.Props.Compiler
import Verif.Props.Names
import Verif.Spec.Eval
import Verif.Spec.Machine
import Verif.Lemmas.SimRun
import Verif.Lemmas.SimMem
import Verif.Lemmas.SimOps
import Verif.Lemmas.SimExpr
import Verif.Lemmas.SimMain
import Verif.Lemmas.SimFlow
import Verif.Lemmas.SimSimple
import Verif.Lemmas.SimData
import Verif.Lemmas.SimSelect
import Verif.Lemmas.SimStmt
import Verif.Lemmas.Types
import Verif.Props.Expr
import Verif.Model.Colors
import Verif.Model.ConsoleSpec
import Verif.Spec.Console
import Verif.Props.Console
import Verif.Model.Readline
import Verif.Spec.Readline
import Verif.Lemmas.Readline
import Verif.Props.Readline
import Verif.Model.Drawing
import Verif.Spec.Drawing
import Verif.Lemmas.Drawing
import Verif.Lemmas.DrawFill
import Verif.Lemmas.DrawCircle
import Verif.Lemmas.DrawPoly
import Verif.Props.Drawing
import Verif.Model.Lcd
import Verif.Spec.Lcd
import Verif.Lemmas.Lcd
import Verif.Props.Lcd
import Verif.Spec.Exec
import Verif.Lemmas.StmtCodeAll
import Verif.Lemmas.Scope
import Verif.Spec.Program
import Verif.Lemmas.SimCall
import Verif.Lemmas.SimProg
import Verif.Spec.Flow
import Verif.Spec.Assigns
import Verif.Lemmas.Frame
import Verif.Props.Stmt
import Verif.Props.Calls
import Verif.Props.Jumps
import Verif.Props.Host
import Verif.Model.Editor
import Verif.Spec.Editor
import Verif.Lemmas.Editor
import Verif.Lemmas.EditorScreen
import Verif.Props.Editor
import Verif.Spec.Positions
import Verif.Lemmas.ParserTotal
import Verif.Lemmas.CompPos
import Verif.Props.Positions
import Verif.Spec.Grammar
import Verif.Lemmas.Grammar
import Verif.Lemmas.GrammarStmt
import Verif.Props.Grammar
import Verif.Spec.Valid
import Verif.Lemmas.Valid
import Verif.Lemmas.ValidStmt
import Verif.Lemmas.ValidAll
import Verif.Lemmas.ValidChunk
import Verif.Props.Valid
import Verif.Spec.Crash
import Verif.Lemmas.Crash
import Verif.Lemmas.CrashStmt
import Verif.Props.Crash
import Verif.Model.Machine
import Verif.Model.Inspect
import Verif.Lemmas.Machine
import Verif.Props.Machine
import Verif.Spec.Inspect
import Verif.Lemmas.Inspect
import Verif.Props.Inspect
import Verif.Model.Desk
import Verif.Spec.Desk
import Verif.Lemmas.Desk
import Verif.Props.Desk
import Verif.Spec.Data
import Verif.Spec.Stdlib
import Verif.Model.Stdlib
import Verif.Model.StdTable
import Verif.Lemmas.Data
import Verif.Lemmas.Stdlib
import Verif.Props.Stdlib
import Verif.Spec.Settled
import Verif.Lemmas.Settled
import Verif.Lemmas.SettledEval
import Verif.Lemmas.SettledEnv
import Verif.Lemmas.SettledStmt
import Verif.Lemmas.SettledMain
import Verif.Lemmas.SettledStd
import Verif.Props.Settled
import Verif.Props.Targets
import Verif.Props.Blame
import Verif.Spec.Accepted
import Verif.Lemmas.GrammarSound
import Verif.Lemmas.GrammarSimple
import Verif.Lemmas.GrammarAccepted
import Verif.Lemmas.GrammarAll
import Verif.Lemmas.GrammarBlocks
import Verif.Props.Accepted
import Verif.Spec.Capitals
import Verif.Lemmas.Capitals
import Verif.Lemmas.CapitalsStmt
import Verif.Props.Capitals
import Verif.Spec.Numbers
import Verif.Props.Numbers
import Verif.Lemmas.Typing
import Verif.Lemmas.TypingMain
import Verif.Spec.Typing
import Verif.Lemmas.TypingExpr
import Verif.Props.Typing
import Verif.Lemmas.StdConsole
import Verif.Spec.Input
import Verif.Props.Input
import Verif.Model.TextCon
import Verif.Spec.TextCon
import Verif.Lemmas.TextCon
import Verif.Props.TextCon
import Verif.Spec.EditorLcd
import Verif.Lemmas.EditorLcd
import Verif.Props.EditorLcd
import Verif.Model.Gpio
import Verif.Spec.Gpio
import Verif.Lemmas.Gpio
import Verif.Props.Gpio
import Verif.Model.Fonts
import Verif.Spec.Fonts
import Verif.Props.Fonts
import Verif.Model.St7735s
import Verif.Spec.St7735s
import Verif.Lemmas.St7735s
import Verif.Props.St7735s
import Verif.Model.Files
import Verif.Spec.Files
import Verif.Props.Files
import Verif.Model.Help
import Verif.Spec.Help
import Verif.Props.Help
import Verif.Props.HelpText
import Verif.Model.Propline
import Verif.Spec.Propline
import Verif.Props.Propline
import Verif.Model.Timing
import Verif.Spec.Timing
import Verif.Props.Timing
import Verif.Model.Share
import Verif.Spec.Share
import Verif.Props.Share
import Verif.Model.Account
import Verif.Spec.Account
import Verif.Props.Account
import Verif.Model.Startup
import Verif.Props.Startup
import Verif.Model.Request
import Verif.Props.Request
import Verif.Model.WebDrive
import Verif.Props.WebDrive
import Verif.Model.Errmsg
import Verif.Props.Errmsg

import Verif.Props.Value
import Verif.Props.Dict
import Verif.Props.Array
import Verif.Props.Arena
import Verif.Props.Pos
import Verif.Props.GC
import Verif.Props.VM
import Verif.Props.Compile
import Verif.Props.CompileDefects
import Verif.Props.CompileExamples
import Verif.Props.Bytecode
import Verif.Props.BytecodeExamples
import Verif.Props.Lex
import Verif.Props.StdString
import Verif.Props.Symbols
import Verif.Props.Lines
import Verif.Props.Parse
import Verif.Props.Types
import Verif.Props.Rollback
import Verif.Props.Sound
import Verif.Props.SoundExamples
import Verif.Props.Session
import Verif.Props.SessionExamples
import Verif.Props.Bind
import Verif.Props.StdLibExamples
import Verif.Props.Declares
import Verif.Props.StdNative
import Verif.Props.Initialized
import Verif.Props.StdI64
import Verif.Props.StdNumber
import Verif.Props.StdPrint
import Verif.Props.CrashExamples
import Verif.Spec.Accept
import Verif.Proofs.Scoped
import Verif.Proofs.Exist
import Verif.Proofs.GenExact
import Verif.Props.Accept
import Verif.Props.AcceptExamples
import Verif.Model.StdMacro
import Verif.Spec.StdMacro
import Verif.Proofs.LinesText
import Verif.Proofs.JsonText
import Verif.Proofs.JsonBuf
import Verif.Proofs.OneLine
import Verif.Proofs.JsonCompile
import Verif.Proofs.JsonBind
import Verif.Proofs.JsonMeans
import Verif.Props.StdMacro
import Verif.Props.StdMacroExamples
import Verif.Proofs.DelegateText
import Verif.Proofs.DelegateCompile
import Verif.Proofs.DelegateBind
import Verif.Proofs.DelegateFns
import Verif.Props.Delegate
import Verif.Props.DelegateExamples
import Verif.Props.File
import Verif.Props.FileExamples
import Verif.Props.DisasmText
import Verif.Props.HostGlobal
import Verif.Proofs.Spells
import Verif.Spec.Spells
import Verif.Props.Spells
import Verif.Spec.Located
import Verif.Proofs.Located
import Verif.Props.Located
import Verif.Spec.Operands
import Verif.Proofs.Operands
import Verif.Props.Operands
import Verif.Spec.Listed
import Verif.Props.Listed

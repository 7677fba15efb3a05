import Verif.Model.Bytes
import Verif.Model.Token
import Verif.Model.Lexer
import Verif.Model.Ast
import Verif.Model.Parser
import Verif.Model.Program
import Verif.Model.Scope
import Verif.Model.Analyzer
import Verif.Model.Frontend
import Verif.Model.Value
import Verif.Model.Args
import Verif.Model.Glob
import Verif.Model.Heap
import Verif.Model.World
import Verif.Model.Lib
import Verif.Model.Interp
import Verif.Spec.TokenText
import Verif.Spec.SourcePos
import Verif.Spec.Grammar
import Verif.Spec.Unparse
import Verif.Spec.Static
import Verif.Spec.Expansion
import Verif.Spec.Binding
import Verif.Spec.WellFormed
import Verif.Props.Lexer
import Verif.Props.Parser
import Verif.Props.Semantic
import Verif.Props.Args
import Verif.Props.Binding
import Verif.Props.Interp
import Verif.Props.Eval
import Verif.Props.Loops
import Verif.Props.Values
import Verif.Props.Exec
import Verif.Props.Async
import Verif.Props.Main
import Verif.Props.Library
import Verif.Props.Tail
import Verif.Props.Variables
import Verif.Props.Signatures
import Verif.Props.Structure
import Verif.Props.Operators
import Verif.Props.Calls
import Verif.Props.Text
import Verif.Props.Json
import Verif.Props.Stack
import Verif.Props.Shell
import Verif.Props.Show
import Verif.Props.AstFmt
import Verif.Props.Keys
import Verif.Props.Unique
import Verif.Props.Crash
import Verif.Props.Source
import Verif.Props.Reaping
import Verif.Props.Handles
import Verif.Props.Script
import Verif.Props.Places
import Verif.Props.Reports
import Verif.Props.Output
import Verif.Props.Capture
import Verif.Props.PanicText
import Verif.Props.Launch
import Verif.Props.Environ
import Verif.Props.ModulePath
import Verif.Props.Symbols
import Verif.Props.Threads
import Verif.Props.ProgramFmt
import Verif.Props.Rename
import Verif.Props.Alpha
import Verif.Props.Layout
import Verif.Props.Dumps
import Verif.Props.Sizes
import Verif.Props.Iterators
import Verif.Audit

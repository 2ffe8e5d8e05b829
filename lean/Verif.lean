import Verif.Props.IntLiteral
import Verif.Props.Align
import Verif.Props.Layout
import Verif.Props.Pack
import Verif.Props.Enum
import Verif.Props.IntType
import Verif.Props.Fold
import Verif.Props.Cast
import Verif.Props.Compound
import Verif.Props.Pointer
import Verif.Props.FloatFold
import Verif.Props.Bitfield
import Verif.Props.Encode
import Verif.Props.Cond
import Verif.Props.Jump
import Verif.Props.ShortCircuit
import Verif.Props.Sort
import Verif.Props.ErrorOrder
import Verif.Props.Stmt
import Verif.Props.StmtAccept
import Verif.Props.ToU64
import Verif.Props.Utf16
import Verif.Props.Crc32
import Verif.Props.Spinlock
import Verif.Props.WorkQueue
import Verif.Props.AstTable
import Verif.Props.AstTableThreads
import Verif.Props.Sleeper
import Verif.Props.IfExpr
import Verif.Props.IfValue
import Verif.Props.CondIncl
import Verif.Props.DefineTable
import Verif.Props.Redefine
import Verif.Props.IntrusiveList
import Verif.Props.Frame
import Verif.Props.Arena
import Verif.Props.Shuffle
import Verif.Props.CommandLine
import Verif.Props.Path
import Verif.Props.Leaf
import Verif.Props.Tokenize
import Verif.Props.TokenizeLines
import Verif.Props.StringLit
import Verif.Props.StringValue
import Verif.Props.CharLit
import Verif.Props.CExpr
import Verif.Props.CExprSound
import Verif.Props.Returns
import Verif.Props.Reach
import Verif.Props.Roots
import Verif.Props.EntryPoint
import Verif.Props.TypeSpec
import Verif.Props.Imm
import Verif.Props.RegAlloc
import Verif.Props.Chunk
import Verif.Props.StaticTable
import Verif.Props.Scope
import Verif.Props.Initializer
import Verif.Props.ParseOrder
import Verif.Props.Macro
import Verif.Props.Paste
import Verif.Props.Stringize
import Verif.Props.Declarator
import Verif.Props.TypeString
import Verif.Props.Call
import Verif.Props.FloatConv
import Verif.Props.ExprCode
import Verif.Props.FuncCode
import Verif.Props.StaticInit
import Verif.Props.BaseReloc
import Verif.Props.Unwind
import Verif.Props.TypeEq
import Verif.Props.Archive
import Verif.Props.Image
import Verif.Props.ImageTables
import Verif.Props.ImageData
import Verif.Props.ImageSample
import Verif.Props.Object
import Verif.Props.ObjectTables
import Verif.Props.ObjectSections
import Verif.Props.ObjectSample
import Verif.Props.Msf
import Verif.Props.PdbSymbols
import Verif.Props.PdbSymbolsSample
import Verif.Props.Include
import Verif.Props.Md5
import Verif.Props.DebugLines
import Verif.Props.Assign
import Verif.Props.Scopes
import Verif.Props.Seh
import Verif.Props.Names
import Verif.Props.Print
import Verif.Props.Generic
import Verif.Props.Embed
import Verif.Props.Format
import Verif.Props.Define
import Verif.Props.AsmAddress
import Verif.Props.AsmBytes
import Verif.Props.AsmCond
import Verif.Props.AsmNames

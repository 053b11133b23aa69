import Verif.Exec
import Verif.CInt
import Verif.Hash
import Verif.Utf8.Props
import Verif.Str.Props
import Verif.ListAux
import Verif.Util.Stack
import Verif.Util.BucketList
import Verif.Util.Arena
import Verif.Util.Promise
import Verif.Util.Labels
import Verif.Util.Path
import Verif.Util.RefCount
import Verif.Util.Timing
import Verif.Obj.List
import Verif.Obj.Buffer
import Verif.Obj.BufferProps
import Verif.Obj.Probe
import Verif.Obj.Map
import Verif.Obj.MapLemmas
import Verif.Obj.IntKey
import Verif.Obj.MapProps
import Verif.Graph.Model
import Verif.Graph.Eq
import Verif.Graph.Hash
import Verif.Graph.Print
import Verif.Graph.IsType
import Verif.Graph.Copy
import Verif.Num.Float
import Verif.Num.Ops
import Verif.Builtin.Args
import Verif.Builtin.Text
import Verif.Builtin.Tables
import Verif.Builtin.Io
import Verif.Builtin.Handles
import Verif.Builtin.Dir
import Verif.Builtin.Net
import Verif.Builtin.Round
import Verif.Util.Source
import Verif.VM.Ast
import Verif.VM.Layer
import Verif.VM.Compile
import Verif.VM.Machine
import Verif.VM.Source
import Verif.VM.SimBase
import Verif.VM.SimExpr
import Verif.VM.Mono
import Verif.VM.Sim
import Verif.Exe.Model
import Verif.Exe.Builder
import Verif.Exe.Equiv
import Verif.VM.Raw
import Verif.VM.Codegen
import Verif.VM.CodegenProof
import Verif.VM.CodegenMain
import Verif.VM.CodegenTop
import Verif.VM.Balance
import Verif.VM.Frames
import Verif.VM.Trans
import Verif.VM.Invariant
import Verif.VM.Depth
import Verif.VM.Objects
import Verif.VM.Scope
import Verif.VM.ScopeLost
import Verif.VM.Nested
import Verif.VM.Errors
import Verif.VM.Failed
import Verif.VM.Demo
import Verif.VM.Lang
import Verif.VM.Entry
import Verif.Gc.Model
import Verif.Gc.Collect
import Verif.Gc.Main
import Verif.Gc.Alloc
import Verif.Gc.Destruct
import Verif.Gc.Stale
import Verif.Asm.Model
import Verif.Asm.Scan
import Verif.Asm.RoundTrip
import Verif.Asm.Total
import Verif.Asm.Dump
import Verif.Parse.Token
import Verif.Parse.Classes
import Verif.Parse.Lex
import Verif.Parse.Munch
import Verif.Parse.Model
import Verif.Parse.Mono
import Verif.Parse.Total
import Verif.Parse.Literal
import Verif.Parse.Grammar
import Verif.Parse.Complete
import Verif.Parse.Sound
import Verif.Parse.Syntax
import Verif.Parse.Print
import Verif.Parse.Printable
import Verif.Parse.Where
import Verif.VM.Lines
import Verif.VM.TestCompile
import Verif.VM.Names
import Verif.VM.Natives
import Verif.VM.Logic
import Verif.VM.Start.Prog
import Verif.VM.Start.Text
import Verif.VM.Start.Int
import Verif.VM.Start.Boot
import Verif.VM.Records
import Verif.VM.Start.Iter
import Verif.VM.Start.Visit
import Verif.Builtin.Input
import Verif.Util.Script
import Verif.Util.Error
import Verif.VM.Diagram
import Verif.VM.DiagramText
import Verif.VM.Uncalled
import Verif.VM.Book.Sem
import Verif.VM.Book.Rel
import Verif.VM.Book.Inv
import Verif.VM.Book.Text
import Verif.VM.Book.Broken
import Verif.VM.Book.Ops
import Verif.VM.Book.Vars
import Verif.VM.Book.Colls
import Verif.VM.Book.Prims
import Verif.VM.Book.Main
import Verif.VM.Book.End
import Verif.VM.Book.TestRuntime
import Verif.VM.Book.Command
import Verif.VM.Guard
import Verif.VM.GuardRef
import Verif.VM.Book.Guards
import Verif.VM.Book.Restrict
import Verif.VM.Book.Roomy
import Verif.VM.Book.RoomyEnd
import Verif.Obj.MapTable
import Verif.VM.Refine
import Verif.VM.Tables
import Verif.VM.TablesRef
import Verif.VM.TablesMain
import Verif.VM.TablesEnd
import Verif.VM.Move.Rel
import Verif.VM.Move.Opaque
import Verif.VM.Move.World
import Verif.VM.Move.Machine
import Verif.VM.Move.Collect
import Verif.VM.Move.Memory
import Verif.VM.Move.End
import Verif.VM.Move.Table
import Verif.VM.Move.TableLayer
import Verif.VM.Move.TableEnd
import Verif.Builtin.Random
import Verif.Builtin.Seed
import Verif.Util.Cli
import Verif.Util.Command
import Verif.Util.TestFile
import Verif.Util.TestRun
import Verif.Util.TextBuf
import Verif.VM.Ledger
import Verif.Builtin.Socket
import Verif.VM.Trace
import Verif.VM.Move.Command
import Verif.VM.Move.TraceCommand
import Verif.Util.Signals
import Verif.Builtin.Say
import Verif.VM.Grow
import Verif.VM.Move.Interrupt
import Verif.VM.Starve
import Verif.VM.StarveNative
import Verif.VM.StarveAfter
import Verif.VM.StarveNames
import Verif.VM.ListKeys
import Verif.Gc.Usage
import Verif.Examples

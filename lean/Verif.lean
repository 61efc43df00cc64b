import Verif.Common.Mem
import Verif.Common.Res
import Verif.Core.HTable.Props
import Verif.Core.Hmap.Props
import Verif.Std.HashMap.Props
import Verif.Core.Hash.Props
import Verif.Core.StrPool.Props
import Verif.Core.MemPool.Props
import Verif.Core.Array.Props
import Verif.Core.Text.Props
import Verif.Core.Sb.Props
import Verif.Core.Format.Props
import Verif.Core.Search.Props
import Verif.Lang.Prim.Props
import Verif.Lang.Codegen.Props
import Verif.Lang.Eval.Props
import Verif.Lang.Eval.Literals
import Verif.Lang.Lexer.Props
import Verif.Lang.Lexer.Comments
import Verif.Lang.Lexer.Tokens
import Verif.Lang.Parser.Props
import Verif.Std.Vector.Props
import Verif.Std.ListQ.Props
import Verif.Std.Trie.Props
import Verif.Std.Base64.Props
import Verif.Std.Str.View
import Verif.Std.Str.Owned
import Verif.Std.Str.Streams
import Verif.Lang.Scope.Props
import Verif.Lang.Suggest.Props
import Verif.Lang.Overload.Props
import Verif.Lang.Mangle.Props
import Verif.Lang.Defer.Props
import Verif.Lang.RangeLoop.Props
import Verif.Core.Log.Model
import Verif.Core.Log.Props
import Verif.Driver.Stages
import Verif.Std.Bswap
import Verif.Std.Args.Model
import Verif.Std.Args.Props
import Verif.Std.Args.Reject
import Verif.Std.FixedWidth
import Verif.Std.Path
import Verif.Lang.Flags
import Verif.Std.Json.Str
import Verif.Std.SmartPtr
import Verif.Std.Coro
import Verif.Core.Text.Literals
import Verif.Lang.Codegen.Bits
import Verif.Lang.LitCast.Model
import Verif.Lang.LitCast.Props
import Verif.Lang.TypeTable.Model
import Verif.Lang.TypeTable.Spec
import Verif.Lang.TypeTable.Compare
import Verif.Lang.TypeTable.Intern
import Verif.Lang.TypeTable.Props
import Verif.Lang.TypeTable.Findings
import Verif.Lang.Drop.Model
import Verif.Lang.Drop.Run
import Verif.Lang.Drop.Invariant
import Verif.Lang.Drop.Sound
import Verif.Lang.Drop.Correct
import Verif.Lang.Drop.Play
import Verif.Lang.Drop.Props
import Verif.Lang.Drop.Steady
import Verif.Lang.Drop.Findings
import Verif.Lang.Drop.Erase
import Verif.Lang.Drop.Report
import Verif.Std.Http.Model
import Verif.Std.Http.Query
import Verif.Std.Http.Lines
import Verif.Std.Http.Body
import Verif.Std.Http.Server
import Verif.Std.Http.Reply
import Verif.Std.Http.Route
import Verif.Std.Http.Methods
import Verif.Std.Http.Routing
import Verif.Std.Http.Receive
import Verif.Std.Http.Url
import Verif.Std.FileServer.Model
import Verif.Std.FileServer.Paths
import Verif.Std.FileServer.Serve
import Verif.Std.FileServer.Reach
import Verif.Std.FileServer.Ranges
import Verif.Lang.Flow.Source
import Verif.Lang.Flow.Model
import Verif.Lang.Flow.Build
import Verif.Lang.Flow.SimE
import Verif.Lang.Flow.SimS
import Verif.Lang.Flow.Run
import Verif.Lang.Flow.Correct
import Verif.Lang.Flow.Accept
import Verif.Lang.Flow.Exact
import Verif.Lang.Flow.Shapes
import Verif.Lang.Flow.Order
import Verif.Lang.Lookup.Model
import Verif.Lang.Lookup.Sort
import Verif.Lang.Lookup.Names
import Verif.Lang.Lookup.Enum
import Verif.Lang.Lookup.Cases
import Verif.Lang.Preprocess.Model
import Verif.Lang.Preprocess.Spec
import Verif.Lang.Preprocess.Lemmas
import Verif.Lang.Preprocess.Props
import Verif.Lang.Preprocess.Ends
import Verif.Driver.CommandLine.Model
import Verif.Driver.CommandLine.Table
import Verif.Driver.CommandLine.Spec
import Verif.Driver.CommandLine.Words
import Verif.Driver.CommandLine.Loop
import Verif.Driver.CommandLine.Values
import Verif.Driver.CommandLine.Parse
import Verif.Driver.CommandLine.Props
import Verif.Driver.CommandLine.Errors
import Verif.Driver.CommandLine.Numbers
import Verif.Driver.CommandLine.Warnings
import Verif.Driver.CommandLine.Define
import Verif.Lang.Classes.Layout
import Verif.Lang.Classes.Virtual
import Verif.Lang.Classes.Examples
import Verif.Lang.Assign.Refs
import Verif.Lang.Assign.Holes
import Verif.Lang.Parser.Shape
import Verif.Lang.Dump.Props
import Verif.Lang.Consts.Holes
import Verif.Std.EvLoop.SpecOk
import Verif.Std.EvLoop.Sim
import Verif.Std.EvLoop.Timers
import Verif.Std.EvLoop.Model
import Verif.Std.EvLoop.Polls
import Verif.Std.EvLoop.Props
import Verif.Std.EvLoop.Holes
import Verif.Lang.Raise.Source
import Verif.Lang.Raise.Model
import Verif.Lang.Raise.Exprs
import Verif.Lang.Raise.Sim
import Verif.Lang.Raise.Stmts
import Verif.Lang.Raise.Props
import Verif.Lang.Raise.Holes
import Verif.Lang.Switch.Model
import Verif.Lang.Switch.Props
import Verif.Std.HashFn.Model
import Verif.Std.HashFn.Props
import Verif.Lang.Hoist.Model
import Verif.Lang.Hoist.Props
import Verif.Lang.CText.Model
import Verif.Lang.CText.RoundTrip
import Verif.Lang.CText.Props
import Verif.Lang.CFlow.Model
import Verif.Lang.CFlow.Props
import Verif.Lang.CLit.Model
import Verif.Lang.CLit.Strings
import Verif.Lang.CLit.Numbers
import Verif.Lang.CArith.Model
import Verif.Lang.CArith.Props
import Verif.Lang.CArith.Fails
import Verif.Std.StreamIO.Model
import Verif.Std.StreamIO.Sockets
import Verif.Std.StreamIO.Files
import Verif.Std.Proc.Model
import Verif.Std.Proc.Props
import Verif.Std.JsonVal.Model
import Verif.Std.JsonVal.Spec
import Verif.Std.JsonVal.Read
import Verif.Std.JsonVal.Docs
import Verif.Std.JsonVal.Props
import Verif.Std.JsonVal.RoundTrip
import Verif.Lang.Unions.Model
import Verif.Lang.Unions.Sim
import Verif.Lang.Unions.Props
import Verif.Std.Print.Model
import Verif.Std.Print.Props
import Verif.Lang.Generics.Model
import Verif.Lang.Generics.Props
import Verif.Lang.Closures.Model
import Verif.Lang.Closures.Props
import Verif.Std.Slice.Model
import Verif.Std.Slice.Props
import Verif.Lang.ForEach.Model
import Verif.Lang.ForEach.Props
import Verif.Lang.Comptime.Model
import Verif.Lang.Comptime.Spec
import Verif.Lang.Comptime.Props
import Verif.Lang.Comptime.Splice
import Verif.Lang.Comptime.SpliceProps
import Verif.Lang.CNames.Model
import Verif.Lang.CNames.Props
import Verif.Lang.MultiDecl.Model
import Verif.Lang.MultiDecl.Props
import Verif.Lang.StructExpr.Model
import Verif.Lang.StructExpr.Props
import Verif.Lang.DefaultArgs.Model
import Verif.Lang.DefaultArgs.Props
import Verif.Core.Hmap.Reput
import Verif.Core.HTable.Wrap
import Verif.Core.MemPool.Alias
import Verif.Std.Net.Model
import Verif.Std.Net.Props
import Verif.Std.Net.Remote
import Verif.Std.Net.Tcp
import Verif.Std.Net.TcpProps
import Verif.Std.Log.Model
import Verif.Std.Log.Props
import Verif.Driver.Modules.Model
import Verif.Driver.Modules.Props
import Verif.Lang.Startup.Model
import Verif.Lang.Startup.Props
import Verif.Lang.Imports.Model
import Verif.Lang.Imports.Props
import Verif.Lang.Redundant.Model
import Verif.Lang.Redundant.Props
import Verif.Lang.FnCall.Model
import Verif.Lang.FnCall.Props
import Verif.Lang.GNames.Model
import Verif.Lang.GNames.Props
import Verif.Driver.ModPath.Model
import Verif.Driver.ModPath.Props
import Verif.Lang.ArrayLit.Model
import Verif.Lang.ArrayLit.Props
import Verif.Driver.CImport.Model
import Verif.Driver.CImport.Props
import Verif.Lang.Implements.Model
import Verif.Lang.Implements.Props
import Verif.Core.Excerpt.Model
import Verif.Core.Excerpt.Lemmas
import Verif.Core.Excerpt.Props
import Verif.Lang.Tests.Model
import Verif.Lang.Tests.Props
import Verif.Lang.TypeQ.Model
import Verif.Lang.TypeQ.Props
import Verif.Lang.Unreach.Model
import Verif.Lang.Unreach.Props
import Verif.Lang.ObjGraph.Model
import Verif.Lang.ObjGraph.Lemmas
import Verif.Lang.ObjGraph.Props
import Verif.Lang.CopyDrop.Model
import Verif.Lang.CopyDrop.Props
import Verif.Lang.Implicit.Model
import Verif.Lang.Implicit.Props
import Verif.Lang.ClassEnd.Model
import Verif.Lang.ClassEnd.Props
import Verif.Std.FsOps.Model
import Verif.Std.FsOps.Props
import Verif.Std.FsOps.Listing
import Verif.Std.FsOps.Mkdirs
import Verif.Lang.FieldInit.Model
import Verif.Lang.FieldInit.Props
import Verif.Std.Ssl.Model
import Verif.Std.Ssl.Props
import Verif.Lang.Spread.Model
import Verif.Lang.Spread.Props
import Verif.Lang.ModMembers.Model
import Verif.Lang.ModMembers.Props
import Verif.Lang.CompIndex.Model
import Verif.Lang.CompIndex.Props
import Verif.Std.Build.Model
import Verif.Std.Build.Props
import Verif.Lang.CompTypes.Model
import Verif.Lang.CompTypes.Props
import Verif.Std.Fetch.Model
import Verif.Std.Fetch.Props
import Verif.Lang.Conds.Model
import Verif.Lang.Conds.Props
import Verif.Core.Try.Model
import Verif.Core.Try.Props
import Verif.Lang.Recover.Model
import Verif.Lang.Recover.Props
import Verif.Lang.Attr.Model
import Verif.Lang.Attr.Props
import Verif.Std.Thread.Model
import Verif.Std.Thread.Props

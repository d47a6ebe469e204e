import Verif.Assert.Callers
import Verif.Assert.Collections
import Verif.Assert.Delta
import Verif.Assert.Diff
import Verif.Assert.Equal
import Verif.Assert.Files
import Verif.Assert.Float
import Verif.Assert.Http
import Verif.Assert.JsonEq
import Verif.Assert.Panics
import Verif.Assert.Simple
import Verif.Assert.Value
import Verif.Assert.Wrappers
import Verif.Basic
import Verif.Closer
import Verif.CloserArgs
import Verif.Concurrent.Executor
import Verif.Concurrent.Map
import Verif.Countlog.Chain
import Verif.Countlog.Contexts
import Verif.Countlog.Fanout
import Verif.Countlog.Formats
import Verif.Countlog.JsonLine
import Verif.Countlog.LevelRace
import Verif.Countlog.LogPanic
import Verif.Countlog.Model
import Verif.Countlog.Places
import Verif.Countlog.Printf
import Verif.Countlog.Props
import Verif.Countlog.Sinks
import Verif.Countlog.Timers
import Verif.Countlog.Together
import Verif.Difflib.Blocks
import Verif.Difflib.Context
import Verif.Difflib.Grouped
import Verif.Difflib.Longest
import Verif.Difflib.Model
import Verif.Difflib.Overflow
import Verif.Difflib.Queries
import Verif.Difflib.Ratio
import Verif.Difflib.Search
import Verif.Difflib.Unified
import Verif.Dump.Dump
import Verif.Dump.Map
import Verif.Dump.MapEnds
import Verif.Dump.MapShows
import Verif.Dump.Shows
import Verif.Gls.Gls
import Verif.Gls.GoId
import Verif.Gls.Nested
import Verif.Jsonfmt.BytesLemmas
import Verif.Jsonfmt.CacheLemmas
import Verif.Jsonfmt.CacheModel
import Verif.Jsonfmt.CacheProps
import Verif.Jsonfmt.DecimalSpec
import Verif.Jsonfmt.FloatModel
import Verif.Jsonfmt.FloatProps
import Verif.Jsonfmt.IntLemmas
import Verif.Jsonfmt.IntModel
import Verif.Jsonfmt.IntProps
import Verif.Jsonfmt.MemModel
import Verif.Jsonfmt.MemProps
import Verif.Jsonfmt.RecType
import Verif.Jsonfmt.StrLemmas
import Verif.Jsonfmt.StrModel
import Verif.Jsonfmt.StrProps
import Verif.Jsonfmt.Together
import Verif.Jsonfmt.ValLemmas
import Verif.Jsonfmt.ValModel
import Verif.Jsonfmt.ValProps
import Verif.Jsonfmt.ValSpec
import Verif.Msgfmt.Append
import Verif.Msgfmt.AppendRoom
import Verif.Msgfmt.Custom
import Verif.Msgfmt.FormatLemmas
import Verif.Msgfmt.FormatModel
import Verif.Msgfmt.FormatProps
import Verif.Msgfmt.ParseLemmas
import Verif.Msgfmt.PrintPool
import Verif.Msgfmt.Println
import Verif.Msgfmt.TemplateSpec
import Verif.Msgfmt.Together
import Verif.Output.Async
import Verif.Output.AsyncFile
import Verif.Output.BackupName
import Verif.Output.Compress
import Verif.Output.Drops
import Verif.Output.HomePage
import Verif.Output.Lumberjack
import Verif.Output.Mill
import Verif.Output.MillWorker
import Verif.Output.NameByIndex
import Verif.Output.Rotation
import Verif.Output.RotationPolicy
import Verif.Output.Witch
import Verif.Parse.BufferLemmas
import Verif.Parse.BufferProps
import Verif.Parse.Buffers
import Verif.Parse.ExprModel
import Verif.Parse.ExprProps
import Verif.Parse.Model
import Verif.Parse.NoNumber
import Verif.Parse.Props
import Verif.Parse.Props2
import Verif.Parse.ReadLemmas
import Verif.Parse.ReadModel
import Verif.Parse.RuneProps
import Verif.Parse.SetBuffer
import Verif.Parse.Sim
import Verif.Parse.Utf8Lemmas
import Verif.Reflect2.Cache
import Verif.Reflect2.KindTypes
import Verif.Reflect2.Kinds
import Verif.Reflect2.Layout
import Verif.Reflect2.MapCalls
import Verif.Reflect2.MapIter
import Verif.Reflect2.Maps
import Verif.Reflect2.Safe
import Verif.Reflect2.SafeIter
import Verif.Reflect2.SafeVar
import Verif.Reflect2.Slice
import Verif.Reflect2.TypeByName
import Verif.Reflect2.Types
import Verif.Spec.BytesText
import Verif.Spec.Json
import Verif.Spec.JsonGrammar
import Verif.Spec.JsonString
import Verif.Spec.Utf8
import Verif.Spew.Blob
import Verif.Spew.Bypass
import Verif.Spew.Columns
import Verif.Spew.Dump
import Verif.Spew.Ends
import Verif.Spew.Format
import Verif.Spew.FormatEnds
import Verif.Spew.Hex
import Verif.Spew.Indexed
import Verif.Spew.Inject
import Verif.Spew.Printf
import Verif.Spew.Reuse
import Verif.Spew.Same
import Verif.Spew.Sort
import Verif.Spew.Text
import Verif.Spew.Verb
import Verif.Stats.Dims
import Verif.Stats.ExportProps
import Verif.Stats.Handler
import Verif.Stats.KeyMemory
import Verif.Stats.Points
import Verif.Stats.Window
import Verif.Stats.WindowAll
import Verif.Stats.WindowProps
import Verif.Test.Call
import Verif.Test.Check
import Verif.Test.Helper
import Verif.Test.JsonEqual
import Verif.Test.JsonHeap
import Verif.Test.JsonKeys
import Verif.Test.JsonManyKeys
import Verif.Test.Report

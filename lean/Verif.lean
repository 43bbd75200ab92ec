import Verif.Base.AMap
import Verif.Base.Bytes
import Verif.Watermark.Model
import Verif.Watermark.Props
import Verif.Replacer.Model
import Verif.Replacer.Spec
import Verif.Replacer.Lemmas
import Verif.Replacer.Props
import Verif.Cache.Fifo
import Verif.Cache.LfuSpec
import Verif.Cache.Lfu
import Verif.Cache.HeapLfu
import Verif.Cache.LruK
import Verif.Cache.Lru
import Verif.Rid.Rid
import Verif.Locks.Modes
import Verif.Locks.Queue
import Verif.Locks.Manager
import Verif.Locks.Deadlock
import Verif.Locks.Props
import Verif.Locks.GrantProps
import Verif.Mvcc.Visibility
import Verif.Mvcc.Model
import Verif.Mvcc.Spec
import Verif.Mvcc.Refine
import Verif.Mvcc.Props
import Verif.Mvcc.SerialProps
import Verif.Disk.CompressionProps
import Verif.Hash.Directory
import Verif.Hash.Table
import Verif.Hash.Bytes
import Verif.BTree.Model
import Verif.BTree.Spec
import Verif.BTree.Lemmas
import Verif.BTree.Scan
import Verif.BTree.Delete
import Verif.BTree.Props
import Verif.BTree.Iter
import Verif.Pool.Model
import Verif.Pool.Spec
import Verif.Pool.Lemmas
import Verif.Pool.Steps
import Verif.Pool.Props
import Verif.Latch.Model
import Verif.Latch.Spec
import Verif.Latch.Lemmas
import Verif.Latch.Safe
import Verif.Pool.Threads
import Verif.Pool.ThreadsLemmas
import Verif.Pool.ThreadsSpec
import Verif.Pool.ThreadsProps
import Verif.Pool.Books
import Verif.Pool.BooksLemmas
import Verif.Pool.BooksSpec
import Verif.Pool.BooksProps
import Verif.Wire.Postcard
import Verif.Wire.Value
import Verif.Wal.Record
import Verif.Wal.Iterator
import Verif.Wal.Manager
import Verif.Wal.Props
import Verif.Wal.Durable
import Verif.Wal.Recovery
import Verif.Wal.RecoverySpec
import Verif.Wal.RecoveryProps
import Verif.TablePage.Model
import Verif.TablePage.Spec
import Verif.TablePage.Lemmas
import Verif.TablePage.Disk
import Verif.TablePage.Props
import Verif.TablePage.Counts
import Verif.Sql.Float
import Verif.Sql.Value
import Verif.Sql.Cast
import Verif.Sql.ValueLemmas
import Verif.Sql.FloatLemmas
import Verif.Sql.OrderLemmas
import Verif.Sql.FloatExact
import Verif.Sql.ValueProps
import Verif.Sql.Arith
import Verif.Sql.ArithProps
import Verif.Sql.CastExpr
import Verif.Sql.CastExprProps
import Verif.Sql.Expr
import Verif.Sql.ExprProps
import Verif.Sql.ExprProps2
import Verif.Sql.Parse
import Verif.Sql.ParseSpec
import Verif.Sql.ParseProps
import Verif.Sql.Strings
import Verif.Sql.StringsProps
import Verif.Exec.Model
import Verif.Exec.Props
import Verif.Exec.SortProps
import Verif.Exec.DistinctProps
import Verif.Exec.TopNProps
import Verif.Exec.PerGroup
import Verif.Exec.PerGroupProps
import Verif.Exec.Join
import Verif.Exec.JoinProps
import Verif.Exec.HashJoin
import Verif.Exec.HashJoinProps
import Verif.Exec.Agg
import Verif.Exec.AggProps
import Verif.Exec.IndexScan
import Verif.Exec.IndexScanProps
import Verif.Exec.IndexJoinProps
import Verif.Plan.Model
import Verif.Plan.Den
import Verif.Plan.Optimizer
import Verif.Plan.OptProps
import Verif.Plan.Select
import Verif.Plan.SelectSpec
import Verif.Plan.SelectProps
import Verif.Plan.GroupProps
import Verif.Plan.SelectFails
import Verif.Plan.From
import Verif.Plan.FromSpec
import Verif.Plan.FromProps
import Verif.Plan.FromFails
import Verif.Plan.Index
import Verif.Dml.Heap
import Verif.Dml.HeapLemmas
import Verif.Dml.Model
import Verif.Dml.Lemmas
import Verif.Dml.Spec
import Verif.Dml.Props
import Verif.Dml.InsertProps
import Verif.Dml.Witness
import Verif.Dml.History
import Verif.Dml.HistorySpec
import Verif.Dml.HistoryProps
import Verif.Dml.Trans
import Verif.Dml.TransSpec
import Verif.Dml.TransProps
import Verif.Dml.Declared
import Verif.Dml.DeclaredSpec
import Verif.Dml.DeclaredProps
import Verif.Net.Model
import Verif.Net.Lemmas
import Verif.Net.Props
import Verif.Session.Model
import Verif.Session.Spec
import Verif.Session.Props
import Verif.Session.Level
import Verif.Disk.Model
import Verif.Disk.Spec
import Verif.Disk.Cand
import Verif.Disk.Keep
import Verif.Disk.Props
import Verif.Disk.Tasks
import Verif.PTree.Model
import Verif.PTree.Search
import Verif.PTree.Tree
import Verif.PTree.Find
import Verif.PTree.Grow
import Verif.PTree.Content
import Verif.PTree.Insert
import Verif.PTree.Spec
import Verif.PTree.Props
import Verif.PTree.Concurrent
import Verif.PTree.ConcurrentProps
import Verif.Catalog.Model
import Verif.Catalog.Spec
import Verif.Catalog.Lemmas
import Verif.Catalog.Refine
import Verif.Catalog.Restart
import Verif.Catalog.Props
import Verif.Io.Model
import Verif.Io.Spec
import Verif.Io.Lemmas
import Verif.Io.Inv
import Verif.Io.Runs
import Verif.Io.Durable
import Verif.Io.Order
import Verif.Io.Progress
import Verif.Io.Props
import Verif.Direct.Model
import Verif.Direct.Props
import Verif.Coalesce.Model
import Verif.Coalesce.Lemmas
import Verif.Coalesce.Props
import Verif.Coalesce.Size
import Verif.Coalesce.SizeLemmas
import Verif.Coalesce.SizeProps
import Verif.Plan.Subquery
import Verif.Plan.SubqueryProps
import Verif.Time.Model
import Verif.Time.Spec
import Verif.Time.Lemmas
import Verif.Time.CeilFloorProps
import Verif.Time.TextProps
import Verif.Time.Functions
import Verif.Time.FunctionsSpec
import Verif.Time.FunctionsProps
import Verif.Time.IntervalProps
import Verif.Sql.CastProps
import Verif.Sql.CastWords
import Verif.Sql.SubscriptProps
import Verif.Sql.RegexProps
import Verif.Sql.ConvertProps
import Verif.Sql.DisplayProps
import Verif.Sql.ValueBytesProps
import Verif.Sql.DecimalProps
import Verif.Whole.Cases
import Verif.Whole.ClientsCases
import Verif.Whole.NamedCases
import Verif.Whole.TypedCases
import Verif.Whole.JoinCases
import Verif.Sql.Calm
import Verif.Whole.WiredCases
import Verif.HeapConc.Cases
import Verif.Constraint.Props
import Verif.HashPage.Cases
import Verif.HashPage.Directory
import Verif.Metrics.Props

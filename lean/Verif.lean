import Verif.Ring.Props
import Verif.Ring.Heap
import Verif.Sort.Props
import Verif.Sort.NaN
import Verif.Sort.More
import Verif.Sort.EventProps
import Verif.Slice.Props
import Verif.Algo.Props
import Verif.GoMap.Props
import Verif.ArrayMap.Props
import Verif.CustomMap.Props
import Verif.Sharded.Props
import Verif.Sharded.WeakProps
import Verif.Sharded.ClearProps
import Verif.Sharded.ShardLin
import Verif.Sharded.ClearRace
import Verif.Sharded.Reentrant
import Verif.AtomicValue.Props
import Verif.Xsync.SyncProps
import Verif.Xsync.RandProps
import Verif.Xsync.PoolProps
import Verif.Xfn.Props
import Verif.Xfn.BindProps
import Verif.Xhash.Props
import Verif.Secrand.Chacha
import Verif.Secrand.KeyStream
import Verif.Stream.Props
import Verif.Stream.SourceProps
import Verif.Ring.Amortised
import Verif.Xfn.Arith
import Verif.Algo.Effect
import Verif.Algo.Ranges
import Verif.Algo.Sorted
import Verif.Algo.BadRange
import Verif.AtomicPtr.Props
import Verif.Stream.SkipCount
import Verif.Stream.Fails
import Verif.Sort.Xorshift
import Verif.Xrand.Crypto
import Verif.GoMap.Stream
import Verif.Stream.IterFails
import Verif.Sort.Pivot
import Verif.Sort.Descending
import Verif.Sort.Break
import Verif.Xhash.Contract
import Verif.Sharded.Alone
import Verif.Sharded.Unhashable
import Verif.Sharded.AnyKey
import Verif.Stream.Panics
import Verif.Stream.Str
import Verif.Sharded.Hasher
import Verif.Secrand.EveryRead
import Verif.Xfn.BindMsgProps
import Verif.Xfn.BindTwice
import Verif.Slice.Stale
import Verif.CustomMap.Panics
import Verif.ArrayMap.Panics
import Verif.Stream.Exact
import Verif.CustomMap.Exact
import Verif.Sort.Parametric
import Verif.Sort.Unique
import Verif.Ring.Copies
import Verif.Sort.Period
import Verif.Stream.InPlace
import Verif.Stream.Nested
import Verif.Conc.Before
import Verif.Sharded.Ordered
import Verif.Xsync.Ordered
import Verif.Xsync.RandOrdered
import Verif.AtomicValue.Ordered
import Verif.Sort.ByPlace
import Verif.Sort.Writing
import Verif.ArrayMap.Exact
import Verif.Stream.Reenter
import Verif.Stream.ReenterProps
import Verif.Stream.Counted
import Verif.Sort.Lower
import Verif.Sort.OrderedProps
import Verif.Stream.SliceExact
import Verif.CustomMap.When
import Verif.Ring.Overlap
import Verif.Stream.RangeExact
import Verif.Stream.Finished
import Verif.Stream.SkipExact
import Verif.Stream.MapExact
import Verif.Conc.Client
import Verif.AtomicValue.Client
import Verif.AtomicPtr.Client
import Verif.Sharded.Client
import Verif.Xsync.Client
import Verif.Conc.Local
import Verif.Together.Props
import Verif.Conc.Fair
import Verif.Conc.FairLocal
import Verif.Sharded.Fair
import Verif.Sharded.LenExact
import Verif.Xsync.Fair
import Verif.Together.Fair
import Verif.Rand.Model
import Verif.Rand.Lemmas
import Verif.Rand.Ints
import Verif.Rand.Fast
import Verif.Rand.Perm
import Verif.Rand.Shuffle
import Verif.Rand.Never
import Verif.Rand.Read
import Verif.Rand.Sources
import Verif.Rand.Props
import Verif.Algo.PermCost
import Verif.Sort.WrittenModel
import Verif.Sort.WrittenProps
import Verif.Ring.Inserters
import Verif.Sort.WrittenSim
import Verif.Sort.WrittenRace
import Verif.Rand.Floats
import Verif.AtomicValue.Exact
import Verif.Secrand.SplitExact
import Verif.Slice.Inserters
import Verif.Algo.Dummy
import Verif.Slice.Views
import Verif.Xfn.Kept
import Verif.Algo.Unsorted
import Verif.Algo.Raced
import Verif.Secrand.Gen
import Verif.Xhash.Gen
import Verif.Sharded.Ascending
import Verif.Sort.OrderedRacedModel
import Verif.Sort.OrderedRacedSim
import Verif.Sort.OrderedRaced
import Verif.Sharded.Layout
import Verif.Sharded.RaceExact
import Verif.Xhash.Xxh3
import Verif.Conc.Along
import Verif.AtomicValue.Tests
import Verif.AtomicValue.TestsCas
import Verif.Conformance.Basic
import Verif.Conformance.Ring
import Verif.Conformance.RingLarge
import Verif.Conformance.Slice
import Verif.Conformance.Algo
import Verif.Conformance.Stream
import Verif.Conformance.Map
import Verif.Src.RingRun
import Verif.Src.SortRun
import Verif.Src.AlgoRun
import Verif.Src.SliceMake
import Verif.Src.MapExamples
import Verif.Src.HashExamples
import Verif.CustomMap.Overflow
import Verif.Src.MapOverflow
import Verif.Src.ShardRun
import Verif.Src.IterRestRun
import Verif.Src.FnRun
import Verif.Src.RngRun

import Verif.Basic
import Verif.Vc
import Verif.World
import Verif.Ledger
import Verif.Spec
import Verif.Driver
import Verif.SpecBal
import Verif.Cmp
import Verif.Chunk.Model
import Verif.Chunk.Lemmas
import Verif.Chunk.Lemmas2
import Verif.Chunk.World
import Verif.Chunk.Bal
import Verif.Chunk.View
import Verif.Ring.Model
import Verif.Ring.Lemmas
import Verif.Ring.Lemmas2
import Verif.Ring.Lemmas3
import Verif.Ring.Lemmas4
import Verif.Ring.Lemmas5
import Verif.Ring.World
import Verif.Ring.Bal
import Verif.Ring.View
import Verif.Safe
import Verif.Ring.Raw
import Verif.Props.ChunkHistory
import Verif.Props.ChunkOps
import Verif.Props.ChunkBulk
import Verif.Props.RingHistory
import Verif.Props.RingOps
import Verif.Props.RingBulk
import Verif.Props.RingIter
import Verif.Props.RingSlices
import Verif.Props.RingWrap
import Verif.Props.RingSafety
import Verif.SpecMap
import Verif.Sparse.Model
import Verif.Sparse.Lemmas
import Verif.Sparse.Lemmas2
import Verif.Sparse.World
import Verif.Sparse.Bal
import Verif.Sparse.View
import Verif.Props.SparseHistory
import Verif.Props.SparseOps
import Verif.Inline.Model
import Verif.Inline.Lemmas
import Verif.Inline.Lemmas2
import Verif.Inline.World
import Verif.Inline.Bal
import Verif.Inline.View
import Verif.Props.InlineHistory
import Verif.Props.InlineOps
import Verif.Props.Arbitrary
import Verif.Props.Pool
import Verif.Moves
import Verif.Lawful
import Verif.Props.Moves
import Verif.Props.Contracts
import Verif.Io
import Verif.Arbitrary
import Verif.Props.Io
import Verif.Props.RingAlias
import Verif.Props.DropIn
import Verif.Props.Layout
import Verif.Props.Unchecked
import Verif.Props.Builds
import Verif.Props.Huge
import Verif.Props.HugeRing
import Verif.Props.Moves2
import Verif.Props.InlineMoves
import Verif.Props.RawSlices
import Verif.Props.Amortised
import Verif.Props.Dtors
import Verif.Endless
import Verif.Props.Endless
import Verif.Fuzz
import Verif.Props.FuzzChunk
import Verif.Props.FuzzRing
import Verif.Props.FuzzSparse
import Verif.Props.FuzzInline
import Verif.RepoTests
import Verif.Shared
import Verif.Props.SharedChunk
import Verif.Props.SharedRing
import Verif.Props.SharedSparse
import Verif.Props.SharedInline
import Verif.Search
import Verif.Props.Ordered
import Verif.Mixed
import Verif.Props.Mixed
import Verif.Effects
import Verif.Props.Effects
import Verif.Alias
import Verif.Props.AliasStacked
import Verif.Props.AliasCalls
import Verif.Props.AliasTree
import Verif.Props.AliasRing
import Verif.Props.AliasSparse
import Verif.Props.AliasSplit
import Verif.Props.AliasPointers
import Verif.AliasMethods
import Verif.Props.AliasMethods
import Verif.Threads
import Verif.Props.Threads
import Verif.AliasMethods2
import Verif.Props.AliasRingMethods
import Verif.Props.AliasRingActs
import Verif.Props.AliasMethods2
import Verif.AliasInline
import Verif.Props.AliasInline
import Verif.Props.Queue
import Verif.ThreadsIter
import Verif.Props.ThreadsIter
import Verif.Types
import Verif.Props.Types
import Verif.Pour
import Verif.Care
import Verif.CareSpec
import Verif.Props.Pour
import Verif.Props.AnyIter
import Verif.Props.CareChunk
import Verif.Props.CareRing
import Verif.Props.CareSparse
import Verif.Props.CareInline
import Verif.Props.Failures
import Verif.Props.Opaque
import Verif.Nest
import Verif.Props.Nest
import Verif.Props.NestCmp
import Verif.Walk
import Verif.Props.Walk
import Verif.Props.WalkMethods
import Verif.Props.RingWrap2
import Verif.CarePool
import Verif.Props.CarePool
import Verif.CareWalk
import Verif.Props.CareWalk
import Verif.Mutate
import Verif.Props.Mutate
import Verif.Fill
import Verif.Props.Fill
import Verif.AliasGuard
import Verif.Props.AliasGuard
import Verif.AliasBody
import Verif.Props.AliasBody
import Verif.Props.AliasHelped

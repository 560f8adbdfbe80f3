import Verif.Props.Points
import Verif.Props.Intervals
import Verif.Props.MapProps
import Verif.Props.FromIter
import Verif.Props.Pointwise
import Verif.Props.SetProps
import Verif.Props.GqditProps
import Verif.Props.ZosditProps
import Verif.Props.ZosditExact
import Verif.Props.SerdeProps
import Verif.Props.SerdeExact
import Verif.Props.TreeProps
import Verif.Props.Canonical
import Verif.Props.Algebra
import Verif.Props.CustomTypes
import Verif.Props.GqditStore
import Verif.Props.GqditHoles
import Verif.Props.GqditLaws
import Verif.Props.IntervalLaws
import Verif.Props.CrashProps
import Verif.Props.CrashGqProps
import Verif.Props.CrashZProps
import Verif.Props.Bounds
import Verif.Props.Helpers
import Verif.Props.IterProps
import Verif.Props.Cross
import Verif.Props.ZosditNodit
import Verif.Props.Parametric
import Verif.Props.EqualityProps
import Verif.Props.SerdeIntervalProps
import Verif.Props.SerdeErrors
import Verif.TreeMap
import Verif.Props.TreeMapProps
import Verif.Props.Locality
import Verif.Props.ZosditLocality
import Verif.Props.AnyPoints
import Verif.Usize
import Verif.Props.UsizeProps
import Verif.Props.GqditClients
import Verif.Props.Instances
import Verif.Clone
import Verif.Props.CloneProps
import Verif.Props.CloneHistory
import Verif.Props.CloneCount
import Verif.Props.Repairs
import Verif.SetHistory
import Verif.CrashSet
import Verif.Props.SetHistory
import Verif.Props.SetTransfer
import Verif.Program
import Verif.Props.ProgramProps
import Verif.Props.ZosditClients
import Verif.RangeIter
import Verif.Props.RangeIterProps
import Verif.Props.RepairsIO
import Verif.Props.SetAlgebra
import Verif.Props.Bookings
import Verif.Props.IntervalEq
import Verif.Props.ZosditDrain
import Verif.Props.Instances2
import Verif.Props.Widening
import Verif.Props.WideningZosdit
import Verif.Props.Mirror
import Verif.Props.Conservation
import Verif.Props.GqditSetsProps
import Verif.Props.Agreement
import Verif.Props.Sizes
import Verif.Props.AgreementZosdit
import Verif.Props.AgreementGqdit
import Verif.Props.Splitting
import Verif.Props.Repeating
import Verif.Props.FirstCome
import Verif.Props.Monotone
import Verif.Props.CrashFuel
import Verif.Props.CrashGrain
import Verif.Props.Rollback
import Verif.Props.Divided
import Verif.Props.Alloc
import Verif.Props.RangeUpdate
import Verif.Props.Compact
import Verif.Props.Nearest
import Verif.Props.Exchange
import Verif.Props.Replicas
import Verif.Props.Durable
import Verif.Props.Walk
import Verif.Props.Join
import Verif.Props.Shift
import Verif.Props.Timeline
import Verif.Props.Patch
import Verif.Props.Splice
import Verif.Props.Routing
import Verif.Props.Rooms
import Verif.Props.Reach
import Verif.Props.Reassembly
import Verif.Props.Locks
import Verif.Props.Groups
import Verif.Props.Painter
import Verif.Props.Paging
import Verif.Props.Replay
import Verif.Props.Toggle
import Verif.Props.Greedy
import Verif.Props.Cache
import Verif.Props.Txn
import Verif.Props.Busiest
import Verif.Props.Shards
import Verif.Props.Tiles
import Verif.Props.Kth
import Verif.Props.Slots
import Verif.Props.RoomsDepth
import Verif.Props.KthFree
import Verif.Props.Instances3
import Verif.Props.FullStatements
import Verif.Props.RepoTests

import Verif.Props.Reducer
import Verif.Props.Separator
import Verif.Props.Windows
import Verif.Model.HappensBefore
import Verif.Props.HappensBefore
import Verif.Props.Lifetime
import Verif.Model.SpinlockMove
import Verif.Props.SpinlockMove
import Verif.Model.MachineTime
import Verif.Props.MachineTime
import Verif.Model.MultiMove
import Verif.Props.MultiMove
import Verif.Model.HandlerLocks
import Verif.Props.HandlerLocks
import Verif.Model.HandlerRegistry
import Verif.Props.HandlerRegistry
import Verif.Model.Throwing
import Verif.Lemmas.Throwing
import Verif.Lemmas.ThrowingOnce
import Verif.Props.Throwing
import Verif.Model.ThrowingOut
import Verif.Lemmas.ThrowingOut
import Verif.Props.ThrowingOut
import Verif.Model.PackerThrow
import Verif.Props.PackerThrow
import Verif.Model.Laps
import Verif.Props.Laps
import Verif.Props.PackerOrder
import Verif.Props.Relay
import Verif.Props.JsonAccept
import Verif.Lemmas.NthMode
import Verif.Props.Accuracy
import Verif.Props.Loss
import Verif.Props.FreshWindow
import Verif.Props.Aggregator
import Verif.Props.Look
import Verif.Props.Registry
import Verif.Props.RegistryRace
import Verif.Props.Meters
import Verif.Props.MultiMeter
import Verif.Props.Wrtstat
import Verif.Props.Multi
import Verif.Props.MultiMt
import Verif.Props.Info
import Verif.Props.InfoExact
import Verif.Props.Packer
import Verif.Props.Locks
import Verif.Props.LocksMisuse
import Verif.Props.Pool
import Verif.Props.PoolReducer
import Verif.Props.RegistryCount
import Verif.Props.Reentrant
import Verif.Props.Accessors
import Verif.Props.ReducerFull
import Verif.Props.RegistryLocks
import Verif.Props.Monitor
import Verif.Props.ConcCalls
import Verif.Props.ConcRegistry
import Verif.Props.Double
import Verif.Props.Json
import Verif.Props.Options
import Verif.Props.JsonPacker
import Verif.Suite.Reducer
import Verif.Suite.Aggregator
import Verif.Suite.Packer
import Verif.Props.JsonRecords
import Verif.Suite.Json
import Verif.Props.Dict
import Verif.Props.Machine
import Verif.Props.Exact
import Verif.Props.ExactWrtstat
import Verif.Props.ExactRegistry
import Verif.Props.ExactPacker
import Verif.Props.ExactOptions
import Verif.Model.Capacity
import Verif.Props.Capacity
import Verif.Props.Feed
import Verif.Props.Order
import Verif.Props.Scale
import Verif.Props.Shift
import Verif.Props.LocksFinite
import Verif.Props.MergeAll
import Verif.Props.Weighted
import Verif.Spec.Likeness
import Verif.Lemmas.TwoRuns
import Verif.Props.TimesOnly
import Verif.Props.Memory
import Verif.Props.Rollup
import Verif.Props.Polling
import Verif.Props.Ticks
import Verif.Props.Renaming
import Verif.Props.Library
import Verif.Props.InOrder
import Verif.Props.PackerSizes
import Verif.Props.Filled
import Verif.Props.Fewest
import Verif.Props.Tiers
import Verif.Props.Raise
import Verif.Props.MoreRoom
import Verif.Model.Legacy
import Verif.Props.Legacy
import Verif.Props.LegacyHash
import Verif.Props.Shutdown
import Verif.Props.Owed
import Verif.Model.LegacyOptions
import Verif.Props.LegacyOptions
import Verif.Props.SpinFair
import Verif.Props.HowMany
import Verif.Model.WallClock
import Verif.Spec.Unit
import Verif.Lemmas.Unit
import Verif.Props.Unit
import Verif.Lemmas.Horizon
import Verif.Props.Late
import Verif.Model.LegacyRegistry
import Verif.Spec.LegacySpec
import Verif.Props.LegacyRegistry
import Verif.Props.MultiLate
import Verif.Props.RegistryLate
import Verif.Props.Clocked
import Verif.Props.Ledger
import Verif.Props.Daybook
import Verif.Props.Fullbook
import Verif.Props.Account
import Verif.Props.Desk
import Verif.Props.Folio
import Verif.Props.RegistryTotal
import Verif.Props.WrtTotal
import Verif.Props.WrtFolio
import Verif.Props.AnyId
import Verif.Props.ConcTotal
import Verif.Props.MultiFull
import Verif.Props.ThrowBooks
import Verif.Props.ThrowAccount
import Verif.Props.ThrowFolio
import Verif.Props.PackerTorn
import Verif.Model.ThrowingMt
import Verif.Props.ThrowDesk
import Verif.Model.ThrowingMultiMt
import Verif.Props.ThrowShared
import Verif.Model.ConcThrow
import Verif.Props.ConcThrow
import Verif.Props.ConcThrowTotal
import Verif.Model.LegacyMove
import Verif.Props.LegacyMove
import Verif.Model.SpinlockNew
import Verif.Props.SpinlockNew
import Verif.Props.LocksExact
import Verif.Model.LegacyLocks
import Verif.Props.LegacyLocks

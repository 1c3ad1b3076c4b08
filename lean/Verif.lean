import Verif.Model.Merge
import Verif.Model.Iterator
import Verif.Proof.Log
import Verif.Proof.InMemory
import Verif.Proof.InMemoryDelete
import Verif.Proof.Merge
import Verif.Proof.InMemoryRead
import Verif.Proof.InMemoryAll
import Verif.Thm.InMemory
import Verif.Thm.Rollback
import Verif.Thm.Iterator
import Verif.Model.LevelDB
import Verif.Proof.KV
import Verif.Proof.LevelDB
import Verif.Thm.LevelDB
import Verif.Thm.NamesClash
import Verif.Thm.StoresAgree
import Verif.Model.Subscription
import Verif.Proof.Subscription
import Verif.Thm.Subscription
import Verif.Model.Broadcast
import Verif.Thm.Broadcast
import Verif.Model.Lock
import Verif.Thm.Lock
import Verif.Thm.LockCancel
import Verif.Proof.KeyStore
import Verif.Model.KeyStore
import Verif.Thm.KeyStore
import Verif.Model.Decimal
import Verif.Proof.Decimal
import Verif.Model.Crypto
import Verif.Proof.Crypto
import Verif.Proof.Engine
import Verif.Thm.Crypto
import Verif.Model.Encrypted
import Verif.Spec.Encrypted
import Verif.Proof.Encrypted
import Verif.Thm.Encrypted
import Verif.Thm.DecryptTwice
import Verif.Thm.Consumers
import Verif.Model.Text
import Verif.Proof.Text
import Verif.Thm.Text
import Verif.Model.Paging
import Verif.Proof.Paging
import Verif.Thm.Paging
import Verif.Model.Projection
import Verif.Proof.Projection
import Verif.Thm.Projection
import Verif.Model.Json
import Verif.Model.JsonRecord
import Verif.Spec.Json
import Verif.Proof.Json
import Verif.Proof.Utf8
import Verif.Proof.JsonRecord
import Verif.Proof.IoStream
import Verif.Proof.JsonStore
import Verif.Proof.Poison
import Verif.Thm.IoStream
import Verif.Thm.JsonRecord
import Verif.Proof.JsonAny
import Verif.Proof.JsonGood
import Verif.Model.Http
import Verif.Spec.Http
import Verif.Proof.Http
import Verif.Thm.Http
import Verif.Model.Remote
import Verif.Spec.Remote
import Verif.Proof.Remote
import Verif.Thm.Remote
import Verif.Model.Postgres
import Verif.Spec.Postgres
import Verif.Proof.Postgres
import Verif.Thm.Postgres
import Verif.Model.Cqrs
import Verif.Model.Chat
import Verif.Model.Clock
import Verif.Spec.Cqrs
import Verif.Spec.Chat
import Verif.Proof.Cqrs
import Verif.Proof.Chat
import Verif.Thm.Cqrs
import Verif.Thm.Chat
import Verif.Thm.Clock
import Verif.Model.EventStoreDB
import Verif.Spec.EventStoreDB
import Verif.Proof.EventStoreDB
import Verif.Thm.EventStoreDB
import Verif.Thm.EsdbSequential
import Verif.Model.EventParser
import Verif.Spec.EventParser
import Verif.Proof.EventParser
import Verif.Thm.EventParser
import Verif.Model.Chain
import Verif.Spec.Chain
import Verif.Proof.Chain
import Verif.Thm.Chain
import Verif.Model.Dispatch
import Verif.Thm.Dispatch
import Verif.Model.KeyRace
import Verif.Proof.KeyRace
import Verif.Thm.KeyRace
import Verif.Thm.Reenter
import Verif.Model.Shutdown
import Verif.Thm.Shutdown
import Verif.Thm.PostgresReads
import Verif.Thm.EventStoreDBReads
import Verif.Thm.HttpBody
import Verif.Thm.Constants
import Verif.Thm.Optimistic
import Verif.Thm.Bdd
import Verif.Thm.DispatchReturns
import Verif.Thm.KeyRaceAlone
import Verif.Thm.IoStreamEdit
import Verif.Thm.Damaged
import Verif.Thm.GeneratedOrder
import Verif.Thm.Pages
import Verif.Thm.Process
import Verif.Thm.Generators
import Verif.Thm.ShortUuid
import Verif.Thm.Config
import Verif.Thm.Reconnect
import Verif.Thm.Moderation
import Verif.Spec.Linearizable
import Verif.Model.Concurrent
import Verif.Proof.Concurrent
import Verif.Proof.ConcurrentStores
import Verif.Thm.Concurrent
import Verif.Thm.Msgpack
import Verif.Thm.Display
import Verif.Thm.Binder
import Verif.Thm.Wire
import Verif.Thm.Html
import Verif.Thm.PgNotify
import Verif.Thm.VaultPath
import Verif.Thm.PageEnd
import Verif.Thm.DynStale
import Verif.Thm.StartUp
import Verif.Thm.RandomEvents
import Verif.Thm.WsSession
import Verif.Thm.GrpcSession
import Verif.Thm.ListTypes
import Verif.Thm.EsdbJson
import Verif.Thm.ChatJson
import Verif.Thm.ChatJsonConc
import Verif.Thm.FailedBatch
import Verif.Thm.VaultKeys
import Verif.Thm.LevelFaults
import Verif.Thm.PostgresErrors
import Verif.Thm.EncryptedRetry
import Verif.Model.EncryptedLevel
import Verif.Spec.EncryptedLevel
import Verif.Proof.EncryptedLevel
import Verif.Thm.EncryptedLevel
import Verif.Thm.PostgresSequential
import Verif.Thm.FaultyIo
import Verif.Thm.BrokenCalls
import Verif.Thm.BrokenDeletes
import Verif.Thm.GrpcCounts
import Verif.Thm.Guarantees
import Verif.Thm.Restarts
import Verif.Thm.EmptyKey
import Verif.Thm.PostgresContext
import Verif.Thm.RestartsDelete
import Verif.Thm.Interfaces
import Verif.Model.Indent
import Verif.Spec.Indent
import Verif.Proof.Indent
import Verif.Proof.IndentTree
import Verif.Thm.Indent
import Verif.Proof.IndentLiteral
import Verif.Spec.RemoteHistory
import Verif.Proof.RemoteHistory
import Verif.Thm.RemoteHistory
import Verif.Spec.RemoteHistoryLD
import Verif.Proof.RemoteHistoryLD
import Verif.Thm.RemoteHistoryLD
import Verif.Model.StartAgain
import Verif.Spec.StartAgain
import Verif.Proof.StartAgain
import Verif.Thm.StartAgain
import Verif.Thm.Reboot
import Verif.Proof.Reboot
import Verif.Spec.Reboot
import Verif.Thm.Live
import Verif.Proof.Live
import Verif.Spec.Live
import Verif.Model.Live
import Verif.Spec.ValidWrite
import Verif.Proof.ValidWrite
import Verif.Thm.ValidWrite
import Verif.Model.Abandoned
import Verif.Spec.Abandoned
import Verif.Proof.Abandoned
import Verif.Thm.Abandoned
import Verif.Spec.ReadOrder
import Verif.Proof.ReadOrder
import Verif.Proof.ReadEnds
import Verif.Thm.ReadOrder
import Verif.Spec.Resume
import Verif.Proof.Resume
import Verif.Thm.Resume
import Verif.Thm.ReadMerged
import Verif.Model.Answers
import Verif.Spec.Answers
import Verif.Proof.Answers
import Verif.Thm.Answers
import Verif.Model.FailedStart
import Verif.Spec.FailedStart
import Verif.Proof.FailedStart
import Verif.Thm.FailedStart
import Verif.Spec.StartOrder
import Verif.Proof.StartOrder
import Verif.Thm.StartOrder
import Verif.Proof.SnapshotText
import Verif.Thm.SnapshotText
import Verif.Model.StatsLock
import Verif.Spec.StatsLock
import Verif.Proof.StatsLock
import Verif.Thm.StatsLock
import Verif.Thm.Tightened

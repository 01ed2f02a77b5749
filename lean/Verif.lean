import Verif.Base.Map
import Verif.Base.Res
import Verif.Base.Sorted
import Verif.Chain.Model
import Verif.Chain.Checkpoint
import Verif.Chain.Spec
import Verif.Chain.Scenario
import Verif.Chain.Lemmas
import Verif.Chain.Select
import Verif.Chain.Import
import Verif.Chain.Props
import Verif.Chain.Batch
import Verif.Chain.PropsBatch
import Verif.Chain.Valid
import Verif.Chain.Compact
import Verif.Chain.PropsAccept
import Verif.Chain.ScenariosReorg
import Verif.Chain.Iter
import Verif.Chain.PropsValid
import Verif.Chain.PropsLocator
import Verif.Chain.PropsOrder
import Verif.Store.Model
import Verif.Store.Spec
import Verif.Store.Lemmas
import Verif.Store.Props
import Verif.Store.Hashed
import Verif.Cbf.Model
import Verif.Cbf.Spec
import Verif.Cbf.PropsCache
import Verif.Cbf.PropsRescan
import Verif.Cbf.Lemmas
import Verif.Cbf.PropsMgr
import Verif.Cbf.PropsScan
import Verif.Cbf.Scenario
import Verif.Cbf.PropsStop
import Verif.Cbf.PropsReorg
import Verif.Cbf.PropsSafe
import Verif.Cbf.PropsReq
import Verif.Cbf.PropsMatch
import Verif.Cbf.PropsDone
import Verif.Cbf.PropsLive
import Verif.Cbf.PropsAsk
import Verif.Time.Model
import Verif.Time.PropsAdjusted
import Verif.Time.PropsTimers
import Verif.Ping.Model
import Verif.Ping.Props
import Verif.Io.Stream
import Verif.Io.PropsStream
import Verif.Io.Model
import Verif.Io.PropsIo
import Verif.Addr.Model
import Verif.Addr.Spec
import Verif.Addr.Lemmas
import Verif.Addr.Inv
import Verif.Addr.Props
import Verif.Addr.Scenarios
import Verif.Peer.Model
import Verif.Peer.Spec
import Verif.Peer.Lemmas
import Verif.Peer.Handshake
import Verif.Peer.PropsHandshake
import Verif.Peer.Limits
import Verif.Peer.PropsLimits
import Verif.Peer.PropsRetry
import Verif.Peer.PropsAccept
import Verif.Peer.Scenarios
import Verif.Peer.Net
import Verif.Peer.NetInv
import Verif.Peer.PropsNet
import Verif.Peer.NetScenarios
import Verif.Tx.Model
import Verif.Fees.Float
import Verif.Fees.Model
import Verif.Fees.Spec
import Verif.Fees.Rates
import Verif.Fees.Lemmas
import Verif.Fees.Props
import Verif.Fees.Scenarios
import Verif.Inv.Model
import Verif.Inv.Spec
import Verif.Inv.Lemmas
import Verif.Inv.Timer
import Verif.Inv.Sync
import Verif.Inv.Props
import Verif.Inv.PropsMore
import Verif.Inv.Scenarios
import Verif.Sync.Model
import Verif.Sync.Spec
import Verif.Sync.Lemmas
import Verif.Sync.Timer
import Verif.Sync.Ops
import Verif.Sync.Invariant
import Verif.Sync.Outs
import Verif.Sync.Events
import Verif.Sync.PropsDownload
import Verif.Sync.ScenariosArrive
import Verif.Sync.PropsFork
import Verif.Sync.Props
import Verif.Sync.Scenarios
import Verif.Wallet.Model
import Verif.Wallet.Spec
import Verif.Wallet.Lemmas
import Verif.Wallet.Props
import Verif.Wallet.Scenarios
import Verif.Wallet.Screen
import Verif.Wallet.PropsScreen
import Verif.Wallet.ScenariosScreen
import Verif.PeerStore.Model
import Verif.PeerStore.Spec
import Verif.PeerStore.Lemmas
import Verif.PeerStore.Props
import Verif.PeerStore.Scenarios
import Verif.PeerStore.Reading
import Verif.Node.Model
import Verif.Node.Spec
import Verif.Node.CbfLemmas
import Verif.Node.Core
import Verif.Node.Lemmas
import Verif.Node.Runs
import Verif.Node.Scan
import Verif.Node.Watch
import Verif.Node.Props
import Verif.Node.Commands
import Verif.Node.Scenarios
import Verif.Inv.PropsRelay
import Verif.Sync.PropsTip
import Verif.Handle.Model
import Verif.Handle.Spec
import Verif.Handle.Props
import Verif.Handle.Waits
import Verif.Handle.Peers
import Verif.Handle.Submit
import Verif.Handle.Scenarios
import Verif.Node.NoCrash
import Verif.Node.Crashes
import Verif.Sync.Reports
import Verif.Node.Owners
import Verif.Node.PropsOwners
import Verif.Node.OwnersExamples
import Verif.Node.Restart
import Verif.Node.PropsRestart
import Verif.Node.RestartExamples
import Verif.Node.NoCrashReorg
import Verif.Node.NoCrashReorgExamples
import Verif.Sync.Order
import Verif.Node.Tidy
import Verif.Node.TidyScan
import Verif.Node.PropsTidy
import Verif.Node.TidyExamples
import Verif.Node.Roster
import Verif.Machine.Model
import Verif.Machine.Spec
import Verif.Machine.Parts
import Verif.Machine.Runs
import Verif.Machine.Known
import Verif.Machine.Reactor
import Verif.Machine.ReactorInv
import Verif.Machine.NoCrash
import Verif.Machine.Props
import Verif.Node.Queues
import Verif.Addr.Grows
import Verif.Machine.Queues
import Verif.Machine.PropsOutputs
import Verif.Machine.Scenarios
import Verif.Peer.PropsDial
import Verif.Peer.Opens
import Verif.Machine.Addrs
import Verif.Machine.PropsAddrs
import Verif.Machine.PropsTried
import Verif.Machine.ScenariosTried
import Verif.Machine.ScenariosAddrs
import Verif.Addr.Fresh
import Verif.Node.Ends
import Verif.Peer.Ends
import Verif.Machine.Ends
import Verif.Machine.PropsEnds
import Verif.Machine.ScenariosEnds
import Verif.Peer.Query
import Verif.Peer.PropsQuery
import Verif.Peer.ScenariosQuery
import Verif.Peer.Reported
import Verif.Machine.Queries
import Verif.Machine.ScenariosQueries
import Verif.Cbf.Moves
import Verif.Cbf.Takes
import Verif.Cbf.PropsSync
import Verif.Cbf.ScenariosSync
import Verif.Cbf.PropsBlame
import Verif.Cbf.Still
import Verif.Cbf.PropsArrive
import Verif.Cbf.ScenariosArrive
import Verif.Inv.PropsArrive
import Verif.Inv.ScenariosArrive
import Verif.Inv.PropsAnnounce
import Verif.Inv.ScenariosAnnounce
import Verif.Node.PropsAnswers
import Verif.Node.AnswersExamples
import Verif.Machine.Answers
import Verif.Chain.PropsKeep
import Verif.Io.PropsKeep
import Verif.Cbf.PropsKeep
import Verif.Inv.Keep
import Verif.Inv.PropsKeep
import Verif.Node.Keep
import Verif.Node.PropsKeep
import Verif.Machine.Keep
import Verif.Peer.Idle
import Verif.Peer.PropsSaid
import Verif.Addr.PropsPublic
import Verif.Addr.Tried
import Verif.Addr.PropsTried
import Verif.Cbf.PropsSpread
import Verif.Machine.PropsRoute
import Verif.Chain.Sha256
import Verif.Chain.Networks
import Verif.Chain.PropsNetworks
import Verif.Cbf.Gcs
import Verif.Cbf.GcsLemmas
import Verif.Cbf.PropsGcs
import Verif.Node.PropsFilter
import Verif.Node.FilterExamples
import Verif.Node.Confirm
import Verif.Node.PropsConfirm
import Verif.Node.ConfirmExamples
import Verif.Machine.Service
import Verif.Machine.PropsService
import Verif.Machine.ScenariosService
import Verif.Loop.Model
import Verif.Loop.Lemmas
import Verif.Loop.Props
import Verif.Loop.Timers
import Verif.Loop.PropsTimers
import Verif.Loop.Scenarios
import Verif.Loop.Sockets
import Verif.Loop.PropsSockets
import Verif.Sim.Model
import Verif.Sim.Lemmas
import Verif.Sim.Inv
import Verif.Sim.Props
import Verif.Sim.Told
import Verif.Sim.Scenarios
import Verif.Sim.Partition
import Verif.Time.Clock
import Verif.Wallet.Exit
import Verif.Wallet.Table
import Verif.Wallet.Hw
import Verif.Wallet.Amount
import Verif.Book.Model
import Verif.Book.Props
import Verif.Book.Fair
import Verif.Wallet.Database
import Verif.Wallet.DatabaseLife
import Verif.Start.Options
import Verif.Witnesses

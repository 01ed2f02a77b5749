import Verif.Fees.Model
import Verif.Base.Sorted

/-!
# Inventory manager: `p2p/src/fsm/invmgr.rs`

Peers and hashes are numbers, times and durations milliseconds (subtraction of times saturates, net/src/time.rs:88-94).  The order
in which hash maps are visited and the peers sampled are parameters.  What the block tree says is part of the operations.  The outbox
is emptied before each operation: the manager only ever appends to it, and what becomes of its outputs is modelled in
Io/Model.lean.  Not modelled: logging, and `Peer::requests`, which is never read.
-/

set_option autoImplicit false

namespace Verif.Inv
open Verif.Tx
open Verif.Fees (Estimator Estimate)

/-- `REBROADCAST_TIMEOUT` (p2p/src/fsm/invmgr.rs:40). -/
def rebroadcastTimeout : Nat := 60000

/-- `REQUEST_TIMEOUT` (p2p/src/fsm/invmgr.rs:43). -/
def requestTimeout : Nat := 15000

/-- `MAX_ATTEMPTS` (p2p/src/fsm/invmgr.rs:46). -/
def maxAttempts : Nat := 3

/-- `IDLE_TIMEOUT` (p2p/src/fsm/invmgr.rs:49). -/
def idleTimeout : Nat := 30000

/-- `TRANSACTION_PRUNE_DEPTH` (p2p/src/fsm/invmgr.rs:52). -/
def pruneDepth : Nat := 12

/-- `Peer` (p2p/src/fsm/invmgr.rs:56-74).  Of the services, only whether the peer serves blocks (`ServiceFlags::NETWORK`) matters. -/
structure Peer where
  relay : Bool
  network : Bool
  wtxidrelay : Bool
  outbox : AMap Nat Nat
  attempts : Nat
  lastAttempt : Option Nat
  deriving DecidableEq, Repr

/-- `attempted` (p2p/src/fsm/invmgr.rs:77-80). -/
def Peer.attempted (p : Peer) (now : Nat) : Peer := { p with lastAttempt := some now, attempts := p.attempts + 1 }

/-- `reset` (p2p/src/fsm/invmgr.rs:87-90). -/
def Peer.reset (p : Peer) : Peer := { p with lastAttempt := none, attempts := 0 }

/-- Inventories of `getdata` messages, as far as they are handled (p2p/src/fsm/invmgr.rs:332-382). -/
inductive Item where
  | tx (txid : Nat)
  | witnessTx (txid : Nat)
  | wtx (wtxid : Nat)
  | other
  deriving DecidableEq, Repr

/-- Outputs.  `inv`: by witness ids or by ids.  (p2p/src/fsm/output.rs:79-244) -/
inductive Out where
  | inv (peer : Nat) (byWtxid : Bool) (ids : List Nat)
  | getBlock (peer hash : Nat)
  | tx (peer : Nat) (t : Transaction)
  | timer (duration : Nat)
  | timedOut (peer : Nat)
  | acknowledged (txid peer : Nat)
  | confirmed (txid block height : Nat)
  | reverted (t : Transaction)
  | processed (b : Block) (height : Nat) (fees : Option Estimate)
  deriving DecidableEq, Repr

/-- `InventoryManager` (p2p/src/fsm/invmgr.rs:95-118).  The time-out is a constant (138). -/
structure Mgr where
  peers : AMap Nat Peer
  confirmed : AMap Nat (List Transaction)
  est : Estimator
  pool : AMap Nat Transaction
  remaining : AMap Nat (Option Nat)
  received : AMap Nat Block
  lastTick : Option Nat
  out : List Out
  deriving DecidableEq, Repr

/-- `new` (p2p/src/fsm/invmgr.rs:130-144). -/
def Mgr.new : Mgr := ⟨[], [], Estimator.new, [], [], [], none, []⟩

/-- Append to the outbox.  (p2p/src/fsm/output.rs:67-72) -/
def Mgr.emit (m : Mgr) (l : List Out) : Mgr := { m with out := m.out ++ l }

/-- `schedule_tick` (p2p/src/fsm/invmgr.rs:510-513). -/
def Mgr.scheduleTick (m : Mgr) : Mgr := { m with lastTick := none, out := m.out ++ [.timer 1000] }

/-- `BTreeMap::insert`, keys are numbers. -/
def poolInsert (k : Nat) (t : Transaction) (m : AMap Nat Transaction) : AMap Nat Transaction :=
  sinsert (fun a b => decide (a < b)) k t m

/-- `peer_negotiated` (p2p/src/fsm/invmgr.rs:193-218). -/
def Mgr.negotiated (m : Mgr) (a : Nat) (network relay wtxidrelay : Bool) : Mgr :=
  let outbox := m.pool.foldl (fun (o : AMap Nat Nat) p => o.insert p.1 p.2.txid) []
  let m := m.scheduleTick
  { m with peers := m.peers.insert a ⟨relay, network, wtxidrelay, outbox, 0, none⟩ }

/-- Change the peers one by one, as `values_mut` and `iter_mut` do. -/
def mapPeers (f : Peer → Peer) (l : AMap Nat Peer) : AMap Nat Peer := l.map (fun p => (p.1, f p.2))

/-- `announce` (p2p/src/fsm/invmgr.rs:481-498): the manager afterwards. -/
def Mgr.announce (m : Mgr) (t : Transaction) : Mgr :=
  let m := { m with
    pool := poolInsert t.wtxid t m.pool
    peers := mapPeers (fun p => if p.relay then { p with outbox := p.outbox.insert t.wtxid t.txid } else p) m.peers }
  m.scheduleTick

/-- `announce` (p2p/src/fsm/invmgr.rs:481-498): the peers returned. -/
def Mgr.announced (m : Mgr) : List Nat := (m.peers.filter (fun p => p.2.relay)).map (·.1)

/-- The loop over the transactions of a reverted block (p2p/src/fsm/invmgr.rs:225-231). -/
def Mgr.revertTxs : List Transaction → Mgr → Mgr
  | [], m => m
  | t :: ts, m => Mgr.revertTxs ts ((m.announce t).emit [.reverted t])

/-- The height to roll the fee estimator back to (p2p/src/fsm/invmgr.rs:222).  `checked`: whether overflow panics (debug builds). -/
def revertTarget (checked : Bool) (height : Nat) : Res Unit Nat :=
  if 0 < height then .ok (height - 1) else if checked then .panic else .ok (2 ^ 64 - 1)

/-- `block_reverted` (p2p/src/fsm/invmgr.rs:221-233). -/
def Mgr.blockReverted (checked : Bool) (m : Mgr) (height : Nat) : Res Unit Mgr := do
  let target ← revertTarget checked height
  let est ← m.est.rollback target
  let m := { m with est := est }
  match m.confirmed.get height with
  | some ts => .ok (Mgr.revertTxs ts { m with confirmed := m.confirmed.erase height })
  | none => .ok m

/-- The loop over the reverted blocks (p2p/src/fsm/invmgr.rs:173-177). -/
def Mgr.reverted (checked : Bool) : List Nat → Mgr → Res Unit Mgr
  | [], m => .ok m
  | h :: hs, m => do
    let m ← m.blockReverted checked h
    Mgr.reverted checked hs m

/-- `get_submitted_tx` (p2p/src/fsm/invmgr.rs:236-238). -/
def Mgr.getSubmitted (m : Mgr) (txid : Nat) : Option Transaction := (m.pool.find? (fun p => p.2.txid = txid)).map (·.2)

/-- The random choices of `timer_expired`: the order of the peers, of the inventories queued for a peer, and of the requested blocks; and the
peer sampled for the request of a block. -/
structure Env where
  peers : List Nat → List Nat
  queue : Nat → List Nat → List Nat
  blocks : List Nat → List Nat
  pick : Nat → List Nat → Option Nat

/-- The random choices are real choices. -/
structure Env.Legal (env : Env) : Prop where
  peers : ∀ l, (env.peers l).Perm l
  queue : ∀ a l, (env.queue a l).Perm l
  blocks : ∀ l, (env.blocks l).Perm l
  pick_mem : ∀ h l a, env.pick h l = some a → a ∈ l
  pick_some : ∀ h l, l ≠ [] → ∃ a, env.pick h l = some a

/-- The inventories announced to a peer (p2p/src/fsm/invmgr.rs:280-290).  Indexing a map panics if the key is missing. -/
def lookupAll (pool : AMap Nat Transaction) (byWtxid : Bool) : List Nat → Res Unit (List Nat)
  | [] => .ok []
  | w :: ws => do
    let t ← Res.unwrap (pool.get w)
    let ids ← lookupAll pool byWtxid ws
    .ok ((if byWtxid then t.wtxid else t.txid) :: ids)

/-- The loop over the peers (p2p/src/fsm/invmgr.rs:258-294): the manager and the peers to disconnect. -/
def Mgr.attemptAll (env : Env) (now : Nat) : List Nat → Mgr → List Nat → Res Unit (Mgr × List Nat)
  | [], m, dis => .ok (m, dis)
  | a :: as, m, dis =>
    match m.peers.get a with
    | none => Mgr.attemptAll env now as m dis
    | some p =>
      if p.outbox.isEmpty then Mgr.attemptAll env now as m dis
      else if now - p.lastAttempt.getD 0 < rebroadcastTimeout then Mgr.attemptAll env now as m dis
      else if maxAttempts ≤ p.attempts then Mgr.attemptAll env now as m (dis ++ [a])
      else do
        let ids ← lookupAll m.pool p.wtxidrelay (env.queue a p.outbox.keys)
        let m := { m with peers := m.peers.insert a (p.attempted now) }
        Mgr.attemptAll env now as (m.emit [.inv a p.wtxidrelay ids, .timer rebroadcastTimeout]) dis

/-- The loop over the peers to disconnect (p2p/src/fsm/invmgr.rs:296-299). -/
def Mgr.dropAll : List Nat → Mgr → Mgr
  | [], m => m
  | a :: as, m => Mgr.dropAll as ({ m with peers := m.peers.erase a }.emit [.timedOut a])

/-- The loop over the requested blocks (p2p/src/fsm/invmgr.rs:302-326). -/
def Mgr.requestAll (env : Env) (now : Nat) : List Nat → Mgr → Mgr
  | [], m => m
  | h :: hs, m =>
    match m.remaining.get h with
    | none => Mgr.requestAll env now hs m
    | some t =>
      if now - t.getD 0 < requestTimeout then Mgr.requestAll env now hs m
      else match env.pick h ((m.peers.filter (fun p => p.2.network)).map (·.1)) with
        | some a =>
          Mgr.requestAll env now hs ({ m with remaining := m.remaining.insert h (some now) }.emit [.getBlock a h, .timer requestTimeout])
        | none => Mgr.requestAll env now hs m

/-- Pruning of confirmed transactions (p2p/src/fsm/invmgr.rs:248-253): `height - h <= TRANSACTION_PRUNE_DEPTH` on unsigned 64-bit numbers. -/
def prune (checked : Bool) (height : Nat) (m : AMap Nat (List Transaction)) : Res Unit (AMap Nat (List Transaction)) :=
  if checked && m.any (fun p => height < p.1) then .panic
  else .ok (m.filter (fun p => p.1 ≤ height && height - p.1 ≤ pruneDepth))

/-- `timer_expired` (p2p/src/fsm/invmgr.rs:241-327).  `height`: that of the block tree. -/
def Mgr.timerExpired (checked : Bool) (env : Env) (now height : Nat) (m : Mgr) : Res Unit Mgr := do
  let m := if idleTimeout ≤ now - m.lastTick.getD 0 then { m with lastTick := some now, out := m.out ++ [.timer idleTimeout] } else m
  let confirmed ← prune checked height m.confirmed
  let m := { m with confirmed := confirmed }
  let (m, dis) ← Mgr.attemptAll env now (env.peers m.peers.keys) m []
  let m := Mgr.dropAll dis m
  .ok (Mgr.requestAll env now (env.blocks m.remaining.keys) m)

/-- What a `getdata` does to the queue of the peer it comes from (p2p/src/fsm/invmgr.rs:344-357, 367-380).  `id`: the id reported, if it is not the queued one. -/
def Mgr.acknowledge (m : Mgr) (a wtxid : Nat) (id : Option Nat) : Mgr :=
  match m.peers.get a with
  | none => m
  | some p =>
    match p.outbox.get wtxid with
    | none => m
    | some txid =>
      { m with peers := m.peers.insert a { p with outbox := p.outbox.erase wtxid }.reset }.emit [.acknowledged (id.getD txid) a]

/-- One inventory of a `getdata` message (p2p/src/fsm/invmgr.rs:332-383).  The debug assertion (339) holds because transactions are kept under their
witness id (`Inv.keys`). -/
def Mgr.getdataOne (m : Mgr) (a : Nat) : Item → Mgr
  | .tx txid | .witnessTx txid =>
    match m.pool.find? (fun p => p.2.txid = txid) with
    | none => m
    | some (_, t) => (m.emit [.tx a t]).acknowledge a t.wtxid (some txid)
  | .wtx wtxid =>
    match m.pool.get wtxid with
    | some t => (m.emit [.tx a t]).acknowledge a wtxid none
    | none => m.acknowledge a wtxid none
  | .other => m

/-- `received_getdata` (p2p/src/fsm/invmgr.rs:330-385). -/
def Mgr.getdata (m : Mgr) (a : Nat) : List Item → Mgr
  | [] => m
  | i :: is => (m.getdataOne a i).getdata a is

/-- A transaction of a processed block (p2p/src/fsm/invmgr.rs:442-467). -/
def Mgr.confirmTx (hash height : Nat) (m : Mgr) (tx : Transaction) : Mgr :=
  match m.pool.get tx.wtxid with
  | none => m
  | some t =>
    { m with
      pool := m.pool.erase tx.wtxid
      peers := mapPeers (fun p => { p with outbox := p.outbox.erase tx.wtxid }) m.peers
      confirmed := m.confirmed.insert height ((m.confirmed.get height).getD [] ++ [t]) }.emit [.confirmed t.txid hash height]

/-- One received block (p2p/src/fsm/invmgr.rs:440-475). -/
def Mgr.processBlock (checked : Bool) (m : Mgr) (height : Nat) (b : Block) : Res Unit Mgr := do
  let m := b.txs.foldl (Mgr.confirmTx b.hash height) m
  let (est, fees) ← m.est.process checked b.txs height
  .ok ({ m with est := est }.emit [.processed b height fees])

/-- The loop over the received blocks (p2p/src/fsm/invmgr.rs:433-476), given their heights in ascending order. -/
def Mgr.processAll (checked : Bool) : List Nat → Mgr → Res Unit Mgr
  | [], m => .ok m
  | h :: hs, m =>
    match m.received.get h with
    | none => Mgr.processAll checked hs m
    | some b => do
      let m ← Mgr.processBlock checked { m with received := m.received.erase h } h b
      Mgr.processAll checked hs m

/-- `received_block` (p2p/src/fsm/invmgr.rs:391-478).  `height`: that of the block in the block tree, if it is on the active chain.  Taking out the lowest
height until nothing is left is visiting the heights in ascending order. -/
def Mgr.block (checked : Bool) (m : Mgr) (b : Block) (height : Option Nat) : Res Unit Mgr :=
  if m.remaining.contains b.hash then
    let m := { m with remaining := m.remaining.erase b.hash }
    match height with
    | none => .ok m
    | some h =>
      let m := { m with received := m.received.insert h b }
      if m.remaining.isEmpty then Mgr.processAll checked (m.received.keys.insertionSort (· ≤ ·)) m
      else .ok m
  else .ok m

/-- `get_block` (p2p/src/fsm/invmgr.rs:501-506). -/
def Mgr.getBlock (m : Mgr) (hash : Nat) : Mgr :=
  let m := if m.remaining.contains hash then m else { m with remaining := m.remaining.insert hash none }
  m.scheduleTick

/-- What happens to the manager: events (159-190), commands (p2p/src/fsm.rs:705-740), and time passing. -/
inductive Op where
  | negotiated (a : Nat) (network relay wtxidrelay : Bool)
  | disconnected (a : Nat)
  | reverted (heights : List Nat)
  | block (b : Block) (height : Option Nat)
  | getdata (a : Nat) (items : List Item)
  | timer (env : Env) (now height : Nat)
  | announce (t : Transaction)
  | getBlock (hash : Nat)

/-- One operation.  (p2p/src/fsm/invmgr.rs:159-513) -/
def Mgr.step (checked : Bool) (m : Mgr) : Op → Res Unit Mgr
  | .negotiated a n r w => .ok (m.negotiated a n r w)
  | .disconnected a => .ok { m with peers := m.peers.erase a }
  | .reverted hs => Mgr.reverted checked hs m
  | .block b h => m.block checked b h
  | .getdata a is => .ok (m.getdata a is)
  | .timer env now h => m.timerExpired checked env now h
  | .announce t => .ok (m.announce t)
  | .getBlock h => .ok (m.getBlock h)

end Verif.Inv

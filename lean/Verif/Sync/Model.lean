import Verif.Chain.Model

/-!
# Header synchronization: `p2p/src/fsm/syncmgr.rs`, together with the header tree

Peers and hashes are numbers, times and durations milliseconds.  The tree is the model of Chain/Model.lean; the manager is the only
one that changes it (`fsm.rs` hands the other managers a shared reference).  The order in which hash maps are visited, shuffles and samples are
parameters, as is what the environment decides while a header is imported.  The outbox is emptied before each operation.  Not modelled:
logging, and the protocol version in `getheaders`.
-/

set_option autoImplicit false

namespace Verif.Sync
open Verif.Chain (Header State Err ImportResult)

/-- `TIP_STALE_DURATION` (p2p/src/fsm/syncmgr.rs:23). -/
def tipStaleDuration : Nat := 60 * 60 * 2 * 1000

/-- `MAX_MESSAGE_HEADERS` (p2p/src/fsm/syncmgr.rs:25). -/
def maxMessageHeaders : Nat := 2000

/-- `MAX_MESSAGE_INVS` (p2p/src/fsm/syncmgr.rs:27). -/
def maxMessageInvs : Nat := 50000

/-- `IDLE_TIMEOUT` (p2p/src/fsm/syncmgr.rs:29). -/
def idleTimeout : Nat := 10 * 60 * 1000

/-- `MAX_UNSOLICITED_HEADERS` (p2p/src/fsm/syncmgr.rs:34). -/
def maxUnsolicitedHeaders : Nat := 24

/-- `PEER_SAMPLE_INTERVAL` (p2p/src/fsm/syncmgr.rs:36). -/
def peerSampleInterval : Nat := 60 * 60 * 1000

/-- `Locators`, common/src/block/tree.rs: locator hashes and the stop hash. -/
abbrev Locators := List Nat × Nat

/-- `BlockHash::all_zeros`. -/
def zeros : Nat := 0

/-- `OnTimeout` (p2p/src/fsm/syncmgr.rs:40-47). -/
inductive OnTimeout where
  | disconnect
  | ignore
  | retry (n : Nat)
  deriving DecidableEq, Repr

/-- `Peer` (p2p/src/fsm/syncmgr.rs:51-58). -/
structure Peer where
  height : Nat
  preferred : Bool
  tip : Nat
  outbound : Bool
  lastActive : Option Nat
  lastAsked : Option Locators
  deriving DecidableEq, Repr

/-- `GetHeaders` (p2p/src/fsm/syncmgr.rs:103-110). -/
structure Request where
  locators : Locators
  sentAt : Nat
  onTimeout : OnTimeout
  deriving DecidableEq, Repr

/-- `Config` (p2p/src/fsm/syncmgr.rs:62-69); of the consensus parameters only the block spacing matters, which is part of the tree's configuration.  Whether debug
assertions and overflow checks are compiled in is `chain.checked`. -/
structure Cfg where
  chain : Chain.Cfg
  maxHeaders : Nat
  timeout : Nat

/-- Messages, events and requests to the reactor.  (p2p/src/fsm/output.rs:79-200) -/
inductive Out where
  | getHeaders (a : Nat) (locators : Locators)
  | headers (a : Nat) (hs : List Header)
  | setTimer (d : Nat)
  | disconnect (a : Nat)
  | peerHeight (n : Nat)
  | connected (n : Nat) (h : Header)
  | disconnected (n : Nat) (h : Header)
  | imported (reorg : Bool) (hash height : Nat) (connected reverted : List (Nat × Header))
  | synced (hash height : Nat)
  | misbehaved (a : Nat)
  | error
  deriving DecidableEq, Repr

/-- `SyncManager` (p2p/src/fsm/syncmgr.rs:73-91). -/
structure Mgr where
  peers : AMap Nat Peer
  lastTipUpdate : Option Nat
  lastPeerSample : Option Nat
  lastIdle : Option Nat
  inflight : AMap Nat Request
  out : List Out
  deriving DecidableEq, Repr

/-- `new` (p2p/src/fsm/syncmgr.rs:114-132). -/
def Mgr.new : Mgr := ⟨[], none, none, none, [], []⟩

/-- Random choices: the order in which hash maps are visited, the shuffle of `preferred_peer`, and the sample taken when the request to a peer
is tried with another one. -/
structure Env where
  order : List Nat → List Nat
  shuffle : List Nat → List Nat
  pick : Nat → List Nat → Option Nat

/-- The random choices are real choices. -/
structure Env.Legal (env : Env) : Prop where
  order : ∀ l, (env.order l).Perm l
  shuffle : ∀ l, (env.shuffle l).Perm l
  pick_mem : ∀ a l b, env.pick a l = some b → b ∈ l
  pick_some : ∀ a l, l ≠ [] → ∃ b, env.pick a l = some b

/-- Appends to the outbox.  (p2p/src/fsm/output.rs:67-72) -/
def Mgr.push (m : Mgr) (o : Out) : Mgr := { m with out := m.out ++ [o] }

/-- `LocalTime - LocalDuration`, net/src/time.rs:97-105: unsigned 128-bit subtraction. -/
def subTime (checked : Bool) (t d : Nat) : Res Err Nat :=
  if d ≤ t then .ok (t - d) else if checked then .panic else .ok (t + 2 ^ 128 - d)

/-- `best_height` (p2p/src/fsm/syncmgr.rs:500-502). -/
def Mgr.bestHeight (m : Mgr) : Option Nat :=
  m.peers.foldl (fun b p => match b with | none => some p.2.height | some n => some (max n p.2.height)) none

/-- `is_syncing` (p2p/src/fsm/syncmgr.rs:505-507). -/
def Mgr.isSyncing (m : Mgr) : Bool := !m.inflight.isEmpty

/-- The first check of `stale_tip` (p2p/src/fsm/syncmgr.rs:524-530). -/
def Mgr.updatedLongAgo (cfg : Cfg) (m : Mgr) (now : Nat) : Res Err Bool :=
  match m.lastTipUpdate with
  | some u => do
    let limit ← subTime cfg.chain.checked now (cfg.chain.spacing * 3 * 1000)
    .ok (decide (u < limit))
  | none => .ok false

/-- `stale_tip` (p2p/src/fsm/syncmgr.rs:521-542); only whether there is a result matters. -/
def Mgr.staleTip (cfg : Cfg) (m : Mgr) (t : State) (now : Nat) : Res Err Bool := do
  let b ← m.updatedLongAgo cfg now
  if b then .ok true
  else do
    let limit ← subTime cfg.chain.checked now tipStaleDuration
    .ok (decide ((t.tip cfg.chain).2.time * 1000 ≤ limit))

/-- `is_request_candidate` (p2p/src/fsm/syncmgr.rs:585-589). -/
def Mgr.candidate (m : Mgr) (locators : List Nat) (a : Nat) : Bool :=
  match m.peers.get a with
  | none => false
  | some p => !(m.inflight.contains a) && p.outbound &&
      (match p.lastAsked with | none => true | some l => decide (l.1 ≠ locators))

/-- `preferred_peer` (p2p/src/fsm/syncmgr.rs:570-581). -/
def Mgr.preferredPeer (env : Env) (m : Mgr) (locators : List Nat) (height : Nat) : Option Nat :=
  let peers := env.shuffle m.peers.keys
  match (peers.filter (m.candidate locators)).find?
      (fun a => match m.peers.get a with | some p => p.preferred && decide (p.height > height) | none => false) with
  | some a => some a
  | none => peers.find? (fun a => match m.peers.get a with | some p => p.preferred | none => false)

/-- `request` (p2p/src/fsm/syncmgr.rs:377-404), with its debug assertion. -/
def Mgr.request (cfg : Cfg) (m : Mgr) (now : Nat) (a : Nat) (locators : Locators) (k : OnTimeout) : Res Err Mgr :=
  if m.inflight.contains a then .ok m
  else
    match m.peers.get a with
    | none => .ok m
    | some p =>
      if cfg.chain.checked && decide (p.lastAsked = some locators) then .panic
      else .ok { m with
        peers := m.peers.insert a { p with lastAsked := some locators }
        inflight := m.inflight.insert a ⟨locators, now, k⟩
        out := m.out ++ [.getHeaders a locators, .setTimer cfg.timeout] }

/-- `is_synced` (p2p/src/fsm/syncmgr.rs:592-605). -/
def Mgr.isSynced (cfg : Cfg) (m : Mgr) (t : State) (now : Nat) : Res Err Bool := do
  let stale ← m.staleTip cfg t now
  if stale then .ok false
  else
    match m.bestHeight with
    | some n => .ok (decide (t.height ≥ n))
    | none => .ok false

/-- `syncing` (p2p/src/fsm/syncmgr.rs:608-610). -/
def Mgr.syncing (m : Mgr) (locators : Locators) : Bool := m.inflight.any (fun p => decide (p.2.locators = locators))

/-- The second half of `sync` (p2p/src/fsm/syncmgr.rs:631-651): we are out of sync. -/
def Mgr.startSync (cfg : Cfg) (env : Env) (m : Mgr) (t : State) (now : Nat) : Res Err (Mgr × Bool) := do
  let hashes ← Chain.locatorHashes cfg.chain t t.height
  if m.syncing (hashes, zeros) then .ok (m, false)
  else
    match m.preferredPeer env hashes t.height with
    | none => .ok (m, false)
    | some a =>
      if (m.bestHeight.getD t.height) > t.height then do
        let m' ← m.request cfg now a (hashes, zeros) .ignore
        .ok (m', true)
      else .ok (m, false)

/-- `sync` (p2p/src/fsm/syncmgr.rs:615-652). -/
def Mgr.sync (cfg : Cfg) (env : Env) (m : Mgr) (t : State) (now : Nat) : Res Err (Mgr × Bool) :=
  if m.peers.isEmpty then .ok (m, false)
  else do
    let synced ← m.isSynced cfg t now
    if synced then .ok (m.push (.synced (t.tip cfg.chain).1 t.height), false)
    else m.startSync cfg env t now

/-- The loop of `sample_peers` (p2p/src/fsm/syncmgr.rs:688-695). -/
def Mgr.requestAll (cfg : Cfg) (now : Nat) (locators : Locators) : List Nat → Mgr → Res Err Mgr
  | [], m => .ok m
  | a :: as, m => do
    let m' ← m.request cfg now a locators .ignore
    Mgr.requestAll cfg now locators as m'

/-- `sample_peers` (p2p/src/fsm/syncmgr.rs:667-696). -/
def Mgr.samplePeers (cfg : Cfg) (env : Env) (m : Mgr) (t : State) (now : Nat) : Res Err Mgr :=
  if now - m.lastPeerSample.getD 0 < peerSampleInterval then .ok m
  else do
    let stale ← m.staleTip cfg t now
    if !stale then .ok m
    else do
      let hashes ← Chain.locatorHashes cfg.chain t t.height
      let addrs := (env.order m.peers.keys).filter (m.candidate hashes)
      { m with lastPeerSample := some now }.requestAll cfg now (hashes, zeros) addrs

/-- The body of `idle` (p2p/src/fsm/syncmgr.rs:145-147). -/
def Mgr.syncOrSample (cfg : Cfg) (env : Env) (m : Mgr) (t : State) (now : Nat) : Res Err Mgr := do
  let r ← m.sync cfg env t now
  if r.2 then .ok r.1 else r.1.samplePeers cfg env t now

/-- `idle` (p2p/src/fsm/syncmgr.rs:140-151). -/
def Mgr.idle (cfg : Cfg) (env : Env) (m : Mgr) (t : State) (now : Nat) : Res Err Mgr :=
  if now - m.lastIdle.getD 0 ≥ idleTimeout then do
    let m' ← m.syncOrSample cfg env t now
    .ok ({ m' with lastIdle := some now }.push (.setTimer idleTimeout))
  else .ok m

/-- `register` (p2p/src/fsm/syncmgr.rs:545-561). -/
def Mgr.register (m : Mgr) (a height : Nat) (preferred outbound : Bool) : Mgr :=
  { m with peers := m.peers.insert a ⟨height, preferred, zeros, outbound, none, none⟩ }

/-- `unregister` (p2p/src/fsm/syncmgr.rs:564-567). -/
def Mgr.unregister (m : Mgr) (a : Nat) : Mgr := { m with inflight := m.inflight.erase a, peers := m.peers.erase a }

/-- The event of `peer_negotiated` (p2p/src/fsm/syncmgr.rs:205-207). -/
def Mgr.reportHeight (m : Mgr) (t : State) (height : Nat) : Mgr :=
  if height > m.bestHeight.getD t.height then m.push (.peerHeight height) else m

/-- `peer_negotiated` (p2p/src/fsm/syncmgr.rs:193-218): does the peer serve blocks, does it serve compact filters, did we connect to it? -/
def Mgr.negotiated (cfg : Cfg) (env : Env) (m : Mgr) (t : State) (now a height : Nat) (network filters outbound : Bool) : Res Err Mgr :=
  if outbound && !network then .ok m
  else do
    let r ← ((m.reportHeight t height).register a height (!filters) outbound).sync cfg env t now
    .ok r.1

/-- `received_getheaders` (p2p/src/fsm/syncmgr.rs:221-238). -/
def Mgr.getheaders (cfg : Cfg) (m : Mgr) (t : State) (a : Nat) (locators : Locators) : Res Err Mgr :=
  if m.isSyncing || decide (cfg.maxHeaders = 0) then .ok m
  else do
    let hs ← Chain.locateHeaders t locators.1 locators.2 cfg.maxHeaders
    if hs.isEmpty then .ok m else .ok (m.push (.headers a hs))

/-- `broadcast_tip` (p2p/src/fsm/syncmgr.rs:655-664). -/
def Mgr.broadcastTip (env : Env) (m : Mgr) (t : State) (hash : Nat) : Mgr :=
  match t.getBlock hash with
  | none => m
  | some (height, best) =>
    { m with out := m.out ++ (env.order m.peers.keys).filterMap (fun a =>
        match m.peers.get a with
        | some p => if !p.outbound && decide (height > p.height) then some (.headers a [best]) else none
        | none => none) }

/-- What `import_blocks` emits about a changed tip (p2p/src/fsm/syncmgr.rs:256-271). -/
def tipEvents (hash height : Nat) (reverted connected : List (Nat × Header)) : List Out :=
  reverted.map (fun p => .disconnected p.1 p.2) ++ connected.map (fun p => .connected p.1 p.2) ++
    [.imported (!reverted.isEmpty) hash height connected reverted]

/-- `import_blocks` (p2p/src/fsm/syncmgr.rs:241-275), given what the tree says; `t` is the tree afterwards. -/
def Mgr.report (env : Env) (m : Mgr) (t : State) : Res Err ImportResult → Mgr
  | .ok (.tipChanged _ hash height reverted connected) =>
    { m with out := m.out ++ tipEvents hash height reverted connected }.broadcastTip env t hash
  | _ => m

/-- The peer's height is updated (p2p/src/fsm/syncmgr.rs:328-333). -/
def Mgr.raise (m : Mgr) (a hash height : Nat) : Mgr :=
  match m.peers.get a with
  | some p => if height > p.height then { m with peers := m.peers.insert a { p with tip := hash, height := height } } else m
  | none => m

/-- What `received_headers` does once the headers are imported (p2p/src/fsm/syncmgr.rs:317-374); `t` is the tree afterwards, `root` the hash of the first
header, `length` the number of headers. -/
def Mgr.afterImport (cfg : Cfg) (env : Env) (m : Mgr) (t : State) (now a root length : Nat) (r : Res Err ImportResult) : Res Err Mgr :=
  match r with
  | .panic => .panic
  | .ok .tipUnchanged => do
    let hashes ← Chain.locatorHashes cfg.chain t t.height
    m.request cfg now a (hashes, root) .ignore
  | .ok (.tipChanged _ hash height _ _) =>
    let m1 := { m.raise a hash height with lastTipUpdate := some now }
    if length < maxMessageHeaders then do
      let r ← (m1.broadcastTip env t hash).sync cfg env t now
      .ok r.1
    else m1.request cfg now a ([hash], zeros) .disconnect
  | .err .store => .ok (m.push .error)
  | .err .invalidPoW | .err .invalidTarget | .err (.invalidHash _ _) | .err (.invalidHeight _) | .err (.timeTooOld _)
  | .err (.timeTooNew _) => .ok (m.push (.misbehaved a))
  | .err (.duplicate _) | .err (.missing _) | .err (.aborted _ _ _) | .err .genesisMismatch => .ok m

/-- `received_headers` (p2p/src/fsm/syncmgr.rs:278-375): the manager and the tree afterwards. -/
def Mgr.headers (cfg : Cfg) (env : Env) (m : Mgr) (t : State) (now a : Nat) (hs : List (Header × Chain.Env)) : Res Err (Mgr × State) :=
  let solicited := m.inflight.contains a
  let m := { m with inflight := m.inflight.erase a }
  match hs.head?, hs.getLast? with
  | some first, some last =>
    if hs.length > maxMessageHeaders then .ok (m.push (.misbehaved a), t)
    else if hs.length > maxUnsolicitedHeaders && !solicited then .ok (m, t)
    else
      match m.peers.get a with
      | none => .ok (m, t)
      | some p =>
        let m := { m with peers := m.peers.insert a { p with lastActive := some now } }
        if t.contains (cfg.chain.hash last.1) then .ok (m, t)
        else
          let r := Chain.importBlocks cfg.chain t hs
          do
            let m' ← (m.report env r.1 r.2).afterImport cfg env r.1 now a (cfg.chain.hash first.1) hs.length r.2
            .ok (m', r.1)
  | _, _ => .ok (m, t)

/-- An inventory item: a block (`Inventory::Block`) or something else. -/
inductive Item where
  | block (hash : Nat)
  | other
  deriving DecidableEq, Repr

/-- The block hashes of an `inv`, in order.  (p2p/src/fsm/syncmgr.rs:408-447) -/
def blocksOf (items : List Item) : List Nat := items.filterMap (fun i => match i with | .block h => some h | .other => none)

/-- `received_inv` (p2p/src/fsm/syncmgr.rs:408-447). -/
def Mgr.inv (cfg : Cfg) (m : Mgr) (t : State) (now a : Nat) (items : List Item) : Res Err Mgr :=
  if m.isSyncing then .ok m
  else if items.length > maxMessageInvs then .ok m
  else
    match m.peers.get a with
    | none => .ok m
    | some p =>
      let m := { m with peers := m.peers.insert a { p with tip := (blocksOf items).getLastD p.tip } }
      match ((blocksOf items).filter (fun h => !(t.isKnown h))).getLast? with
      | none => .ok m
      | some stop => do
        let hashes ← Chain.locatorHashes cfg.chain t t.height
        m.request cfg now a (hashes, stop) (.retry 3)

/-- The requests that timed out (p2p/src/fsm/syncmgr.rs:453-463). -/
def Mgr.timedOut (cfg : Cfg) (env : Env) (m : Mgr) (now : Nat) : List (Nat × Request) :=
  (env.order m.inflight.keys).filterMap (fun a =>
    match m.inflight.get a with
    | some r => if now - r.sentAt ≥ cfg.timeout then some (a, r) else none
    | none => none)

/-- The retry (p2p/src/fsm/syncmgr.rs:478-487). -/
def Mgr.retryWith (cfg : Cfg) (env : Env) (m : Mgr) (now a : Nat) (r : Request) (n : Nat) : Res Err Mgr :=
  match env.pick a (m.peers.keys.filter (fun b => decide (b ≠ a) && m.candidate r.locators.1 b)) with
  | some b => m.request cfg now b r.locators (.retry n)
  | none => .ok m

/-- The loop of `timer_expired` (p2p/src/fsm/syncmgr.rs:465-489); the flag says whether to force a sync. -/
def Mgr.expireAll (cfg : Cfg) (env : Env) (now : Nat) : List (Nat × Request) → Mgr → Bool → Res Err (Mgr × Bool)
  | [], m, force => .ok (m, force)
  | (a, r) :: rs, m, force =>
    let m := { m with inflight := m.inflight.erase a }
    match r.onTimeout with
    | .ignore => Mgr.expireAll cfg env now rs m force
    | .disconnect | .retry 0 => Mgr.expireAll cfg env now rs (m.push (.disconnect a)) true
    | .retry (n + 1) => do
      let m' ← m.retryWith cfg env now a r n
      Mgr.expireAll cfg env now rs m' force

/-- `timer_expired` (p2p/src/fsm/syncmgr.rs:450-497). -/
def Mgr.timer (cfg : Cfg) (env : Env) (m : Mgr) (t : State) (now : Nat) : Res Err Mgr := do
  let r ← Mgr.expireAll cfg env now (m.timedOut cfg env now) m false
  if r.2 then do
    let r' ← r.1.sync cfg env t now
    .ok r'.1
  else r.1.idle cfg env t now

/-- What can happen: `initialize`, `received_event` (154-190), `timer_expired`, and the import of headers by the user
(`Command::ImportHeaders`, fsm.rs:675-688). -/
inductive Op where
  | init (env : Env) (now : Nat)
  | negotiated (env : Env) (now a height : Nat) (network filters outbound : Bool)
  | gone (a : Nat)
  | headers (env : Env) (now a : Nat) (hs : List (Header × Chain.Env))
  | getheaders (a : Nat) (locators : Locators)
  | inv (now a : Nat) (items : List Item)
  | timer (env : Env) (now : Nat)
  | userImport (env : Env) (hs : List (Header × Chain.Env))

/-- The user's import: what `import_blocks` reports.  (p2p/src/fsm.rs: `ImportHeaders`; p2p/src/fsm/syncmgr.rs:241-275) -/
def Mgr.userImport (cfg : Cfg) (env : Env) (m : Mgr) (t : State) (hs : List (Header × Chain.Env)) : Res Err (Mgr × State) :=
  let r := Chain.importBlocks cfg.chain t hs
  match r.2 with
  | .panic => .panic
  | _ => .ok (m.report env r.1 r.2, r.1)

/-- One operation of the manager on the tree.  (p2p/src/fsm/syncmgr.rs:135-697) -/
def Mgr.step (cfg : Cfg) (m : Mgr) (t : State) : Op → Res Err (Mgr × State)
  | .init env now => do .ok (← m.idle cfg env t now, t)
  | .negotiated env now a height network filters outbound => do .ok (← m.negotiated cfg env t now a height network filters outbound, t)
  | .gone a => .ok (m.unregister a, t)
  | .headers env now a hs => m.headers cfg env t now a hs
  | .getheaders a locators => do .ok (← m.getheaders cfg t a locators, t)
  | .inv now a items => do .ok (← m.inv cfg t now a items, t)
  | .timer env now => do .ok (← m.timer cfg env t now, t)
  | .userImport env hs => m.userImport cfg env t hs

end Verif.Sync

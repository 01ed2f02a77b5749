import Verif.Base.Map

/-!
# Ping manager: `p2p/src/fsm/pingmgr.rs`

Peers are numbers, times and durations milliseconds (`u128`, unbounded here; subtraction of times saturates as in
net/src/time.rs:88-94).  The outbox is a log that only grows.
-/

set_option autoImplicit false

namespace Verif.Ping

/-- `PING_INTERVAL` (p2p/src/fsm/pingmgr.rs:22). -/
def pingInterval : Nat := 120000

/-- `PING_TIMEOUT` (p2p/src/fsm/pingmgr.rs:24), the configured value in the client. -/
def pingTimeout : Nat := 30000

/-- `MAX_RECORDED_LATENCIES` (p2p/src/fsm/pingmgr.rs:27). -/
def maxLatencies : Nat := 64

/-- `State` (p2p/src/fsm/pingmgr.rs:29-33). -/
inductive State where
  | awaitingPong (nonce since : Nat)
  | idle (since : Nat)
  deriving DecidableEq, Repr

/-- `Peer` (p2p/src/fsm/pingmgr.rs:35-41), without the address (it is the key of the map). -/
structure Peer where
  state : State
  latencies : List Nat
  deriving DecidableEq, Repr

/-- `record_latency` (p2p/src/fsm/pingmgr.rs:52-55). -/
def Peer.record (p : Peer) (sample : Nat) : Peer := { p with latencies := (sample :: p.latencies).take maxLatencies }

/-- Outputs.  (p2p/src/fsm/output.rs:79-152) -/
inductive Out where
  | ping (peer nonce : Nat)
  | pong (peer nonce : Nat)
  | disconnect (peer : Nat)
  | timer (duration : Nat)
  deriving DecidableEq, Repr

/-- `PingManager` (p2p/src/fsm/pingmgr.rs:58-67). -/
structure Mgr where
  peers : AMap Nat Peer
  timeout : Nat
  out : List Out
  deriving DecidableEq, Repr

/-- What the environment decides in a call: the clock, the random nonce for a peer, the order of the hash map. -/
structure Env where
  now : Nat
  nonce : Nat → Nat
  order : List Nat → List Nat

/-- `new` (p2p/src/fsm/pingmgr.rs:79-91). -/
def Mgr.new (timeout : Nat) : Mgr := ⟨[], timeout, []⟩

/-- `peer_negotiated` (p2p/src/fsm/pingmgr.rs:115-128). -/
def Mgr.negotiated (e : Env) (m : Mgr) (a : Nat) : Mgr :=
  { m with out := m.out ++ [.ping a (e.nonce a)],
           peers := m.peers.insert a ⟨.awaitingPong (e.nonce a) e.now, []⟩ }

/-- One round of `timer_expired` (p2p/src/fsm/pingmgr.rs:133-164). -/
def Mgr.timerOne (e : Env) (m : Mgr) (a : Nat) : Mgr :=
  match m.peers.get a with
  | none => m
  | some p =>
    match p.state with
    | .awaitingPong _ since =>
      if m.timeout ≤ e.now - since then { m with out := m.out ++ [.disconnect a] } else m
    | .idle since =>
      if pingInterval ≤ e.now - since then
        { m with out := m.out ++ [.ping a (e.nonce a), .timer m.timeout, .timer pingInterval],
                 peers := m.peers.insert a { p with state := .awaitingPong (e.nonce a) e.now } }
      else m

/-- `timer_expired` (p2p/src/fsm/pingmgr.rs:131-165). -/
def Mgr.timer (e : Env) (m : Mgr) : Mgr := (e.order m.peers.keys).foldl (Mgr.timerOne e) m

/-- `received_ping` (p2p/src/fsm/pingmgr.rs:168-175). -/
def Mgr.ping (m : Mgr) (a nonce : Nat) : Mgr :=
  if m.peers.contains a then { m with out := m.out ++ [.pong a nonce] } else m

/-- `received_pong` (p2p/src/fsm/pingmgr.rs:178-199). -/
def Mgr.pong (e : Env) (m : Mgr) (a nonce : Nat) : Mgr :=
  match m.peers.get a with
  | none => m
  | some p =>
    match p.state with
    | .awaitingPong last since =>
      if nonce = last then
        { m with peers := m.peers.insert a { p.record (e.now - since) with state := .idle e.now } }
      else m
    | .idle _ => m

/-- Calls: events (`received_event`, 94-109) and the timer.  (p2p/src/fsm/pingmgr.rs:93-165) -/
inductive Op where
  | negotiated (a : Nat)
  | disconnected (a : Nat)
  | ping (a nonce : Nat)
  | pong (a nonce : Nat)
  | timer
  deriving DecidableEq, Repr

/-- One call.  (p2p/src/fsm/pingmgr.rs:93-165) -/
def Mgr.step (e : Env) (m : Mgr) : Op → Mgr
  | .negotiated a => m.negotiated e a
  | .disconnected a => { m with peers := m.peers.erase a }
  | .ping a n => m.ping a n
  | .pong a n => m.pong e a n
  | .timer => m.timer e

end Verif.Ping

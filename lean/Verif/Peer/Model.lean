import Verif.Base.Map
import Verif.Base.Res
import Verif.Addr.Model

/-!
# Model: the peer manager

`p2p/src/fsm/peermgr.rs`, with the parts of `p2p/src/fsm.rs` that feed it (message dispatch, the commands `Connect` and
`Disconnect`).

Times are milliseconds.  The clock is part of the state (`now`) and set by `tick`.  The address book is a list of candidates, given
anew with every call that draws from it.  The order in which hash maps are visited is a parameter (`ord`).  Logging is not modelled.
-/

set_option autoImplicit false

namespace Verif.Peer
open Verif.Addr (Sock Ip Domain NetAddr Source has isLocal domainOf sadd)

abbrev R := Res Unit

/-- `Link` (net/src/lib.rs). -/
inductive Link where
  | inbound
  | outbound
  deriving DecidableEq, Repr

/-- `DisconnectReason` (fsm.rs:100-123).  The texts of misbehaviour and of other reasons are left out.  `magic` also
stands for `DecodeError`. -/
inductive Reason where
  | misbehaving
  | protocolVersion (v : Nat)
  | services (s : Nat)
  | height (h : Nat)
  | magic
  | timeout (what : String)
  | selfConnection
  | connectionLimit
  | command
  | other
  deriving DecidableEq, Repr

/-- `nakamoto_net::Disconnect` (net/src/lib.rs:56-65). -/
inductive Disc where
  | dial
  | connection
  | machine (r : Reason)
  deriving DecidableEq, Repr

/-- `VersionMessage`, except for the sender's own address. -/
structure Version where
  version : Nat
  services : Nat
  /-- A signed 64-bit number. -/
  timestamp : Int
  receiver : NetAddr
  nonce : Nat
  agent : String
  /-- A signed 32-bit number. -/
  startHeight : Int
  relay : Bool
  deriving DecidableEq, Repr

/-- `HandshakeState` (peermgr.rs:97-102). -/
inductive HState where
  | version (since : Nat)
  | verack (since : Nat)
  deriving DecidableEq, Repr

/-- `Connection` (peermgr.rs:107-116). -/
structure Conn where
  addr : Sock
  loc : Sock
  link : Link
  since : Nat
  deriving DecidableEq, Repr

/-- `PeerInfo` (peermgr.rs:139-164). -/
structure Info where
  height : Nat
  services : Nat
  agent : String
  offset : Int
  receiver : NetAddr
  relay : Bool
  wtxid : Bool
  version : Nat
  persistent : Bool
  nonce : Nat
  state : HState
  deriving DecidableEq, Repr

/-- `PeerInfo::is_negotiated` (peermgr.rs:168-170). -/
def Info.isNegotiated (i : Info) : Bool :=
  match i.state with
  | .verack _ => true
  | .version _ => false

/-- `Peer` (peermgr.rs:120-135). -/
inductive Peer where
  | connecting (time : Nat)
  | connected (conn : Conn) (info : Option Info)
  | disconnecting
  deriving DecidableEq, Repr

/-- The content of `Event::PeerNegotiated` (peermgr.rs:549-560). -/
structure Negotiated where
  link : Link
  services : Nat
  persistent : Bool
  agent : String
  receiver : NetAddr
  height : Nat
  version : Nat
  relay : Bool
  wtxid : Bool
  deriving DecidableEq, Repr

/-- Outputs: what the manager asks of the reactor, the messages it sends, the events it publishes, and the clock offsets it
records.  (p2p/src/fsm/output.rs:79-162) -/
inductive Out where
  | connect (a : Sock)
  | disconnect (a : Sock) (r : Reason)
  | timer (ms : Nat)
  | version (a : Sock) (v : Version)
  | wtxidRelay (a : Sock)
  | verack (a : Sock)
  | sendHeaders (a : Sock)
  | evConnecting (a : Sock) (source : Source) (services : Nat)
  | evConnected (a : Sock) (loc : Sock) (link : Link)
  | evNegotiated (a : Sock) (n : Negotiated)
  | evDisconnected (a : Sock) (d : Disc)
  | evConnectionFailed (a : Sock)
  | evError (a : Sock)
  | offset (a : Sock) (o : Int)
  deriving DecidableEq, Repr

/-- `Config` (peermgr.rs:67-93), waits in milliseconds; `dbg`: debug assertions are on.  The whitelist of addresses can change and is
part of the state. -/
structure Config where
  protocolVersion : Nat
  agents : List String
  services : Nat
  persistent : List Sock
  required : Nat
  preferred : Nat
  target : Nat
  maxInbound : Nat
  retryMin : Nat
  retryMax : Nat
  agent : String
  domains : List Domain
  dbg : Bool

/-- Constants (peermgr.rs:40-53, fsm.rs:68). -/
def handshakeTimeout : Nat := 12000

/-- `CONNECTION_TIMEOUT` (p2p/src/fsm/peermgr.rs:44), in milliseconds. -/
def connectionTimeout : Nat := 6000

/-- `IDLE_TIMEOUT` (p2p/src/fsm/peermgr.rs:46), in milliseconds. -/
def idleTimeout : Nat := 60000

/-- `MAX_STALE_HEIGHT_DIFFERENCE` (p2p/src/fsm/peermgr.rs:53). -/
def maxStale : Nat := 2016

/-- `MIN_PROTOCOL_VERSION` (p2p/src/fsm.rs:68). -/
def minProtocolVersion : Nat := 70012

/-- `PeerManager` (peermgr.rs:175-189), with the clock and the whitelisted addresses. -/
structure Mgr where
  peers : AMap Sock Peer
  disconnected : AMap Sock (Option Nat × Nat)
  lastIdle : Option Nat
  trusted : List Ip
  now : Nat
  out : List Out

/-- `new` (peermgr.rs:201-215). -/
def Mgr.new (trusted : List Ip) : Mgr :=
  { peers := [], disconnected := [], lastIdle := none, trusted := trusted, now := 0, out := [] }

/-- Output something.  (p2p/src/fsm/output.rs:67-72) -/
def Mgr.emit (m : Mgr) (o : List Out) : Mgr := { m with out := m.out ++ o }

/-- `is_connecting` (peermgr.rs:679-683). -/
def Mgr.isConnecting (m : Mgr) (a : Sock) : Bool :=
  match m.peers.get a with
  | some (.connecting _) => true
  | _ => false

/-- `is_connected` (peermgr.rs:686-690). -/
def Mgr.isConnected (m : Mgr) (a : Sock) : Bool :=
  match m.peers.get a with
  | some (.connected _ _) => true
  | _ => false

/-- `is_inbound` (peermgr.rs:671-676). -/
def Mgr.isInbound (m : Mgr) (a : Sock) : Bool :=
  match m.peers.get a with
  | some (.connected c _) => c.link == .inbound
  | _ => false

/-- `is_disconnecting` (peermgr.rs:698-700). -/
def Mgr.isDisconnecting (m : Mgr) (a : Sock) : Bool :=
  match m.peers.get a with
  | some .disconnecting => true
  | _ => false

/-- `is_disconnected` (peermgr.rs:693-695). -/
def Mgr.isDisconnected (m : Mgr) (a : Sock) : Bool := !m.peers.contains a

/-- Selection of `peers` (peermgr.rs:703-711): peers that sent their version. -/
def Peer.versioned : Peer → Option (Info × Conn)
  | .connected c (some i) => some (i, c)
  | _ => none

/-- Selection of `connected` (peermgr.rs:722-727). -/
def Peer.conn : Peer → Option Conn
  | .connected c _ => some c
  | _ => none

/-- `peers`.  (p2p/src/fsm/peermgr.rs:703-711) -/
def Mgr.versioned (m : Mgr) : List (Info × Conn) := m.peers.filterMap (fun p => p.2.versioned)

/-- `connected`.  (p2p/src/fsm/peermgr.rs:722-727) -/
def Mgr.conns (m : Mgr) : List Conn := m.peers.filterMap (fun p => p.2.conn)

/-- `connecting` (peermgr.rs:714-719). -/
def Mgr.connecting (m : Mgr) : List Sock :=
  (m.peers.filter (fun p => match p.2 with | .connecting _ => true | _ => false)).map (·.1)

/-- `negotiated` (peermgr.rs:730-733). -/
def Mgr.negotiated (m : Mgr) (l : Link) : List (Info × Conn) :=
  m.versioned.filter (fun p => p.1.isNegotiated && p.2.link == l)

/-- The end of `connect` (peermgr.rs:749-750). -/
def Mgr.dial (m : Mgr) (a : Sock) : Mgr :=
  { m with peers := m.peers.insert a (.connecting m.now), out := m.out ++ [.connect a, .timer connectionTimeout] }

/-- `connect` (peermgr.rs:736-753).  The second test of the code (neither disconnected nor disconnecting) can not succeed after the
first. -/
def Mgr.connect (m : Mgr) (cfg : Config) (a : Sock) : Bool × Mgr :=
  if m.isConnected a || m.isConnecting a then (true, m)
  else if domainOf a ∉ cfg.domains then (false, m)
  else (true, m.dial a)

/-- `_disconnect` (peermgr.rs:763-766). -/
def Mgr.drop (m : Mgr) (a : Sock) (r : Reason) : Mgr :=
  { m with peers := m.peers.insert a .disconnecting, out := m.out ++ [.disconnect a r] }

/-- `disconnect` (peermgr.rs:756-760). -/
def Mgr.disconnect (m : Mgr) (a : Sock) (r : Reason) : Mgr := if m.isConnected a then m.drop a r else m

/-- The counts of `delta` (peermgr.rs:771-794).  The subtractions do not go below zero (`secondary_ok`, `unnegotiated_ok` in
`Verif/Peer/Limits.lean`). -/
def Mgr.primary (m : Mgr) (cfg : Config) : Nat :=
  ((m.negotiated .outbound).filter (fun p => has p.1.services cfg.preferred)).length

/-- `secondary` of `delta` (p2p/src/fsm/peermgr.rs:771-794). -/
def Mgr.secondary (m : Mgr) (cfg : Config) : Nat := (m.negotiated .outbound).length - m.primary cfg

/-- `unknown` of `delta` (p2p/src/fsm/peermgr.rs:771-794). -/
def Mgr.unknown (m : Mgr) (cfg : Config) : Nat :=
  m.connecting.length + (m.conns.length - m.primary cfg - m.secondary cfg)

/-- `delta` (peermgr.rs:770-806). -/
def Mgr.delta (m : Mgr) (cfg : Config) : Nat :=
  let total := m.primary cfg + m.secondary cfg + m.unknown cfg
  let max := cfg.target + cfg.target / 2
  if total > max || m.primary cfg + m.unknown cfg > cfg.target then 0
  else min (max - total) (cfg.target - (m.primary cfg + m.unknown cfg))

/-- A candidate of the address book.  (common/src/p2p/peer.rs:350-355) -/
abbrev Cand := NetAddr × Source

/-- `AddressSource::sample`: the first candidate with the services, which is not offered again.  (common/src/p2p/peer.rs:350-355) -/
def sample (services : Nat) : List Cand → Option (Cand × List Cand)
  | [] => none
  | c :: l =>
    if has c.1.services services then some (c, l)
    else
      match sample services l with
      | some (d, l') => some (d, c :: l')
      | none => none

/-- The choice of an address in `maintain_connections` (peermgr.rs:825-840). -/
def choose (cfg : Config) (below : Bool) (src : List Cand) : Option (Cand × List Cand) :=
  match sample cfg.preferred src with
  | some x => some x
  | none =>
    if below then
      match sample cfg.required src with
      | some x => some x
      | none => sample 0 src
    else none

/-- The loop of `maintain_connections` (peermgr.rs:824-863); `set`: the addresses connected to in this call.  Every round uses up a
candidate, hence at most `src.length` rounds (`fuel`). -/
def Mgr.maintainLoop (cfg : Config) (below : Bool) (delta : Nat) : Nat → Mgr → List Cand → List Sock → R Mgr
  | 0, m, _, _ => .ok m
  | fuel + 1, m, src, set =>
    if set.length < delta then
      match choose cfg below src with
      | none => .ok m
      | some (c, src') =>
        match c.1.sock with
        | none => Mgr.maintainLoop cfg below delta fuel m src' set
        | some a =>
          if cfg.dbg && m.isConnected a then .panic
          else if (m.connect cfg a).1 then
            Mgr.maintainLoop cfg below delta fuel
              ((m.connect cfg a).2.emit [.evConnecting a c.2 c.1.services]) src' (sadd set a)
          else Mgr.maintainLoop cfg below delta fuel (m.connect cfg a).2 src' set
    else .ok m

/-- `maintain_connections` (peermgr.rs:809-864). -/
def Mgr.maintain (m : Mgr) (cfg : Config) (src : List Cand) : R Mgr :=
  if cfg.persistent ≠ [] then .ok m
  else Mgr.maintainLoop cfg ((m.negotiated .outbound).length < cfg.target) (m.delta cfg) src.length m src []

/-- The loop of `initialize` (peermgr.rs:221-225). -/
def Mgr.connectAll (cfg : Config) : Mgr → List Sock → Mgr
  | m, [] => m
  | m, a :: l =>
    Mgr.connectAll cfg (if (m.connect cfg a).1 then (m.connect cfg a).2 else (m.connect cfg a).2.emit [.evError a]) l

/-- `initialize` (peermgr.rs:218-228). -/
def Mgr.initialize (m : Mgr) (cfg : Config) (src : List Cand) : R Mgr :=
  ((m.connectAll cfg cfg.persistent).emit [.timer idleTimeout]).maintain cfg src

/-- The delay of `persistent_disconnected` (peermgr.rs:263), before it is clamped: `2u64.saturating_pow(attempts as u32)`
seconds. -/
def backoff (attempts : Nat) : Nat := min (2 ^ (attempts % 2 ^ 32)) (2 ^ 64 - 1) * 1000

/-- `persistent_disconnected` (peermgr.rs:261-270); `clamp` panics if its bounds are in the wrong order. -/
def Mgr.persistentDisconnected (m : Mgr) (cfg : Config) (a : Sock) : R Mgr :=
  if cfg.retryMax < cfg.retryMin then .panic
  else
    let attempts := ((m.disconnected.get a).getD (none, 0)).2
    let delay := max cfg.retryMin (min (backoff attempts) cfg.retryMax)
    .ok { m with disconnected := m.disconnected.insert a (some (m.now + delay), attempts + 1),
                 out := m.out ++ [.timer delay] }

/-- Whether a reconnection is due (peermgr.rs:278-279). -/
def retryDue (now : Nat) : Option Nat → Bool
  | some t => t ≤ now
  | none => false

/-- The addresses to reconnect to (peermgr.rs:277-284). -/
def Mgr.due (m : Mgr) : List Sock := (m.disconnected.filter (fun p => retryDue m.now p.2.1)).map (·.1)

/-- Forget the retry times that are due (peermgr.rs:280). -/
def Mgr.clearDue (m : Mgr) : Mgr :=
  { m with disconnected := m.disconnected.map (fun p => (p.1, (if retryDue m.now p.2.1 then none else p.2.1, p.2.2))) }

/-- The second loop of `maintain_persistent` (peermgr.rs:286-290). -/
def Mgr.reconnect (cfg : Config) : Mgr → List Sock → Mgr
  | m, [] => m
  | m, a :: l => Mgr.reconnect cfg (m.connect cfg a).2 l

/-- `maintain_persistent` (peermgr.rs:273-291). -/
def Mgr.maintainPersistent (m : Mgr) (cfg : Config) (ord : List Sock → List Sock) : Mgr :=
  m.clearDue.reconnect cfg (ord m.due)

/-- `version` (peermgr.rs:623-654): our version message. -/
def ownVersion (cfg : Config) (a : Sock) (nonce height now : Nat) : Version :=
  { version := cfg.protocolVersion, services := cfg.services, timestamp := ((now / 1000 % 2 ^ 32 : Nat) : Int),
    receiver := { services := 0, sock := some a }, nonce := nonce, agent := cfg.agent,
    startHeight := Int.bmod height (2 ^ 32), relay := false }

/-- The number of inbound connections (peermgr.rs:330). -/
def Mgr.inboundCount (m : Mgr) : Nat := (m.conns.filter (fun c => c.link == .inbound)).length

/-- The first effect of `peer_connected` (peermgr.rs:314-326). -/
def Mgr.addConn (m : Mgr) (a loc : Sock) (link : Link) : Mgr :=
  { m with peers := m.peers.insert a (.connected { addr := a, loc := loc, link := link, since := m.now } none),
           disconnected := m.disconnected.erase a }

/-- What follows (peermgr.rs:328-347). -/
def Mgr.greet (m : Mgr) (cfg : Config) (a : Sock) (link : Link) (height nonce : Nat) : Mgr :=
  match link with
  | .inbound => if m.inboundCount ≥ cfg.maxInbound then m.drop a .connectionLimit else m
  | .outbound => m.emit [.version a (ownVersion cfg a nonce height m.now)]

/-- `peer_connected` (peermgr.rs:294-355). -/
def Mgr.peerConnected (m : Mgr) (cfg : Config) (a loc : Sock) (link : Link) (height nonce : Nat) : R Mgr :=
  if cfg.dbg && link == .outbound && !m.isConnecting a then .panic
  else if cfg.dbg && m.isConnected a then .panic
  else .ok (((m.addConn a loc link).greet cfg a link height nonce).emit
        [.timer handshakeTimeout, .evConnected a loc link])

/-- The event for a lost connection (peermgr.rs:369-381). -/
def Mgr.lostEvent (m : Mgr) (a : Sock) (d : Disc) : List Out :=
  if m.isDisconnecting a || m.isConnected a then [.evDisconnected a d]
  else if m.isConnecting a && d == .connection then [.evConnectionFailed a]
  else []

/-- Forget a connection (peermgr.rs:369-382). -/
def Mgr.forget (m : Mgr) (a : Sock) (d : Disc) : Mgr :=
  { m with peers := m.peers.erase a, out := m.out ++ m.lostEvent a d }

/-- `peer_disconnected` (peermgr.rs:358-391). -/
def Mgr.peerDisconnected (m : Mgr) (cfg : Config) (a : Sock) (d : Disc) (src : List Cand) : R Mgr :=
  if cfg.dbg && !m.peers.contains a then .panic
  else if cfg.persistent.contains a then (m.forget a d).persistentDisconnected cfg a
  else (m.forget a d).maintain cfg src

/-- `received_wtxidrelay` (peermgr.rs:394-410). -/
def Mgr.receivedWtxidRelay (m : Mgr) (a : Sock) : Mgr :=
  match m.peers.get a with
  | some (.connected c (some i)) =>
    match i.state with
    | .version _ => { m with peers := m.peers.insert a (.connected c (some { i with wtxid := true })) }
    | .verack _ => m.disconnect a .misbehaving
  | _ => m

/-- `start_height as Height`: a negative 32-bit number becomes a very large height (peermgr.rs:467, 523). -/
def asHeight (h : Int) : Nat := (h % (2 ^ 64 : Int)).toNat

/-- Whether the peer is trusted (peermgr.rs:450-451). -/
def Mgr.isTrusted (m : Mgr) (cfg : Config) (a : Sock) (agent : String) : Bool :=
  m.trusted.contains a.ip || cfg.agents.contains agent || isLocal a.ip

/-- The tests of `handle_version` (peermgr.rs:453-492): the reason to disconnect.  `hook`: the verdict of the user's version hook. -/
def Mgr.refuse (m : Mgr) (cfg : Config) (c : Conn) (a : Sock) (v : Version) (height : Nat) (hook : Bool) : Option Reason :=
  if v.version < minProtocolVersion then some (.protocolVersion v.version)
  else if c.link == .outbound && !has v.services cfg.required && !m.isTrusted cfg a v.agent then some (.services v.services)
  else if c.link == .outbound && height - asHeight v.startHeight > maxStale && !m.isTrusted cfg a v.agent then
    some (.height (asHeight v.startHeight))
  else if m.versioned.any (fun p => p.2.link == .outbound && p.1.nonce == v.nonce) then some .selfConnection
  else if c.link == .outbound && !has v.services cfg.preferred && (m.negotiated .outbound).length ≥ cfg.target then
    some .connectionLimit
  else if !hook then some .other
  else none

/-- The answer to a version message (peermgr.rs:494-513). -/
def reply (cfg : Config) (c : Conn) (nonce height now : Nat) : List Out :=
  (match c.link with
   | .inbound => [.version c.addr (ownVersion cfg c.addr nonce height now)]
   | .outbound => []) ++
  [.wtxidRelay c.addr, .verack c.addr, .sendHeaders c.addr, .timer handshakeTimeout]

/-- The difference of the clocks (peermgr.rs:524), before wrapping around. -/
def rawOffset (v : Version) (now : Nat) : Int := v.timestamp - ((now / 1000 % 2 ^ 32 : Nat) : Int)

/-- The record of a version message (peermgr.rs:521-533). -/
def infoOf (cfg : Config) (c : Conn) (v : Version) (now : Nat) : Info :=
  { nonce := v.nonce, height := asHeight v.startHeight, offset := Int.bmod (rawOffset v now) (2 ^ 64),
    services := v.services, persistent := cfg.persistent.contains c.addr, agent := v.agent, receiver := v.receiver,
    state := .version now, relay := v.relay, wtxid := false, version := min cfg.protocolVersion v.version }

/-- Accept a version message (peermgr.rs:494-535). -/
def Mgr.accept (m : Mgr) (cfg : Config) (c : Conn) (v : Version) (height : Nat) : Mgr :=
  { m with peers := m.peers.insert c.addr (.connected c (some (infoOf cfg c v m.now))),
           out := m.out ++ reply cfg c v.nonce height m.now }

/-- `received_version` and `handle_version` (peermgr.rs:413-539).  With overflow checks (debug builds), the subtraction of the times
can panic. -/
def Mgr.receivedVersion (m : Mgr) (cfg : Config) (a : Sock) (v : Version) (height : Nat) (hook : Bool) : R Mgr :=
  match m.peers.get a with
  | some (.connected c _) =>
    match m.refuse cfg c a v height hook with
    | some r => .ok (m.drop a r)
    | none => if cfg.dbg && rawOffset v m.now < -(2 ^ 63 : Int) then .panic else .ok (m.accept cfg c v height)
  | _ => .ok m

/-- The event of `received_verack` (peermgr.rs:549-560). -/
def Info.event (i : Info) (c : Conn) : Negotiated :=
  { link := c.link, services := i.services, persistent := i.persistent, agent := i.agent, receiver := i.receiver,
    height := i.height, version := i.version, relay := i.relay, wtxid := i.wtxid }

/-- `received_verack` (peermgr.rs:542-573). -/
def Mgr.receivedVerack (m : Mgr) (a : Sock) : Mgr :=
  match m.peers.get a with
  | some (.connected c (some i)) =>
    match i.state with
    | .version _ =>
      { m with peers := m.peers.insert a (.connected c (some { i with state := .verack m.now })),
               out := m.out ++ [.evNegotiated a (i.event c), .offset a i.offset] }
    | .verack _ => m.drop a .misbehaving
  | _ => m

/-- `idle_peers` (peermgr.rs:867-876). -/
def Peer.slowConnect (now : Nat) : Peer → Bool
  | .connecting t => now - t ≥ connectionTimeout
  | _ => false

/-- No `verack` in time (peermgr.rs:585-594). -/
def Peer.slowVerack (now : Nat) : Peer → Bool
  | .connected _ (some i) => match i.state with | .version since => now - since ≥ handshakeTimeout | .verack _ => false
  | _ => false

/-- No `version` in time (peermgr.rs:596-603). -/
def Peer.slowVersion (now : Nat) : Peer → Bool
  | .connected c none => now - c.since ≥ handshakeTimeout
  | _ => false

/-- The addresses whose entry fulfills a condition. -/
def Mgr.those (m : Mgr) (f : Peer → Bool) : List Sock := (m.peers.filter (fun p => f p.2)).map (·.1)

/-- The timed out peers, in the order of their disconnection (peermgr.rs:577-603). -/
def Mgr.timedOut (m : Mgr) (ord : List Sock → List Sock) : List (Sock × Reason) :=
  (ord (m.those (Peer.slowConnect m.now))).map (fun a => (a, .timeout "connection")) ++
  (ord (m.those (Peer.slowVerack m.now))).map (fun a => (a, .timeout "handshake")) ++
  (ord (m.those (Peer.slowVersion m.now))).map (fun a => (a, .timeout "handshake"))

/-- Disconnect the timed out peers (peermgr.rs:605-607). -/
def Mgr.dropAll (m : Mgr) : List (Sock × Reason) → Mgr
  | [] => m
  | (a, r) :: l => (m.drop a r).dropAll l

/-- Look for connections once in a while (peermgr.rs:609-613). -/
def Mgr.idle (m : Mgr) (cfg : Config) (src : List Cand) : R Mgr :=
  if m.now - m.lastIdle.getD 0 ≥ idleTimeout then
    match m.maintain cfg src with
    | .ok m' => .ok { m' with lastIdle := some m'.now, out := m'.out ++ [.timer idleTimeout] }
    | .err e => .err e
    | .panic => .panic
  else .ok m

/-- `timer_expired` (peermgr.rs:576-615). -/
def Mgr.timerExpired (m : Mgr) (cfg : Config) (ord : List Sock → List Sock) (src : List Cand) : R Mgr :=
  match (m.dropAll (m.timedOut ord)).idle cfg src with
  | .ok m' => .ok (m'.maintainPersistent cfg ord)
  | .err e => .err e
  | .panic => .panic

/-- `peer_attempted` (peermgr.rs:660-668). -/
def Mgr.peerAttempted (m : Mgr) (cfg : Config) (a : Sock) : R Mgr :=
  if cfg.dbg && !(m.isConnecting a || m.isInbound a) then .panic else .ok m

/-- `whitelist` (peermgr.rs:618-620). -/
def Mgr.whitelist (m : Mgr) (a : Sock) : Mgr := { m with trusted := sadd m.trusted a.ip }

/-- The messages the peer manager looks at.  (p2p/src/fsm/peermgr.rs:231-258) -/
inductive Msg where
  | version (v : Version)
  | verack
  | wtxidRelay
  deriving DecidableEq, Repr

/-- `received_event` for messages (peermgr.rs:239-248).  `height`: the height of our chain. -/
def Mgr.receivedMsg (m : Mgr) (cfg : Config) (a : Sock) (height : Nat) (hook : Bool) : Msg → R Mgr
  | .version v => m.receivedVersion cfg a v height hook
  | .verack => .ok (m.receivedVerack a)
  | .wtxidRelay => .ok (m.receivedWtxidRelay a)

/-- `message_received` of the state machine (fsm.rs:766-799): messages of the wrong network disconnect, messages of unknown peers
are ignored.  Messages the user's message hook drops are left out of the history. -/
def Mgr.messageReceived (m : Mgr) (cfg : Config) (a : Sock) (magicOk : Bool) (height : Nat) (hook : Bool) (msg : Msg) : R Mgr :=
  if !magicOk then .ok (m.disconnect a .magic)
  else if !m.isConnected a then .ok m
  else m.receivedMsg cfg a height hook msg

/-- What can happen to the peer manager.  (p2p/src/fsm/peermgr.rs:206-690) -/
inductive Op where
  | init (src : List Cand)
  | tick (now : Nat)
  | attempted (a : Sock)
  | connected (a loc : Sock) (link : Link) (height nonce : Nat)
  | disconnected (a : Sock) (d : Disc) (src : List Cand)
  | message (a : Sock) (magicOk : Bool) (height : Nat) (hook : Bool) (msg : Msg)
  /-- The events `PeerTimedOut` and `PeerMisbehaved` of other components (peermgr.rs:233-238). -/
  | timedOut (a : Sock)
  | misbehaved (a : Sock)
  /-- The commands `Connect` and `Disconnect` (fsm.rs:664-670). -/
  | cmdConnect (a : Sock)
  | cmdDisconnect (a : Sock)
  | timer (ord : List Sock → List Sock) (src : List Cand)

/-- One step.  (p2p/src/fsm/peermgr.rs:206-690) -/
def Mgr.step (cfg : Config) (m : Mgr) : Op → R Mgr
  | .init src => m.initialize cfg src
  | .tick t => .ok { m with now := t }
  | .attempted a => m.peerAttempted cfg a
  | .connected a loc link height nonce => m.peerConnected cfg a loc link height nonce
  | .disconnected a d src => m.peerDisconnected cfg a d src
  | .message a magicOk height hook msg => m.messageReceived cfg a magicOk height hook msg
  | .timedOut a => .ok (m.disconnect a (.timeout "other"))
  | .misbehaved a => .ok (m.disconnect a .misbehaving)
  | .cmdConnect a => .ok ((m.whitelist a).connect cfg a).2
  | .cmdDisconnect a => .ok (m.disconnect a .command)
  | .timer ord src => m.timerExpired cfg ord src

end Verif.Peer

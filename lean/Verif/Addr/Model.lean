import Verif.Base.Map
import Verif.Base.Res

/-!
# Model: the address manager

`p2p/src/fsm/addrmgr.rs`, with the in-memory part of the peer store (`common/src/p2p/peer.rs`, `impl Store for HashMap`).

Times are milliseconds.  Hash sets are duplicate-free lists, in any order.  Random choices and the iteration order of hash maps
are parameters (`Env`).  Logging is not modelled.
-/

set_option autoImplicit false

namespace Verif.Addr

/-- `net::IpAddr`: four octets, or (version 6) the first two segments and the rest. -/
inductive Ip where
  | v4 (a b c d : Nat)
  | v6 (s0 s1 rest : Nat)
  deriving DecidableEq, Repr

/-- `net::SocketAddr`. -/
structure Sock where
  ip : Ip
  port : Nat
  deriving DecidableEq, Repr

/-- `Domain` (common/src/p2p.rs:7-14). -/
inductive Domain where
  | ipv4
  | ipv6
  deriving DecidableEq, Repr

/-- `Domain::for_address` (common/src/p2p.rs:22-27). -/
def domainOf (a : Sock) : Domain :=
  match a.ip with
  | .v4 .. => .ipv4
  | .v6 .. => .ipv6

/-- `bitcoin::network::Address`: the service bits, and the result of `socket_addr()` (none: not an internet address, eg. onion).
The conversion itself is in the `bitcoin` crate. -/
structure NetAddr where
  services : Nat
  sock : Option Sock
  deriving DecidableEq, Repr

/-- `ServiceFlags::has`: all bits of `f` are set in `s`. -/
def has (s f : Nat) : Bool := s &&& f == f

/-- `ServiceFlags::GETUTXO` and `ServiceFlags::BLOOM` (bits 1 and 2). -/
def svcGetUtxo : Nat := 2

/-- `ServiceFlags::BLOOM` (bit 2), of the bitcoin crate; used at p2p/src/fsm/addrmgr.rs:368. -/
def svcBloom : Nat := 4

/-- `Source` (common/src/p2p/peer.rs:178-186). -/
inductive Source where
  | peer (a : Sock)
  | dns
  | imported
  deriving DecidableEq, Repr

/-- `KnownAddress` (common/src/p2p/peer.rs:200-213). -/
structure Known where
  addr : NetAddr
  source : Source
  lastSuccess : Option Nat := none
  lastSampled : Option Nat := none
  lastAttempt : Option Nat := none
  lastActive : Option Nat := none
  deriving DecidableEq, Repr

/-- `ipv4_is_routable` (addrmgr.rs:632-646) with the standard library's address classes: private 10/8, 172.16/12, 192.168/16;
loopback 127/8; link-local 169.254/16; broadcast; documentation 192.0.2/24, 198.51.100/24, 203.0.113/24.  Version 6: always
`true` (addrmgr.rs:651-653). -/
def isPrivate (a b : Nat) : Bool := a == 10 || (a == 172 && 16 ≤ b && b ≤ 31) || (a == 192 && b == 168)

/-- `Ipv4Addr::is_loopback`, used at p2p/src/fsm/addrmgr.rs:632-646. -/
def isLoopback (a : Nat) : Bool := a == 127

/-- `Ipv4Addr::is_link_local`, used at p2p/src/fsm/addrmgr.rs:632-646. -/
def isLinkLocal (a b : Nat) : Bool := a == 169 && b == 254

/-- `Ipv4Addr::is_broadcast`, used at p2p/src/fsm/addrmgr.rs:632-646. -/
def isBroadcast (a b c d : Nat) : Bool := a == 255 && b == 255 && c == 255 && d == 255

/-- `Ipv4Addr::is_documentation`, used at p2p/src/fsm/addrmgr.rs:632-646. -/
def isDocumentation (a b c : Nat) : Bool :=
  (a == 192 && b == 0 && c == 2) || (a == 198 && b == 51 && c == 100) || (a == 203 && b == 0 && c == 113)

/-- `is_routable` (addrmgr.rs:585-590, 632-653). -/
def isRoutable : Ip → Bool
  | .v4 a b c d =>
    if (a == 192 && b == 0 && c == 0 && d == 9) || (a == 192 && b == 0 && c == 0 && d == 10) then true
    else !isPrivate a b && !isLoopback a && !isLinkLocal a b && !isBroadcast a b c d && !isDocumentation a b c && a != 0
  | .v6 .. => true

/-- `is_local` (addrmgr.rs:593-600). -/
def isLocal : Ip → Bool
  | .v4 a b c d => isPrivate a b || isLoopback a || isLinkLocal a b || (a == 0 && b == 0 && c == 0 && d == 0)
  | .v6 .. => false

/-- `addr_key` (addrmgr.rs:604-627): the address range. -/
def addrKey : Ip → Nat
  | .v4 a b _ _ => (a * 256 + b) % 255
  | .v6 s0 s1 _ => (s0 * 65536 + s1) % 255

/-- `Config` (addrmgr.rs:72-78). -/
structure Config where
  requiredServices : Nat
  domains : List Domain

/-- Constants (addrmgr.rs:21-33), in milliseconds. -/
def requestTimeout : Nat := 60000

/-- `IDLE_TIMEOUT` (p2p/src/fsm/addrmgr.rs:25), in milliseconds. -/
def idleTimeout : Nat := 60000

/-- `SAMPLE_TIMEOUT` (p2p/src/fsm/addrmgr.rs:28), in milliseconds. -/
def sampleTimeout : Nat := 180000

/-- `MAX_ADDR_ADDRESSES` (p2p/src/fsm/addrmgr.rs:31). -/
def maxAddrAddresses : Nat := 1000

/-- `MAX_RANGE_SIZE` (p2p/src/fsm/addrmgr.rs:33). -/
def maxRangeSize : Nat := 256

/-- Reasons for a disconnection, as far as the address manager distinguishes them (addrmgr.rs:279-285, fsm.rs:125-134):
`permanent` — decided by the protocol for a reason that is not transient; `transient`; `dial` — the connection could not be
opened; `other` — the connection failed. -/
inductive Reason where
  | permanent
  | transient
  | dial
  | other
  deriving DecidableEq, Repr

/-- Outputs.  (p2p/src/fsm/output.rs:79-162) -/
inductive Out where
  | getAddr (a : Sock)
  | addr (a : Sock) (l : List (Nat × NetAddr))
  | exhausted
  | storeError
  | timer (ms : Nat)
  deriving DecidableEq, Repr

/-- `AddressManager` (addrmgr.rs:90-108). -/
structure Mgr where
  peers : AMap Ip Known
  bans : List Ip
  ranges : AMap Nat (List Ip)
  connected : List Ip
  sources : List Sock
  locals : List Sock
  lastRequest : Option Nat
  lastIdle : Option Nat
  out : List Out

/-- Random choices and orders of iteration, for one call. -/
structure Env where
  /-- `rng.usize(..n)`. -/
  pick : Nat → Nat
  /-- The order in which the ranges are visited. -/
  ranges : List (List Ip) → List (List Ip)
  /-- The order in which the addresses of a range are visited. -/
  ips : List Ip → List Ip

/-- A random number below `n` is below `n`; shuffling permutes. -/
structure Env.Fair (e : Env) : Prop where
  pick : ∀ n, 0 < n → e.pick n < n
  ranges : ∀ l, (e.ranges l).Perm l
  ips : ∀ l, (e.ips l).Perm l

/-- `HashSet::insert`.  Used for sets of p2p/src/fsm/addrmgr.rs. -/
def sadd {α : Type} [DecidableEq α] (l : List α) (a : α) : List α := if a ∈ l then l else a :: l

/-- `HashSet::remove`.  Used for sets of p2p/src/fsm/addrmgr.rs. -/
def sdel {α : Type} [DecidableEq α] (l : List α) (a : α) : List α := l.filter (· ≠ a)

abbrev R := Res Unit

/-- `populate_address_ranges` (addrmgr.rs:526-550): a full range loses a random address (also from the address book) before
the new one is added. -/
def Mgr.populate (m : Mgr) (e : Env) (ip : Ip) : R Mgr :=
  let key := addrKey ip
  let range := (m.ranges.get key).getD []
  if range.length = maxRangeSize then
    match range[e.pick range.length]? with
    | some a =>
      .ok { m with peers := m.peers.erase a, ranges := m.ranges.insert key (sadd (sdel range a) ip) }
    | none => .panic
  else .ok { m with ranges := m.ranges.insert key (sadd range ip) }

/-- `idle` (addrmgr.rs:289-296); `saved`: whether writing the address book to disk worked. -/
def Mgr.idle (m : Mgr) (now : Nat) (saved : Bool) : Mgr :=
  { m with lastIdle := some now, out := m.out ++ (if saved then [] else [.storeError]) ++ [.timer idleTimeout] }

/-- The loop of `new` (addrmgr.rs:318-320). -/
def Mgr.populateAll (m : Mgr) (e : Env) : List Ip → R Mgr
  | [] => .ok m
  | ip :: ips =>
    match m.populate e ip with
    | .ok m' => m'.populateAll e ips
    | .err x => .err x
    | .panic => .panic

/-- `new` (addrmgr.rs:301-322), for an address book loaded from disk or seeded. -/
def Mgr.new (peers : AMap Ip Known) (e : Env) : R Mgr :=
  Mgr.populateAll { peers := peers, bans := [], ranges := [], connected := [], sources := [], locals := [],
                    lastRequest := none, lastIdle := none, out := [] } e peers.keys

/-- `KnownAddress::new` (common/src/p2p/peer.rs:217-226). -/
def Known.new (a : NetAddr) (source : Source) (lastActive : Option Nat) : Known :=
  { addr := a, source := source, lastActive := lastActive }

/-- One round of the loop of `insert` (addrmgr.rs:361-422).  `lastActive` is in seconds (`BlockTime`). -/
def Mgr.insertOne (m : Mgr) (cfg : Config) (e : Env) (time : Nat) (source : Source) (lastActive : Nat) (a : NetAddr) : R Mgr :=
  if has a.services cfg.requiredServices = false then .ok m
  else if has a.services svcGetUtxo || has a.services svcBloom then .ok m
  else if lastActive = 0 then .ok m
  else if lastActive * 1000 > time + 60 * 60000 then .ok m
  else
    match a.sock with
    | none => .ok m
    | some s =>
      if domainOf s ∉ cfg.domains then .ok m
      else if s ∈ m.locals then .ok m
      else if s.ip ∈ m.bans then .ok m
      else if isRoutable s.ip = false then .ok m
      else if isLocal s.ip then .ok m
      else
        match m.peers.get s.ip with
        | some _ => .ok m
        | none =>
          Mgr.populate { m with peers := m.peers.insert s.ip (Known.new a source (some (lastActive * 1000))) } e s.ip

/-- The loop of `insert` (addrmgr.rs:361-422). -/
def Mgr.insertLoop (m : Mgr) (cfg : Config) (e : Env) (time : Nat) (source : Source) : List (Nat × NetAddr) → R Mgr
  | [] => .ok m
  | (t, a) :: l =>
    match m.insertOne cfg e time source t a with
    | .ok m' => m'.insertLoop cfg e time source l
    | .err x => .err x
    | .panic => .panic

/-- `insert` (addrmgr.rs:352-423); panics before initialization. -/
def Mgr.insert (m : Mgr) (cfg : Config) (e : Env) (addrs : List (Nat × NetAddr)) (source : Source) : R Mgr :=
  match m.lastIdle with
  | none => .panic
  | some time => m.insertLoop cfg e time source addrs

/-- `received_addr` (addrmgr.rs:342-348). -/
def Mgr.receivedAddr (m : Mgr) (cfg : Config) (e : Env) (peer : Sock) (addrs : List (Nat × NetAddr)) : R Mgr :=
  if addrs = [] || addrs.length > maxAddrAddresses then .ok m
  else m.insert cfg e addrs (.peer peer)

/-- The command `ImportAddresses` (fsm.rs:689-695): the time of last activity is given as zero. -/
def Mgr.importAddresses (m : Mgr) (cfg : Config) (e : Env) (addrs : List NetAddr) : R Mgr :=
  m.insert cfg e (addrs.map (fun a => (0, a))) .imported

/-- The conditions under which `sample_with` takes an address (addrmgr.rs:484-511). -/
def Mgr.eligible (m : Mgr) (cfg : Config) (time : Nat) (pred : Known → Bool) (ip : Ip) (ka : Known) : Bool :=
  (match ka.addr.sock with | some s => domainOf s ∈ cfg.domains | none => false) &&
  !(ka.lastAttempt.isSome && ka.lastSuccess.isNone) &&
  !(time - ka.lastSampled.getD 0 < sampleTimeout) &&
  !(m.connected.contains ip) &&
  pred ka

/-- The inner loop of `sample_with` (addrmgr.rs:480-516): the first address that will do. -/
def Mgr.sampleIps (m : Mgr) (cfg : Config) (time : Nat) (pred : Known → Bool) : List Ip → R (Option (Ip × Known))
  | [] => .ok none
  | ip :: ips =>
    match m.peers.get ip with
    | none => .panic
    | some ka => if m.eligible cfg time pred ip ka then .ok (some (ip, ka)) else m.sampleIps cfg time pred ips

/-- The outer loop of `sample_with` (addrmgr.rs:473-517). -/
def Mgr.sampleRanges (m : Mgr) (cfg : Config) (e : Env) (time : Nat) (pred : Known → Bool) :
    List (List Ip) → R (Option (Ip × Known))
  | [] => .ok none
  | range :: rs =>
    if range = [] then .panic
    else
      match m.sampleIps cfg time pred (e.ips range) with
      | .ok none => m.sampleRanges cfg e time pred rs
      | .ok (some x) => .ok (some x)
      | .err x => .err x
      | .panic => .panic

/-- `sample_with` (addrmgr.rs:460-520); `is_empty` (addrmgr.rs:330-332). -/
def Mgr.sampleWith (m : Mgr) (cfg : Config) (e : Env) (pred : Known → Bool) : R (Option (NetAddr × Source) × Mgr) :=
  if m.peers = [] ∨ m.ranges = [] then .ok (none, m)
  else
    match m.lastIdle with
    | none => .panic
    | some time =>
      match m.sampleRanges cfg e time pred (e.ranges (m.ranges.map (·.2))) with
      | .ok none => .ok (none, m)
      | .ok (some (ip, ka)) =>
        .ok (some (ka.addr, ka.source), { m with peers := m.peers.insert ip { ka with lastSampled := some time } })
      | .err x => .err x
      | .panic => .panic

/-- `sample` (addrmgr.rs:432-456): addresses with the given services. -/
def Mgr.sample (m : Mgr) (cfg : Config) (e : Env) (services : Nat) : R (Option (NetAddr × Source) × Mgr) :=
  m.sampleWith cfg e (fun ka => has ka.addr.services services)

/-- `ban` (addrmgr.rs:553-571).  The `debug_assert!` is taken as an assertion. -/
def Mgr.ban (m : Mgr) (ip : Ip) : R Mgr :=
  if ip ∈ m.connected then .panic
  else
    match m.ranges.get (addrKey ip) with
    | none => .ok m
    | some range =>
      let range' := sdel range ip
      .ok { m with peers := m.peers.erase ip, bans := sadd m.bans ip,
                   ranges := if range' = [] then m.ranges.erase (addrKey ip) else m.ranges.insert (addrKey ip) range' }

/-- Change the record of an address, if it is known. -/
def Mgr.update (m : Mgr) (ip : Ip) (f : Known → Known) : Mgr :=
  match m.peers.get ip with
  | some ka => { m with peers := m.peers.insert ip (f ka) }
  | none => m

/-- `peer_attempted` (addrmgr.rs:223-229). -/
def Mgr.peerAttempted (m : Mgr) (now : Nat) (a : Sock) : Mgr := m.update a.ip (fun ka => { ka with lastAttempt := some now })

/-- `peer_connected` (addrmgr.rs:232-237). -/
def Mgr.peerConnected (m : Mgr) (a : Sock) : Mgr :=
  if !isRoutable a.ip || isLocal a.ip then m else { m with connected := sadd m.connected a.ip }

/-- Remember the address under which the peer sees us (addrmgr.rs:137-139). -/
def Mgr.addLocal (m : Mgr) : Option Sock → Mgr
  | some r => { m with locals := sadd m.locals r }
  | none => m

/-- Outbound peers are asked for addresses later (addrmgr.rs:246-248). -/
def Mgr.addSource (m : Mgr) (outbound : Bool) (a : Sock) : Mgr :=
  if outbound then { m with sources := sadd m.sources a } else m

/-- Ask for addresses on the first success (addrmgr.rs:255-257). -/
def Mgr.askFirst (m : Mgr) (a : Sock) (ka : Known) : Mgr :=
  if ka.lastSuccess.isNone then { m with out := m.out ++ [.getAddr a] } else m

/-- The new record (addrmgr.rs:259-261). -/
def Known.negotiated (now services : Nat) (ka : Known) : Known :=
  { ka with lastSuccess := some now, lastActive := some now, addr := { ka.addr with services := services } }

/-- `peer_negotiated` (addrmgr.rs:240-263). -/
def Mgr.negotiate (m : Mgr) (now : Nat) (a : Sock) (services : Nat) (outbound : Bool) : Mgr :=
  if a.ip ∉ m.connected then m
  else
    let m := m.addSource outbound a
    match m.peers.get a.ip with
    | none => m
    | some ka => (m.askFirst a ka).update a.ip (Known.negotiated now services)

/-- `received_event(PeerNegotiated)` (addrmgr.rs:130-141); `receiver`: the address under which the peer sees us. -/
def Mgr.peerNegotiated (m : Mgr) (now : Nat) (a : Sock) (services : Nat) (outbound : Bool) (receiver : Option Sock) : Mgr :=
  (m.addLocal receiver).negotiate now a services outbound

/-- `peer_disconnected` (addrmgr.rs:266-287). -/
def Mgr.peerDisconnected (m : Mgr) (a : Sock) (r : Reason) : R Mgr :=
  if a.ip ∈ m.connected then
    let m := { m with connected := sdel m.connected a.ip, sources := sdel m.sources a }
    match r with
    | .permanent => m.ban a.ip
    | .dial => m.ban a.ip
    | .transient => .ok m
    | .other => .ok m
  else .ok m

/-- The addresses sent in answer to `getaddr` (addrmgr.rs:196-206): one random address per range. -/
def Mgr.getAddrLoop (m : Mgr) (e : Env) : List (List Ip) → R (List (Nat × NetAddr))
  | [] => .ok []
  | range :: rs =>
    if range = [] then .panic
    else
      match range[e.pick range.length]? with
      | none => .panic
      | some ip =>
        match m.peers.get ip with
        | none => .panic
        | some ka =>
          match m.getAddrLoop e rs with
          | .ok l => .ok (((ka.lastActive.map (· / 1000)).getD 0, ka.addr) :: l)
          | .err x => .err x
          | .panic => .panic

/-- `received_getaddr` (addrmgr.rs:191-208). -/
def Mgr.receivedGetAddr (m : Mgr) (e : Env) (a : Sock) : R Mgr :=
  match m.getAddrLoop e (m.ranges.map (·.2)) with
  | .ok l => .ok { m with out := m.out ++ [.addr a l] }
  | .err x => .err x
  | .panic => .panic

/-- Messages, as far as the address manager looks at them.  (p2p/src/fsm/addrmgr.rs:148-163) -/
inductive Msg where
  | addr (l : List (Nat × NetAddr))
  | getAddr
  | other
  deriving DecidableEq, Repr

/-- `received_event(MessageReceived)` (addrmgr.rs:148-163). -/
def Mgr.messageReceived (m : Mgr) (cfg : Config) (e : Env) (now : Nat) (a : Sock) (msg : Msg) : R Mgr :=
  let m := m.update a.ip (fun ka => { ka with lastActive := some now })
  match msg with
  | .addr l => m.receivedAddr cfg e a l
  | .getAddr => m.receivedGetAddr e a
  | .other => .ok m

/-- `is_exhausted` (addrmgr.rs:51-70). -/
def Mgr.isExhausted (m : Mgr) (time : Nat) : Bool :=
  m.peers.all (fun p =>
    (p.2.lastAttempt.isSome && p.2.lastSuccess.isNone) || time - p.2.lastSampled.getD 0 < sampleTimeout ||
      m.connected.contains p.1)

/-- `timer_expired` (addrmgr.rs:169-186), `get_addresses` (addrmgr.rs:216-220). -/
def Mgr.timerExpired (m : Mgr) (now : Nat) (saved : Bool) : R Mgr :=
  let idleIf (m : Mgr) : Mgr := if now - m.lastIdle.getD 0 ≥ idleTimeout then m.idle now saved else m
  if now - m.lastRequest.getD 0 ≥ requestTimeout then
    match m.lastIdle with
    | none => .panic
    | some time =>
      if m.isExhausted time then
        .ok (idleIf { m with out := m.out ++ [.exhausted] ++ m.sources.map .getAddr ++ [.timer requestTimeout],
                             lastRequest := some now })
      else .ok (idleIf m)
  else .ok (idleIf m)

/-- Calls from outside: user commands, events of the protocol, timers, sampling by the peer manager.  (p2p/src/fsm/addrmgr.rs:125-166) -/
inductive Op where
  | importAddresses (e : Env) (l : List NetAddr)
  | attempted (now : Nat) (a : Sock)
  | connected (a : Sock)
  | negotiated (now : Nat) (a : Sock) (services : Nat) (outbound : Bool) (receiver : Option Sock)
  | disconnected (a : Sock) (r : Reason)
  | message (e : Env) (now : Nat) (a : Sock) (msg : Msg)
  | timer (now : Nat) (saved : Bool)
  | sample (e : Env) (pred : Known → Bool)

/-- `received_event` (addrmgr.rs:125-166) and the public calls; with the sampled address, if any. -/
def Mgr.step (m : Mgr) (cfg : Config) : Op → R (Option (NetAddr × Source) × Mgr)
  | .importAddresses e l =>
    match m.importAddresses cfg e l with | .ok m' => .ok (none, m') | .err x => .err x | .panic => .panic
  | .attempted now a => .ok (none, m.peerAttempted now a)
  | .connected a => .ok (none, m.peerConnected a)
  | .negotiated now a services outbound receiver => .ok (none, m.peerNegotiated now a services outbound receiver)
  | .disconnected a r =>
    match m.peerDisconnected a r with | .ok m' => .ok (none, m') | .err x => .err x | .panic => .panic
  | .message e now a msg =>
    match m.messageReceived cfg e now a msg with | .ok m' => .ok (none, m') | .err x => .err x | .panic => .panic
  | .timer now saved =>
    match m.timerExpired now saved with | .ok m' => .ok (none, m') | .err x => .err x | .panic => .panic
  | .sample e pred => m.sampleWith cfg e pred

end Verif.Addr

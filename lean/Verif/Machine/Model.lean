import Verif.Node.Model
import Verif.Peer.Model
import Verif.Ping.Model

/-!
# The whole state machine: `p2p/src/fsm.rs`

Peer manager, ping manager and address manager together with the part of the state machine in `Verif/Node/Model.lean` (header tree, sync manager,
inventory manager, filter manager).  Here peers are socket addresses; in the models of the other managers they are numbers, and the configuration says
which number stands for which address.

The clock is that of the peer manager, for all of them.  The outboxes of the peer manager, the ping manager and the address manager are logs, with the
number of outputs taken so far.

Not modelled: the hooks for messages (they can only drop them), the events `Initializing` and `Ready`, the command `Broadcast`, the
commands that only read (see `Answers.lean` and `Peer/Query.lean`), logging.
-/

set_option autoImplicit false

namespace Verif.Machine
open Verif.Tx (Block Transaction)
open Verif.Addr (Sock Ip NetAddr Known Source has)
open Verif.Peer (Link Disc Cand)

/-- Configuration: that of the managers, and the number that stands for an address. -/
structure Cfg where
  node : Node.Cfg
  peer : Peer.Config
  addr : Addr.Config
  id : Sock → Nat
  sock : Nat → Sock

/-- `StateMachine` (fsm.rs:334-360).  `takenPeer`, `takenPing`, `takenAddr`: how many outputs of these managers were taken. -/
structure State where
  peer : Peer.Mgr
  ping : Ping.Mgr
  addr : Addr.Mgr
  node : Node.Fsm
  takenPeer : Nat
  takenPing : Nat
  takenAddr : Nat

/-- What the environment decides while an input is handled: what the parts of the node ask for; the nonces of the pings and the order of the peers in the ping manager;
the random choices of the address manager, and whether it could write to the disk; the addresses it draws for the peer manager; the order of the
peers in the peer manager, the nonce of our version messages and the verdict of the user's version hook. -/
structure Env where
  node : Node.Env
  pingNonce : Nat → Nat
  pingOrder : List Nat → List Nat
  addr : Addr.Env
  saved : Bool
  draws : List (Addr.Env × (Known → Bool))
  ord : List Sock → List Sock
  nonce : Nat
  hook : Bool

/-- Messages (`NetworkMessage` of the `bitcoin` crate), as far as any manager looks at them. -/
inductive Msg where
  | version (v : Peer.Version)
  | verack
  | wtxidRelay
  | ping (nonce : Nat)
  | pong (nonce : Nat)
  | addr (l : List (Nat × NetAddr))
  | getAddr
  | headers (hs : List (Chain.Header × Chain.Env))
  | getheaders (locators : Sync.Locators)
  | inv (items : List Sync.Item)
  | block (b : Block)
  | getdata (items : List Inv.Item)
  | cfheaders (msg : Cbf.CFHeadersMsg)
  | getcfheaders (filterType start stop : Nat)
  | cfilter (filterType block : Nat) (f : Cbf.Filter)
  | other

/-- The messages the peer manager looks at (peermgr.rs:239-248). -/
def Msg.peer : Msg → Option Peer.Msg
  | .version v => some (.version v)
  | .verack => some .verack
  | .wtxidRelay => some .wtxidRelay
  | _ => none

/-- The messages the ping manager looks at (pingmgr.rs:101-107). -/
def Msg.pingOp (a : Nat) : Msg → Option Ping.Op
  | .ping n => some (.ping a n)
  | .pong n => some (.pong a n)
  | _ => none

/-- The messages the address manager looks at (addrmgr.rs:148-163). -/
def Msg.addrMsg : Msg → Addr.Msg
  | .addr l => .addr l
  | .getAddr => .getAddr
  | _ => .other

/-- The messages the sync manager, the inventory manager and the filter manager look at (syncmgr.rs:168-186, invmgr.rs:178-186, cbfmgr.rs:239-290). -/
def Msg.node (a : Nat) : Msg → Option Node.Input
  | .headers hs => some (.headers a hs)
  | .getheaders l => some (.getheaders a l)
  | .inv items => some (.invs a items)
  | .block b => some (.block b)
  | .getdata items => some (.getdata a items)
  | .cfheaders m => some (.cfheaders a m)
  | .getcfheaders t s e => some (.getcfheaders a t s e)
  | .cfilter t b f => some (.cfilter a t b f)
  | _ => none

/-- What can happen to the state machine: the calls of the reactor, and commands.  `attempted` … `timer`: `nakamoto_net::StateMachine`
(fsm.rs:766-835); then the commands (fsm.rs:636-744); `next`: an output is taken (fsm.rs:588-619). -/
inductive Input where
  | tick (now : Nat)
  | attempted (a : Sock)
  | connected (a loc : Sock) (link : Link)
  | disconnected (a : Sock) (d : Disc)
  | message (a : Sock) (magicOk : Bool) (msg : Msg)
  | timer
  | connect (a : Sock)
  | disconnect (a : Sock)
  | importAddresses (l : List NetAddr)
  | importHeaders (hs : List (Chain.Header × Chain.Env))
  | requestFilters (start stop : Nat)
  | requestBlock (hash : Nat)
  | submit (t : Transaction)
  | rescan (start stop : Cbf.Bound) (watch : List Nat)
  | watch (scripts : List Nat)
  | next

/-- Outputs of the state machine.  (p2p/src/fsm.rs:588-620) -/
inductive Out where
  | peer (o : Peer.Out)
  | ping (o : Ping.Out)
  | addr (o : Addr.Out)
  | node (o : Node.Out)
  deriving DecidableEq

/-- The time. -/
def State.now (s : State) : Nat := s.peer.now

/-- What the environment decides for the node, with the clock of the state machine. -/
def Env.at (e : Env) (now : Nat) : Node.Env := { e.node with cbf := { e.node.cbf with now := now } }

/-- A call of the peer manager.  (p2p/src/fsm.rs:623-836) -/
def State.callPeer (cfg : Cfg) (s : State) (op : Peer.Op) : Res Unit State :=
  match s.peer.step cfg.peer op with
  | .ok m => .ok { s with peer := m }
  | _ => .panic

/-- A call of the ping manager.  (p2p/src/fsm.rs:623-836) -/
def State.callPing (e : Env) (s : State) (op : Ping.Op) : State := { s with ping := s.ping.step ⟨s.now, e.pingNonce, e.pingOrder⟩ op }

/-- A call of the address manager.  (p2p/src/fsm.rs:623-836) -/
def State.callAddr (cfg : Cfg) (s : State) (op : Addr.Op) : Res Unit State :=
  match s.addr.step cfg.addr op with
  | .ok (_, m) => .ok { s with addr := m }
  | _ => .panic

/-- A call of the other managers.  (p2p/src/fsm.rs:623-836) -/
def State.callNode (cfg : Cfg) (e : Env) (s : State) (i : Node.Input) : Res Unit State :=
  match s.node.step cfg.node (e.at s.now) i with
  | .ok n => .ok { s with node := n }
  | _ => .panic

/-- The peer manager draws addresses from the address manager (`AddressSource::sample`, peermgr.rs:825-840, addrmgr.rs:432-520).  In the code it
draws one at a time until it has enough; here the addresses that it will draw are drawn before, one after the other.  How many, and with which conditions on
the services, is decided by the environment, so all that can happen in the code can happen here. -/
def draw (cfg : Addr.Config) : List (Addr.Env × (Known → Bool)) → Addr.Mgr → Res Unit (List Cand × Addr.Mgr)
  | [], m => .ok ([], m)
  | (e, pred) :: l, m =>
    match m.step cfg (.sample e pred) with
    | .ok (c, m) =>
      match draw cfg l m with
      | .ok (cs, m) => .ok (c.toList ++ cs, m)
      | _ => .panic
    | _ => .panic

/-- A call of the peer manager that may draw addresses.  (p2p/src/fsm.rs:623-836) -/
def State.callDraw (cfg : Cfg) (e : Env) (s : State) (op : List Cand → Peer.Op) : Res Unit State :=
  match draw cfg.addr e.draws s.addr with
  | .ok (src, m) => { s with addr := m }.callPeer cfg (op src)
  | _ => .panic

/-- What the address manager distinguishes (addrmgr.rs:279-285, fsm.rs:125-134). -/
def reasonOf : Disc → Addr.Reason
  | .dial => .dial
  | .connection => .other
  | .machine .connectionLimit => .transient
  | .machine (.timeout _) => .transient
  | .machine (.height _) => .transient
  | .machine _ => .permanent

/-- `ServiceFlags::NETWORK` and `ServiceFlags::COMPACT_FILTERS` (bits 0 and 6). -/
def svcNetwork : Nat := 1

/-- `ServiceFlags::COMPACT_FILTERS` (bit 6), of the bitcoin crate; used at p2p/src/fsm/cbfmgr.rs:34. -/
def svcFilters : Nat := 64

/-- The event `PeerNegotiated`, as the node takes it (cbfmgr.rs:178-187, 550; invmgr.rs:161-169; syncmgr.rs:156-164, 201, 214). -/
def negotiatedInput (cfg : Cfg) (a : Sock) (n : Peer.Negotiated) : Node.Input :=
  .negotiated (cfg.id a) n.height (n.link == .outbound) (has n.services svcNetwork) (has n.services svcFilters) n.relay n.wtxid n.persistent

/-- An event of the peer manager is delivered (`event`, fsm.rs:625-633). -/
def State.deliverPeer (cfg : Cfg) (e : Env) (s : State) : Peer.Out → Res Unit State
  | .evConnecting a _ _ => s.callAddr cfg (.attempted s.now a)
  | .evConnected a _ _ => s.callAddr cfg (.connected a)
  | .evNegotiated a n => do
    let s ← s.callNode cfg e (negotiatedInput cfg a n)
    let s := s.callPing e (.negotiated (cfg.id a))
    s.callAddr cfg (.negotiated s.now a n.services (n.link == .outbound) n.receiver.sock)
  | .evDisconnected a d => do
    let s ← s.callNode cfg e (.disconnected (cfg.id a))
    let s := s.callPing e (.disconnected (cfg.id a))
    s.callAddr cfg (.disconnected a (reasonOf d))
  | _ => .ok s

/-- What the peer manager does about an event of the other managers (peermgr.rs:233-238). -/
def complaint (cfg : Cfg) : Node.Out → Option Peer.Op
  | .inv (.timedOut a) => some (.timedOut (cfg.sock a))
  | .sync (.misbehaved a) => some (.misbehaved (cfg.sock a))
  | .cbf (.event (.peerMisbehaved a)) => some (.misbehaved (cfg.sock a))
  | _ => none

/-- The output of the node that is taken next.  (p2p/src/fsm.rs:588-599) -/
def nodeHead (n : Node.Fsm) : Option Node.Out :=
  match n.qSync with
  | o :: _ => some (.sync o)
  | [] =>
    match n.qInv with
    | o :: _ => some (.inv o)
    | [] => n.qCbf.head?

/-- An output of the node is taken; if it is an event it is delivered.  (p2p/src/fsm.rs:588-620) -/
def State.nextNode (cfg : Cfg) (e : Env) (s : State) : Res Unit State := do
  let s' ← s.callNode cfg e .next
  match (nodeHead s.node).bind (complaint cfg) with
  | some op => s'.callPeer cfg op
  | none => .ok s'

/-- The outputs that were not taken.  (p2p/src/fsm.rs:588-599) -/
def State.qPeer (s : State) : List Peer.Out := s.peer.out.drop s.takenPeer

/-- The outputs of the ping manager that were not taken (p2p/src/fsm.rs:588-599). -/
def State.qPing (s : State) : List Ping.Out := s.ping.out.drop s.takenPing

/-- The outputs of the address manager that were not taken (p2p/src/fsm.rs:588-599). -/
def State.qAddr (s : State) : List Addr.Out := s.addr.out.drop s.takenAddr

/-- The output that is taken next (fsm.rs:588-599). -/
def State.head (s : State) : Option Out :=
  match s.qPeer with
  | o :: _ => some (.peer o)
  | [] =>
    if s.node.qSync ≠ [] ∨ s.node.qInv ≠ [] then (nodeHead s.node).map .node
    else
      match s.qPing with
      | o :: _ => some (.ping o)
      | [] =>
        match s.qAddr with
        | o :: _ => some (.addr o)
        | [] => (nodeHead s.node).map .node

/-- `next` (fsm.rs:588-619).  The clock offset that the peer manager records (peermgr.rs:565) is not an output in the code; taking it here has no effect. -/
def State.next (cfg : Cfg) (e : Env) (s : State) : Res Unit State :=
  match s.qPeer with
  | o :: _ => { s with takenPeer := s.takenPeer + 1 }.deliverPeer cfg e o
  | [] =>
    if s.node.qSync ≠ [] ∨ s.node.qInv ≠ [] then s.nextNode cfg e
    else
      match s.qPing with
      | _ :: _ => .ok { s with takenPing := s.takenPing + 1 }
      | [] =>
        match s.qAddr with
        | _ :: _ => .ok { s with takenAddr := s.takenAddr + 1 }
        | [] => s.nextNode cfg e

/-- The event `MessageReceived` for the ping manager.  (p2p/src/fsm/pingmgr.rs:93-112) -/
def State.messagePing (e : Env) (s : State) : Option Ping.Op → State
  | some op => s.callPing e op
  | none => s

/-- The event `MessageReceived` for the node.  (p2p/src/fsm.rs:766-798) -/
def State.messageNode (cfg : Cfg) (e : Env) (s : State) : Option Node.Input → Res Unit State
  | some i => s.callNode cfg e i
  | none => .ok s

/-- The event `MessageReceived` for the peer manager.  (p2p/src/fsm/peermgr.rs:231-258) -/
def State.messagePeer (cfg : Cfg) (e : Env) (s : State) (a : Sock) : Option Peer.Msg → Res Unit State
  | some m => s.callPeer cfg (.message a true s.node.tree.height e.hook m)
  | none => .ok s

/-- `message_received` (fsm.rs:766-799).  If the magic number is wrong, it does not matter what the message is; the call of the peer manager then
is `disconnect`. -/
def State.message (cfg : Cfg) (e : Env) (s : State) (a : Sock) (magicOk : Bool) (msg : Msg) : Res Unit State :=
  if magicOk = false then s.callPeer cfg (.message a false s.node.tree.height e.hook .verack)
  else if s.peer.isConnected a = false then .ok s
  else do
    let s ← s.messageNode cfg e (msg.node (cfg.id a))
    let s := s.messagePing e (msg.pingOp (cfg.id a))
    let s ← s.callAddr cfg (.message e.addr s.now a msg.addrMsg)
    s.messagePeer cfg e a msg.peer

/-- One input.  (p2p/src/fsm.rs:636-836) -/
def State.step (cfg : Cfg) (e : Env) (s : State) : Input → Res Unit State
  | .tick now => s.callPeer cfg (.tick now)
  | .attempted a => s.callPeer cfg (.attempted a)
  | .connected a loc link => s.callPeer cfg (.connected a loc link s.node.tree.height e.nonce)
  | .disconnected a d => s.callDraw cfg e (.disconnected a d)
  | .message a magicOk msg => s.message cfg e a magicOk msg
  | .timer => do
    let s ← s.callNode cfg e .timer
    let s := s.callPing e .timer
    let s ← s.callAddr cfg (.timer s.now e.saved)
    s.callDraw cfg e (.timer e.ord)
  | .connect a => s.callPeer cfg (.cmdConnect a)
  | .disconnect a => s.callPeer cfg (.cmdDisconnect a)
  | .importAddresses l => s.callAddr cfg (.importAddresses e.addr l)
  | .importHeaders hs => s.callNode cfg e (.importHeaders hs)
  | .requestFilters start stop => s.callNode cfg e (.requestFilters start stop)
  | .requestBlock hash => s.callNode cfg e (.requestBlock hash)
  | .submit t => s.callNode cfg e (.submit t)
  | .rescan start stop watch => s.callNode cfg e (.rescan start stop watch)
  | .watch scripts => s.callNode cfg e (.watch scripts)
  | .next => s.next cfg e

/-- `StateMachine::new` (fsm.rs:467-556), given the header tree, the filter headers and the address manager (`Addr.Mgr.new`). -/
def State.new (n : Node.Fsm) (m : Addr.Mgr) (trusted : List Ip) (pingTimeout : Nat) : State :=
  { peer := Peer.Mgr.new trusted, ping := Ping.Mgr.new pingTimeout, addr := m, node := n, takenPeer := 0, takenPing := 0, takenAddr := 0 }

/-- `initialize` (fsm.rs:752-764). -/
def State.init (cfg : Cfg) (e : Env) (s : State) (now : Nat) : Res Unit State := do
  let s ← s.callPeer cfg (.tick now)
  let s := { s with addr := s.addr.idle now e.saved }
  let s ← s.callNode cfg e .init
  s.callDraw cfg e .init

end Verif.Machine

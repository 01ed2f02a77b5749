import Verif.Machine.Model
import Verif.Node.Spec
import Verif.Node.Queues
import Verif.Peer.Spec
import Verif.Addr.Spec
import Verif.Ping.Props

/-!
# The whole state machine: specification

What each manager is told when the state machine gets an input; executions of the state machine; what the managers can know about peers from the events that were
published.
-/

set_option autoImplicit false

namespace Verif.Machine
open Verif.Addr (Sock Ip NetAddr Known Source has)
open Verif.Chain (Header)
open Verif.Peer (Cand)

/-- What the sync manager, the inventory manager and the filter manager are told, if anything. -/
def nodeInput (cfg : Cfg) (s : State) : Input → Option Node.Input
  | .message a magicOk msg => if magicOk && s.peer.isConnected a then msg.node (cfg.id a) else none
  | .timer => some .timer
  | .importHeaders hs => some (.importHeaders hs)
  | .requestFilters start stop => some (.requestFilters start stop)
  | .requestBlock hash => some (.requestBlock hash)
  | .submit t => some (.submit t)
  | .rescan start stop watch => some (.rescan start stop watch)
  | .watch scripts => some (.watch scripts)
  | .next =>
    match s.qPeer with
    | .evNegotiated a n :: _ => some (negotiatedInput cfg a n)
    | .evDisconnected a _ :: _ => some (.disconnected (cfg.id a))
    | _ :: _ => none
    | [] => if s.node.qSync = [] ∧ s.node.qInv = [] ∧ (s.qPing ≠ [] ∨ s.qAddr ≠ []) then none else some .next
  | _ => none

/-- What the ping manager is told, if anything. -/
def pingInput (cfg : Cfg) (s : State) : Input → Option Ping.Op
  | .message a magicOk msg => if magicOk && s.peer.isConnected a then msg.pingOp (cfg.id a) else none
  | .timer => some .timer
  | .next =>
    match s.qPeer with
    | .evNegotiated a _ :: _ => some (.negotiated (cfg.id a))
    | .evDisconnected a _ :: _ => some (.disconnected (cfg.id a))
    | _ => none
  | _ => none

/-- The output of the node that is taken, if it is its turn. -/
def nodeTurn (s : State) : Option Node.Out :=
  match s.qPeer with
  | _ :: _ => none
  | [] => if s.node.qSync = [] ∧ s.node.qInv = [] ∧ (s.qPing ≠ [] ∨ s.qAddr ≠ []) then none else nodeHead s.node

/-- What the peer manager is told, if anything, given the addresses it draws. -/
def peerInput (cfg : Cfg) (e : Env) (s : State) : Input → Option (List Cand → Peer.Op)
  | .tick now => some (fun _ => .tick now)
  | .attempted a => some (fun _ => .attempted a)
  | .connected a loc link => some (fun _ => .connected a loc link s.node.tree.height e.nonce)
  | .disconnected a d => some (.disconnected a d)
  | .message a false _ => some (fun _ => .message a false s.node.tree.height e.hook .verack)
  | .message a true msg =>
    if s.peer.isConnected a then msg.peer.map (fun m => fun _ => .message a true s.node.tree.height e.hook m) else none
  | .timer => some (.timer e.ord)
  | .connect a => some (fun _ => .cmdConnect a)
  | .disconnect a => some (fun _ => .cmdDisconnect a)
  | .next => (nodeTurn s).bind (fun o => (complaint cfg o).map (fun op => fun _ => op))
  | _ => none

/-- How many outputs of the peer manager are taken. -/
def takes : Input → List Peer.Out → Nat
  | .next, _ :: _ => 1
  | _, _ => 0

/-- What a step is for node, ping manager and peer manager. -/
structure Effect (cfg : Cfg) (e : Env) (s : State) (i : Input) (s' : State) : Prop where
  node : match nodeInput cfg s i with | none => s'.node = s.node | some j => s.node.step cfg.node (e.at s.now) j = .ok s'.node
  ping : s'.ping = match pingInput cfg s i with | none => s.ping | some op => s.ping.step ⟨s.now, e.pingNonce, e.pingOrder⟩ op
  peer : match peerInput cfg e s i with | none => s'.peer = s.peer | some op => ∃ src, s.peer.step cfg.peer (op src) = .ok s'.peer
  taken : s'.takenPeer = s.takenPeer + takes i s.qPeer

/-- What the address manager is told, if anything, before addresses are drawn. -/
def addrInput (e : Env) (s : State) : Input → Option Addr.Op
  | .message a magicOk msg => if magicOk && s.peer.isConnected a then some (.message e.addr s.now a msg.addrMsg) else none
  | .timer => some (.timer s.now e.saved)
  | .importAddresses l => some (.importAddresses e.addr l)
  | .next =>
    match s.qPeer with
    | .evConnecting a _ _ :: _ => some (.attempted s.now a)
    | .evConnected a _ _ :: _ => some (.connected a)
    | .evNegotiated a n :: _ => some (.negotiated s.now a n.services (n.link == .outbound) n.receiver.sock)
    | .evDisconnected a d :: _ => some (.disconnected a (reasonOf d))
    | _ => none
  | _ => none

/-- When the peer manager may draw addresses. -/
def drawsFor : Input → Bool
  | .timer => true
  | .disconnected _ _ => true
  | _ => false

/-- What a step is for the address manager; the peer manager gets the addresses that were drawn. -/
def AddrEffect (cfg : Cfg) (e : Env) (s : State) (i : Input) (s' : State) : Prop :=
  ∃ m src, (match addrInput e s i with | none => m = s.addr | some op => ∃ c, s.addr.step cfg.addr op = .ok (c, m)) ∧
    (if drawsFor i = true then draw cfg.addr e.draws m = .ok (src, s'.addr) else src = [] ∧ s'.addr = m) ∧
    match peerInput cfg e s i with | none => s'.peer = s.peer | some op => s.peer.step cfg.peer (op src) = .ok s'.peer

/-- Random choices are real choices, hash maps are visited in some order, headers presented are among `U`, and the header store fails only if `fail`. -/
structure Legal (U : Header → Prop) (fail : Bool) (e : Env) (i : Input) : Prop where
  sync : e.node.sync.Legal
  inv : e.node.inv.Legal
  cbf : e.node.cbf.Fair
  message : ∀ a ok hs, i = .message a ok (.headers hs) → ∀ p ∈ hs, U p.1 ∧ Chain.EnvOk fail p.2
  command : ∀ hs, i = .importHeaders hs → ∀ p ∈ hs, U p.1 ∧ Chain.EnvOk fail p.2
  ping : ∀ l, (e.pingOrder l).Perm l
  addr : e.addr.Fair
  draws : ∀ p ∈ e.draws, p.1.Fair
  ord : ∀ l, (e.ord l).Perm l

/-- How the client is started: the header tree, the address book, the addresses that are whitelisted, how long to wait for answers to pings. -/
structure Setup where
  tree : Chain.State
  book : AMap Ip Known
  trusted : List Ip
  pingTimeout : Nat

/-- Executions of the state machine: the inputs, and what the node was told and put out (both most recent first).  Nothing panicked, and
the steps of the node are as `P` demands. -/
inductive Run (cfg : Cfg) (U : Header → Prop) (fail : Bool) (P : Node.Hist → Node.Fsm → Node.Input → Node.Fsm → List Node.Out → Prop) (z : Setup) :
    List Input → Node.Hist → State → Prop where
  | start {s' : State} {m : Addr.Mgr} {outs : List Node.Out} (f : Cbf.FilterHeaders) (cacheSize now : Nat) (e : Env) (ea : Addr.Env) (fa : ea.Fair)
      (nd : z.book.keys.Nodup) (hm : Addr.Mgr.new z.book ea = .ok m) (l : Legal U fail e .timer)
      (hs : (State.new (Node.Fsm.new z.tree f cacheSize) m z.trusted z.pingTimeout).init cfg e now = .ok s') (ho : s'.node.log = outs)
      (p : P [] (Node.Fsm.new z.tree f cacheSize) .init s'.node outs) : Run cfg U fail P z [] [(.init, outs)] s'
  | silent {is : List Input} {h : Node.Hist} {s s' : State} {i : Input} (e : Env) (r : Run cfg U fail P z is h s) (l : Legal U fail e i)
      (hs : s.step cfg e i = .ok s') (hj : nodeInput cfg s i = none) : Run cfg U fail P z (i :: is) h s'
  | step {is : List Input} {h : Node.Hist} {s s' : State} {i : Input} {j : Node.Input} {outs : List Node.Out} (e : Env) (r : Run cfg U fail P z is h s)
      (l : Legal U fail e i) (hs : s.step cfg e i = .ok s') (hj : nodeInput cfg s i = some j) (ho : s'.node.log = s.node.log ++ outs)
      (p : P h s.node j s'.node outs) : Run cfg U fail P z (i :: is) ((j, outs) :: h) s'

/-- No demands on the steps. -/
def anyStep : Node.Hist → Node.Fsm → Node.Input → Node.Fsm → List Node.Out → Prop := fun _ _ _ _ _ => True

/-- The events say that there is a negotiated connection with `a`: after some `PeerNegotiated` that fulfills `Q`, there is no `PeerDisconnected`. -/
def Met (a : Sock) (Q : Peer.Negotiated → Prop) (l : List Peer.Out) : Prop :=
  ∃ l1 n l2, l = l1 ++ .evNegotiated a n :: l2 ∧ Q n ∧ ∀ d, .evDisconnected a d ∉ l2

/-- Peers the sync manager is to know: those that connected to us, and those we connected to that serve blocks. -/
def SyncPeer (n : Peer.Negotiated) : Prop := n.link = .outbound → has n.services svcNetwork = true

/-- Peers the filter manager may know: those we connected to that serve compact filters. -/
def FilterPeer (n : Peer.Negotiated) : Prop := n.link = .outbound ∧ has n.services svcFilters = true

/-- Any peer. -/
def AnyPeer (_ : Peer.Negotiated) : Prop := True

/-- The numbers of the peers met. -/
def Nums (cfg : Cfg) (Q : Peer.Negotiated → Prop) (l : List Peer.Out) (b : Nat) : Prop := ∃ a, cfg.id a = b ∧ Met a Q l

/-- The outputs of the peer manager that were taken. -/
def State.taken (s : State) : List Peer.Out := s.peer.out.take s.takenPeer

/-- Some manager besides the peer manager and the address manager keeps a record of the peer with that number. -/
def State.Knows (s : State) (b : Nat) : Prop :=
  s.node.sync.peers.get b ≠ none ∨ s.node.inv.peers.get b ≠ none ∨ b ∈ s.node.cbf.peers.keys ∨ s.ping.peers.get b ≠ none

/-- The output waits in the outbox of its manager. -/
def State.Waits (s : State) : Out → Prop
  | .peer o => o ∈ s.qPeer
  | .ping o => o ∈ s.qPing
  | .addr o => o ∈ s.qAddr
  | .node o => s.node.Waits o

end Verif.Machine

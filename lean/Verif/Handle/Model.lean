import Verif.Base.Map
import Verif.Base.Res
import Verif.Chain.Model
import Verif.Sync.Model
import Verif.Peer.Model
import Verif.Inv.Model

/-!
# The client handle: `net/src/event.rs`, `Handle` of `client/src/client.rs`

Channels are unbounded queues.  A call that waits is a function of what the waiting thread gets to see: the answer to its command, and the events it takes from its channel with the
times at which it takes them (milliseconds since it started to wait).  Errors of the command channel and of the waker are not modelled.
-/

set_option autoImplicit false

namespace Verif.Handle
open Verif.Addr (Sock)
open Verif.Peer (Link)

/-! ## Publishing events -/

/-- A channel made by `subscribe`: what waits in it, whether the sender is still in the list of subscribers, and whether the receiver exists.  (net/src/event.rs:65-78) -/
structure Chan (T : Type) where
  queue : List T
  sender : Bool
  receiver : Bool

/-- The list of subscribers that `Emitter` and `Subscriber` share (net/src/event.rs:29-31, 65-67).  Channels that were removed from it are kept here, with
`sender` off. -/
abbrev Emitter (T : Type) := List (Chan T)

/-- `Subscriber::subscribe` (net/src/event.rs:71-77). -/
def Emitter.subscribe {T : Type} (m : Emitter T) : Emitter T := m ++ [⟨[], true, true⟩]

/-- `try_send` on one channel, and whether it is kept (net/src/event.rs:47). -/
def Chan.send {T : Type} (e : T) (c : Chan T) : Chan T :=
  if c.sender then (if c.receiver then { c with queue := c.queue ++ [e] } else { c with sender := false }) else c

/-- `Emitter::emit` (net/src/event.rs:43-48). -/
def Emitter.emit {T : Type} (m : Emitter T) (e : T) : Emitter T := m.map (Chan.send e)

/-- `Emitter::close` (net/src/event.rs:51-53). -/
def Emitter.close {T : Type} (m : Emitter T) : Emitter T := m.map (fun c => { c with sender := false })

/-- A receiver is dropped.  (The receivers of net/src/event.rs:71-78.) -/
def Chan.dropped {T : Type} (c : Chan T) : Chan T := { c with receiver := false }

/-- Change one of the channels.  (net/src/event.rs:29-48) -/
def Emitter.change {T : Type} (m : Emitter T) (i : Nat) (f : Chan T → Chan T) : Emitter T :=
  match m[i]? with
  | some c => m.set i (f c)
  | none => m

/-- What a receiver gets. -/
inductive Got (T : Type) where
  | event (e : T)
  | empty
  | disconnected
  deriving DecidableEq, Repr

/-- `try_recv`. -/
def Chan.recv {T : Type} (c : Chan T) : Chan T × Got T :=
  match c.queue with
  | e :: q => ({ c with queue := q }, .event e)
  | [] => (c, if c.sender then .empty else .disconnected)

/-- What can happen to an emitter with its channels.  (net/src/event.rs:29-78) -/
inductive Op (E : Type) where
  | subscribe
  /-- `Broadcast::broadcast` (net/src/event.rs:22-24). -/
  | publish (e : E)
  | recv (i : Nat)
  | drop (i : Nat)
  | close

/-- `forward` maps an event to those that subscribers see: all for `events`, only processed blocks for `blocks`, only filters received for `filters` (client/src/client.rs:201-218). -/
def Emitter.step {E T : Type} (forward : E → List T) (m : Emitter T) : Op E → Emitter T × Option (Got T)
  | .subscribe => (m.subscribe, none)
  | .publish e => ((forward e).foldl Emitter.emit m, none)
  | .recv i =>
    match m[i]? with
    | some c => (m.change i (fun c => c.recv.1), some c.recv.2)
    | none => (m, none)
  | .drop i => (m.change i Chan.dropped, none)
  | .close => (m.close, none)

/-! ## Waiting for events -/

/-- Errors of `wait`: `RecvTimeoutError`.  (net/src/event.rs:97-126) -/
inductive Err where
  | timeout
  | disconnected
  deriving DecidableEq, Repr

/-- `wait` (net/src/event.rs:97-127).  `f` is a function with a state.  `feed`: the events there are to take, with the times at which they are taken; `closed`: when the channel is
seen to be closed after that. -/
def wait {E S T : Type} (f : S → E → S × Option T) (timeout : Nat) (closed : Option Nat) : S → List (Nat × E) → Res Err T
  | _, [] =>
    match closed with
    | some t => if t ≤ timeout then .err .disconnected else .err .timeout
    | none => .err .timeout
  | s, (t, e) :: feed =>
    if t ≤ timeout then
      match f s e with
      | (_, some x) => .ok x
      | (s, none) => wait f timeout closed s feed
    else .err .timeout

/-- The events that the calls below look at.  (p2p/src/fsm/event.rs:21-243) -/
inductive Ev where
  | imported (hash height : Nat)
  | connected (a : Sock) (l : Link)
  | negotiated (a : Sock) (height services : Nat)
  | disconnected (a : Sock)
  | other
  deriving DecidableEq, Repr

/-- Events of the sync manager.  (p2p/src/fsm/syncmgr.rs) -/
def Ev.ofSync : Sync.Out → Ev
  | .imported _ hash height _ _ => .imported hash height
  | _ => .other

/-- Events of the peer manager; `none`: no event.  (p2p/src/fsm/peermgr.rs) -/
def Ev.ofPeer : Peer.Out → Option Ev
  | .evConnected a _ l => some (.connected a l)
  | .evNegotiated a n => some (.negotiated a n.height n.services)
  | .evDisconnected a _ => some (.disconnected a)
  | .evConnecting _ _ _ | .evConnectionFailed _ | .evError _ => some .other
  | _ => none

/-- `wait_for_height` (client/src/client.rs:694-709), given the hash of the header that `get_block_by_height` returned. -/
def waitForHeight (h : Nat) (answer : Option Nat) (timeout : Nat) (closed : Option Nat) (feed : List (Nat × Ev)) : Res Err Nat :=
  match answer with
  | some x => .ok x
  | none => wait (fun (_ : Unit) e => ((), match e with | .imported hash height => if height = h then some hash else none | _ => none)) timeout closed () feed

/-- What is known of a negotiated peer: address, height, services. -/
abbrev Known := Sock × Nat × Nat

/-- `GetPeers` (p2p/src/fsm.rs:653-663). -/
def getPeers (m : Peer.Mgr) (required : Nat) : List Known :=
  (m.versioned.filter (fun p => p.1.isNegotiated && Addr.has p.1.services required)).map (fun p => (p.2.addr, p.1.height, p.1.services))

/-- The closure in `wait_for_peers` (client/src/client.rs:669-687). -/
def onNegotiated (count required : Nat) (known : AMap Sock (Nat × Nat)) : Ev → AMap Sock (Nat × Nat) × Option (List Known)
  | .negotiated a height services =>
    let known := if Addr.has services required then known.insert a (height, services) else known
    (known, if known.length = count then some known else none)
  | _ => (known, none)

/-- `wait_for_peers` (client/src/client.rs:647-692), given what `get_peers` returned.  The order of the result is that of a hash map. -/
def waitForPeers (count required : Nat) (answer : List Known) (timeout : Nat) (closed : Option Nat) (feed : List (Nat × Ev)) : Res Err (List Known) :=
  if answer.length = count then .ok answer
  else wait (onNegotiated count required) timeout closed (answer.foldl (fun (m : AMap Sock (Nat × Nat)) p => m.insert p.1 p.2) []) feed

/-- The address is the one asked for; an unspecified address stands for any with that port (client/src/client.rs:573, 592). -/
def asked (unspecified : Sock → Bool) (addr a : Sock) : Bool := decide (a = addr) || (unspecified addr && decide (a.port = addr.port))

/-- `connect` (client/src/client.rs:566-583), after the command was sent. -/
def connect (unspecified : Sock → Bool) (addr : Sock) (timeout : Nat) (closed : Option Nat) (feed : List (Nat × Ev)) : Res Err Link :=
  wait (fun (_ : Unit) e => ((), match e with | .connected a l => if asked unspecified addr a then some l else none | _ => none)) timeout closed () feed

/-- `disconnect` (client/src/client.rs:585-603), after the command was sent. -/
def disconnect (unspecified : Sock → Bool) (addr : Sock) (timeout : Nat) (closed : Option Nat) (feed : List (Nat × Ev)) : Res Err Unit :=
  wait (fun (_ : Unit) e => ((), match e with | .disconnected a => if asked unspecified addr a then some () else none | _ => none)) timeout closed () feed

/-- The answer to `submit_transaction` (p2p/src/fsm.rs:717-721), by the inventory manager after the announcement: the peers announced to, `none` for the error
`NotConnected`. -/
def submitted (m : Inv.Mgr) : Option (List Nat) := if m.announced.isEmpty then none else some m.announced

end Verif.Handle

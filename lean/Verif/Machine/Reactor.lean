import Verif.Machine.Spec
import Verif.Peer.Net

/-!
# The whole state machine with the reactor

`net/poll/src/reactor.rs`: which sockets are registered, which of them are still being dialed, and the loop that delivers what happened and then
processes the outputs of the state machine until there are none (165-274).  As in `Verif/Peer/Net.lean`, but with all managers.  Bytes are not
modelled: a message is what the decoder made of them.

Assumptions as in `Verif/Peer/Net.lean`: an inbound connection comes from an address that has no socket and that we are not about to dial; the error `AlreadyExists` of
a fresh socket (318-321) is left out.
-/

set_option autoImplicit false

namespace Verif.Machine
open Verif.Addr (Sock Ip NetAddr Known Source has sadd)
open Verif.Chain (Header)
open Verif.Peer (Link Disc)

/-- `Reactor` (reactor.rs:61-69) with the state machine: `reg` is `peers` and `dialing` is `connecting`. -/
structure Sys where
  s : State
  reg : AMap Sock Link
  dialing : List Sock
  polling : Bool

/-- Inputs that are delivered while polling and are not about connections or timers. -/
def Input.isPlain : Input → Bool
  | .attempted _ => false
  | .connected _ _ _ => false
  | .disconnected _ _ => false
  | .timer => false
  | .next => false
  | _ => true

/-- `Io::Connect`. -/
def Out.dials : Out → Option Sock
  | .peer (.connect a) => some a
  | _ => none

/-- `Io::Disconnect` (output.rs:99-103; pingmgr.rs:146, syncmgr.rs:475, cbfmgr.rs:339). -/
def Out.closes (cfg : Cfg) : Out → Option (Sock × Peer.Reason)
  | .peer (.disconnect a r) => some (a, r)
  | .ping (.disconnect b) => some (cfg.sock b, .timeout "ping")
  | .node (.sync (.disconnect b)) => some (cfg.sock b, .timeout "getheaders")
  | .node (.cbf (.disconnect b)) => some (cfg.sock b, .timeout "getcfheaders")
  | _ => none

/-- `unregister_peer` (reactor.rs:83-96), with the state machine after its notification. -/
def Sys.unregister (y : Sys) (a : Sock) (s' : State) : Sys := { y with s := s', reg := y.reg.erase a, dialing := y.dialing.filter (· ≠ a) }

/-- One step of the reactor. -/
inductive Sys.Step (cfg : Cfg) (U : Header → Prop) (fail : Bool) : Sys → Sys → Prop where
  /-- Commands, messages, ticks (reactor.rs:182, 254-256, 376). -/
  | input {y : Sys} {s' : State} {i : Input} (e : Env) (p : y.polling = true) (hi : i.isPlain = true) (l : Legal U fail e i)
      (hs : y.s.step cfg e i = .ok s') : Step cfg U fail y { y with s := s' }
  /-- The timers (reactor.rs:261-270), looked at in a round of their own. -/
  | timer {y : Sys} {s' : State} (e : Env) (p : y.polling = true) (q : y.s.head = none) (l : Legal U fail e .timer)
      (hs : y.s.step cfg e .timer = .ok s') : Step cfg U fail y { y with s := s', polling := false }
  /-- An inbound connection (reactor.rs:213-237). -/
  | accept {y : Sys} {s' : State} {a loc : Sock} (e : Env) (p : y.polling = true) (f : y.reg.contains a = false) (u : .connect a ∉ y.s.qPeer)
      (l : Legal U fail e (.connected a loc .inbound)) (hs : y.s.step cfg e (.connected a loc .inbound) = .ok s') :
      Step cfg U fail y { y with s := s', reg := y.reg.insert a .inbound }
  /-- A dialed socket becomes writable (reactor.rs:406-427). -/
  | writable {y : Sys} {s' : State} {a loc : Sock} (e : Env) (p : y.polling = true) (d : a ∈ y.dialing) (l : Legal U fail e (.connected a loc .outbound))
      (hs : y.s.step cfg e (.connected a loc .outbound) = .ok s') :
      Step cfg U fail y { y with s := s', dialing := y.dialing.filter (· ≠ a) }
  /-- A socket fails or is closed by the peer (reactor.rs:377-402, 444-449). -/
  | closed {y : Sys} {s' : State} {a : Sock} {d : Disc} (e : Env) (p : y.polling = true) (r : y.reg.contains a = true)
      (l : Legal U fail e (.disconnected a d)) (hs : y.s.step cfg e (.disconnected a d) = .ok s') : Step cfg U fail y (y.unregister a s')
  /-- The end of a round of deliveries (reactor.rs:273). -/
  | process {y : Sys} (p : y.polling = true) : Step cfg U fail y { y with polling := false }
  /-- The end of a round of processing (reactor.rs:179, 295). -/
  | poll {y : Sys} (p : y.polling = false) (q : y.s.head = none) : Step cfg U fail y { y with polling := true }
  /-- `Io::Connect`, success (reactor.rs:310-317). -/
  | dialed {y : Sys} {s1 s' : State} {a : Sock} {o : Out} (e e' : Env) (p : y.polling = false) (ho : y.s.head = some o) (hd : o.dials = some a)
      (l : Legal U fail e .next) (hs : y.s.step cfg e .next = .ok s1) (l' : Legal U fail e' (.attempted a)) (hs' : s1.step cfg e' (.attempted a) = .ok s') :
      Step cfg U fail y { y with s := s', reg := y.reg.insert a .outbound, dialing := sadd y.dialing a }
  /-- `Io::Connect`, failure (reactor.rs:322-326). -/
  | failed {y : Sys} {s1 s' : State} {a : Sock} {o : Out} (e e' : Env) (p : y.polling = false) (ho : y.s.head = some o) (hd : o.dials = some a)
      (l : Legal U fail e .next) (hs : y.s.step cfg e .next = .ok s1) (l' : Legal U fail e' (.disconnected a .dial))
      (hs' : s1.step cfg e' (.disconnected a .dial) = .ok s') : Step cfg U fail y { y with s := s' }
  /-- `Io::Disconnect` (reactor.rs:329-341). -/
  | disconnect {y : Sys} {s1 s' : State} {a : Sock} {r : Peer.Reason} {o : Out} (e e' : Env) (p : y.polling = false) (ho : y.s.head = some o)
      (hc : o.closes cfg = some (a, r)) (hr : y.reg.contains a = true) (l : Legal U fail e .next) (hs : y.s.step cfg e .next = .ok s1)
      (l' : Legal U fail e' (.disconnected a (.machine r))) (hs' : s1.step cfg e' (.disconnected a (.machine r)) = .ok s') :
      Step cfg U fail y (y.unregister a s')
  /-- `Io::Disconnect` for an unknown socket (reactor.rs:330). -/
  | ignored {y : Sys} {s' : State} {a : Sock} {r : Peer.Reason} {o : Out} (e : Env) (p : y.polling = false) (ho : y.s.head = some o)
      (hc : o.closes cfg = some (a, r)) (hr : y.reg.contains a = false) (l : Legal U fail e .next) (hs : y.s.step cfg e .next = .ok s') :
      Step cfg U fail y { y with s := s' }
  /-- Any other output (reactor.rs:297-304, 342-349). -/
  | other {y : Sys} {s' : State} {o : Out} (e : Env) (p : y.polling = false) (ho : y.s.head = some o) (hd : o.dials = none) (hc : o.closes cfg = none)
      (l : Legal U fail e .next) (hs : y.s.step cfg e .next = .ok s') : Step cfg U fail y { y with s := s' }

/-- The state machine was created and initialized (reactor.rs:155-158). -/
inductive Sys.Start (cfg : Cfg) (U : Header → Prop) (fail : Bool) (z : Setup) : Sys → Prop where
  | mk {s : State} {m : Addr.Mgr} (f : Cbf.FilterHeaders) (cacheSize now : Nat) (e : Env) (ea : Addr.Env) (fa : ea.Fair) (nd : z.book.keys.Nodup)
      (hm : Addr.Mgr.new z.book ea = .ok m) (l : Legal U fail e .timer)
      (hs : (State.new (Node.Fsm.new z.tree f cacheSize) m z.trusted z.pingTimeout).init cfg e now = .ok s) :
      Start cfg U fail z { s := s, reg := [], dialing := [], polling := false }

/-- Executions. -/
inductive Sys.Reach (cfg : Cfg) (U : Header → Prop) (fail : Bool) (z : Setup) : Sys → Prop where
  | start {y : Sys} (h : Sys.Start cfg U fail z y) : Reach cfg U fail z y
  | step {y y' : Sys} (r : Reach cfg U fail z y) (h : Sys.Step cfg U fail y y') : Reach cfg U fail z y'

/-- In this step, no connection is asked for with an address whose socket is (still) open. -/
def Sys.NoRedial (y y' : Sys) : Prop := ∀ a, .connect a ∈ Peer.added y.s.peer y'.s.peer → y'.reg.contains a = false

/-- Executions in which no connection is asked for with an address whose socket is open. -/
inductive Sys.Clean (cfg : Cfg) (U : Header → Prop) (fail : Bool) (z : Setup) : Sys → Prop where
  | start {y : Sys} (h : Sys.Start cfg U fail z y) : Clean cfg U fail z y
  | step {y y' : Sys} (r : Clean cfg U fail z y) (h : Sys.Step cfg U fail y y') (x : Sys.NoRedial y y') : Clean cfg U fail z y'

end Verif.Machine

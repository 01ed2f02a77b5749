import Verif.Peer.Spec

/-!
# Model: the peer manager and the reactor

`net/poll/src/reactor.rs`: which sockets are registered, which of them are still being dialed, and how the outputs of the peer manager
are processed.  Bytes, messages and timers are in other models.  The loop of the reactor (reactor.rs:165-274) alternates between
delivering what happened (`polling`) and processing the outputs until there are none.  Within a round the deliveries may come in any
order and number; the timers are looked at only in a round of their own (reactor.rs:261-270).

Assumptions: an inbound connection comes from an address that has no socket and that we are not about to dial (otherwise two
connections have the same remote address and port, and `register_peer` overwrites one).  The error `AlreadyExists` of a fresh socket
(reactor.rs:318-321) is left out.  Other components may have sockets closed at any time.
-/

set_option autoImplicit false

namespace Verif.Peer
open Verif.Addr (Sock Ip Domain NetAddr Source has isLocal domainOf sadd)

/-- `Reactor` (reactor.rs:61-69): `reg` is `peers` and `dialing` is `connecting`, with the peer manager.  `pos`: how many of its
outputs have been processed. -/
structure Net where
  m : Mgr
  reg : AMap Sock Link
  dialing : List Sock
  pos : Nat
  polling : Bool

/-- Before the start (reactor.rs:103-123). -/
def Net.new (tr : List Ip) : Net := { m := Mgr.new tr, reg := [], dialing := [], pos := 0, polling := true }

/-- The outputs that wait to be processed (`service.next`, reactor.rs:295). -/
def Net.queue (n : Net) : List Out := n.m.out.drop n.pos

/-- `unregister_peer` (reactor.rs:83-96), with the state of the manager after its notification. -/
def Net.unregister (n : Net) (a : Sock) (m' : Mgr) : Net :=
  { n with m := m', reg := n.reg.erase a, dialing := n.dialing.filter (· ≠ a) }

/-- `register_peer` (reactor.rs:74-80), with the state of the manager after the notification that follows. -/
def Net.register (n : Net) (a : Sock) (l : Link) (m' : Mgr) : Net := { n with m := m', reg := n.reg.insert a l }

/-- An output has been processed. -/
def Net.next (n : Net) : Net := { n with pos := n.pos + 1 }

/-- Inputs of the state machine that are not about connections. -/
def Op.isInput : Op → Bool
  | .attempted _ => false
  | .connected .. => false
  | .disconnected .. => false
  | _ => true

/-- Whether it is the look at the timers. -/
def Op.isTimer : Op → Bool
  | .timer _ _ => true
  | _ => false

/-- Outputs other than the requests for connections and disconnections. -/
def Out.isOther : Out → Bool
  | .connect _ => false
  | .disconnect _ _ => false
  | _ => true

/-- One step of the reactor. -/
inductive Net.Step (cfg : Config) : Net → Net → Prop where
  /-- Commands, messages, ticks (reactor.rs:155-156, 182, 254-256, 376).  Events of other components come while outputs are processed
  (reactor.rs:295). -/
  | input {n : Net} {m' : Mgr} {op : Op} (i : op.isInput = true) (t : op.isTimer = false)
      (e : n.m.step cfg op = .ok m') : Step cfg n { n with m := m' }
  /-- The timers (reactor.rs:261-270). -/
  | timer {n : Net} {m' : Mgr} {ord : List Sock → List Sock} {src : List Cand} (p : n.polling = true) (q : n.queue = [])
      (lg : ∀ l, (ord l).Perm l) (e : n.m.step cfg (.timer ord src) = .ok m') : Step cfg n { n with m := m', polling := false }
  /-- An inbound connection (reactor.rs:213-237). -/
  | accept {n : Net} {m' : Mgr} {a loc : Sock} {height nonce : Nat} (p : n.polling = true) (f : n.reg.contains a = false)
      (u : .connect a ∉ n.queue) (e : n.m.step cfg (.connected a loc .inbound height nonce) = .ok m') :
      Step cfg n (n.register a .inbound m')
  /-- A dialed socket becomes writable (reactor.rs:406-427). -/
  | writable {n : Net} {m' : Mgr} {a loc : Sock} {height nonce : Nat} (p : n.polling = true) (d : a ∈ n.dialing)
      (e : n.m.step cfg (.connected a loc .outbound height nonce) = .ok m') :
      Step cfg n { n with m := m', dialing := n.dialing.filter (· ≠ a) }
  /-- A socket fails or is closed by the peer (reactor.rs:377-402, 444-449), or another component asked for it (reactor.rs:329-341). -/
  | closed {n : Net} {m' : Mgr} {a : Sock} {d : Disc} {src : List Cand} (r : n.reg.contains a = true)
      (e : n.m.step cfg (.disconnected a d src) = .ok m') : Step cfg n (n.unregister a m')
  /-- The end of a round of deliveries (reactor.rs:273). -/
  | process {n : Net} (p : n.polling = true) : Step cfg n { n with polling := false }
  /-- The end of a round of processing (reactor.rs:179, 295). -/
  | poll {n : Net} (p : n.polling = false) (q : n.queue = []) : Step cfg n { n with polling := true }
  /-- `Io::Connect`, success (reactor.rs:310-317). -/
  | dialed {n : Net} {m' : Mgr} {a : Sock} {q : List Out} (p : n.polling = false) (hq : n.queue = .connect a :: q)
      (e : n.m.step cfg (.attempted a) = .ok m') :
      Step cfg n { n.register a .outbound m' with dialing := sadd n.dialing a, pos := n.pos + 1 }
  /-- `Io::Connect`, failure (reactor.rs:322-326). -/
  | failed {n : Net} {m' : Mgr} {a : Sock} {q : List Out} {src : List Cand} (p : n.polling = false)
      (hq : n.queue = .connect a :: q) (e : n.m.step cfg (.disconnected a .dial src) = .ok m') :
      Step cfg n { n with m := m', pos := n.pos + 1 }
  /-- `Io::Disconnect` (reactor.rs:329-341). -/
  | disconnect {n : Net} {m' : Mgr} {a : Sock} {r : Reason} {q : List Out} {src : List Cand} (p : n.polling = false)
      (hq : n.queue = .disconnect a r :: q) (h : n.reg.contains a = true)
      (e : n.m.step cfg (.disconnected a (.machine r) src) = .ok m') : Step cfg n (n.unregister a m').next
  /-- `Io::Disconnect` for an unknown socket (reactor.rs:330). -/
  | ignored {n : Net} {a : Sock} {r : Reason} {q : List Out} (p : n.polling = false) (hq : n.queue = .disconnect a r :: q)
      (h : n.reg.contains a = false) : Step cfg n n.next
  /-- Any other output (reactor.rs:297-304, 342-349). -/
  | other {n : Net} {o : Out} {q : List Out} (p : n.polling = false) (hq : n.queue = o :: q) (ho : o.isOther = true) :
      Step cfg n n.next

/-- Executions. -/
inductive Net.Reach (cfg : Config) (tr : List Ip) : Net → Prop where
  | start : Reach cfg tr (Net.new tr)
  | step {n n' : Net} (r : Reach cfg tr n) (s : Net.Step cfg n n') : Reach cfg tr n'

/-- In this step, no connection is asked for with an address whose socket is (still) open. -/
def NoRedial (n n' : Net) : Prop := ∀ a, .connect a ∈ added n.m n'.m → n'.reg.contains a = false

/-- Executions in which no connection is asked for with an address whose socket is open. -/
inductive Net.Clean (cfg : Config) (tr : List Ip) : Net → Prop where
  | start : Clean cfg tr (Net.new tr)
  | step {n n' : Net} (r : Clean cfg tr n) (s : Net.Step cfg n n') (x : NoRedial n n') : Clean cfg tr n'

end Verif.Peer

import Verif.Base.Map

/-!
# Model: sockets, the output queues and event subscriptions

`net/poll/src/socket.rs`, `p2p/src/fsm/output.rs`, `p2p/src/fsm.rs` (`next`), `net/src/event.rs`.
-/

set_option autoImplicit false

namespace Verif.Io

/-! ## Socket -/

/-- `Socket` (socket.rs:12-18): the write buffer; `wire` is everything the connection has accepted so far (ghost: the other end
of the TCP stream). -/
structure Socket where
  buffer : List Nat
  wire : List Nat
  deriving DecidableEq, Repr

/-- `Socket::from` (socket.rs:34-41). -/
def Socket.new : Socket := { buffer := [], wire := [] }

/-- `Socket::push` (socket.rs:47-49). -/
def Socket.push (s : Socket) (bytes : List Nat) : Socket := { s with buffer := s.buffer ++ bytes }

/-- Errors of `flush`. -/
inductive IoErr where
  | os
  | writeZero
  deriving DecidableEq, Repr

/-- The result of one `write` call on the connection: an error (would-block or any other), or the number of bytes it took.
Parameter of the model.  `std::io::Write` guarantees that at most the offered bytes are taken. -/
inductive WriteRes where
  | err
  | ok (n : Nat)
  deriving DecidableEq, Repr

/-- The loop of `Socket::flush` (socket.rs:54-64).  `writes` are the results of the successive write calls; when they are used
up the connection reports an error.  The last call is the connection's own `flush`, which succeeds if `flushed`.  The
`fallible!` line injects errors in tests only (fallible.rs). -/
def Socket.flush (s : Socket) (flushed : Bool) : List WriteRes → Except IoErr Unit × Socket
  | [] => if s.buffer = [] then (if flushed then .ok () else .error .os, s) else (.error .os, s)
  | .err :: _ => if s.buffer = [] then (if flushed then .ok () else .error .os, s) else (.error .os, s)
  | .ok 0 :: _ => if s.buffer = [] then (if flushed then .ok () else .error .os, s) else (.error .writeZero, s)
  | .ok (n + 1) :: ws =>
    if s.buffer = [] then (if flushed then .ok () else .error .os, s)
    else Socket.flush { buffer := s.buffer.drop (n + 1), wire := s.wire ++ s.buffer.take (n + 1) } flushed ws

/-! ## Output queues -/

/-- The seven queues of the protocol state machine in the order in which they are emptied (fsm.rs:589-596). -/
inductive Q where
  | outbox | peermgr | syncmgr | invmgr | pingmgr | addrmgr | cbfmgr
  deriving DecidableEq, Repr

/-- The order of `next` (fsm.rs:589-596). -/
def Q.order : List Q := [.outbox, .peermgr, .syncmgr, .invmgr, .pingmgr, .addrmgr, .cbfmgr]

/-- Outputs: events are also given back to the managers, other outputs are not (fsm.rs:613-620). -/
inductive Out (O Ev : Type) where
  | event (e : Ev)
  | io (o : O)
  deriving DecidableEq, Repr

/-- The queues (output.rs:36-41, one `Outbox` per manager). -/
structure Machine (O Ev : Type) where
  queue : Q → List (Out O Ev)

section
variable {O Ev : Type}

/-- `Outbox::push` of one manager (output.rs:67-69). -/
def Machine.push (m : Machine O Ev) (q : Q) (o : Out O Ev) : Machine O Ev :=
  { queue := fun q' => if q' = q then m.queue q' ++ [o] else m.queue q' }

/-- A manager queues several outputs (output.rs:67-69, any of the functions of the managers). -/
def Machine.pushes (m : Machine O Ev) (l : List (Q × Out O Ev)) : Machine O Ev :=
  l.foldl (fun m p => m.push p.1 p.2) m

/-- `Outbox::next` (output.rs:53-55) of the first non-empty queue in the list. -/
def Machine.popFirst (m : Machine O Ev) : List Q → Option (Q × Out O Ev × Machine O Ev)
  | [] => none
  | q :: qs =>
    match m.queue q with
    | o :: rest => some (q, o, { queue := fun q' => if q' = q then rest else m.queue q' })
    | [] => Machine.popFirst m qs

/-- `StateMachine::next` (fsm.rs:588-621).  An event that leaves the machine is first given to the managers
(`StateMachine::event`, fsm.rs:625-633), which may queue further outputs: `react` is what they queue, a parameter.  Adding the
network magic to messages (fsm.rs:598-604) is not modelled. -/
def Machine.next (m : Machine O Ev) (react : Ev → List (Q × Out O Ev)) : Option (Q × Out O Ev × Machine O Ev) :=
  match m.popFirst Q.order with
  | none => none
  | some (q, .event e, m') => some (q, .event e, m'.pushes (react e))
  | some (q, .io o, m') => some (q, .io o, m')

end

/-! ## Event subscriptions -/

/-- A channel made by `subscribe`: what was put into it and not yet taken out, what the receiver took out, and whether the
receiver still exists.  Channels are unbounded (event.rs:72): sending fails only when the receiver is gone. -/
structure Chan (T : Type) where
  queue : List T
  taken : List T
  alive : Bool
  deriving DecidableEq, Repr

/-- The emitter with all channels ever created, by number; `subscribers` are the senders it holds (event.rs:29-31). -/
structure Emitter (T : Type) where
  chans : List (Chan T)
  subscribers : List Nat
  deriving DecidableEq, Repr

section
variable {T : Type}

/-- `Emitter::default` (event.rs:33-39). -/
def Emitter.new : Emitter T := { chans := [], subscribers := [] }

/-- `Subscriber::subscribe` (event.rs:71-77). -/
def Emitter.subscribe (e : Emitter T) : Emitter T :=
  { chans := e.chans ++ [{ queue := [], taken := [], alive := true }], subscribers := e.subscribers ++ [e.chans.length] }

/-- `try_send` on channel `i`: whether it worked, and the channels after it.  (net/src/event.rs:43-48) -/
def trySend (chans : List (Chan T)) (i : Nat) (t : T) : Bool × List (Chan T) :=
  match chans[i]? with
  | some c => if c.alive then (true, chans.set i { c with queue := c.queue ++ [t] }) else (false, chans)
  | none => (false, chans)

/-- The `retain` loop of `emit`: the senders kept and the channels after it (event.rs:43-48). -/
def emitLoop (t : T) : List Nat → List (Chan T) → List Nat × List (Chan T)
  | [], chans => ([], chans)
  | i :: is, chans =>
    let (ok, chans) := trySend chans i t
    let (kept, chans) := emitLoop t is chans
    (if ok then i :: kept else kept, chans)

/-- `Emitter::emit` (event.rs:43-48). -/
def Emitter.emit (e : Emitter T) (t : T) : Emitter T :=
  let (kept, chans) := emitLoop t e.subscribers e.chans
  { chans := chans, subscribers := kept }

/-- `Emitter::close` (event.rs:51-53): all senders are dropped. -/
def Emitter.close (e : Emitter T) : Emitter T := { e with subscribers := [] }

/-- The owner of channel `i` takes one event out of it, if there is any (crossbeam `recv`).  (The receivers of net/src/event.rs:71-78.) -/
def Emitter.recv (e : Emitter T) (i : Nat) : Emitter T :=
  match e.chans[i]? with
  | some c =>
    match c.queue with
    | t :: q => { e with chans := e.chans.set i { c with queue := q, taken := c.taken ++ [t] } }
    | [] => e
  | none => e

/-- The owner of channel `i` drops its receiver.  (The receivers of net/src/event.rs:71-78.) -/
def Emitter.dropReceiver (e : Emitter T) (i : Nat) : Emitter T :=
  match e.chans[i]? with
  | some c => { e with chans := e.chans.set i { c with alive := false } }
  | none => e

end
end Verif.Io

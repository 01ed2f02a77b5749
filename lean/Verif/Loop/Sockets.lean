import Verif.Io.PropsIo

/-!
# The sockets in the loop of the reactor: net/poll/src/reactor.rs

Which sockets are registered, what is in their buffers, and for which of them the reactor asks to be told that they can be written to.  What sockets, the operating
system and the service do is up to the environment.  Addresses are numbers.  Commands, timers and the waker: `Model.lean`.  Bytes that are read: `Verif.Machine`.

A poll reports only sources that are registered, each once, and that a socket can be written to only if that was asked for.  An event that says that a file descriptor is invalid
(196-204) does not occur then and is not modelled.  Errors that end the loop (228, 230, 271, 424) are not modelled either: the executions here are those in which it goes on.
-/

set_option autoImplicit false

namespace Verif.Loop.Sockets
open Verif.Io (Socket WriteRes IoErr)

/-- A registered socket: `peers`, `connecting` and the interest in writing (`sources`) of the reactor (net/poll/src/reactor.rs:61-69).  `id` tells connections with the same address apart,
`sent` is everything the service wrote to it (both only for the statements). -/
structure Conn where
  socket : Socket
  write : Bool
  connecting : Bool
  id : Nat
  sent : List Nat

/-- What happens at a socket: the results of `write` and `flush`, whether an error is `WouldBlock`, and whether the socket turns out to be closed or broken
when it is read. -/
structure Sys where
  writes : List WriteRes
  flushed : Bool
  block : Bool
  closed : Bool

/-- Events of a poll (`Source`, 36-41).  `accepted`: the addresses of the connections that `accept` returns. -/
inductive Ev where
  | peer (a : Nat) (writable readable : Bool) (sys : Sys)
  | listener (accepted : List Nat)
  | waker

/-- The address of an event. -/
def Ev.addr : Ev → Option Nat
  | .peer a _ _ _ => some a
  | _ => none

/-- Outputs of the service (`Io`, 296-350).  `connect`: with whether dialing succeeds. -/
inductive Out where
  | write (a : Nat) (bytes : List Nat)
  | connect (a : Nat) (ok : Bool)
  | disconnect (a : Nat)
  | other

/-- Where the reactor is in its loop (net/poll/src/reactor.rs:165-275). -/
inductive Stage where
  | polling
  | events (l : List Ev)
  | process
  | crashed

structure State where
  peers : Nat → Option Conn
  stage : Stage
  fresh : Nat

/-- `register_peer` (net/poll/src/reactor.rs:74-80): interest in reading and writing. -/
def State.register (s : State) (a : Nat) (connecting : Bool) : State :=
  { s with peers := Function.update s.peers a (some ⟨Socket.new, true, connecting, s.fresh, []⟩), fresh := s.fresh + 1 }

/-- `unregister_peer` (net/poll/src/reactor.rs:83-96). -/
def State.unregister (s : State) (a : Nat) : State := { s with peers := Function.update s.peers a none }

/-- `handle_writable` (net/poll/src/reactor.rs:406-452), after the look-ups; `none` if the socket is given up. -/
def Conn.writable (c : Conn) (y : Sys) : Option Conn :=
  match c.socket.flush y.flushed y.writes with
  | (.ok (), k) => some { c with socket := k, connecting := false, write := false }
  | (.error .writeZero, k) => some { c with socket := k, connecting := false, write := true }
  | (.error .os, k) => if y.block then some { c with socket := k, connecting := false, write := true } else none

/-- `handle_writable` (net/poll/src/reactor.rs:406-452) for an address; `none`: it panics (415-416). -/
def State.handleWritable (s : State) (a : Nat) (y : Sys) : Option State :=
  match s.peers a with
  | none => none
  | some c =>
    match c.writable y with
    | some c => some { s with peers := Function.update s.peers a (some c) }
    | none => some (s.unregister a)

/-- `handle_readable` (net/poll/src/reactor.rs:354-404). -/
def State.handleReadable (s : State) (a : Nat) (y : Sys) : State :=
  match s.peers a with
  | none => s
  | some _ => if y.closed then s.unregister a else s

/-- One event (net/poll/src/reactor.rs:189-258). -/
def State.event (s : State) : Ev → Option State
  | .peer a w r y =>
    match (if w then s.handleWritable a y else some s) with
    | none => none
    | some s => some (if r then s.handleReadable a y else s)
  | .listener l => some (l.foldl (fun s a => s.register a false) s)
  | .waker => some s

/-- One output (net/poll/src/reactor.rs:295-351). -/
def State.output (s : State) : Out → State
  | .write a bytes =>
    match s.peers a with
    | some c => { s with peers := Function.update s.peers a (some { c with socket := c.socket.push bytes, write := true, sent := c.sent ++ bytes }) }
    | none => s
  | .connect a ok => if ok then s.register a true else s
  | .disconnect a => s.unregister a
  | .other => s

/-- What a poll may report. -/
structure Reported (s : State) (l : List Ev) : Prop where
  once : (l.filterMap Ev.addr).Nodup
  known : ∀ a w r y, Ev.peer a w r y ∈ l → ∃ c, s.peers a = some c ∧ (w = true → c.write = true)

/-- Steps of the loop (net/poll/src/reactor.rs:165-275). -/
inductive Step : State → State → Prop
  /-- Some sources are ready (net/poll/src/reactor.rs:179-188). -/
  | poll {s : State} (l : List Ev) (h : s.stage = .polling) (hl : Reported s l) : Step s { s with stage := .events l }
  /-- The wait timed out, and the timers were looked at (net/poll/src/reactor.rs:261-270). -/
  | timeout {s : State} (h : s.stage = .polling) : Step s { s with stage := .process }
  /-- An event (net/poll/src/reactor.rs:189-258). -/
  | event {s s' : State} {e : Ev} {l : List Ev} (h : s.stage = .events (e :: l)) (hs : s.event e = some s') : Step s { s' with stage := .events l }
  /-- An event whose handling panics (net/poll/src/reactor.rs:415-416). -/
  | crash {s : State} {e : Ev} {l : List Ev} (h : s.stage = .events (e :: l)) (hs : s.event e = none) : Step s { s with stage := .crashed }
  /-- The events are done (net/poll/src/reactor.rs:273). -/
  | done {s : State} (h : s.stage = .events []) : Step s { s with stage := .process }
  /-- An output of the service (net/poll/src/reactor.rs:295-351). -/
  | output {s : State} (o : Out) (h : s.stage = .process) : Step s (s.output o)
  /-- No outputs are left (net/poll/src/reactor.rs:295). -/
  | processed {s : State} (h : s.stage = .process) : Step s { s with stage := .polling }
  /-- Other threads, and time passing. -/
  | idle {s : State} : Step s s

/-- `new` (net/poll/src/reactor.rs:103-123), and the start of `run` (155-159). -/
def State.start : State := ⟨fun _ => none, .process, 0⟩

/-- The states that can be reached. -/
inductive Reach : State → Prop
  | start : Reach State.start
  | step {s s' : State} (h : Reach s) (hs : Step s s') : Reach s'

/-- Executions that go on forever. -/
structure Run (f : Nat → State) : Prop where
  start : f 0 = State.start
  step : ∀ n, Step (f n) (f (n + 1))

end Verif.Loop.Sockets

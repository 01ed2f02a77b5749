import Verif.Time.Model

/-!
# Handles and the loop of the reactor: client/src/client.rs, net/poll/src/reactor.rs

Any number of threads call methods of handles while one thread runs the reactor.  The steps of all of them interleave in any order; each step here is one
operation on something they share (the command channel, the shutdown channel, the waker) or a part of the loop that touches nothing shared.

The service is not modelled: what it is told is recorded in `calls`, and which timers it asks for is up to the environment.  Sockets: `Verif.Machine`; here they
are sources that may be ready at any time.  The channels are taken to be first in, first out (crossbeam); the waker is a flag: `wake` sets it, `reset` clears
it, and a poll reports the waker when it is set, however often it was set (popol's pipe; what `wake` does if the pipe is full is not modelled).
The clock does not go backwards.
-/

set_option autoImplicit false

namespace Verif.Loop
open Verif.Time (Timers)

/-- A command, with the thread that sends it. -/
abbrev Cmd := Nat × Nat

/-- Where a thread is in a call of `_command` (client.rs:467-472) or `shutdown` (711-716): not in one, or between the first operation (`send`) and the
second (`wake`).  Waiting for the answer of the command is not part of the call here. -/
inductive Pc where
  | idle
  | sent
  deriving DecidableEq, Repr

/-- `Source` (reactor.rs:36-41): peers and the listener are `other`. -/
inductive Source where
  | waker
  | other (n : Nat)
  deriving DecidableEq, Repr

/-- Where the reactor is in `run` (reactor.rs:125-276).  `now` is the local variable `local_time`. -/
inductive Stage where
  /-- The top of the loop (net/poll/src/reactor.rs:166). -/
  | top
  /-- In `wait_timeout` (net/poll/src/reactor.rs:179); the wait is over at the time given. -/
  | waiting (deadline : Nat)
  /-- In the loop over the events (net/poll/src/reactor.rs:188-259), with the events left. -/
  | events (now : Nat) (rest : List Source)
  /-- At the waker's event, before `shutdown.try_recv` (net/poll/src/reactor.rs:242). -/
  | check (now : Nat) (rest : List Source)
  /-- After it, before `Waker::reset` (net/poll/src/reactor.rs:245). -/
  | reset (now : Nat) (rest : List Source)
  /-- In the loop over `commands.try_iter()` (net/poll/src/reactor.rs:254-256). -/
  | drain (now : Nat) (rest : List Source)
  /-- The wait timed out (net/poll/src/reactor.rs:261). -/
  | expired (now : Nat)
  /-- Before `process` (net/poll/src/reactor.rs:273, or 158 at the start). -/
  | process (now : Nat)
  /-- `run` has returned: with `Ok` after a shutdown (client/src/client.rs:243), or with an error. -/
  | ended (ok : Bool)
  deriving DecidableEq, Repr

/-- What the service is told.  `asked`: not a call, but a request of the service, that it be woken at the time given (`Io::SetTimer`, 342-344).  (net/poll/src/reactor.rs:165-275) -/
inductive Call where
  | command (c : Cmd)
  | timer (now : Nat)
  | other (n : Nat)
  | asked (time : Nat)
  deriving DecidableEq, Repr

/-- Everything shared, and the state of all threads.  `sent` and `calls` are histories, oldest first.  (net/poll/src/reactor.rs:165-275, client/src/client.rs:405-560) -/
structure State where
  now : Nat
  queue : List Cmd
  stop : Bool
  flag : Bool
  callers : Nat → Pc
  stage : Stage
  timers : Timers Unit
  sent : List Cmd
  calls : List Call

/-- `Client::new` (client.rs:199-247) and the beginning of `run` (reactor.rs:138-158): the threshold of the timers is one second (reactor.rs:111). -/
def State.start (now : Nat) : State :=
  ⟨now, [], false, false, fun _ => .idle, .process now, ⟨[], 1000⟩, [], []⟩

/-- `WAIT_TIMEOUT` (reactor.rs:32): an hour. -/
def waitTimeout : Nat := 3600000

/-- Steps of the threads that use handles.  (client/src/client.rs:551-553) -/
inductive CallerStep : State → State → Prop
  /-- `commands.send` (client.rs:468). -/
  | send {s : State} (t c : Nat) (h : s.callers t = .idle) (hr : ∀ ok, s.stage ≠ .ended ok) :
      CallerStep s { s with queue := s.queue ++ [(t, c)], sent := s.sent ++ [(t, c)], callers := Function.update s.callers t .sent }
  /-- `shutdown.send` (client.rs:712).  The channel holds one message (226); as long as it is full, the thread waits. -/
  | stop {s : State} (t : Nat) (h : s.callers t = .idle) (hr : ∀ ok, s.stage ≠ .ended ok) (hs : s.stop = false) :
      CallerStep s { s with stop := true, callers := Function.update s.callers t .sent }
  /-- `waker.wake` (client.rs:469, 713). -/
  | wake {s : State} (t : Nat) (h : s.callers t = .sent) :
      CallerStep s { s with flag := true, callers := Function.update s.callers t .idle }

/-- The timers that the service asks for in `process` (reactor.rs:342-344). -/
def register (sort : List (Unit × Nat) → List (Unit × Nat)) (now : Nat) (m : Timers Unit) (asks : List Nat) : Timers Unit :=
  asks.foldl (fun m d => (m.register sort () (now + d)).2) m

/-- Steps of the reactor (`run`, reactor.rs:165-275). -/
inductive ReactorStep : State → State → Prop
  /-- The time to wait (net/poll/src/reactor.rs:166-170). -/
  | wait {s : State} (h : s.stage = .top) :
      ReactorStep s { s with stage := .waiting (s.now + (s.timers.next s.now).getD waitTimeout) }
  /-- Some sources are ready (net/poll/src/reactor.rs:179-188): the waker is among them if its flag is set. -/
  | ready {s : State} {d : Nat} (l : List Source) (h : s.stage = .waiting d) (hl : l ≠ []) (hw : Source.waker ∈ l ↔ s.flag = true) :
      ReactorStep s { s with stage := .events s.now l }
  /-- The time is over, and nothing is ready (net/poll/src/reactor.rs:179, 261). -/
  | timeout {s : State} {d : Nat} (h : s.stage = .waiting d) (hf : s.flag = false) (hd : d ≤ s.now) :
      ReactorStep s { s with stage := .expired s.now }
  /-- The event of a socket (net/poll/src/reactor.rs:190-237). -/
  | socket {s : State} {now n : Nat} {rest : List Source} (h : s.stage = .events now (.other n :: rest)) :
      ReactorStep s { s with stage := .events now rest, calls := s.calls ++ [.other n] }
  /-- An error ends the loop (net/poll/src/reactor.rs:207, 228, 230, 271). -/
  | fail {s : State} (h : (∃ now n rest, s.stage = .events now (.other n :: rest)) ∨ ∃ d, s.stage = .waiting d) :
      ReactorStep s { s with stage := .ended false }
  /-- The event of the waker (net/poll/src/reactor.rs:238). -/
  | waker {s : State} {now : Nat} {rest : List Source} (h : s.stage = .events now (.waker :: rest)) :
      ReactorStep s { s with stage := .check now rest }
  /-- `shutdown.try_recv` finds a message (net/poll/src/reactor.rs:242-244). -/
  | shutdown {s : State} {now : Nat} {rest : List Source} (h : s.stage = .check now rest) (hs : s.stop = true) :
      ReactorStep s { s with stage := .ended true, stop := false }
  /-- `shutdown.try_recv` finds none (net/poll/src/reactor.rs:242). -/
  | goOn {s : State} {now : Nat} {rest : List Source} (h : s.stage = .check now rest) (hs : s.stop = false) :
      ReactorStep s { s with stage := .reset now rest }
  /-- `Waker::reset` (net/poll/src/reactor.rs:245). -/
  | reset {s : State} {now : Nat} {rest : List Source} (h : s.stage = .reset now rest) :
      ReactorStep s { s with stage := .drain now rest, flag := false }
  /-- `try_iter` finds a command (net/poll/src/reactor.rs:254-256). -/
  | command {s : State} {now : Nat} {rest : List Source} {c : Cmd} {q : List Cmd} (h : s.stage = .drain now rest) (hq : s.queue = c :: q) :
      ReactorStep s { s with queue := q, calls := s.calls ++ [.command c] }
  /-- `try_iter` finds none (net/poll/src/reactor.rs:254). -/
  | drained {s : State} {now : Nat} {rest : List Source} (h : s.stage = .drain now rest) (hq : s.queue = []) :
      ReactorStep s { s with stage := .events now rest }
  /-- The events are done. -/
  | done {s : State} {now : Nat} (h : s.stage = .events now []) : ReactorStep s { s with stage := .process now }
  /-- The timers, after a wait that timed out (net/poll/src/reactor.rs:261-270). -/
  | timers {s : State} {now : Nat} (h : s.stage = .expired now) :
      ReactorStep s { s with stage := .process now, timers := (s.timers.wake now).2,
                             calls := if (s.timers.wake now).1 = [] then s.calls else s.calls ++ [.timer now] }
  /-- `process` (net/poll/src/reactor.rs:273, 287-352): the service asks for some timers. -/
  | process {s : State} {now : Nat} {sort : List (Unit × Nat) → List (Unit × Nat)} (asks : List Nat) (hs : Time.SortsDesc sort) (h : s.stage = .process now) :
      ReactorStep s { s with stage := .top, timers := register sort now s.timers asks,
                             calls := s.calls ++ asks.map (fun d => .asked (now + d)) }

/-- A step of anybody, or of the clock. -/
inductive Step (s s' : State) : Prop
  | caller (h : CallerStep s s')
  | reactor (h : ReactorStep s s')
  | clock (t : Nat) (h : s.now ≤ t) (e : s' = { s with now := t })

/-- The states that can be reached. -/
inductive Reach : State → Prop
  | start (now : Nat) : Reach (State.start now)
  | step {s s' : State} (h : Reach s) (hs : Step s s') : Reach s'

/-- An execution that goes on forever (the clock may make steps that change nothing). -/
structure Run (f : Nat → State) : Prop where
  start : ∃ now, f 0 = State.start now
  step : ∀ n, Step (f n) (f (n + 1))

/-- The reactor may rest: it is waiting, its time is not over, and the waker's flag is not set. -/
def State.Resting (s : State) : Prop := (∃ d, s.stage = .waiting d ∧ s.now < d) ∧ s.flag = false

/-- The thread of the reactor gets its turn: again and again it makes a step, is waiting with nothing that would wake it, or has ended. -/
def Fair (f : Nat → State) : Prop :=
  ∀ n, ∃ m, n ≤ m ∧ (ReactorStep (f m) (f (m + 1)) ∨ (f m).Resting ∨ ∃ ok, (f m).stage = .ended ok)

/-- The commands the service was told, oldest first. -/
def State.handled (s : State) : List Cmd := s.calls.filterMap (fun x => match x with | .command c => some c | _ => none)

end Verif.Loop

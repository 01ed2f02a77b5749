import Mathlib.Logic.Function.Basic

/-!
# The network simulator: net/src/simulator.rs

Nodes (`NodeId`, an IP address) are numbers, socket addresses are pairs of node and port, messages, events and reasons are numbers.  Times and durations are milliseconds
(`LocalTime`, `LocalDuration`; that they fit into 128 bits is taken for granted).  The state machines that are simulated are not modelled: what they put out is up to the
environment, what they are told is recorded in `told`.  The random generator is part of the environment too: a number from `0..n` is any number modulo `n`.
-/

set_option autoImplicit false

namespace Verif.Sim

/-- `SocketAddr`: IP address and port. -/
abbrev Addr := Nat × Nat

/-- `Input` (net/src/simulator.rs:40-61).  `link` of `Connected`: whether it is inbound. -/
inductive Input where
  | connecting (addr : Addr)
  | connected (addr loc : Addr) (inbound : Bool)
  | disconnected (addr : Addr) (reason : Nat)
  | received (addr : Addr) (msg : Nat)
  | wake
  deriving DecidableEq, Repr

/-- `Scheduled` (net/src/simulator.rs:65-73). -/
structure Sched where
  node : Nat
  remote : Addr
  input : Input
  deriving DecidableEq, Repr

/-- Outputs of state machines (`Io`, net/src/lib.rs:46-60). -/
inductive Out where
  | write (to : Addr) (msg : Nat)
  | connect (to : Addr)
  | disconnect (to : Addr) (reason : Nat)
  | timer (d : Nat)
  | event (e : Nat)
  deriving DecidableEq, Repr

/-- `MIN_LATENCY` (net/src/simulator.rs:18). -/
def minLatency : Nat := 1

/-- `MAX_EVENTS` (net/src/simulator.rs:20). -/
def maxEvents : Nat := 2048

/-- `Inbox` (net/src/simulator.rs:108-112): the entries of the map in the order of their times. -/
abbrev Inbox := List (Nat × Sched)

/-- The first time from `t` on at which there is no entry: what the loop of `insert` (net/src/simulator.rs:118-120) finds.  Here it goes through the entries, which are in the order of their times;
that this is the time the loop finds is `free_least`. -/
def free : Inbox → Nat → Nat
  | [], t => t
  | (k, _) :: l, t => if k < t then free l t else if k = t then free l (t + minLatency) else t

/-- `BTreeMap::insert` at a time without an entry. -/
def put (t : Nat) (m : Sched) : Inbox → Inbox
  | [] => [(t, m)]
  | (k, x) :: l => if t < k then (t, m) :: (k, x) :: l else (k, x) :: put t m l

/-- `Inbox::insert` (net/src/simulator.rs:116-122). -/
def insert (l : Inbox) (t : Nat) (m : Sched) : Inbox := put (free l t) m l

/-- `Inbox::last` (net/src/simulator.rs:133-142): the time. -/
def last (l : Inbox) (node : Nat) (remote : Addr) : Option Nat :=
  (l.reverse.find? (fun x => x.2.node = node ∧ x.2.remote = remote)).map (·.1)

/-- `BTreeMap::remove` (net/src/simulator.rs:358). -/
def remove (l : Inbox) (t : Nat) : Inbox := l.filter (fun x => x.1 ≠ t)

/-- `Options` (net/src/simulator.rs:147-153): the range of latencies in seconds; and whether the failure rate is above zero. -/
structure Opts where
  latency : Nat × Nat
  fallible : Bool
  deriving DecidableEq, Repr

/-- `Simulation` (net/src/simulator.rs:165-191), without the start time (only printed).  `told`: what state machines were told, with the time, oldest first (without `tick`, which comes before everything
else that is told); `sent`: the messages that were scheduled, as receiver, sender and message; `asked`: the wake-ups that nodes asked for, with their times (all three only for
the statements). -/
structure State where
  opts : Opts
  inbox : Inbox
  events : Nat → List Nat
  priority : List Sched
  latencies : Nat → Nat → Option Nat
  partitions : Nat → Nat → Bool
  connections : Nat → Nat → Option Nat
  attempts : Nat → Nat → Bool
  time : Nat
  told : List (Nat × Nat × Input)
  sent : List (Nat × Addr × Nat)
  asked : List (Nat × Nat)

/-- `new` (net/src/simulator.rs:201-217). -/
def State.new (time : Nat) (opts : Opts) : State :=
  ⟨opts, [], fun _ => [], [], fun _ _ => none, fun _ _ => false, fun _ _ => none, fun _ _ => false, time, [], [], []⟩

/-- Random choices while an output is scheduled: of the latency (`more`, `n`), the port (net/src/simulator.rs:474) and whether a failure is told (491). -/
structure Rand where
  more : Bool
  n : Nat
  port : Nat
  tell : Bool
  deriving DecidableEq, Repr

/-- `latency` (net/src/simulator.rs:245-267). -/
def State.latency (s : State) (a b : Nat) (r : Rand) : Nat :=
  match s.latencies a b with
  | some l => if l ≤ minLatency then l else if r.more then l + r.n % l else l - r.n % (l / 2)
  | none => minLatency

/-- `is_partitioned` (net/src/simulator.rs:612-614). -/
def State.partitioned (s : State) (a b : Nat) : Bool := s.partitions a b || s.partitions b a

/-- Changes of maps with two keys. -/
def set {α : Type} (f : Nat → Nat → α) (a b : Nat) (v : α) : Nat → Nat → α := Function.update f a (Function.update (f a) b v)

/-- The reasons with which panics are told apart: `assert!` at 355, 391, 471, and `panic!` at 406. -/
inductive Panic where
  | backwards
  | both
  | self
  | unknown
  deriving DecidableEq, Repr

/-- `schedule` (net/src/simulator.rs:416-604).  The reasons of errors of the simulator are 0. -/
def State.schedule (s : State) (node : Nat) (o : Out) (r : Rand) : Except Panic State :=
  match o with
  | .write to m =>
    match s.connections node to.1 with
    | none => .ok s
    | some port =>
      if s.partitioned node to.1 then .ok s
      else
        let t := (last s.inbox to.1 (node, port)).getD s.time + s.latency node to.1 r
        .ok { s with inbox := insert s.inbox t ⟨to.1, (node, port), .received (node, port) m⟩, sent := s.sent ++ [(to.1, (node, port), m)] }
  | .connect to =>
    if to.1 = node then .error .self
    else
      let loc : Addr := (node, 8192 + r.port % (65536 - 8192))
      let l := s.latency node to.1 r
      let inbox := insert s.inbox (s.time + minLatency) ⟨node, to, .connecting to⟩
      if s.partitioned node to.1 then
        .ok { s with inbox := if r.tell then insert inbox (s.time + minLatency) ⟨node, to, .disconnected to 0⟩ else inbox }
      else
        .ok { s with inbox := insert (insert inbox (s.time + l) ⟨to.1, loc, .connected loc to true⟩) (s.time + l) ⟨node, to, .connected to loc false⟩ }
  | .disconnect to reason =>
    let s := { s with priority := s.priority ++ [⟨node, to, .disconnected to reason⟩] }
    match s.connections node to.1 with
    | none => .ok s
    | some port => .ok { s with inbox := insert s.inbox (s.time + s.latency node to.1 r) ⟨to.1, (node, port), .disconnected (node, port) 0⟩ }
  | .timer d =>
    let s := { s with asked := s.asked ++ [(node, s.time + d)] }
    if (s.inbox.find? (fun x => x.1 = s.time + d)).any (fun x => x.2.input = .wake) then .ok s
    else .ok { s with inbox := insert s.inbox (s.time + d) ⟨node, (0, 0), .wake⟩ }
  | .event e =>
    if maxEvents ≤ (s.events node).length then .ok s
    else .ok { s with events := Function.update s.events node (s.events node ++ [e]) }

/-- Several outputs of a node (net/src/simulator.rs:338-340, 402-404). -/
def State.schedules (s : State) (node : Nat) : List (Out × Rand) → Except Panic State
  | [] => .ok s
  | (o, r) :: l => match s.schedule node o r with
    | .ok s => s.schedules node l
    | .error p => .error p

/-- The outputs of all nodes (net/src/simulator.rs:335-341). -/
def State.pipes (s : State) (outs : Nat → List (Out × Rand)) : List Nat → Except Panic State
  | [] => .ok s
  | n :: l => match s.schedules n (outs n) with
    | .ok s => s.pipes outs l
    | .error p => .error p

/-- The choices of the environment in one step: random latencies (net/src/simulator.rs:308) and failures (325) of pairs of nodes, what nodes put out before the step, and what the node that
is told something puts out after that. -/
structure Choice where
  latency : Nat → Nat → Nat
  fails : Nat → Nat → Bool
  before : Nat → List (Out × Rand)
  after : List (Out × Rand)

/-- New latencies (net/src/simulator.rs:301-315), for each pair of nodes that has none, the same in both directions. -/
def State.configure (s : State) (nodes : List Nat) (c : Choice) : State :=
  if s.opts.latency.1 < s.opts.latency.2 then
    { s with latencies := fun a b => match s.latencies a b with
        | some l => some l
        | none => if a ∈ nodes ∧ b ∈ nodes ∧ a ≠ b then
            some (s.opts.latency.1 * 1000 + c.latency (min a b) (max a b) % (s.opts.latency.2 * 1000 - s.opts.latency.1 * 1000)) else none }
  else s

/-- Partitions (net/src/simulator.rs:322-332): only pairs with the smaller node first are set. -/
def State.partition (s : State) (nodes : List Nat) (c : Choice) : State :=
  if s.time / 1000 % 10 = 0 then
    { s with partitions := fun a b => if a ∈ nodes ∧ b ∈ nodes ∧ a < b then s.opts.fallible && c.fails a b else s.partitions a b }
  else s

/-- The call of the state machine is made (net/src/simulator.rs:368, 381, 394, 397, 399). -/
def State.tell (s : State) (node : Nat) (i : Input) : State := { s with told := s.told ++ [(s.time, node, i)] }

/-- A connection, told if there was none before (net/src/simulator.rs:380-382). -/
def State.link (s : State) (node : Nat) (a loc : Addr) (i : Input) : State :=
  if (s.connections node a.1).isSome then { s with connections := set s.connections node a.1 (some loc.2) }
  else { s with connections := set s.connections node a.1 (some loc.2) }.tell node i

/-- An input that is due is given to its node (net/src/simulator.rs:365-401), without the outputs that follow. -/
def State.give (s : State) (node : Nat) (i : Input) : Except Panic State :=
  match i with
  | .connecting a =>
    if s.attempts node a.1 then .ok s else .ok ({ s with attempts := set s.attempts node a.1 true }.tell node i)
  | .connected a loc inbound =>
    if inbound then .ok (s.link node a loc i)
    else if s.attempts node a.1 then .ok ({ s with attempts := set s.attempts node a.1 false }.link node a loc i)
    else .ok s
  | .disconnected a _ =>
    let attempt := s.attempts node a.1
    let connection := (s.connections node a.1).isSome
    let s := { s with attempts := set s.attempts node a.1 false, connections := set s.connections node a.1 none }
    if attempt && connection then .error .both
    else .ok (if attempt || connection then s.tell node i else s)
  | .received _ _ => .ok (s.tell node i)
  | .wake => .ok (s.tell node i)

/-- The next input (net/src/simulator.rs:343-345). -/
def State.due (s : State) : Option (Nat × Sched × List Sched) :=
  match s.priority with
  | x :: l => some (s.time, x, l)
  | [] => match s.inbox with
    | (t, x) :: _ => some (t, x, [])
    | [] => none

/-- The input is taken out (net/src/simulator.rs:357-358). -/
def State.pop (s : State) (t : Nat) (l : List Sched) : State := { s with time := t, priority := l, inbox := remove s.inbox t }

/-- The second half of `step_` (net/src/simulator.rs:343-412). -/
def State.next (s : State) (nodes : List Nat) (after : List (Out × Rand)) : Except Panic State :=
  match s.due with
  | none => .ok s
  | some (t, x, l) =>
    if t < s.time then .error .backwards
    else if x.node ∈ nodes then
        match (s.pop t l).give x.node x.input with
        | .ok s => s.schedules x.node after
        | .error p => .error p
          else .error .unknown

/-- `step_` (net/src/simulator.rs:300-413).  `nodes` are in order. -/
def State.step (s : State) (nodes : List Nat) (c : Choice) : Except Panic State :=
  match ((s.configure nodes c).partition nodes c).pipes c.before nodes with
  | .ok s => s.next nodes c.after
  | .error p => .error p

/-- The states of simulations: steps (`step`, `run_while`), and outputs that the user schedules (`schedule` is public).  All outputs are such that `P` holds. -/
inductive Reach (P : Out → Prop) : State → Prop
  | new (time : Nat) (opts : Opts) : Reach P (State.new time opts)
  | step {s s' : State} (nodes : List Nat) (c : Choice) (h : Reach P s) (hb : ∀ n, ∀ x ∈ c.before n, P x.1) (ha : ∀ x ∈ c.after, P x.1)
      (hs : s.step nodes c = .ok s') : Reach P s'
  | schedule {s s' : State} (node : Nat) (o : Out) (r : Rand) (h : Reach P s) (ho : P o) (hs : s.schedule node o r = .ok s') : Reach P s'

end Verif.Sim

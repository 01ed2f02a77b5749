import Verif.Handle.Props
import Verif.Handle.Waits
import Verif.Handle.Peers
import Verif.Handle.Submit
import Verif.Sync.PropsTip
import Verif.Sync.Scenarios
import Verif.Peer.NetScenarios
import Verif.Inv.Scenarios

/-!
# The client handle: concrete histories

Examples that the hypotheses of the theorems are met, and counterexamples to the properties that do not hold in full.
-/

set_option autoImplicit false

namespace Verif.Handle.Scenario
open Verif.Addr (Sock)

/-! ## C96 -/

/-- Only even numbers are forwarded. -/
def even (n : Nat) : List Nat := if n % 2 = 0 then [n] else []

/-- Do a list of things. -/
def go (ops : List (Op Nat)) : Hist Nat Nat × Emitter Nat :=
  ops.foldl (fun s op => ((op, (s.2.step even op).2) :: s.1, (s.2.step even op).1)) ([], [])

theorem go_run (ops : List (Op Nat)) : Run even (go ops).1 (go ops).2 := by
  have : ∀ (ops : List (Op Nat)) (s : Hist Nat Nat × Emitter Nat), Run even s.1 s.2 →
      Run even (ops.foldl (fun s op => ((op, (s.2.step even op).2) :: s.1, (s.2.step even op).1)) s).1
        (ops.foldl (fun s op => ((op, (s.2.step even op).2) :: s.1, (s.2.step even op).1)) s).2 := by
    intro ops
    induction ops with
    | nil => exact fun s r => r
    | cons op ops ih => exact fun s r => ih _ (.step op r)
  exact this ops ([], []) .start

/-- One subscriber comes before the event 2, another after it and drops its receiver after the event 4; the emitter is closed. -/
def talk : List (Op Nat) :=
  [.subscribe, .publish 2, .subscribe, .publish 3, .publish 4, .recv 0, .recv 1, .drop 1, .publish 6, .close, .publish 8, .recv 0]

/-- C96: what was published for the two, what they got, and what the first gets next: an event, and the end after that. -/
example : sent even 0 (go talk).1 = [2, 4, 6] ∧ got 0 (go talk).1 = [2, 4] ∧ sent even 1 (go talk).1 = [4] ∧ got 1 (go talk).1 = [4] ∧
    held 0 (go talk).1 = true ∧ live 0 (go talk).1 = false ∧ ((go talk).2.step even (.recv 0)).2 = some (.event 6) ∧
    ((go (talk ++ [.recv 0])).2.step even (.recv 0)).2 = some .disconnected ∧ ((go (talk.take 1)).2.step even (.recv 0)).2 = some .empty := by decide

/-! ## C97 -/

section Height
open Verif.Sync.Scenario (conf U acyclic collisionFree reach fresh hist state tree Cmd result)
open Verif.Chain.Scenario (a1 a2 a3 b1 b2 b3 b4 g e mk)

/-- One command after a list of commands. -/
theorem more_step {l : Sync.Hist} {m0 : Sync.Mgr} {t0 : Chain.State} {Q : Chain.State → Sync.Op → Prop} {ops : List Cmd} {x : Cmd}
    (r : More (conf true) U false Q m0 t0 l (state true ops) (tree true ops)) (hx : x.ok = true) (q : Q (tree true ops) x.op)
    {m' : Sync.Mgr} {t' : Chain.State} (e : Sync.Scenario.next true ops x = .ok (m', t')) : More (conf true) U false Q m0 t0 ((x.op, m'.out) :: l) m' t' :=
  .step r (Cmd.legal hx) q e

def start : List Cmd := [.start 7300000, .peer 7300000 1 2 false true]

theorem start_run : Sync.Run (conf true) U false Any (fresh true) (hist true start) (state true start) (tree true start) :=
  Sync.Scenario.run (by decide) (by decide)

/-- The events of an output list. -/
def events (l : List Sync.Out) : List (Nat × Ev) := l.map fun o => (5, Ev.ofSync o)

theorem events_in_time (l : List Sync.Out) : (events l).takeWhile (fun p => decide (p.1 ≤ 1000)) = events l := by
  induction l with
  | nil => rfl
  | cons a l ih => simp only [events, List.map_cons, List.takeWhile_cons] at ih ⊢; simp [ih]

/-- C97: the peer sends the headers `a1` and then `a2`.  The call for the height 2, made before, succeeds; the hypotheses of both theorems are met. -/
example : ∃ l2 m t, More (conf true) U false (OneByOne (conf true)) (state true start) (tree true start) l2 m t ∧
    AllIn (l2 ++ []) 1000 (events (Sync.outputs l2)) ∧ OnlyFrom (l2 ++ []) (events (Sync.outputs l2)) ∧ 2 ≤ t.height ∧ (tree true start).getByHeight 2 = none ∧
    waitForHeight 2 (((tree true start).getByHeight 2).map (conf true).chain.hash) 1000 none (events (Sync.outputs l2)) = .ok 12 := by
  have r1 : More (conf true) U false (OneByOne (conf true)) (state true start) (tree true start) _ (state true (start ++ [.recv 7300020 1 [a1]]))
      (tree true (start ++ [.recv 7300020 1 [a1]])) :=
    more_step (ops := start) (x := .recv 7300020 1 [a1]) .start (by decide) ⟨⟨.tipChanged a1 11 1 [] [(1, a1)], by decide⟩, by decide⟩ (by rfl)
  have r2 : More (conf true) U false (OneByOne (conf true)) (state true start) (tree true start) _
      (state true (start ++ [.recv 7300020 1 [a1], .recv 7300030 1 [a2]])) (tree true (start ++ [.recv 7300020 1 [a1], .recv 7300030 1 [a2]])) :=
    more_step (ops := start ++ [.recv 7300020 1 [a1]]) (x := .recv 7300030 1 [a2]) r1 (by decide) ⟨⟨.tipChanged a2 12 2 [] [(2, a2)], by decide⟩, by decide⟩ (by rfl)
  refine ⟨_, _, _, r2, ?_, ?_, by decide, by decide, by decide⟩
  · intro hash n h
    obtain ⟨o, ho, hh⟩ := List.mem_map.1 h
    refine ⟨5, ?_⟩
    rw [events_in_time]
    exact List.mem_map.2 ⟨o, by simpa using ho, by rw [hh]⟩
  · intro p hp hash n hq
    obtain ⟨o, ho, rfl⟩ := List.mem_map.1 hp
    rw [← hq]
    exact List.mem_map.2 ⟨o, by simpa using ho, rfl⟩

/-- **C97 fails**: the peer sends `a1` and `a2` in one message, and the height is passed at once; the call for the height 1 fails after the timeout, although there is a block
at this height and all events were delivered. -/
theorem C97_passed : ∃ l2 m t, More (conf true) U false Any (state true start) (tree true start) l2 m t ∧ AllIn l2 1000 (events (Sync.outputs l2)) ∧
    t.getByHeight 1 = some a1 ∧
    waitForHeight 1 (((tree true start).getByHeight 1).map (conf true).chain.hash) 1000 none (events (Sync.outputs l2)) = .err .timeout := by
  have r1 : More (conf true) U false Any (state true start) (tree true start) _ (state true (start ++ [.recv 7300020 1 [a1, a2]]))
      (tree true (start ++ [.recv 7300020 1 [a1, a2]])) :=
    more_step (ops := start) (x := .recv 7300020 1 [a1, a2]) .start (by decide) trivial (by rfl)
  refine ⟨_, _, _, r1, ?_, by decide, by decide⟩
  intro hash n h
  obtain ⟨o, ho, hh⟩ := List.mem_map.1 h
  refine ⟨5, ?_⟩
  rw [events_in_time]
  exact List.mem_map.2 ⟨o, ho, by rw [hh]⟩

/-- C52: the hypotheses of `C52_tip_reported` are met by a message with two headers. -/
example : ∃ m' t', { state true start with out := [] }.step (conf true) (tree true start) (Cmd.recv 7300020 1 [a1, a2]).op = .ok (m', t') ∧
    (Cmd.recv 7300020 1 [a1, a2]).op.Legal U false ∧
    (∃ q, (Chain.importBlocks (conf true).chain (tree true start) (Cmd.recv 7300020 1 [a1, a2]).op.batch).2 = .ok q) ∧
    t'.iter ≠ (tree true start).iter ∧ Sync.Out.imported false 12 2 [(1, a1), (2, a2)] [] ∈ m'.out :=
  ⟨_, _, rfl, Cmd.legal (by decide), ⟨.tipChanged a2 12 2 [] [(1, a1), (2, a2)], by decide⟩, by decide, by decide⟩

end Height

/-! ## C98 -/

section Peers
open Verif.Peer.Scenario (cfg a b c loc ver shake after legal_of)

/-- The outputs of a list of inputs, and the state after them. -/
def further (m : Peer.Mgr) : List Peer.Op → Option (List Peer.Out × Peer.Mgr)
  | [] => some ([], m)
  | op :: ops =>
    match m.step cfg op with
    | .ok m1 => (further m1 ops).map fun q => (Peer.added m m1 ++ q.1, q.2)
    | _ => none

theorem further_steps {m0 : Peer.Mgr} : ∀ {ops l : List Peer.Op} {outs : List Peer.Out} {m : Peer.Mgr} {q : List Peer.Out × Peer.Mgr}, Steps cfg m0 l outs m →
    (∀ op ∈ ops, op.Legal) → further m ops = some q → Steps cfg m0 (ops.reverse ++ l) (outs ++ q.1) q.2
  | [], l, outs, m, q, r, _, e => by
    simp only [further, Option.some.injEq] at e
    simpa [← e] using r
  | op :: ops, l, outs, m, q, r, hl, e => by
    unfold further at e
    cases hs : m.step cfg op with
    | ok m1 =>
      simp only [hs, Option.map_eq_some_iff] at e
      obtain ⟨q', e, rfl⟩ := e
      simpa using further_steps (.step r (hl op List.mem_cons_self) hs) (fun o ho => hl o (List.mem_cons_of_mem _ ho)) e
    | err e' => simp [hs] at e
    | panic => simp [hs] at e

/-- The handshake with `a` is complete. -/
def one : List Peer.Op := shake ++ [.message a true 100 true .verack]

/-- `b` connects, and the handshake with it is completed. -/
def hello : List Peer.Op := [.connected b loc .inbound 100 8, .message b true 100 true (.version (ver 6 130)), .message b true 100 true .verack]

theorem one_run : Peer.Run cfg [] one.reverse (after cfg one) := Peer.Scenario.run (legal_of (by decide)) (by decide)

/-- The connection with `a` is lost. -/
def bye : Peer.Op := .disconnected a .connection []

def feedOf (l : List Peer.Out) : List (Nat × Ev) := (l.filterMap Ev.ofPeer).map fun e => (5, e)

/-- The outputs after the handshake with `a`. -/
def later (ops : List Peer.Op) : List Peer.Out := ((further (after cfg one) ops).map (·.1)).getD []

/-- C98: one peer is there when two are asked for; then `b` comes. -/
example : getPeers (after cfg one) 1 = [(a, 120, 9)] ∧ (further (after cfg one) hello).isSome = true ∧ (5, Ev.negotiated b 130 9) ∈ feedOf (later hello) ∧
    waitForPeers 2 1 (getPeers (after cfg one) 1) 1000 none (feedOf (later hello)) = .ok [(b, 130, 9), (a, 120, 9)] ∧
    waitForPeers 1 1 (getPeers (after cfg one) 1) 1000 none [] = .ok [(a, 120, 9)] := by decide +kernel

/-- `C98_too_many` is not empty: two peers are there when one is asked for. -/
example : Peer.Run cfg [] (one ++ hello).reverse (after cfg (one ++ hello)) ∧ 1 < (getPeers (after cfg (one ++ hello)) 1).length :=
  ⟨Peer.Scenario.run (legal_of (by decide)) (by decide +kernel), by decide +kernel⟩

/-- **C98 (peers that have gone).** The peers need not be connected at the same time: `a` is there at the call and goes, then `b` comes; both are returned. -/
theorem C98_gone : ∃ l outs m, Steps cfg (after cfg one) l outs m ∧ m.isConnected a = false ∧
    waitForPeers 2 1 (getPeers (after cfg one) 1) 1000 none (feedOf outs) = .ok [(b, 130, 9), (a, 120, 9)] := by
  have h : ((further (after cfg one) (bye :: hello)).map fun q => (q.2.isConnected a, waitForPeers 2 1 (getPeers (after cfg one) 1) 1000 none (feedOf q.1))) =
    some (false, .ok [(b, 130, 9), (a, 120, 9)]) := by decide +kernel
  obtain ⟨q, e, h⟩ := Option.map_eq_some_iff.1 h
  exact ⟨_, _, _, further_steps .start (legal_of (by decide)) e, (Prod.mk.inj h).1, (Prod.mk.inj h).2⟩

theorem feedOf_only (test : Ev → Prop) (outs : List Peer.Out) : Only test outs (feedOf outs) := by
  intro p hp _
  obtain ⟨e, he, rfl⟩ := List.mem_map.1 hp
  exact he

theorem feedOf_every (outs : List Peer.Out) : Every outs 1000 (feedOf outs) := by
  intro e he
  refine ⟨5, ?_⟩
  have : ∀ l : List Ev, (l.map fun e => (5, e)).takeWhile (fun p => decide (p.1 ≤ 1000)) = l.map fun e => (5, e) := by
    intro l; induction l with
    | nil => rfl
    | cons a l ih => simp only [List.map_cons, List.takeWhile_cons]; simp [ih]
  rw [feedOf, this]
  exact List.mem_map.2 ⟨e, he, rfl⟩

end Peers

/-! ## C99 -/

section Connect
open Verif.Peer (Net)
open Verif.Peer.Scenario (cfg a b loc)
open Verif.Peer.NetScenario (Act act act_step cleanB cleanB_iff after clean_after connectA)

/-- Do a list of things, and collect the outputs. -/
def acts (n : Net) : List Act → Option (List Peer.Out × Net)
  | [] => some ([], n)
  | x :: l =>
    match act cfg n x with
    | some n' => if cleanB n n' then (acts n' l).map fun q => (Peer.added n.m n'.m ++ q.1, q.2) else none
    | none => none

theorem acts_later {n0 : Net} : ∀ {l : List Act} {outs : List Peer.Out} {n : Net} {q : List Peer.Out × Net}, Later cfg n0 outs n → acts n l = some q →
    Later cfg n0 (outs ++ q.1) q.2
  | [], outs, n, q, r, e => by
    simp only [acts, Option.some.injEq] at e
    simpa [← e] using r
  | x :: l, outs, n, q, r, e => by
    unfold acts at e
    cases hs : act cfg n x with
    | some n' =>
      simp only [hs, Option.ite_none_right_eq_some, Option.map_eq_some_iff] at e
      obtain ⟨hc, q', e, rfl⟩ := e
      simpa using acts_later (.step r (act_step hs) (cleanB_iff hc)) e
    | none => simp [hs] at e

/-- No address is unspecified. -/
def never (_ : Sock) : Bool := false

/-- C99: the user connects to `a`; the hypotheses of `C99_connect_partial` are met, and the call succeeds. -/
example : ∃ outs n, Later cfg (Net.new []) outs n ∧ Only Ev.IsConnected outs (feedOf outs) ∧ Every outs 1000 (feedOf outs) ∧
    connect never a 1000 none (feedOf outs) = .ok .outbound ∧ Established n a := by
  have h : ((acts (Net.new []) connectA).map fun q => (connect never a 1000 none (feedOf q.1), q.2.reg.contains a, decide (a ∈ q.2.dialing))) =
    some (.ok .outbound, true, false) := by decide +kernel
  obtain ⟨q, e, h⟩ := Option.map_eq_some_iff.1 h
  obtain ⟨h1, h2⟩ := Prod.mk.inj h
  obtain ⟨h2, h3⟩ := Prod.mk.inj h2
  exact ⟨_, _, acts_later .start e, feedOf_only _ _, feedOf_every _, h1, h2, by simpa using h3⟩

/-- C99: with a connection to `a`, the user disconnects it; the call succeeds. -/
example : ∃ outs n, Later cfg (after cfg true connectA) outs n ∧ Only Ev.IsDisconnected outs (feedOf outs) ∧ Every outs 1000 (feedOf outs) ∧
    disconnect never a 1000 none (feedOf outs) = .ok () ∧ n.reg.contains a = false := by
  have h : ((acts (after cfg true connectA) [.input (.cmdDisconnect a), .process, .out]).map fun q =>
    (disconnect never a 1000 none (feedOf q.1), q.2.reg.contains a)) = some (.ok (), false) := by decide +kernel
  obtain ⟨q, e, h⟩ := Option.map_eq_some_iff.1 h
  obtain ⟨h1, h2⟩ := Prod.mk.inj h
  exact ⟨_, _, acts_later .start e, feedOf_only _ _, feedOf_every _, h1, h2⟩

/-- **C99 fails**: with an established connection to `a`, the user connects to `a`.  There is nothing to report, and the call fails after the timeout. -/
theorem C99_already_connected : ∃ n0 outs n, Net.Clean cfg [] n0 ∧ Established n0 a ∧ Net.Step cfg n0 n ∧ n.m.isConnected a = true ∧
    (∃ m', n0.m.step cfg (.cmdConnect a) = .ok m' ∧ n = { n0 with m := m' }) ∧ outs = Peer.added n0.m n.m ∧ outs = [] ∧
    connect never a 1000 none (feedOf outs) = .err .timeout := by
  have h : ((act cfg (after cfg true connectA) (.input (.cmdConnect a))).map fun n =>
      (n.m.isConnected a, Peer.added (after cfg true connectA).m n.m)) = some (true, []) := by decide +kernel
  obtain ⟨n, e, h⟩ := Option.map_eq_some_iff.1 h
  obtain ⟨h1, h2⟩ := Prod.mk.inj h
  refine ⟨_, _, n, clean_after (by decide +kernel), ⟨by decide +kernel, by decide +kernel⟩, act_step e, h1, ⟨_, rfl, ?_⟩, rfl, h2, by rw [h2]; rfl⟩
  simp only [act] at e
  split at e
  · simp only [Peer.Mgr.step, Option.some.injEq] at e; exact e.symm
  · cases e

/-- **C99 fails**: the user disconnects `b`, which is not connected.  There is nothing to report, and the call fails after the timeout. -/
theorem C99_not_connected : ∃ n0 outs n, Net.Clean cfg [] n0 ∧ n0.reg.contains b = false ∧ Net.Step cfg n0 n ∧
    (∃ m', n0.m.step cfg (.cmdDisconnect b) = .ok m' ∧ n = { n0 with m := m' }) ∧ outs = Peer.added n0.m n.m ∧ outs = [] ∧
    disconnect never b 1000 none (feedOf outs) = .err .timeout := by
  have h : ((act cfg (after cfg true connectA) (.input (.cmdDisconnect b))).map fun n =>
      Peer.added (after cfg true connectA).m n.m) = some [] := by decide +kernel
  obtain ⟨n, e, h2⟩ := Option.map_eq_some_iff.1 h
  refine ⟨_, _, n, clean_after (by decide +kernel), by decide +kernel, act_step e, ⟨_, rfl, ?_⟩, rfl, h2, by rw [h2]; rfl⟩
  simp only [act] at e
  split at e
  · simp only [Peer.Mgr.step, Option.some.injEq] at e; exact e.symm
  · cases e

end Connect

/-! ## C100 -/

section Submit
open Verif.Inv.Scenario (peer1 peer2 t1 tick hist state run env env_legal)

/-- C100: with two peers, one of which relays transactions, the transaction is submitted to that one. -/
example : Inv.Run true (hist true [peer1, peer2]) (state true [peer1, peer2]) ∧
    ∃ m', { state true [peer1, peer2] with out := [] }.step true (.announce t1) = .ok m' ∧ submitted m' = some [1] :=
  ⟨run (by legal_ops) (by decide), _, rfl, by decide⟩

/-- C100 (after an error): nobody is connected; then peer 1 connects and gets the announcement. -/
example : ∃ m1 m2 m3, { state true [] with out := [] }.step true (.announce t1) = .ok m1 ∧ submitted m1 = none ∧
    { m1 with out := [] }.step true peer1 = .ok m2 ∧ { m2 with out := [] }.step true (.timer env 100000 3) = .ok m3 ∧
    Inv.Out.inv 1 true [11] ∈ m3.out :=
  ⟨_, _, _, rfl, by decide, rfl, rfl, by decide⟩

end Submit

end Verif.Handle.Scenario

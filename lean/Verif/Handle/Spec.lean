import Verif.Handle.Model
import Verif.Sync.Spec
import Verif.Peer.Net

/-!
# The client handle: specification
-/

set_option autoImplicit false

namespace Verif.Handle
open Verif.Addr (Sock)

/-! ## Publishing events -/

/-- What happened to an emitter, with what receivers got, most recent first. -/
abbrev Hist (E T : Type) := List (Op E × Option (Got T))

/-- The history leads to the emitter. -/
inductive Run {E T : Type} (forward : E → List T) : Hist E T → Emitter T → Prop where
  | start : Run forward [] []
  | step {h : Hist E T} {m : Emitter T} (op : Op E) (r : Run forward h m) : Run forward ((op, (m.step forward op).2) :: h) (m.step forward op).1

/-- Number of subscriptions so far; they are numbered from 0. -/
def subscriptions {E T : Type} : Hist E T → Nat
  | [] => 0
  | (.subscribe, _) :: h => subscriptions h + 1
  | _ :: h => subscriptions h

/-- The subscription `i` exists, its receiver was not dropped and the emitter was not closed since. -/
def live {E T : Type} (i : Nat) : Hist E T → Bool
  | [] => false
  | (.subscribe, _) :: h => live i h || decide (i = subscriptions h)
  | (.drop j, _) :: h => live i h && decide (j ≠ i)
  | (.close, _) :: _ => false
  | _ :: h => live i h

/-- The subscription `i` exists, and its receiver was not dropped since. -/
def held {E T : Type} (i : Nat) : Hist E T → Bool
  | [] => false
  | (.subscribe, _) :: h => held i h || decide (i = subscriptions h)
  | (.drop j, _) :: h => held i h && decide (j ≠ i)
  | _ :: h => held i h

/-- What was published for the subscription `i`: everything since, in order. -/
def sent {E T : Type} (forward : E → List T) (i : Nat) : Hist E T → List T
  | [] => []
  | (.publish e, _) :: h => if live i h then sent forward i h ++ forward e else sent forward i h
  | _ :: h => sent forward i h

/-- What the receiver of the subscription `i` got, in order. -/
def got {E T : Type} (i : Nat) : Hist E T → List T
  | [] => []
  | (.recv j, some (.event e)) :: h => if j = i then got i h ++ [e] else got i h
  | _ :: h => got i h

/-! ## Waiting -/

/-- The first event among those taken in time that makes the stateless test answer. -/
def firstMatch {E T : Type} (test : E → Option T) (timeout : Nat) (feed : List (Nat × E)) : Option T :=
  (feed.takeWhile (fun p => decide (p.1 ≤ timeout))).findSome? (fun p => test p.2)

/-! ## Waiting for a height -/

/-- Anything may happen. -/
def Any (_ : Chain.State) (_ : Sync.Op) : Prop := True

/-- From the state `m0`, `t0` of sync manager and header tree, the history `l` leads to `m`, `t`; nothing panicked, and each step is as `Q` demands. -/
inductive More (cfg : Sync.Cfg) (U : Chain.Header → Prop) (fail : Bool) (Q : Chain.State → Sync.Op → Prop) (m0 : Sync.Mgr) (t0 : Chain.State) :
    Sync.Hist → Sync.Mgr → Chain.State → Prop where
  | start : More cfg U fail Q m0 t0 [] m0 t0
  | step {l : Sync.Hist} {m m' : Sync.Mgr} {t t' : Chain.State} {op : Sync.Op} (r : More cfg U fail Q m0 t0 l m t) (lg : op.Legal U fail) (q : Q t op)
      (e : { m with out := [] }.step cfg t op = .ok (m', t')) : More cfg U fail Q m0 t0 ((op, m'.out) :: l) m' t'

/-- The headers presented are imported without an error, and the active chain becomes at most one block longer. -/
def OneByOne (cfg : Sync.Cfg) (t : Chain.State) (op : Sync.Op) : Prop :=
  (∃ q, (Chain.importBlocks cfg.chain t op.batch).2 = .ok q) ∧ (Chain.importBlocks cfg.chain t op.batch).1.height ≤ t.height + 1

/-- The tips reported in the feed were reported by the sync manager. -/
def OnlyFrom (l : Sync.Hist) (feed : List (Nat × Ev)) : Prop :=
  ∀ p ∈ feed, ∀ hash n, p.2 = .imported hash n → .imported hash n ∈ (Sync.outputs l).map Ev.ofSync

/-- All tips that the sync manager reported are in the feed, before the time is over. -/
def AllIn (l : Sync.Hist) (timeout : Nat) (feed : List (Nat × Ev)) : Prop :=
  ∀ hash n, .imported hash n ∈ (Sync.outputs l).map Ev.ofSync → ∃ t, (t, .imported hash n) ∈ feed.takeWhile (fun p => decide (p.1 ≤ timeout))

/-! ## Waiting for peers -/

/-- From the state `m0` of the peer manager, the history `l` leads to `m`, with the outputs `outs`; nothing panicked. -/
inductive Steps (cfg : Peer.Config) (m0 : Peer.Mgr) : List Peer.Op → List Peer.Out → Peer.Mgr → Prop where
  | start : Steps cfg m0 [] [] m0
  | step {l : List Peer.Op} {outs : List Peer.Out} {m m' : Peer.Mgr} {op : Peer.Op} (r : Steps cfg m0 l outs m) (lg : op.Legal) (e : m.step cfg op = .ok m') :
      Steps cfg m0 (op :: l) (outs ++ Peer.added m m') m'

/-- After the history `h`, the present connection with the peer has completed the handshake, with this height and these services. -/
def Negotiated (cfg : Peer.Config) (tr : List Addr.Ip) (h : List Peer.Op) (p : Known) : Prop :=
  ∃ link s, Peer.Session cfg tr p.1 h link (some s) ∧ s.verack = true ∧ p.2 = (Peer.asHeight s.v.startHeight, s.v.services)

/-- The events in the feed for which `test` holds are among those that were put out. -/
def Only (test : Ev → Prop) (outs : List Peer.Out) (feed : List (Nat × Ev)) : Prop := ∀ p ∈ feed, test p.2 → p.2 ∈ outs.filterMap Ev.ofPeer

/-- An event about a completed handshake. -/
def Ev.IsNegotiated (e : Ev) : Prop := ∃ a height services, e = .negotiated a height services

/-! ## Connecting and disconnecting -/

/-- From the state `n0` of reactor and peer manager, a state `n` is reached with the outputs `outs`; no connection is asked for with an address whose socket is open. -/
inductive Later (cfg : Peer.Config) (n0 : Peer.Net) : List Peer.Out → Peer.Net → Prop where
  | start : Later cfg n0 [] n0
  | step {outs : List Peer.Out} {n n' : Peer.Net} (r : Later cfg n0 outs n) (s : Peer.Net.Step cfg n n') (x : Peer.NoRedial n n') :
      Later cfg n0 (outs ++ Peer.added n.m n'.m) n'

/-- There is an established connection with the address: a socket that is not being dialed. -/
def Established (n : Peer.Net) (a : Sock) : Prop := n.reg.contains a = true ∧ a ∉ n.dialing

/-- An event of a peer that got connected. -/
def Ev.IsConnected (e : Ev) : Prop := ∃ a l, e = .connected a l

/-- An event of a peer that got disconnected. -/
def Ev.IsDisconnected (e : Ev) : Prop := ∃ a, e = .disconnected a

/-- The events that were put out are in the feed, before the time is over. -/
def Every (outs : List Peer.Out) (timeout : Nat) (feed : List (Nat × Ev)) : Prop :=
  ∀ e ∈ outs.filterMap Ev.ofPeer, ∃ t, (t, e) ∈ feed.takeWhile (fun p => decide (p.1 ≤ timeout))

end Verif.Handle

import Verif.Machine.Answers
import Verif.Machine.Queries
import Verif.Machine.Scenarios

/-!
# C118 and C128 in the whole state machine: examples
-/

set_option autoImplicit false

namespace Verif.Machine.Scenario
open Verif.Addr (Sock Ip NetAddr Known Source has sadd)
open Verif.Peer.Scenario (a b loc ver)
open Verif.Node.Crash (U fresh)

theorem met_listed : (after true meet).map (fun y => ((y.s.peer.getPeers 73).map fun v => (v.addr, v.services, v.height), y.s.peer.broadcast fun v => v.height == 3, y.s.head.isNone)) =
    some ([(a, 73, 3)], [a], true) := by decide +kernel

/-- The hypotheses of C118 are met: after the handshake, `a` is listed, all managers have heard of it, and there is a socket. -/
example : ∃ y, Sys.Clean conf U false setup y ∧ y.s.qPeer = [] ∧ (∃ v ∈ y.s.peer.getPeers 73, v.addr = a) ∧ y.s.ping.peers.get (number a) ≠ none ∧
    y.reg.contains a = true ∧ a ∉ y.dialing := by
  obtain ⟨y, h1, h2⟩ := Option.map_eq_some_iff.1 met_listed
  have r := after_clean h1
  simp only [Prod.mk.injEq] at h2
  obtain ⟨k1, -, k3⟩ := h2
  have hq : y.s.qPeer = [] := head_none (by simpa using k3)
  have : (a, 73, 3) ∈ (y.s.peer.getPeers 73).map fun v => (v.addr, v.services, v.height) := by rw [k1]; exact List.mem_cons_self
  obtain ⟨v, hv, e⟩ := List.mem_map.1 this
  simp only [Prod.mk.injEq] at e
  obtain ⟨is, hist, rr⟩ := C108_reactor number_injective r.reach
  have x1 := C118_known number_injective rr hq hv
  have x2 := (C118_open_partial r number_injective hq).1 73 v hv
  rw [e.1] at x1 x2
  exact ⟨y, r, hq, ⟨v, hv, e.1⟩, x1.2.1, x2⟩

theorem forge_tip : (after true forge).map (fun y => ((y.s.node.getTip conf.node).1, y.s.node.getBlockByHeight 1, y.s.node.getBlockByHash 11)) =
    some (1, some Chain.Scenario.a1, some (1, Chain.Scenario.a1)) := by decide +kernel

/-- `C128_client_chain` applies: a peer has sent a header. -/
example : ∃ y, Sys.Clean conf U false setup y ∧ y.s.node.getBlockByHeight 1 = some Chain.Scenario.a1 ∧
    ∃ chain : List Chain.Header, chain.length = 2 ∧ ∀ i, y.s.node.getBlockByHeight i = chain[i]? := by
  obtain ⟨y, h1, h2⟩ := Option.map_eq_some_iff.1 forge_tip
  simp only [Prod.mk.injEq] at h2
  have r := after_clean h1
  obtain ⟨is, hist, rr⟩ := C108_reactor number_injective r.reach
  obtain ⟨chain, k1, -, k3, -, tip, k4, k5⟩ := C128_client_chain (cfg := conf) (z := setup) Node.Crash.ctx rr
  refine ⟨y, r, h2.2.1, chain, ?_, k3⟩
  have h3 := h2.1
  rw [k5] at h3
  simp only at h3
  omega

end Verif.Machine.Scenario

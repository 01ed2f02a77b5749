import Verif.Machine.Props
import Verif.Peer.PropsQuery
import Verif.Peer.Reported

/-!
# C118: the answers about peers agree with what the managers know and with the sockets
-/

set_option autoImplicit false

namespace Verif.Machine
open Verif.Addr (Sock Ip NetAddr Known Source has)
open Verif.Chain (Header)

variable {cfg : Cfg} {U : Header → Prop} {fail : Bool} {P : Node.Hist → Node.Fsm → Node.Input → Node.Fsm → List Node.Out → Prop}
variable {z : Setup} {is : List Input} {h : Node.Hist} {s : State}

/-- The report says of the peer what the user is told. -/
def Says (v : Peer.View) (n : Peer.Negotiated) : Prop :=
  n.link = v.link ∧ n.services = v.services ∧ n.height = v.height ∧ n.agent = v.agent ∧ n.relay = v.relay

/-- Whoever is listed was reported as negotiated, and not as disconnected since. -/
theorem listed_met {hp : List Peer.Op} {tr : List Ip} {m : Peer.Mgr} (r : Peer.Run cfg.peer tr hp m) {services : Nat} {v : Peer.View}
    (hv : v ∈ m.getPeers services) : Met v.addr (Says v) m.out := by
  unfold Peer.Mgr.getPeers at hv
  obtain ⟨⟨i, c⟩, hm, rfl⟩ := List.mem_map.1 hv
  obtain ⟨hm, -⟩ := List.mem_filter.1 hm
  obtain ⟨hm, hi⟩ := List.mem_filter.1 hm
  obtain ⟨a, hg⟩ := (Peer.mem_versioned (Peer.run_list r).nodup i c).1 hm
  have ha := ((Peer.run_inv r).sess a c _ hg).1
  subst ha
  obtain ⟨l1, l2, h1, h2⟩ := Peer.run_reported r hg hi
  exact ⟨l1, _, l2, h1, ⟨rfl, rfl, rfl, rfl, rfl⟩, h2⟩

/-- **C118.** When the outputs of the peer manager have been processed, every peer that `get_peers` lists was reported to the other managers and the user as negotiated, with what is
listed, and not as disconnected since; the ping manager knows it; the sync manager too, if it connected to us or serves blocks. -/
theorem C118_known (inj : Function.Injective cfg.id) (r : Run cfg U fail P z is h s) (q : s.qPeer = []) {services : Nat} {v : Peer.View}
    (hv : v ∈ s.peer.getPeers services) :
    Met v.addr (Says v) s.taken ∧ s.ping.peers.get (cfg.id v.addr) ≠ none ∧
    ((v.link = .outbound → has v.services svcNetwork = true) → s.node.sync.peers.get (cfg.id v.addr) ≠ none) := by
  obtain ⟨hp, rp⟩ := run_peer r
  have hm := listed_met rp hv
  have e : s.taken = s.peer.out := by
    have := List.take_append_drop s.takenPeer s.peer.out
    have q' : s.peer.out.drop s.takenPeer = [] := q
    rw [q', List.append_nil] at this
    exact this
  rw [← e] at hm
  obtain ⟨h1, h2⟩ := C109_exact inj r v.addr
  obtain ⟨l1, n, l2, k1, k2, k3⟩ := hm
  refine ⟨⟨l1, n, l2, k1, k2, k3⟩, h2.2 ⟨l1, n, l2, k1, trivial, k3⟩, fun hs => h1.2 ⟨l1, n, l2, k1, ?_, k3⟩⟩
  intro hl
  rw [k2.2.1]
  exact hs (k2.1 ▸ hl)

/-- **C118.** Moreover, there is an established connection with every peer that is listed or that a broadcast is sent to.  Partial: in executions in which no connection is asked for
with an address whose socket is still open. -/
theorem C118_open_partial {y : Sys} (r : Sys.Clean cfg U fail z y) (inj : Function.Injective cfg.id) (q : y.s.qPeer = []) :
    (∀ services, ∀ v ∈ y.s.peer.getPeers services, y.reg.contains v.addr = true ∧ v.addr ∉ y.dialing) ∧
    ∀ pred, ∀ a ∈ y.s.peer.broadcast pred, y.reg.contains a = true ∧ a ∉ y.dialing := by
  obtain ⟨is, h, rr⟩ := sys_run inj r.reach
  obtain ⟨hp, rp⟩ := run_peer rr
  have hx := fun a => (Peer.C46_settled_partial (sys_net r) q a).1
  exact ⟨fun services v hv => (hx _).1 ((Peer.C118_peers rp services v).1 hv).1,
    fun pred a ha => (hx _).1 ((Peer.C118_broadcast_partial rp pred a).1 ha).1⟩

end Verif.Machine

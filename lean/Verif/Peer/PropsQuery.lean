import Verif.Peer.Query

/-!
# C118: what the user is told about the connected peers
-/

set_option autoImplicit false

namespace Verif.Peer

open Verif.Addr (Sock Ip Domain NetAddr Source has isLocal domainOf sadd)

variable {cfg : Config} {tr : List Ip}

/-- `v` describes the peer at `v.addr` as it introduced itself: the connection that is open, and the contents of the last version message
received on it. -/
structure Describes (cfg : Config) (tr : List Ip) (h : List Op) (v : View) (s : Seen) : Prop where
  opened : Opened v.addr h v.loc v.link v.since
  session : Session cfg tr v.addr h v.link (some s)
  height : v.height = asHeight s.v.startHeight
  services : v.services = s.v.services
  agent : v.agent = s.v.agent
  relay : v.relay = s.v.relay

theorem view_iff {h : List Op} {m : Mgr} (r : Run cfg tr h m) (v : View) (P : Bool → Prop) :
    (∃ i c, (i, c) ∈ m.versioned ∧ P i.isNegotiated ∧ View.of (i, c) = v) ↔
      m.isConnected v.addr = true ∧ ∃ s, Describes cfg tr h v s ∧ P s.verack := by
  have hn := (run_list r).nodup
  constructor
  · rintro ⟨i, c, hm, hp, rfl⟩
    obtain ⟨a, hg⟩ := (mem_versioned hn i c).1 hm
    obtain ⟨ha, s, g, mt⟩ := (run_inv r).sess a c (some i) hg
    have ho := run_opened r a c (some i) hg
    cases s with
    | none => exact absurd mt (by simp [Matches])
    | some s =>
      subst ha
      simp only [Matches] at mt
      refine ⟨(isConnected_iff m _).2 ⟨c, some i, hg⟩, s, ⟨ho, g, mt.1, mt.2.1, mt.2.2.1, mt.2.2.2.2.2.1⟩, ?_⟩
      rw [← mt.2.2.2.2.2.2.2.2.2.1]; exact hp
  · rintro ⟨hc, s, d, hp⟩
    obtain ⟨c, i, hg⟩ := (isConnected_iff m _).1 hc
    obtain ⟨ha, s', g, mt⟩ := (run_inv r).sess _ c i hg
    obtain ⟨e1, e2⟩ := session_unique g d.session
    obtain ⟨o1, o2, o3⟩ := opened_unique (run_opened r _ c i hg) d.opened
    subst e2
    cases i with
    | none => exact absurd mt (by simp [Matches])
    | some i =>
      simp only [Matches] at mt
      refine ⟨i, c, (mem_versioned hn i c).2 ⟨_, hg⟩, by rw [mt.2.2.2.2.2.2.2.2.2.1]; exact hp, ?_⟩
      obtain ⟨v1, v2, v3, v4, v5, v6, v7, v8⟩ := v
      simp only [View.of, View.mk.injEq]
      exact ⟨ha, o1, e1, o3, mt.1.trans d.height.symm, mt.2.1.trans d.services.symm, mt.2.2.1.trans d.agent.symm,
        mt.2.2.2.2.2.1.trans d.relay.symm⟩

/-- **C118.** After every history, the answer to `get_peers` lists exactly the connected peers whose handshake is complete and that
announced the services asked for, each with what it introduced itself with and when and from where the open connection was made. -/
theorem C118_peers {h : List Op} {m : Mgr} (r : Run cfg tr h m) (services : Nat) (v : View) :
    v ∈ m.getPeers services ↔
      m.isConnected v.addr = true ∧ ∃ s, Describes cfg tr h v s ∧ s.verack = true ∧ has s.v.services services = true := by
  have hx := view_iff r v (fun b => b = true)
  constructor
  · intro hv
    unfold Mgr.getPeers at hv
    obtain ⟨⟨i, c⟩, hm, rfl⟩ := List.mem_map.1 hv
    obtain ⟨hm, hs⟩ := List.mem_filter.1 hm
    obtain ⟨hm, hi⟩ := List.mem_filter.1 hm
    obtain ⟨h1, s, h2, h3⟩ := hx.1 ⟨i, c, hm, hi, rfl⟩
    exact ⟨h1, s, h2, h3, by rw [← h2.services]; exact hs⟩
  · rintro ⟨h1, s, h2, h3, h4⟩
    obtain ⟨i, c, hm, hi, e⟩ := hx.2 ⟨h1, s, h2, h3⟩
    unfold Mgr.getPeers
    refine List.mem_map.2 ⟨(i, c), List.mem_filter.2 ⟨List.mem_filter.2 ⟨hm, hi⟩, ?_⟩, e⟩
    have : i.services = v.services := by rw [← e]; rfl
    simp only [this, h2.services]
    exact h4

/-- **C118.** No peer is listed twice. -/
theorem C118_once {h : List Op} {m : Mgr} (r : Run cfg tr h m) (services : Nat) :
    ((m.getPeers services).map View.addr).Nodup := by
  have := versioned_nodup (run_list r).nodup (fun a c i hg => ((run_inv r).sess a c i hg).1)
  unfold Mgr.getPeers
  rw [List.map_map]
  exact ((List.filter_sublist.trans List.filter_sublist).map _).nodup this

/-- **C118.** A message is broadcast exactly to the connected peers that have introduced themselves and that the predicate selects — it is
asked about what they introduced themselves with — and the answer lists those. -/
theorem C118_broadcast_partial {h : List Op} {m : Mgr} (r : Run cfg tr h m) (pred : View → Bool) (a : Sock) :
    a ∈ m.broadcast pred ↔ m.isConnected a = true ∧ ∃ v s, v.addr = a ∧ Describes cfg tr h v s ∧ pred v = true := by
  have hx := fun v => view_iff r v (fun _ => True)
  unfold Mgr.broadcast
  constructor
  · intro hv
    obtain ⟨v, hm, rfl⟩ := List.mem_map.1 hv
    obtain ⟨hm, hp⟩ := List.mem_filter.1 hm
    obtain ⟨⟨i, c⟩, hm, e⟩ := List.mem_map.1 hm
    obtain ⟨h1, s, h2, -⟩ := (hx v).1 ⟨i, c, hm, trivial, e⟩
    exact ⟨h1, v, s, rfl, h2, hp⟩
  · rintro ⟨h1, v, s, rfl, h2, h3⟩
    obtain ⟨i, c, hm, -, e⟩ := (hx v).2 ⟨h1, s, h2, trivial⟩
    exact List.mem_map.2 ⟨v, List.mem_filter.2 ⟨List.mem_map.2 ⟨(i, c), hm, e⟩, h3⟩, rfl⟩

/-- **C118.** It is sent once to each of them. -/
theorem C118_broadcast_once {h : List Op} {m : Mgr} (r : Run cfg tr h m) (pred : View → Bool) : (m.broadcast pred).Nodup := by
  have := versioned_nodup (run_list r).nodup (fun a c i hg => ((run_inv r).sess a c i hg).1)
  unfold Mgr.broadcast
  rw [List.filter_map, List.map_map]
  exact (List.filter_sublist.map _).nodup this

/-- **C118.** Whoever `get_peers` lists is reached by a broadcast, if it is selected. -/
theorem C118_reached {h : List Op} {m : Mgr} (r : Run cfg tr h m) {services : Nat} {v : View} {pred : View → Bool}
    (hv : v ∈ m.getPeers services) (hp : pred v = true) : v.addr ∈ m.broadcast pred := by
  obtain ⟨h1, s, h2, -⟩ := (C118_peers r services v).1 hv
  exact (C118_broadcast_partial r pred v.addr).2 ⟨h1, v, s, rfl, h2, hp⟩

end Verif.Peer

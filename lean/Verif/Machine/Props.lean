import Verif.Machine.ReactorInv
import Verif.Machine.NoCrash

/-!
# Properties of the whole state machine (C108–C112)
-/

set_option autoImplicit false

namespace Verif.Machine
open Verif.Addr (Sock Ip NetAddr Known Source has)
open Verif.Chain (Header)

variable {cfg : Cfg} {U : Header → Prop} {fail : Bool} {P : Node.Hist → Node.Fsm → Node.Input → Node.Fsm → List Node.Out → Prop}
variable {z : Setup} {is : List Input} {h : Node.Hist} {e : Env} {s s' : State}

/-! ## C108 -/

/-- **C108.** In every execution of the whole state machine, each of its managers goes through one of the executions for which the other properties are proved: wired together, they
are not used in any other way. -/
theorem C108_parts (r : Run cfg U fail P z is h s) :
    Node.Run cfg.node U fail P z.tree h s.node ∧ (∃ hp, Peer.Run cfg.peer z.trusted hp s.peer) ∧ (∃ lp, Ping.Run z.pingTimeout lp s.ping) ∧
    ∃ la, Addr.Run cfg.addr z.book la s.addr :=
  ⟨run_node r, run_peer r, run_ping r, run_addr r⟩

/-- **C108.** Whatever happens, each manager is told exactly what concerns it: messages of connected peers with the right magic number, timers, commands, and the events of the other managers, which it hears about when they are
taken from the outbox, once. -/
theorem C108_told {i : Input} (hs : s.step cfg e i = .ok s') : Effect cfg e s i s' := step_effect hs

/-- **C108.** The same with the reactor: the state machine goes through an execution of its own, and the peer manager and the sockets go through one of the executions for
which C46 and C71 are proved. -/
theorem C108_reactor (inj : Function.Injective cfg.id) {y : Sys} (r : Sys.Reach cfg U fail z y) : ∃ is h, Run cfg U fail anyStep z is h y.s :=
  sys_run inj r

theorem C108_sockets {y : Sys} (r : Sys.Clean cfg U fail z y) :
    Peer.Net.Clean cfg.peer z.trusted { m := y.s.peer, reg := y.reg, dialing := y.dialing, pos := y.s.takenPeer, polling := y.polling } :=
  sys_net r

/-! ## C109 -/

/-- **C109.** The sync manager knows exactly the peers that were reported as negotiated and not reported as disconnected since (of those we connected to, only the ones that serve
blocks); the ping manager knows exactly those reported as negotiated and not as disconnected since. -/
theorem C109_exact (inj : Function.Injective cfg.id) (r : Run cfg U fail P z is h s) (a : Sock) :
    (s.node.sync.peers.get (cfg.id a) ≠ none ↔ Met a SyncPeer s.taken) ∧ (s.ping.peers.get (cfg.id a) ≠ none ↔ Met a AnyPeer s.taken) := by
  have g := run_agrees inj r
  have x : ∀ Q, Nums cfg Q s.taken (cfg.id a) ↔ Met a Q s.taken := fun Q =>
    ⟨fun ⟨c, h1, h2⟩ => by rw [← inj h1]; exact h2, fun h => ⟨a, rfl, h⟩⟩
  exact ⟨by rw [g.roster.sync, x], by rw [g.ping, x]⟩

/-- **C109.** The inventory manager and the filter manager know only such peers; the filter manager only those we connected to that serve compact filters. -/
theorem C109_known (inj : Function.Injective cfg.id) (r : Run cfg U fail P z is h s) (a : Sock) :
    (s.node.inv.peers.get (cfg.id a) ≠ none → Met a AnyPeer s.taken) ∧ (cfg.id a ∈ s.node.cbf.peers.keys → Met a FilterPeer s.taken) := by
  have g := run_agrees inj r
  constructor
  · intro h
    obtain ⟨c, h1, h2⟩ := g.roster.inv _ h
    rw [← inj h1]; exact h2
  · intro h
    obtain ⟨c, h1, h2⟩ := g.roster.cbf _ h
    rw [← inj h1]; exact h2

/-- **C109.** The managers know no other numbers. -/
theorem C109_addresses (inj : Function.Injective cfg.id) (r : Run cfg U fail P z is h s) {b : Nat} (k : s.Knows b) : ∃ a, cfg.id a = b ∧ Met a AnyPeer s.taken := by
  have g := run_agrees inj r
  have weaken : ∀ Q, Nums cfg Q s.taken b → Nums cfg AnyPeer s.taken b := by
    rintro Q ⟨a, h1, l1, n, l2, h2, -, h3⟩
    exact ⟨a, h1, l1, n, l2, h2, trivial, h3⟩
  rcases k with k | k | k | k
  · exact weaken _ ((g.roster.sync b).1 k)
  · exact g.roster.inv b k
  · exact weaken _ (g.roster.cbf b k)
  · exact (g.ping b).1 k

/-! ## C110 -/

/-- **C110.** Whatever happens, the requests for headers, blocks, filter headers and filters, and the announcements of transactions that are put out meanwhile, are addressed to peers
that were reported as negotiated and not as disconnected since; those for headers to peers known to serve blocks or that connected to us, those for filters and their headers
to peers we connected to that serve compact filters. -/
theorem C110_requests (inj : Function.Injective cfg.id) (r : Run cfg U fail P z is h s) {i : Input} (l : Legal U fail e i) (hs : s.step cfg e i = .ok s') :
    ∃ outs, s'.node.log = s.node.log ++ outs ∧ ∀ o ∈ outs,
      match o with
      | .sync (.getHeaders b _) => ∃ a, cfg.id a = b ∧ Met a SyncPeer s'.taken
      | .inv (.getBlock b _) => ∃ a, cfg.id a = b ∧ Met a AnyPeer s'.taken
      | .inv (.inv b _ _) => ∃ a, cfg.id a = b ∧ Met a AnyPeer s'.taken
      | .cbf (.getCFHeaders b _ _) => ∃ a, cfg.id a = b ∧ Met a FilterPeer s'.taken
      | .cbf (.getCFilters b _ _) => ∃ a, cfg.id a = b ∧ Met a FilterPeer s'.taken
      | _ => True := by
  obtain ⟨hp, rp⟩ := run_peer r
  obtain ⟨lp, rg⟩ := run_ping r
  obtain ⟨-, d, hd, ho⟩ := agrees_step inj (run_agrees inj r) rp rg l hs
  refine ⟨d, hd, fun o hm => ?_⟩
  have x := ho o hm
  split <;> first | exact x | trivial

/-! ## C111 -/

/-- **C111.** A peer that some manager keeps a record of has an established connection, or the report that it was lost is the next thing the managers hear about it.  Partial: in
executions in which no connection is asked for with an address whose socket is still open. -/
theorem C111_open_partial (inj : Function.Injective cfg.id) {y : Sys} (r : Sys.Clean cfg U fail z y) {b : Nat} (k : y.s.Knows b) :
    ∃ a, cfg.id a = b ∧ ((y.reg.contains a = true ∧ a ∉ y.dialing) ∨ ∃ d, .evDisconnected a d ∈ y.s.qPeer) := by
  obtain ⟨is, h, rr⟩ := sys_run inj r.reach
  obtain ⟨a, ha, l1, n, l2, hl, -, hd⟩ := C109_addresses inj rr k
  refine ⟨a, ha, ?_⟩
  by_cases hw : ∃ d, .evDisconnected a d ∈ y.s.qPeer
  · exact .inr hw
  · left
    have e : y.s.peer.out = y.s.taken ++ y.s.qPeer := (List.take_append_drop _ _).symm
    have hm : Met a AnyPeer y.net.m.out := by
      refine ⟨l1, n, l2 ++ y.s.qPeer, ?_, trivial, fun d hc => ?_⟩
      · show y.s.peer.out = _
        rw [e, hl]; simp
      · rcases List.mem_append.1 hc with hc | hc
        · exact hd d hc
        · exact hw ⟨d, hc⟩
    exact (Peer.C71_open_partial (sys_net r) a).1 (Peer.met_open (sys_net r) hm)

/-- **C111.** When all outputs of the peer manager have been processed, every peer that some manager keeps a record of has an established connection.  Partial: as above. -/
theorem C111_settled_partial (inj : Function.Injective cfg.id) {y : Sys} (r : Sys.Clean cfg U fail z y) (q : y.s.qPeer = []) {b : Nat} (k : y.s.Knows b) :
    ∃ a, cfg.id a = b ∧ y.reg.contains a = true ∧ a ∉ y.dialing := by
  obtain ⟨a, ha, h1 | ⟨d, h2⟩⟩ := C111_open_partial inj r k
  · exact ⟨a, ha, h1⟩
  · rw [q] at h2; simp at h2

/-! ## C112 -/

/-- **C112.** In a release build with retry times in order, an input makes the state machine panic only if it makes the sync manager, the inventory manager or the filter manager panic: peer manager, ping manager
and address manager never do, and nor does the wiring. -/
theorem C112_who {i : Input} (rel : cfg.peer.Release) (r : Run cfg U fail P z is h s) (l : Legal U fail e i)
    (hn : ∀ j, nodeInput cfg s i = some j → ∃ n, s.node.step cfg.node (e.at s.now) j = .ok n) : ∃ s', s.step cfg e i = .ok s' :=
  step_total rel r l hn

/-- **C112.** In a release build, no input makes the state machine panic, whatever happened before, if the active chain never became shorter, the filter store did not fail, heights fit
in 64 bits, the amounts in the blocks received make sense, and the input is not one of two that do make it panic.  (Missing: what these conditions exclude; see C102.) -/
theorem C112_no_crash_partial {g : Header} (rel : cfg.peer.Release) (hc : cfg.node.sync.chain.checked = false) (hc' : cfg.node.cbf.checked = false)
    (c : Node.Ctx cfg.node U fail z.tree g) (cf : Chain.CollisionFree cfg.node.sync.chain U) (r : Run cfg U fail P z is h s)
    (st : Node.Steady cfg.node U fail z.tree h s.node) {i : Input} (l : Legal U fail e i) (hf : e.node.cbf.fail = false) (hh : s.node.tree.height + 1 < 2 ^ 64)
    (hi : ∀ j, nodeInput cfg s i = some j → (Chain.importBlocks cfg.node.sync.chain s.node.tree j.batch).1.height < 2 ^ 64 ∧
      Node.Sane (fun b => Node.Sent b h ∨ j = .block b) ∧ Node.Careful s.node j) : ∃ s', s.step cfg e i = .ok s' :=
  step_total rel r l fun j hj => Node.C102_no_crash_partial hc hc' c cf st (node_legal l (nodeInput_batch l hj)) hf hh (hi j hj).1 (hi j hj).2.1 (hi j hj).2.2

/-- **C112**, re-orgs included: as above, but the active chain may become shorter by re-orgs, if the node's history is as in C102. -/
theorem C112_no_crash_reorg_partial {g : Header} (rel : cfg.peer.Release) (hc : cfg.node.sync.chain.checked = false) (hc' : cfg.node.cbf.checked = false)
    (c : Node.Ctx cfg.node U fail z.tree g) (cf : Chain.CollisionFree cfg.node.sync.chain U) (r : Run cfg U fail P z is h s)
    (st : Node.Orderly cfg.node U fail z.tree h s.node) {i : Input} (l : Legal U fail e i) (hf : e.node.cbf.fail = false) (hh : s.node.tree.height + 1 < 2 ^ 64)
    (hi : ∀ j, nodeInput cfg s i = some j → (j = .next ∨ Node.Delivered s.node) ∧ (Chain.importBlocks cfg.node.sync.chain s.node.tree j.batch).1.height < 2 ^ 64 ∧
      Node.Sane (fun b => Node.Sent b h ∨ j = .block b) ∧ Node.Careful s.node j) : ∃ s', s.step cfg e i = .ok s' :=
  step_total rel r l fun j hj => Node.C102_no_crash_reorg_partial hc hc' c cf st (hi j hj).1 (node_legal l (nodeInput_batch l hj)) hf hh (hi j hj).2.1
    (hi j hj).2.2.1 (hi j hj).2.2.2

end Verif.Machine

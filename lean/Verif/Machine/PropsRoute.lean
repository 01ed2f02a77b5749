import Verif.Machine.Props
import Verif.Machine.PropsAddrs
import Verif.Machine.ScenariosTried

/-!
# Properties of the whole state machine: who hears what (C134)

`C108_told` says what the managers are told in terms of the tables of the model (`Msg.node`, `Msg.pingOp`, `Msg.addrMsg`, `Msg.peer`, `negotiatedInput`, `reasonOf`, `complaint`).  Here it is
said message by message and event by event.
-/

set_option autoImplicit false

namespace Verif.Machine
open Verif.Addr (Sock Ip NetAddr Known Source)
open Verif.Chain (Header)

section
variable {cfg : Cfg} {U : Header → Prop} {fail : Bool} {P : Node.Hist → Node.Fsm → Node.Input → Node.Fsm → List Node.Out → Prop}
variable {z : Setup} {is : List Input} {h : Node.Hist} {e : Env} {s s' : State}

/-- What the parts of the state machine are told in one step, if anything: sync, inventory and filter managers; ping manager; address manager; peer manager. -/
structure Told (cfg : Cfg) (e : Env) (s : State) (node : Option Node.Input) (ping : Option Ping.Op) (addr : Option Addr.Op) (peer : Option Peer.Op) (s' : State) : Prop where
  node : match node with | none => s'.node = s.node | some j => s.node.step cfg.node (e.at s.now) j = .ok s'.node
  ping : match ping with | none => s'.ping = s.ping | some op => s'.ping = s.ping.step ⟨s.now, e.pingNonce, e.pingOrder⟩ op
  addr : match addr with | none => s'.addr = s.addr | some op => ∃ c, s.addr.step cfg.addr op = .ok (c, s'.addr)
  peer : match peer with | none => s'.peer = s.peer | some op => s.peer.step cfg.peer op = .ok s'.peer

/-- Who is told what about a message of a connected peer.  The address manager notes that the peer is active, whatever it sends. -/
def Reaches (cfg : Cfg) (e : Env) (s : State) (a : Sock) (s' : State) : Msg → Prop
  | .version v => Told cfg e s none none (some (.message e.addr s.now a .other)) (some (.message a true s.node.tree.height e.hook (.version v))) s'
  | .verack => Told cfg e s none none (some (.message e.addr s.now a .other)) (some (.message a true s.node.tree.height e.hook .verack)) s'
  | .wtxidRelay => Told cfg e s none none (some (.message e.addr s.now a .other)) (some (.message a true s.node.tree.height e.hook .wtxidRelay)) s'
  | .ping n => Told cfg e s none (some (.ping (cfg.id a) n)) (some (.message e.addr s.now a .other)) none s'
  | .pong n => Told cfg e s none (some (.pong (cfg.id a) n)) (some (.message e.addr s.now a .other)) none s'
  | .addr l => Told cfg e s none none (some (.message e.addr s.now a (.addr l))) none s'
  | .getAddr => Told cfg e s none none (some (.message e.addr s.now a .getAddr)) none s'
  | .headers hs => Told cfg e s (some (.headers (cfg.id a) hs)) none (some (.message e.addr s.now a .other)) none s'
  | .getheaders l => Told cfg e s (some (.getheaders (cfg.id a) l)) none (some (.message e.addr s.now a .other)) none s'
  | .inv items => Told cfg e s (some (.invs (cfg.id a) items)) none (some (.message e.addr s.now a .other)) none s'
  | .block b => Told cfg e s (some (.block b)) none (some (.message e.addr s.now a .other)) none s'
  | .getdata items => Told cfg e s (some (.getdata (cfg.id a) items)) none (some (.message e.addr s.now a .other)) none s'
  | .cfheaders m => Told cfg e s (some (.cfheaders (cfg.id a) m)) none (some (.message e.addr s.now a .other)) none s'
  | .getcfheaders t b e' => Told cfg e s (some (.getcfheaders (cfg.id a) t b e')) none (some (.message e.addr s.now a .other)) none s'
  | .cfilter t b f => Told cfg e s (some (.cfilter (cfg.id a) t b f)) none (some (.message e.addr s.now a .other)) none s'
  | .other => Told cfg e s none none (some (.message e.addr s.now a .other)) none s'

/-- **C134.** A message of a connected peer reaches the managers it is for, unchanged and with its sender, and no other. -/
theorem C134_message {a : Sock} {msg : Msg} (hc : s.peer.isConnected a = true) (hs : s.step cfg e (.message a true msg) = .ok s') : Reaches cfg e s a s' msg := by
  have ef := step_effect hs
  obtain ⟨m, src, h1, h2, h3⟩ := step_addrEffect hs
  have hn := ef.node
  have hp := ef.ping
  simp only [drawsFor, Bool.false_eq_true, if_false] at h2
  obtain ⟨rfl, h2⟩ := h2
  simp only [addrInput, hc, Bool.and_self, if_true, ← h2] at h1
  simp only [nodeInput, pingInput, hc, Bool.and_self, if_true] at hn hp
  simp only [peerInput, hc, if_true] at h3
  cases msg <;> exact ⟨hn, hp, h1, h3⟩

/-- **C134.** A message of somebody who is not connected changes nothing; one for another network is for the peer manager only (which disconnects the peer: C44). -/
theorem C134_stranger {a : Sock} {msg : Msg} (hc : s.peer.isConnected a = false) (hs : s.step cfg e (.message a true msg) = .ok s') : s' = s := by
  simp only [State.step, State.message, hc, Bool.true_eq_false, if_false, if_true, Res.ok.injEq] at hs
  exact hs.symm

theorem C134_network {a : Sock} {msg : Msg} (hs : s.step cfg e (.message a false msg) = .ok s') :
    Told cfg e s none none none (some (.message a false s.node.tree.height e.hook .verack)) s' := by
  simp only [State.step, State.message, if_true] at hs
  obtain ⟨m, hm, rfl⟩ := callPeer_ok hs
  exact ⟨rfl, rfl, rfl, hm⟩

theorem has_bit (sv i : Nat) : Addr.has sv (2 ^ i) = sv.testBit i := by
  have h := Addr.has_iff sv (2 ^ i)
  cases hb : sv.testBit i with
  | true =>
    refine h.2 fun j hj => ?_
    rw [Nat.testBit_two_pow] at hj
    rw [← of_decide_eq_true hj]; exact hb
  | false =>
    rw [Bool.eq_false_iff]
    intro hx
    have := h.1 hx i (by rw [Nat.testBit_two_pow]; exact decide_eq_true rfl)
    rw [hb] at this; cases this

/-- **C134.** When a completed handshake is reported, everybody hears of it: the node with the height the peer announced, whether we connected to it, and whether it serves blocks (the first
bit of its services) and compact filters (the seventh). -/
theorem C134_negotiated {a : Sock} {n : Peer.Negotiated} {q : List Peer.Out} (hq : s.qPeer = .evNegotiated a n :: q) (hs : s.step cfg e .next = .ok s') :
    Told cfg e s (some (.negotiated (cfg.id a) n.height (n.link == .outbound) (n.services.testBit 0) (n.services.testBit 6) n.relay n.wtxid n.persistent)) (some (.negotiated (cfg.id a)))
      (some (.negotiated s.now a n.services (n.link == .outbound) n.receiver.sock)) none s' := by
  have ef := step_effect hs
  obtain ⟨m, src, h1, h2, h3⟩ := step_addrEffect hs
  have hn := ef.node
  have hp := ef.ping
  simp only [drawsFor, Bool.false_eq_true, if_false] at h2
  obtain ⟨rfl, h2⟩ := h2
  simp only [addrInput, hq, ← h2] at h1
  simp only [nodeInput, pingInput, hq, negotiatedInput] at hn hp
  simp only [peerInput, nodeTurn, hq, Option.bind_none] at h3
  rw [show svcNetwork = 2 ^ 0 from rfl, show svcFilters = 2 ^ 6 from rfl, has_bit, has_bit] at hn
  exact ⟨hn, hp, h1, h3⟩

/-- What the address manager is told about the reason of a disconnection: whether it could not be opened, failed, or was closed by us, for a reason that may go away or not. -/
def Why : Peer.Disc → Addr.Reason → Prop
  | .dial, r => r = .dial
  | .connection, r => r = .other
  | .machine d, r => ((d = .connectionLimit ∨ (∃ w, d = .timeout w) ∨ ∃ k, d = .height k) ∧ r = .transient) ∨
      (¬ (d = .connectionLimit ∨ (∃ w, d = .timeout w) ∨ ∃ k, d = .height k) ∧ r = .permanent)

/-- **C134.** When the end of a connection is reported, everybody hears of it. -/
theorem C134_disconnected {a : Sock} {d : Peer.Disc} {q : List Peer.Out} (hq : s.qPeer = .evDisconnected a d :: q) (hs : s.step cfg e .next = .ok s') :
    ∃ r, Why d r ∧ Told cfg e s (some (.disconnected (cfg.id a))) (some (.disconnected (cfg.id a))) (some (.disconnected a r)) none s' := by
  have ef := step_effect hs
  obtain ⟨m, src, h1, h2, h3⟩ := step_addrEffect hs
  have hn := ef.node
  have hp := ef.ping
  simp only [drawsFor, Bool.false_eq_true, if_false] at h2
  obtain ⟨rfl, h2⟩ := h2
  simp only [addrInput, hq, ← h2] at h1
  simp only [nodeInput, pingInput, hq] at hn hp
  simp only [peerInput, nodeTurn, hq, Option.bind_none] at h3
  refine ⟨reasonOf d, ?_, hn, hp, h1, h3⟩
  cases d with
  | machine x => cases x <;> simp [Why, reasonOf]
  | _ => rfl

/-- **C134.** An attempt to connect and a new connection concern the address manager only. -/
theorem C134_connecting {a : Sock} {so : Source} {sv : Nat} {q : List Peer.Out} (hq : s.qPeer = .evConnecting a so sv :: q) (hs : s.step cfg e .next = .ok s') :
    Told cfg e s none none (some (.attempted s.now a)) none s' := by
  have ef := step_effect hs
  obtain ⟨m, src, h1, h2, h3⟩ := step_addrEffect hs
  have hn := ef.node
  have hp := ef.ping
  simp only [drawsFor, Bool.false_eq_true, if_false] at h2
  obtain ⟨rfl, h2⟩ := h2
  simp only [addrInput, hq, ← h2] at h1
  simp only [nodeInput, pingInput, hq] at hn hp
  simp only [peerInput, nodeTurn, hq, Option.bind_none] at h3
  exact ⟨hn, hp, h1, h3⟩

theorem C134_connected {a loc : Sock} {link : Peer.Link} {q : List Peer.Out} (hq : s.qPeer = .evConnected a loc link :: q) (hs : s.step cfg e .next = .ok s') :
    Told cfg e s none none (some (.connected a)) none s' := by
  have ef := step_effect hs
  obtain ⟨m, src, h1, h2, h3⟩ := step_addrEffect hs
  have hn := ef.node
  have hp := ef.ping
  simp only [drawsFor, Bool.false_eq_true, if_false] at h2
  obtain ⟨rfl, h2⟩ := h2
  simp only [addrInput, hq, ← h2] at h1
  simp only [nodeInput, pingInput, hq] at hn hp
  simp only [peerInput, nodeTurn, hq, Option.bind_none] at h3
  exact ⟨hn, hp, h1, h3⟩

/-- The events of the node about which the peer manager does something: a peer did not answer (inventory manager), a peer misbehaved (sync manager, filter manager). -/
def Complains (cfg : Cfg) (o : Node.Out) (op : Option Peer.Op) : Prop :=
  match o with
  | .inv (.timedOut b) => op = some (.timedOut (cfg.sock b))
  | .sync (.misbehaved b) => op = some (.misbehaved (cfg.sock b))
  | .cbf (.event (.peerMisbehaved b)) => op = some (.misbehaved (cfg.sock b))
  | _ => op = none

/-- **C134.** When it is the turn of the sync, inventory and filter managers, an output of theirs is taken; if it says that a peer misbehaved or did not answer, the peer manager is told. -/
theorem C134_complaint {o : Node.Out} {q : List Node.Out} (hq : s.qPeer = []) (hturn : s.node.qSync ≠ [] ∨ s.node.qInv ≠ [] ∨ (s.qPing = [] ∧ s.qAddr = []))
    (ho : s.node.qSync.map .sync ++ s.node.qInv.map .inv ++ s.node.qCbf = o :: q) (hs : s.step cfg e .next = .ok s') :
    ∃ op, Complains cfg o op ∧ Told cfg e s (some .next) none none op s' := by
  have ef := step_effect hs
  obtain ⟨m, src, h1, h2, h3⟩ := step_addrEffect hs
  have hn := ef.node
  have hp := ef.ping
  simp only [drawsFor, Bool.false_eq_true, if_false] at h2
  obtain ⟨rfl, h2⟩ := h2
  have hno : ¬ (s.node.qSync = [] ∧ s.node.qInv = [] ∧ (s.qPing ≠ [] ∨ s.qAddr ≠ [])) := by
    rintro ⟨h1, h2, h3⟩
    rcases hturn with h | h | ⟨h, h'⟩
    · exact h h1
    · exact h h2
    · rcases h3 with h3 | h3
      · exact h3 h
      · exact h3 h'
  have hhead : nodeHead s.node = some o := by
    unfold nodeHead
    cases hqs : s.node.qSync with
    | cons x y => rw [hqs] at ho; simp at ho; simp [ho.1]
    | nil =>
      cases hqi : s.node.qInv with
      | cons x y => rw [hqs, hqi] at ho; simp at ho; simp [ho.1]
      | nil => rw [hqs, hqi] at ho; simp at ho; simp [ho]
  simp only [addrInput, hq, ← h2] at h1
  simp only [nodeInput, pingInput, hq, if_neg hno] at hn hp
  simp only [peerInput, nodeTurn, hq, if_neg hno, hhead, Option.bind_some] at h3
  refine ⟨complaint cfg o, ?_, hn, hp, h1, ?_⟩
  · unfold Complains
    split <;> first | rfl | skip
    rename_i n1 n2 n3
    unfold complaint
    split
    · exact absurd rfl (n1 _)
    · exact absurd rfl (n2 _)
    · exact absurd rfl (n3 _)
    · rfl
  · cases hx : complaint cfg o with
    | none => simp only [hx, Option.map_none] at h3; exact h3
    | some op => simp only [hx, Option.map_some] at h3; exact h3

/-- **C134.** A ping of a peer with a completed handshake (and not reported as disconnected since) is answered at once, exactly once and with its number; a ping of anybody else is not
answered. -/
theorem C134_pong (inj : Function.Injective cfg.id) (r : Run cfg U fail P z is h s) {a : Sock} {n : Nat} (hc : s.peer.isConnected a = true)
    (hs : s.step cfg e (.message a true (.ping n)) = .ok s') :
    (Met a AnyPeer s.taken → s'.ping.out = s.ping.out ++ [.pong (cfg.id a) n]) ∧ (¬ Met a AnyPeer s.taken → s'.ping.out = s.ping.out) := by
  have ht := (C134_message hc hs).ping
  simp only [Ping.Mgr.step, Ping.Mgr.ping] at ht
  have hm := (C109_exact inj r a).2
  constructor
  · intro h
    have : s.ping.peers.contains (cfg.id a) = true := by
      unfold AMap.contains
      exact Option.isSome_iff_ne_none.2 (hm.2 h)
    rw [ht, if_pos this]
  · intro h
    have : ¬ s.ping.peers.contains (cfg.id a) = true := by
      unfold AMap.contains
      rw [Option.isSome_iff_ne_none]
      exact fun hx => h (hm.1 hx)
    rw [ht, if_neg this]

/-- **C134.** A connected peer that asks for addresses gets at most 255 of them, in one message. -/
theorem C134_addresses (r : Run cfg U fail P z is h s) {a : Sock} (hc : s.peer.isConnected a = true) (l : Legal U fail e (.message a true .getAddr))
    (hs : s.step cfg e (.message a true .getAddr) = .ok s') :
    ∃ as, s'.addr.out = s.addr.out ++ [.addr a as] ∧ as.length ≤ 255 ∧ ∀ x ∈ as, ∃ ip ka, s'.addr.peers.get ip = some ka ∧ x.2 = ka.addr := by
  obtain ⟨c, ht⟩ := (C134_message hc hs).addr
  obtain ⟨la, ra⟩ := run_addr r
  exact Addr.C69_answer ra e.addr l.addr s.now a ht

end
end Verif.Machine

namespace Verif.Machine.Scenario.Book
open Verif.Peer.Scenario (a b)
open Verif.Node.Crash (U)

/-- What waits first. -/
def first : List Peer.Out → Nat
  | .evConnecting .. :: _ => 1
  | .evConnected .. :: _ => 2
  | .evNegotiated .. :: _ => 3
  | .evDisconnected .. :: _ => 4
  | _ => 0

/-- The state in which something waits first, after taking outputs. -/
def until_ (k : Nat) : Nat → State → Option State
  | 0, _ => none
  | n + 1, s => if first s.qPeer = k then some s else (take s .next).bind (until_ k n)

theorem until_path {k : Nat} : ∀ {n : Nat} {s s' : State}, until_ k n s = some s' → Relation.ReflTransGen (Next conf U false) s s' ∧ first s'.qPeer = k
  | 0, s, s', h => by cases h
  | n + 1, s, s', h => by
    simp only [until_] at h
    split at h
    · rename_i hk
      simp only [Option.some.injEq] at h
      subst h
      exact ⟨.refl, hk⟩
    · obtain ⟨s1, h1, h2⟩ := Option.bind_eq_some_iff.1 h
      exact ⟨.head ⟨env, .next, take_ok h1⟩ (until_path h2).1, (until_path h2).2⟩

/-- A connection is established. -/
def shaken : List Input := List.replicate 20 .next ++ .connect a :: List.replicate 20 .next ++
  [.attempted a, .connected a Peer.Scenario.loc .outbound, .message a true (.version version), .message a true .verack]

/-- It breaks. -/
def torn : List Input := shaken ++ [.disconnected a .connection]

theorem waits : ((after torn).bind fun s => (until_ 1 20 s).bind fun s => (take s .next).map fun _ => ()) = some () ∧
    ((after torn).bind fun s => (until_ 2 20 s).bind fun s => (take s .next).map fun _ => ()) = some () ∧
    ((after torn).bind fun s => (until_ 3 20 s).bind fun s => (take s .next).map fun _ => ()) = some () ∧
    ((after torn).bind fun s => (until_ 4 20 s).bind fun s => (take s .next).map fun _ => ()) = some () := by decide +kernel

theorem waits_run {l : List Input} {k : Nat} (h : ((after l).bind fun s => (until_ k 20 s).bind fun s => (take s .next).map fun _ => ()) = some ()) :
    ∃ is hist s s', Run conf U false anyStep setup is hist s ∧ first s.qPeer = k ∧ s.step conf env .next = .ok s' := by
  obtain ⟨s, h1, h2⟩ := Option.bind_eq_some_iff.1 h
  obtain ⟨s1, h3, h4⟩ := Option.bind_eq_some_iff.1 h2
  obtain ⟨s2, h5, -⟩ := Option.map_eq_some_iff.1 h4
  obtain ⟨is, hist, r⟩ := after_run h1
  obtain ⟨is', hist', r'⟩ := next_run number_injective r (until_path h3).1
  exact ⟨is', hist', s1, s2, r', (until_path h3).2, (take_ok h5).2⟩

/-- The hypotheses of `C134_connecting`, `C134_connected`, `C134_negotiated` and `C134_disconnected` are met. -/
example : (∃ is hist s s' c so sv q, Run conf U false anyStep setup is hist s ∧ s.qPeer = .evConnecting c so sv :: q ∧ s.step conf env .next = .ok s') ∧
    (∃ is hist s s' c l k q, Run conf U false anyStep setup is hist s ∧ s.qPeer = .evConnected c l k :: q ∧ s.step conf env .next = .ok s') ∧
    (∃ is hist s s' c n q, Run conf U false anyStep setup is hist s ∧ s.qPeer = .evNegotiated c n :: q ∧ s.step conf env .next = .ok s') ∧
    (∃ is hist s s' c d q, Run conf U false anyStep setup is hist s ∧ s.qPeer = .evDisconnected c d :: q ∧ s.step conf env .next = .ok s') := by
  refine ⟨?_, ?_, ?_, ?_⟩
  · obtain ⟨is, hist, s, s', r, hf, hs⟩ := waits_run waits.1
    unfold first at hf
    split at hf
    · exact ⟨is, hist, s, s', _, _, _, _, r, by assumption, hs⟩
    all_goals cases hf
  · obtain ⟨is, hist, s, s', r, hf, hs⟩ := waits_run waits.2.1
    unfold first at hf
    split at hf
    · cases hf
    · exact ⟨is, hist, s, s', _, _, _, _, r, by assumption, hs⟩
    all_goals cases hf
  · obtain ⟨is, hist, s, s', r, hf, hs⟩ := waits_run waits.2.2.1
    unfold first at hf
    split at hf
    · cases hf
    · cases hf
    · exact ⟨is, hist, s, s', _, _, _, r, by assumption, hs⟩
    all_goals cases hf
  · obtain ⟨is, hist, s, s', r, hf, hs⟩ := waits_run waits.2.2.2
    unfold first at hf
    split at hf
    · cases hf
    · cases hf
    · cases hf
    · exact ⟨is, hist, s, s', _, _, _, r, by assumption, hs⟩
    · cases hf

/-- The hypotheses of `C134_message`, `C134_pong` and `C134_addresses` are met: a connected peer sends a ping, which is answered, and asks for addresses; and of `C134_stranger` and
`C134_network`. -/
example : ∃ is hist s s1 s2 s3 s4, Run conf U false anyStep setup is hist s ∧ s.peer.isConnected a = true ∧ s.step conf env (.message a true (.ping 9)) = .ok s1 ∧
    s1.ping.out = s.ping.out ++ [.pong (number a) 9] ∧ Legal U false env (.message a true .getAddr) ∧ s.step conf env (.message a true .getAddr) = .ok s2 ∧
    s.peer.isConnected b = false ∧ s.step conf env (.message b true (.ping 9)) = .ok s3 ∧ s.step conf env (.message a false (.ping 9)) = .ok s4 := by
  have hx : ((after linkUp).bind fun s => (take s (.message a true (.ping 9))).bind fun s1 => (take s (.message a true .getAddr)).bind fun s2 =>
      (take s (.message b true (.ping 9))).bind fun s3 => (take s (.message a false (.ping 9))).map fun s4 =>
      (s.peer.isConnected a && !s.peer.isConnected b, decide (s1.ping.out = s.ping.out ++ [.pong (number a) 9]))) = some (true, true) := by decide +kernel
  obtain ⟨s, h1, h2⟩ := Option.bind_eq_some_iff.1 hx
  obtain ⟨s1, h3, h4⟩ := Option.bind_eq_some_iff.1 h2
  obtain ⟨s2, h5, h6⟩ := Option.bind_eq_some_iff.1 h4
  obtain ⟨s3, h7, h8⟩ := Option.bind_eq_some_iff.1 h6
  obtain ⟨s4, h9, h10⟩ := Option.map_eq_some_iff.1 h8
  simp only [Prod.mk.injEq, decide_eq_true_eq, Bool.and_eq_true, Bool.not_eq_true'] at h10
  obtain ⟨is, hist, r⟩ := after_run h1
  exact ⟨is, hist, s, s1, s2, s3, s4, r, h10.1.1, (take_ok h3).2, h10.2, (take_ok h5).1, (take_ok h5).2, h10.1.2, (take_ok h7).2, (take_ok h9).2⟩

end Verif.Machine.Scenario.Book

namespace Verif.Machine.Scenario
open Verif.Peer.Scenario (a b)
open Verif.Node.Crash (U)

/-- A filter of the first peer does not match its filter header. -/
def untilBlame : Nat → State → Option State
  | 0, _ => none
  | n + 1, s =>
    if decide (s.qPeer = []) && decide (s.qPing = []) && decide (s.qAddr = []) && decide (s.node.qSync = []) && decide (s.node.qInv = []) &&
      decide (s.node.qCbf.head? = some (.cbf (.event (.peerMisbehaved (number a))))) then some s
    else (take s .next).bind (untilBlame n)

theorem untilBlame_spec : ∀ {n : Nat} {s s' : State}, untilBlame n s = some s' → Relation.ReflTransGen (Next conf U false) s s' ∧
    s'.qPeer = [] ∧ s'.qPing = [] ∧ s'.qAddr = [] ∧ s'.node.qSync = [] ∧ s'.node.qInv = [] ∧ s'.node.qCbf.head? = some (.cbf (.event (.peerMisbehaved (number a))))
  | 0, s, s', h => by cases h
  | n + 1, s, s', h => by
    simp only [untilBlame] at h
    split at h
    · rename_i hk
      simp only [Bool.and_eq_true, decide_eq_true_eq] at hk
      simp only [Option.some.injEq] at h
      subst h
      exact ⟨.refl, hk.1.1.1.1.1, hk.1.1.1.1.2, hk.1.1.1.2, hk.1.1.2, hk.1.2, hk.2⟩
    · obtain ⟨s1, h1, h2⟩ := Option.bind_eq_some_iff.1 h
      exact ⟨.head ⟨env, .next, take_ok h1⟩ (untilBlame_spec h2).1, (untilBlame_spec h2).2⟩

theorem blame_turn : ((after true (blame b 66)).bind fun y => (untilBlame 30 y.s).bind fun s => (take s .next).map fun _ => ()) = some () := by decide +kernel

/-- The hypotheses of `C134_complaint` are met: a peer misbehaved, and it is the turn of the report. -/
example : ∃ is hist s s' q, Run conf U false anyStep setup is hist s ∧ s.qPeer = [] ∧ (s.node.qSync ≠ [] ∨ s.node.qInv ≠ [] ∨ (s.qPing = [] ∧ s.qAddr = [])) ∧
    s.node.qSync.map .sync ++ s.node.qInv.map .inv ++ s.node.qCbf = .cbf (.event (.peerMisbehaved (number a))) :: q ∧ s.step conf env .next = .ok s' := by
  obtain ⟨y, h1, h2⟩ := Option.bind_eq_some_iff.1 blame_turn
  obtain ⟨s, h3, h4⟩ := Option.bind_eq_some_iff.1 h2
  obtain ⟨s', h5, -⟩ := Option.map_eq_some_iff.1 h4
  obtain ⟨is, hist, r⟩ := C108_reactor number_injective (after_clean h1).reach
  obtain ⟨hp, q1, q2, q3, q4, q5, q6⟩ := untilBlame_spec h3
  obtain ⟨is', hist', r'⟩ := next_run number_injective r hp
  obtain ⟨q, hq⟩ : ∃ q, s.node.qCbf = .cbf (.event (.peerMisbehaved (number a))) :: q := by
    cases hq : s.node.qCbf with
    | nil => rw [hq] at q6; cases q6
    | cons x q => rw [hq] at q6; simp only [List.head?_cons, Option.some.injEq] at q6; exact ⟨q, by rw [q6]⟩
  exact ⟨is', hist', s, s', q, r', q1, .inr (.inr ⟨q2, q3⟩), by rw [q4, q5, hq]; rfl, (take_ok h5).2⟩

end Verif.Machine.Scenario

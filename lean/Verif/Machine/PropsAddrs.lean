import Verif.Machine.Addrs
import Verif.Machine.ReactorInv
import Mathlib.Logic.Relation

/-!
# Properties of the whole state machine: addresses (C68, C115, C116)
-/

set_option autoImplicit false

namespace Verif.Machine
open Verif.Addr (Sock Ip NetAddr Known Source has domainOf isRoutable isLocal addrKey)
open Verif.Chain (Header)
open Relation (ReflTransGen)

variable {cfg : Cfg} {U : Header → Prop} {fail : Bool} {P : Node.Hist → Node.Fsm → Node.Input → Node.Fsm → List Node.Out → Prop}
variable {z : Setup} {is : List Input} {h : Node.Hist} {e : Env} {s s' : State}

/-- **C108**, for the address manager: it is told about connections when the events are taken, about messages of connected peers and about timers; and the peer manager gets the addresses that
were drawn. -/
theorem C108_told_addr {i : Input} (hs : s.step cfg e i = .ok s') : AddrEffect cfg e s i s' := step_addrEffect hs

/-! ## C115 -/

/-- The address was drawn from the address book, which was in state `m` then. -/
def DrawnFrom (cfg : Cfg) (m : Addr.Mgr) (a : Sock) : Prop :=
  ∃ time pred ip ka, m.lastIdle = some time ∧ Addr.Usable cfg.addr m time pred ip ka ∧ ka.addr.sock = some a

theorem dialed_draws {i : Input} (r : Run cfg U fail P z is h s) (l : Legal U fail e i) (hs : s.step cfg e i = .ok s') {a : Sock}
    (ho : .connect a ∈ Peer.added s.peer s'.peer) :
    domainOf a ∈ cfg.peer.domains ∧ (a ∈ cfg.peer.persistent ∨ i = .connect a ∨
      (cfg.peer.persistent = [] ∧ ∃ x m ea pred c m', Addr.Steps cfg.addr s.addr x m ∧ Calm x ∧ ea.Fair ∧
        m.step cfg.addr (.sample ea pred) = .ok (some c, m') ∧ c.1.sock = some a)) := by
  obtain ⟨hp, rp⟩ := run_peer r
  obtain ⟨m, src, h1, h2, h3⟩ := step_addrEffect hs
  cases hi : peerInput cfg e s i with
  | none =>
    simp only [hi] at h3
    rw [h3, Peer.added_self] at ho
    simp at ho
  | some op =>
    simp only [hi] at h3
    have lg : (op src).Legal := peer_legal l hi src
    obtain ⟨hd, hx⟩ := Peer.C115_dialed rp lg h3 ho
    refine ⟨hd, ?_⟩
    rcases hx with hx | hx | ⟨hx, c, hc, hcs⟩
    · exact .inl hx
    · right; left
      cases i with
      | connect b =>
        simp only [peerInput, Option.some.injEq] at hi
        subst hi
        cases hx
        rfl
      | next =>
        simp only [peerInput, Option.bind_eq_some_iff, Option.map_eq_some_iff] at hi
        obtain ⟨o, -, x, hx', rfl⟩ := hi
        have hx : x = .cmdConnect a := hx
        rw [hx] at hx'
        unfold complaint at hx'
        split at hx' <;> simp at hx'
      | message b ok msg =>
        cases ok with
        | false => simp only [peerInput, Option.some.injEq] at hi; subst hi; cases hx
        | true =>
          simp only [peerInput] at hi
          split at hi
          · simp only [Option.map_eq_some_iff] at hi
            obtain ⟨y, -, rfl⟩ := hi
            cases hx
          · cases hi
      | _ => simp only [peerInput, Option.some.injEq] at hi <;> first | (cases hi; done) | (subst hi; cases hx)
    · right; right
      refine ⟨hx, ?_⟩
      have hdr : drawsFor i = true ∧ (op src).drawn = src := by
        cases i with
        | next =>
          simp only [peerInput, Option.bind_eq_some_iff, Option.map_eq_some_iff] at hi
          obtain ⟨o, -, x, hx', rfl⟩ := hi
          unfold complaint at hx'
          split at hx' <;> simp at hx' <;> (subst hx'; simp [Peer.Op.drawn] at hc)
        | message b ok msg =>
          cases ok with
          | false => simp only [peerInput, Option.some.injEq] at hi; subst hi; simp [Peer.Op.drawn] at hc
          | true =>
            simp only [peerInput] at hi
            split at hi
            · simp only [Option.map_eq_some_iff] at hi
              obtain ⟨y, -, rfl⟩ := hi
              simp [Peer.Op.drawn] at hc
            · cases hi
        | timer => simp only [peerInput, Option.some.injEq] at hi; subst hi; exact ⟨rfl, rfl⟩
        | disconnected b d => simp only [peerInput, Option.some.injEq] at hi; subst hi; exact ⟨rfl, rfl⟩
        | _ => simp only [peerInput, Option.some.injEq] at hi <;> first | (cases hi; done) | (subst hi; simp [Peer.Op.drawn] at hc)
      rw [if_pos hdr.1] at h2
      rw [hdr.2] at hc
      obtain ⟨-, -, -, hall⟩ := draw_heard l.draws h2
      obtain ⟨y, m1, ea, pred, m2, g1, g2, g3, g4⟩ := hall c hc
      have first : ∃ x, Addr.Steps cfg.addr s.addr x m ∧ Calm x := by
        cases hai : addrInput e s i with
        | none => simp only [hai] at h1; subst h1; exact ⟨[], .refl, calm_nil⟩
        | some aop =>
          simp only [hai] at h1
          obtain ⟨c', h1⟩ := h1
          refine ⟨[(aop, c')], .step .refl (addrInput_fair l hai) h1, ?_⟩
          cases i with
          | timer => simp only [addrInput, Option.some.injEq] at hai; subst hai; exact ⟨rfl, fun en h ip => by rw [List.mem_singleton.1 h]; exact id⟩
          | disconnected b d => simp [addrInput] at hai
          | _ => simp [drawsFor] at hdr
      obtain ⟨x, hx1, hx2⟩ := first
      exact ⟨_, m1, ea, pred, c, m2, addr_steps_trans hx1 g1, g2.append hx2, g3, g4, hcs⟩

/-- **C115.** Whatever happens, the client asks for connections only with addresses of allowed domains that are configured, that the user asked for, or, if none are configured, that are in its
address book and usable: not tried without success, not just drawn, with no peer there as far as the address manager knows. -/
theorem C115_only {i : Input} (r : Run cfg U fail P z is h s) (l : Legal U fail e i) (hs : s.step cfg e i = .ok s') {a : Sock}
    (ho : .connect a ∈ Peer.added s.peer s'.peer) :
    domainOf a ∈ cfg.peer.domains ∧ (a ∈ cfg.peer.persistent ∨ i = .connect a ∨ (cfg.peer.persistent = [] ∧ ∃ x m, Addr.Steps cfg.addr s.addr x m ∧ DrawnFrom cfg m a)) := by
  obtain ⟨h1, h2⟩ := dialed_draws r l hs ho
  refine ⟨h1, h2.imp_right (Or.imp_right ?_)⟩
  rintro ⟨hp, x, m, ea, pred, ⟨na, src⟩, m', g1, -, g3, g4, g5⟩
  obtain ⟨la, m0, h0, hl⟩ := run_addr r
  obtain ⟨time, ip, ka, k1, k2, k3, -⟩ := Addr.C41_sampled_partial ⟨m0, h0, addr_steps_trans hl g1⟩ ea g3 pred g4
  exact ⟨hp, x, m, g1, time, pred, ip, ka, k1, k2, by rw [k3]; exact g5⟩

/-- **C115.** The same at the start. -/
theorem C115_start {now : Nat} {f : Cbf.FilterHeaders} {c : Nat} {ea : Addr.Env} {m : Addr.Mgr} (fa : ea.Fair) (nd : z.book.keys.Nodup) (hm : Addr.Mgr.new z.book ea = .ok m)
    (l : Legal U fail e .timer) (hs : (State.new (Node.Fsm.new z.tree f c) m z.trusted z.pingTimeout).init cfg e now = .ok s') {a : Sock}
    (ho : .connect a ∈ s'.peer.out) :
    domainOf a ∈ cfg.peer.domains ∧ (a ∈ cfg.peer.persistent ∨ (cfg.peer.persistent = [] ∧ ∃ x m', Addr.Steps cfg.addr (m.idle now e.saved) x m' ∧ DrawnFrom cfg m' a)) := by
  obtain ⟨s1, h1, hs⟩ := bind_ok hs
  obtain ⟨s2, h2, hs⟩ := bind_ok hs
  obtain ⟨mp, hmp, rfl⟩ := callPeer_ok h1
  obtain ⟨n, hn, rfl⟩ := callNode_ok h2
  obtain ⟨src, ma, pp, hd, hp, rfl⟩ := callDraw_ok hs
  obtain ⟨-, -, -, hall⟩ := draw_heard l.draws hd
  have r0 : Peer.Run cfg.peer z.trusted [.tick now] mp := .step .start trivial hmp
  have hout : mp.out = [] := by
    simp only [Peer.Mgr.step, Res.ok.injEq] at hmp
    rw [← hmp]; rfl
  have ho' : .connect a ∈ Peer.added mp pp := by simpa [Peer.added, hout] using ho
  obtain ⟨k1, k2⟩ := Peer.C115_dialed r0 (show (Peer.Op.init src).Legal from trivial) hp ho'
  refine ⟨k1, ?_⟩
  rcases k2 with k2 | k2 | ⟨k2, ⟨na, so⟩, hc, hcs⟩
  · exact .inl k2
  · cases k2
  · obtain ⟨y, m1, ea', pred, m2, g1, -, g3, g4⟩ := hall _ hc
    have ra : Addr.Run cfg.addr z.book y m1 := ⟨_, ⟨nd, ea, m, now, e.saved, fa, hm, rfl⟩, g1⟩
    obtain ⟨time, ip, ka, q1, q2, q3, -⟩ := Addr.C41_sampled_partial ra ea' g3 pred g4
    exact .inr ⟨k2, y, m1, g1, time, pred, ip, ka, q1, q2, by rw [q3]; exact hcs⟩

/-- **C115.** An address that is dialed automatically has an IP address with which no connection is open.  Partial: as long as there is at most one connection per IP address (and the address
book at the start was in order). -/
theorem C115_fresh_partial (hb : Addr.Sound z.book) {i : Input} (r : Run cfg U fail P z is h s) (l : Legal U fail e i) (hs : s.step cfg e i = .ok s') (one : OneIp s.taken) {a : Sock}
    (ho : .connect a ∈ Peer.added s.peer s'.peer) (hp : a ∉ cfg.peer.persistent) (hi : i ≠ .connect a) : ∀ b, Peer.Open b s.taken → b.ip ≠ a.ip := by
  rcases (dialed_draws r l hs ho).2 with h2 | h2 | ⟨-, x, m, ea, pred, ⟨na, src⟩, m', g1, g2, g3, g4, g5⟩
  · exact absurd h2 hp
  · exact absurd h2 hi
  · obtain ⟨⟨la, ⟨m0, h0, hl⟩, hh⟩, -⟩ := run_heard r
    have hx : (x ++ la).filterMap heardOp = heard s.taken := by rw [List.filterMap_append, g2.1, hh]; rfl
    obtain ⟨sk, k1, k2⟩ := Addr.C41_not_connected_partial hb ⟨m0, h0, addr_steps_trans hl g1⟩ ((oneH_entries _).2 (by rw [hx]; exact oneH_outs one)) ea g3 pred g4
    intro b hbo
    have : sk = a := by
      have k1 : na.sock = some sk := k1
      have g5 : na.sock = some a := g5
      rw [k1] at g5; exact Option.some.inj g5
    subst this
    exact k2 b (by rw [openH_entries, hx, openH_outs, ← Peer.open_iff]; exact hbo)

/-! ## C116 -/

/-- One input. -/
def Next (cfg : Cfg) (U : Header → Prop) (fail : Bool) (s s' : State) : Prop := ∃ e i, Legal U fail e i ∧ s.step cfg e i = .ok s'

theorem next_steps {s s' : State} (hp : ReflTransGen (Next cfg U fail) s s') : ∃ x, Addr.Steps cfg.addr s.addr x s'.addr := by
  induction hp with
  | refl => exact ⟨[], .refl⟩
  | tail _ hn ih =>
    obtain ⟨x, hx⟩ := ih
    obtain ⟨e, i, l, hs⟩ := hn
    obtain ⟨y, hy⟩ := step_addr l hs
    exact ⟨_, addr_steps_trans hx hy⟩

theorem next_run {s s' : State} (inj : Function.Injective cfg.id) (r : Run cfg U fail anyStep z is h s) (hp : ReflTransGen (Next cfg U fail) s s') :
    ∃ is h, Run cfg U fail anyStep z is h s' := by
  induction hp with
  | refl => exact ⟨is, h, r⟩
  | tail _ hn ih =>
    obtain ⟨is, h, r⟩ := ih
    obtain ⟨e, i, l, hs⟩ := hn
    exact run_next inj r l hs

/-- Reasons for disconnecting a peer that do not go away with time: it misbehaved, its protocol version or its services do not suit, it is on another network, it is the client itself, or the
user wanted it. -/
def Lasting : Peer.Disc → Prop
  | .machine .misbehaving => True
  | .machine (.protocolVersion _) => True
  | .machine (.services _) => True
  | .machine .magic => True
  | .machine .selfConnection => True
  | .machine .command => True
  | .machine .other => True
  | _ => False

theorem lasting_permanent {d : Peer.Disc} (h : Lasting d) : reasonOf d = .permanent := by
  cases d with
  | machine r => cases r <;> first | rfl | exact absurd h (by simp [Lasting])
  | _ => exact absurd h (by simp [Lasting])

/-- **C116.** A peer that was disconnected because of what it did or is, or because the user wanted it, is not dialed again, whatever happens later, unless it is configured or the user asks for it.  Partial: if its IP address is public, and the
address book has an address in the same range (otherwise the ban has no effect: C40). -/
theorem C116_banned_partial (inj : Function.Injective cfg.id) (hb : Addr.Sound z.book) (r : Run cfg U fail anyStep z is h s) {a : Sock} {d : Peer.Disc} {q : List Peer.Out}
    (hq : s.qPeer = .evDisconnected a d :: q) (hd : Lasting d) (hl : LinkedIp a.ip s.taken) (hr1 : isRoutable a.ip = true) (hr2 : isLocal a.ip = false) {known : Ip}
    (hk : (s.addr.peers.get known).isSome) (hkey : addrKey known = addrKey a.ip) (l : Legal U fail e .next) (hs : s.step cfg e .next = .ok s') {s1 s2 : State}
    (hp : ReflTransGen (Next cfg U fail) s' s1) {e' : Env} {i : Input} (l' : Legal U fail e' i) (hs' : s1.step cfg e' i = .ok s2) {b : Sock} (hbip : b.ip = a.ip)
    (ho : .connect b ∈ Peer.added s1.peer s2.peer) : b ∈ cfg.peer.persistent ∨ i = .connect b := by
  obtain ⟨is1, h1, r1⟩ := run_next inj r l hs
  obtain ⟨is2, h2, r2⟩ := next_run inj r1 hp
  rcases (dialed_draws r2 l' hs' ho).2 with h2 | h2 | ⟨-, x, m, ea, pred, ⟨na, src⟩, m', g1, -, g3, g4, g5⟩
  · exact .inl h2
  · exact .inr h2
  · exfalso
    replace hd := lasting_permanent hd
    obtain ⟨⟨la, ra, hh⟩, -⟩ := run_heard r
    obtain ⟨ma, sr, k1, k2, -⟩ := step_addrEffect hs
    simp only [addrInput, hq, hd] at k1
    simp only [drawsFor, Bool.false_eq_true, if_false] at k2
    obtain ⟨c, k1⟩ := k1
    rw [← k2.2] at k1
    obtain ⟨y, hy⟩ := next_steps hp
    have hst := Addr.Steps.step (addr_steps_trans hy g1) (show (Addr.Op.sample ea pred).Fair from g3) g4
    exact (Addr.C40_banned_partial hb ra a (by rw [linkedH_entries, hh]; exact linkedH_outs hl) hr1 hr2 known hk hkey k1 hst).2 _ na src List.mem_cons_self b g5 hbip

/-! ## C68 -/

/-- **C68.** In every execution of the whole state machine, peers asked for addresses by the timer have an open connection.  Partial: as long as there is at most one connection per IP address. -/
theorem C68_machine_partial (r : Run cfg U fail P z is h s) (hs : s.step cfg e .timer = .ok s') (one : OneIp s.taken) {b : Sock}
    (ho : .getAddr b ∈ s'.addr.out.drop s.addr.out.length) : Peer.Open b s.taken := by
  obtain ⟨⟨la, ra, hh⟩, pos⟩ := run_heard r
  obtain ⟨hp, rp⟩ := run_peer r
  obtain ⟨m, src, h1, h2, -⟩ := step_addrEffect hs
  simp only [addrInput] at h1
  simp only [drawsFor, if_true] at h2
  obtain ⟨c, h1⟩ := h1
  have hout : s'.addr.out = m.out := draw_out h2
  rw [hout] at ho
  rw [Peer.open_iff, ← openH_outs, ← hh, ← openH_entries]
  refine Addr.C68_connected_partial ra ((oneH_entries la).2 (by rw [hh]; exact oneH_outs one)) ((properH_entries la).2 ?_) s.now e.saved h1 b ho
  rw [hh]
  refine properH_outs fun l1 a n l2 hl => ?_
  have ht : s.peer.out = s.taken ++ s.qPeer := (List.take_append_drop _ _).symm
  exact Peer.negotiated_open rp (l2 := l2 ++ s.qPeer) (n := n) (by rw [ht, hl]; simp)

end Verif.Machine

import Verif.Machine.Runs
import Verif.Addr.Props
import Verif.Node.NoCrash
import Verif.Node.NoCrashReorg

/-!
# The whole state machine: which inputs are handled without a panic
-/

set_option autoImplicit false

namespace Verif.Peer
open Verif.Addr (Sock Ip)

variable {cfg : Config}

/-- The configuration is that of a release build, and the times between attempts to reconnect are in order. -/
structure Config.Release (cfg : Config) : Prop where
  dbg : cfg.dbg = false
  retry : cfg.retryMin ≤ cfg.retryMax

theorem Config.Release.loop (rel : cfg.Release) (below : Bool) (delta : Nat) : ∀ (fuel : Nat) (m : Mgr) (src : List Cand) (set : List Sock),
    ∃ m', Mgr.maintainLoop cfg below delta fuel m src set = .ok m' := by
  intro fuel
  induction fuel with
  | zero => intro m src set; exact ⟨m, rfl⟩
  | succ k ih =>
    intro m src set
    simp only [Mgr.maintainLoop, rel.dbg, Bool.false_and, Bool.false_eq_true, if_false]
    by_cases h1 : set.length < delta
    · rw [if_pos h1]
      cases hch : choose cfg below src with
      | none => exact ⟨m, rfl⟩
      | some x =>
        obtain ⟨c, src'⟩ := x
        simp only
        cases hs : c.1.sock with
        | none => exact ih m src' set
        | some a =>
          simp only
          by_cases h3 : (m.connect cfg a).1 = true
          · rw [if_pos h3]; exact ih _ src' _
          · rw [if_neg h3]; exact ih _ src' _
    · rw [if_neg h1]; exact ⟨m, rfl⟩

theorem Config.Release.maintain (rel : cfg.Release) (m : Mgr) (src : List Cand) : ∃ m', m.maintain cfg src = .ok m' := by
  unfold Mgr.maintain
  by_cases h : cfg.persistent ≠ []
  · rw [if_pos h]; exact ⟨m, rfl⟩
  · rw [if_neg h]; exact rel.loop _ _ _ _ _ _

/-- In a release build, the peer manager does not panic. -/
theorem Config.Release.total (rel : cfg.Release) (m : Mgr) (op : Op) : ∃ m', m.step cfg op = .ok m' := by
  cases op with
  | init src => exact rel.maintain _ _
  | tick t => exact ⟨_, rfl⟩
  | attempted a => exact ⟨m, by simp [Mgr.step, Mgr.peerAttempted, rel.dbg]⟩
  | connected a loc link height nonce => exact ⟨_, by simp only [Mgr.step, Mgr.peerConnected, rel.dbg, Bool.false_and, Bool.false_eq_true, if_false]; rfl⟩
  | disconnected a d src =>
    simp only [Mgr.step, Mgr.peerDisconnected, rel.dbg, Bool.false_and, Bool.false_eq_true, if_false]
    split
    · unfold Mgr.persistentDisconnected
      rw [if_neg (by have := rel.retry; omega)]
      exact ⟨_, rfl⟩
    · exact rel.maintain _ _
  | message a ok height hook msg =>
    simp only [Mgr.step, Mgr.messageReceived]
    split
    · exact ⟨_, rfl⟩
    · split
      · exact ⟨_, rfl⟩
      · cases msg with
        | version v =>
          simp only [Mgr.receivedMsg, Mgr.receivedVersion, rel.dbg, Bool.false_and, Bool.false_eq_true, if_false]
          split
          · split <;> exact ⟨_, rfl⟩
          · exact ⟨_, rfl⟩
        | verack => exact ⟨_, rfl⟩
        | wtxidRelay => exact ⟨_, rfl⟩
  | timedOut a => exact ⟨_, rfl⟩
  | misbehaved a => exact ⟨_, rfl⟩
  | cmdConnect a => exact ⟨_, rfl⟩
  | cmdDisconnect a => exact ⟨_, rfl⟩
  | timer ord src =>
    have : ∃ m', (m.dropAll (m.timedOut ord)).idle cfg src = .ok m' := by
      unfold Mgr.idle
      split
      · obtain ⟨m', h⟩ := rel.maintain (m.dropAll (m.timedOut ord)) src
        rw [h]; exact ⟨_, rfl⟩
      · exact ⟨_, rfl⟩
    obtain ⟨m', h⟩ := this
    exact ⟨_, by simp only [Mgr.step, Mgr.timerExpired, h]; rfl⟩

end Verif.Peer

namespace Verif.Machine
open Verif.Addr (Sock Ip NetAddr Known Source has)
open Verif.Chain (Header)
open Verif.Peer (Cand)
open Verif.Tx (Block)

variable {cfg : Cfg} {U : Header → Prop} {fail : Bool} {P : Node.Hist → Node.Fsm → Node.Input → Node.Fsm → List Node.Out → Prop}
variable {z : Setup} {is : List Input} {h : Node.Hist} {e : Env} {s : State}

/-- The address manager has a history. -/
def Book (cfg : Cfg) (z : Setup) (m : Addr.Mgr) : Prop := ∃ la, Addr.Run cfg.addr z.book la m

theorem peer_total (rel : cfg.peer.Release) (s : State) (op : Peer.Op) : ∃ m, s.callPeer cfg op = .ok { s with peer := m } := by
  obtain ⟨m, hm⟩ := rel.total s.peer op
  exact ⟨m, by simp only [State.callPeer, hm]⟩

theorem addr_total (b : Book cfg z s.addr) (op : Addr.Op) (f : op.Fair) : ∃ m, s.callAddr cfg op = .ok { s with addr := m } ∧ Book cfg z m := by
  obtain ⟨la, m0, h0, h1⟩ := b
  obtain ⟨res, m, hm⟩ := Addr.C39_no_panic ⟨m0, h0, h1⟩ op f
  exact ⟨m, by simp only [State.callAddr, hm], _, m0, h0, .step h1 f hm⟩

theorem draw_total : ∀ (ds : List (Addr.Env × (Known → Bool))) (m : Addr.Mgr), (∀ p ∈ ds, p.1.Fair) → Book cfg z m → ∃ src m', draw cfg.addr ds m = .ok (src, m')
  | [], m, _, _ => ⟨[], m, rfl⟩
  | (ea, pred) :: ds, m, f, b => by
    obtain ⟨la, m0, h0, h1⟩ := b
    have fa : (Addr.Op.sample ea pred).Fair := f (ea, pred) (by simp)
    obtain ⟨res, m1, hm⟩ := Addr.C39_no_panic ⟨m0, h0, h1⟩ (.sample ea pred) fa
    obtain ⟨src, m', hd⟩ := draw_total ds m1 (fun p hp => f p (List.mem_cons_of_mem _ hp)) ⟨_, m0, h0, .step h1 fa hm⟩
    exact ⟨res.toList ++ src, m', by simp only [draw, hm, hd]⟩

theorem drawn_total (rel : cfg.peer.Release) (b : Book cfg z s.addr) (f : ∀ p ∈ e.draws, p.1.Fair) (op : List Cand → Peer.Op) :
    ∃ s', s.callDraw cfg e op = .ok s' := by
  obtain ⟨src, m, hd⟩ := draw_total e.draws s.addr f b
  obtain ⟨p, hp⟩ := peer_total rel { s with addr := m } (op src)
  exact ⟨_, by simp only [State.callDraw, hd]; exact hp⟩

theorem node_total {j : Node.Input} (hn : ∃ n, s.node.step cfg.node (e.at s.now) j = .ok n) : ∃ n, s.callNode cfg e j = .ok { s with node := n } := by
  obtain ⟨n, hn⟩ := hn
  exact ⟨n, by simp only [State.callNode, hn]⟩

theorem nextNode_total (rel : cfg.peer.Release) (hn : ∃ n, s.node.step cfg.node (e.at s.now) .next = .ok n) : ∃ s', s.nextNode cfg e = .ok s' := by
  obtain ⟨n, h1⟩ := node_total hn
  unfold State.nextNode
  rw [h1]
  simp only [Res.ok_bind]
  cases (nodeHead s.node).bind (complaint cfg) with
  | none => exact ⟨_, rfl⟩
  | some op => obtain ⟨m, hm⟩ := peer_total rel { s with node := n } op; exact ⟨_, hm⟩

/-- In a release build, the state machine panics only if the sync manager, the inventory manager or the filter manager do. -/
theorem step_total {i : Input} (rel : cfg.peer.Release) (r : Run cfg U fail P z is h s) (l : Legal U fail e i)
    (hn : ∀ j, nodeInput cfg s i = some j → ∃ n, s.node.step cfg.node (e.at s.now) j = .ok n) : ∃ s', s.step cfg e i = .ok s' := by
  have b : Book cfg z s.addr := run_addr r
  cases i with
  | tick now => obtain ⟨m, hm⟩ := peer_total rel s (.tick now); exact ⟨_, hm⟩
  | attempted a => obtain ⟨m, hm⟩ := peer_total rel s (.attempted a); exact ⟨_, hm⟩
  | connected a loc link => obtain ⟨m, hm⟩ := peer_total rel s (.connected a loc link s.node.tree.height e.nonce); exact ⟨_, hm⟩
  | disconnected a d => exact drawn_total rel b l.draws _
  | message a ok msg =>
    simp only [State.step, State.message]
    by_cases h1 : ok = false
    · rw [if_pos h1]
      obtain ⟨m, hm⟩ := peer_total rel s (.message a false s.node.tree.height e.hook .verack)
      exact ⟨_, hm⟩
    · rw [if_neg h1]
      by_cases h2 : s.peer.isConnected a = false
      · rw [if_pos h2]; exact ⟨_, rfl⟩
      · rw [if_neg h2]
        have hj : nodeInput cfg s (.message a ok msg) = msg.node (cfg.id a) := by
          simp only [Bool.not_eq_false] at h1 h2
          simp [nodeInput, h1, h2]
        have n1 : ∃ n, s.messageNode cfg e (msg.node (cfg.id a)) = .ok { s with node := n } := by
          cases hm : msg.node (cfg.id a) with
          | none => exact ⟨s.node, rfl⟩
          | some j => exact node_total (hn j (by rw [hj, hm]))
        obtain ⟨n, n1⟩ := n1
        rw [n1]
        simp only [Res.ok_bind]
        have p1 : ∃ g, State.messagePing e { s with node := n } (msg.pingOp (cfg.id a)) = { s with node := n, ping := g } := by
          cases msg.pingOp (cfg.id a) with
          | none => exact ⟨s.ping, rfl⟩
          | some op => exact ⟨_, rfl⟩
        obtain ⟨g, p1⟩ := p1
        rw [p1]
        obtain ⟨ma, hma, -⟩ := addr_total (s := { s with node := n, ping := g }) b (.message e.addr s.now a msg.addrMsg) l.addr
        have hma' := hma
        simp only [State.now] at hma' ⊢
        rw [hma']
        simp only [Res.ok_bind]
        cases hm : msg.peer with
        | none => exact ⟨_, rfl⟩
        | some m =>
          obtain ⟨q, hq⟩ := peer_total rel { s with node := n, ping := g, addr := ma } (.message a true n.tree.height e.hook m)
          exact ⟨_, hq⟩
  | timer =>
    obtain ⟨n, h1⟩ := node_total (hn .timer rfl)
    simp only [State.step]
    rw [h1]
    simp only [Res.ok_bind]
    obtain ⟨ma, hma, b'⟩ := addr_total (s := { s with node := n, ping := s.ping.step ⟨s.now, e.pingNonce, e.pingOrder⟩ .timer }) b (.timer s.now e.saved) trivial
    have hma' := hma
    simp only [State.now, State.callPing] at hma' ⊢
    rw [hma']
    simp only [Res.ok_bind]
    exact drawn_total rel b' l.draws _
  | connect a => obtain ⟨m, hm⟩ := peer_total rel s (.cmdConnect a); exact ⟨_, hm⟩
  | disconnect a => obtain ⟨m, hm⟩ := peer_total rel s (.cmdDisconnect a); exact ⟨_, hm⟩
  | importAddresses as => obtain ⟨m, hm, -⟩ := addr_total b (.importAddresses e.addr as) l.addr; exact ⟨_, hm⟩
  | importHeaders hs => obtain ⟨n, h1⟩ := node_total (hn (.importHeaders hs) rfl); exact ⟨_, h1⟩
  | requestFilters a c => obtain ⟨n, h1⟩ := node_total (hn (.requestFilters a c) rfl); exact ⟨_, h1⟩
  | requestBlock k => obtain ⟨n, h1⟩ := node_total (hn (.requestBlock k) rfl); exact ⟨_, h1⟩
  | submit t => obtain ⟨n, h1⟩ := node_total (hn (.submit t) rfl); exact ⟨_, h1⟩
  | rescan a c w => obtain ⟨n, h1⟩ := node_total (hn (.rescan a c w) rfl); exact ⟨_, h1⟩
  | watch w => obtain ⟨n, h1⟩ := node_total (hn (.watch w) rfl); exact ⟨_, h1⟩
  | next =>
    simp only [State.step, State.next]
    cases hq : s.qPeer with
    | cons o q =>
      simp only
      have told : ∀ (j : Node.Input) (op : Ping.Op) (oa : State → Addr.Op), (∀ x, (oa x).Fair) → nodeInput cfg s .next = some j →
          ∃ s', (do
            let s ← ({ s with takenPeer := s.takenPeer + 1 } : State).callNode cfg e j
            let s := s.callPing e op
            s.callAddr cfg (oa s) : Res Unit State) = .ok s' := by
        intro j op oa fa hj
        obtain ⟨n, h1⟩ := node_total (s := { s with takenPeer := s.takenPeer + 1 }) (hn j hj)
        rw [h1]
        simp only [Res.ok_bind]
        obtain ⟨ma, hma, -⟩ := addr_total (s := ({ s with takenPeer := s.takenPeer + 1, node := n } : State).callPing e op) b (oa _) (fa _)
        exact ⟨_, hma⟩
      cases o with
      | evConnecting a x y => obtain ⟨ma, hma, -⟩ := addr_total (s := { s with takenPeer := s.takenPeer + 1 }) b (.attempted s.now a) trivial; exact ⟨_, hma⟩
      | evConnected a x y => obtain ⟨ma, hma, -⟩ := addr_total (s := { s with takenPeer := s.takenPeer + 1 }) b (.connected a) trivial; exact ⟨_, hma⟩
      | evNegotiated a n => exact told (negotiatedInput cfg a n) (.negotiated (cfg.id a)) (fun s => .negotiated s.now a n.services (n.link == .outbound) n.receiver.sock) (fun _ => trivial) (by simp [nodeInput, hq])
      | evDisconnected a d => exact told (.disconnected (cfg.id a)) (.disconnected (cfg.id a)) (fun _ => .disconnected a (reasonOf d)) (fun _ => trivial) (by simp [nodeInput, hq])
      | _ => exact ⟨_, rfl⟩
    | nil =>
      simp only
      have turn : ¬ (s.node.qSync = [] ∧ s.node.qInv = [] ∧ (s.qPing ≠ [] ∨ s.qAddr ≠ [])) → ∃ s', s.nextNode cfg e = .ok s' := fun hc =>
        nextNode_total rel (hn .next (by simp only [nodeInput, hq, if_neg hc]))
      split
      · rename_i hc; exact turn (fun hx => by rcases hc with hc | hc; exact hc hx.1; exact hc hx.2.1)
      · split
        · exact ⟨_, rfl⟩
        · rename_i hp
          split
          · exact ⟨_, rfl⟩
          · rename_i ha; exact turn (fun hx => by rcases hx.2.2 with hx | hx; exact hx hp; exact hx ha)

end Verif.Machine

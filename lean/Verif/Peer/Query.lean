import Verif.Peer.PropsRetry

/-!
# Questions about the connected peers

The commands `GetPeers` and `Broadcast` of the state machine, which read the peer manager.
-/

set_option autoImplicit false

namespace Verif.Peer

open Verif.Addr (Sock Ip Domain NetAddr Source has isLocal domainOf sadd)

/-- `fsm::Peer` (fsm.rs:160-181): what the user is told about a peer. -/
structure View where
  addr : Sock
  loc : Sock
  link : Link
  since : Nat
  height : Nat
  services : Nat
  agent : String
  relay : Bool
  deriving DecidableEq, Repr

/-- `Peer::from` (fsm.rs:189-203). -/
def View.of (p : Info × Conn) : View :=
  { addr := p.2.addr, loc := p.2.loc, link := p.2.link, since := p.2.since, height := p.1.height, services := p.1.services,
    agent := p.1.agent, relay := p.1.relay }

/-- `Command::GetPeers` (fsm.rs:653-663). -/
def Mgr.getPeers (m : Mgr) (services : Nat) : List View :=
  ((m.versioned.filter (fun p => p.1.isNegotiated)).filter (fun p => has p.1.services services)).map View.of

/-- `broadcast` (fsm.rs:567-580): the addresses the message is sent to, in the order of the answer.  The predicate is any function of
the peer (it is a pure function here). -/
def Mgr.broadcast (m : Mgr) (pred : View → Bool) : List Sock := ((m.versioned.map View.of).filter pred).map View.addr

/-- The connection with `a` that is open now: its local address, its direction and the time when it was made. -/
inductive Opened (a : Sock) : List Op → Sock → Link → Nat → Prop where
  | connected {h : List Op} {loc : Sock} {link : Link} {height nonce : Nat} :
      Opened a (.connected a loc link height nonce :: h) loc link (timeOf h)
  | other {h : List Op} {loc : Sock} {link : Link} {t : Nat} {op : Op} (s : Opened a h loc link t)
      (n1 : ∀ b c l x y, op = .connected b c l x y → b ≠ a) (n2 : ∀ b d src, op = .disconnected b d src → b ≠ a) :
      Opened a (op :: h) loc link t

variable {cfg : Config} {tr : List Ip}

/-- What is kept with a connection. -/
def OpenedInv (h : List Op) (m : Mgr) : Prop := ∀ a c i, m.peers.get a = some (.connected c i) → Opened a h c.loc c.link c.since

theorem opened_keep {h : List Op} {m m' : Mgr} {op : Op} (hs : OpenedInv h m)
    (hc : ∀ a c i, m'.peers.get a = some (.connected c i) → ∃ j, m.peers.get a = some (.connected c j))
    (n1 : ∀ b c l x y, op ≠ .connected b c l x y) (n2 : ∀ b d src, op ≠ .disconnected b d src) : OpenedInv (op :: h) m' := by
  intro a c i hg
  obtain ⟨j, hj⟩ := hc a c i hg
  exact .other (hs a c j hj) (fun b c l x y q => absurd q (n1 b c l x y)) (fun b d src q => absurd q (n2 b d src))

theorem opened_step {h : List Op} {m m' : Mgr} {op : Op} (hi : Inv cfg tr h m) (hs : OpenedInv h m) (e : m.step cfg op = .ok m') :
    OpenedInv (op :: h) m' := by
  cases op with
  | init src => exact opened_keep hs (fun a c i hg => ⟨i, (initialize_ext e).conn a c i hg⟩) (by simp) (by simp)
  | tick t =>
    simp only [Mgr.step, Res.ok.injEq] at e
    subst e
    exact opened_keep hs (fun a c i hg => ⟨i, hg⟩) (by simp) (by simp)
  | attempted a =>
    simp only [Mgr.step, Mgr.peerAttempted] at e
    by_cases h1 : (cfg.dbg && !(m.isConnecting a || m.isInbound a)) = true
    · rw [if_pos h1] at e; simp at e
    · rw [if_neg h1] at e
      simp only [Res.ok.injEq] at e
      subst e
      exact opened_keep hs (fun a c i hg => ⟨i, hg⟩) (by simp) (by simp)
  | connected a loc link height nonce =>
    intro b c i hg
    by_cases hb : a = b
    · subst hb
      rcases peerConnected_get_self e with q | ⟨_, q⟩
      · rw [q] at hg
        simp only [Option.some.injEq, Peer.connected.injEq] at hg
        rw [← hg.1]
        simp only [hi.now]
        exact .connected
      · rw [q] at hg; simp at hg
    · rw [peerConnected_get_ne e b hb] at hg
      refine .other (hs b c i hg) ?_ (by simp)
      intro b' c' l x y q
      simp only [Op.connected.injEq] at q
      rw [← q.1]; exact hb
  | disconnected a d src =>
    intro b c i hg
    by_cases hb : a = b
    · subst hb; exact absurd hg (peerDisconnected_gone e c i)
    · refine .other (hs b c i ((peerDisconnected_ext e).conn b c i hg)) (by simp) ?_
      intro b' c' l q
      simp only [Op.disconnected.injEq] at q
      rw [← q.1]; exact hb
  | message a mg height hook msg => exact opened_keep hs (fun b c i hg => message_conn hi e hg) (by simp) (by simp)
  | timedOut a =>
    simp only [Mgr.step, Res.ok.injEq] at e
    subst e
    exact opened_keep hs (fun b c i hg => ⟨i, (disconnect_ext m a _).conn b c i hg⟩) (by simp) (by simp)
  | misbehaved a =>
    simp only [Mgr.step, Res.ok.injEq] at e
    subst e
    exact opened_keep hs (fun b c i hg => ⟨i, (disconnect_ext m a _).conn b c i hg⟩) (by simp) (by simp)
  | cmdConnect a =>
    simp only [Mgr.step, Res.ok.injEq] at e
    subst e
    exact opened_keep hs (fun b c i hg => ⟨i, (connect_ext (m.whitelist a) cfg a).conn b c i hg⟩) (by simp) (by simp)
  | cmdDisconnect a =>
    simp only [Mgr.step, Res.ok.injEq] at e
    subst e
    exact opened_keep hs (fun b c i hg => ⟨i, (disconnect_ext m a _).conn b c i hg⟩) (by simp) (by simp)
  | timer ord src => exact opened_keep hs (fun b c i hg => ⟨i, (timerExpired_ext e).conn b c i hg⟩) (by simp) (by simp)

theorem run_opened {h : List Op} {m : Mgr} (r : Run cfg tr h m) : OpenedInv h m := by
  induction r with
  | start => intro a c i hg; simp [Mgr.new] at hg
  | step r _ e ih => exact opened_step (run_inv r) ih e

theorem opened_unique {a : Sock} {h : List Op} {x x' : Sock} {l l' : Link} {t t' : Nat} (s : Opened a h x l t)
    (s' : Opened a h x' l' t') : x = x' ∧ l = l' ∧ t = t' := by
  induction s with
  | connected =>
    cases s' with
    | connected => exact ⟨rfl, rfl, rfl⟩
    | other _ n1 _ => exact absurd rfl (n1 _ _ _ _ _ rfl)
  | other s n1 _ ih =>
    cases s' with
    | connected => exact absurd rfl (n1 _ _ _ _ _ rfl)
    | other s' _ _ => exact ih s'

theorem mem_versioned {m : Mgr} (hn : m.peers.keys.Nodup) (i : Info) (c : Conn) :
    (i, c) ∈ m.versioned ↔ ∃ a, m.peers.get a = some (.connected c (some i)) := by
  unfold Mgr.versioned
  rw [List.mem_filterMap]
  constructor
  · rintro ⟨⟨a, p⟩, h1, h2⟩
    refine ⟨a, ?_⟩
    rw [AMap.get_of_mem hn h1]
    unfold Peer.versioned at h2
    split at h2
    · next c' i' q => simp only at q; simp only [Option.some.injEq, Prod.mk.injEq] at h2; rw [q, h2.1, h2.2]
    · simp at h2
  · rintro ⟨a, h⟩
    exact ⟨(a, _), AMap.mem_of_get h, rfl⟩

/-- The addresses of the peers that have sent their version are distinct. -/
theorem versioned_nodup {m : Mgr} (hn : m.peers.keys.Nodup) (ha : ∀ a c i, m.peers.get a = some (.connected c i) → c.addr = a) :
    (m.versioned.map (fun p => p.2.addr)).Nodup := by
  have hs : (m.versioned.map (fun p => p.2.addr)).Sublist m.peers.keys := by
    have hm : ∀ q ∈ m.peers, ∀ c i, q.2 = .connected c i → c.addr = q.1 := by
      intro q hq c i e
      have := AMap.get_of_mem hn hq
      rw [e] at this
      exact ha _ c i this
    unfold Mgr.versioned AMap.keys
    generalize m.peers = l at hm
    induction l with
    | nil => simp
    | cons q l ih =>
      have ih := ih (fun q hq => hm q (List.mem_cons_of_mem _ hq))
      have h0 := hm q List.mem_cons_self
      obtain ⟨b, p⟩ := q
      rw [List.filterMap_cons]
      cases hp : Peer.versioned p with
      | none => simp only; exact ih.cons _
      | some x =>
        simp only [List.map_cons]
        unfold Peer.versioned at hp
        split at hp
        · next c i =>
          simp only [Option.some.injEq] at hp
          subst hp
          rw [h0 c (some i) rfl]
          exact ih.cons_cons _
        · simp at hp
  exact hs.nodup hn

end Verif.Peer

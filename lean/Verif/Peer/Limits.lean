import Verif.Peer.Handshake

/-!
# Counting peers
-/

set_option autoImplicit false

namespace Verif.Peer
open Verif.Addr (Sock Ip Domain NetAddr Source has isLocal domainOf sadd)

/-- The number of entries of some kind. -/
def cnt (f : Peer → Bool) (l : AMap Sock Peer) : Nat := l.countP (fun p => f p.2)

/-- One, if the entry is of that kind. -/
def one (f : Peer → Bool) : Option Peer → Nat
  | some v => if f v then 1 else 0
  | none => 0

theorem cnt_erase (f : Peer → Bool) {l : AMap Sock Peer} (hn : l.keys.Nodup) (a : Sock) :
    cnt f (l.erase a) + one f (l.get a) = cnt f l := by
  induction l with
  | nil => simp [cnt, AMap.erase, one]
  | cons p l ih =>
    have hn' : (AMap.keys l).Nodup := (List.nodup_cons.1 hn).2
    have hp : p.1 ∉ AMap.keys l := (List.nodup_cons.1 hn).1
    by_cases h : p.1 = a
    · have h0 : AMap.erase l a = l := AMap.erase_eq_self (by rw [← h]; exact hp)
      have he : AMap.erase (p :: l) a = l := by
        have : AMap.erase (p :: l) a = AMap.erase l a := by simp [AMap.erase, h]
        rw [this, h0]
      rw [he, AMap.get_cons, if_pos h]
      simp only [cnt, List.countP_cons, one]
    · have he : AMap.erase (p :: l) a = p :: AMap.erase l a := by simp [AMap.erase, h]
      rw [he, AMap.get_cons, if_neg h]
      have := ih hn'
      simp only [cnt, List.countP_cons] at this ⊢
      omega

theorem cnt_insert (f : Peer → Bool) {l : AMap Sock Peer} (hn : l.keys.Nodup) (a : Sock) (v : Peer) :
    cnt f (l.insert a v) + one f (l.get a) = cnt f l + one f (some v) := by
  have := cnt_erase f hn a
  simp only [AMap.insert, cnt, List.countP_cons, one] at this ⊢
  omega

/-- Kinds of entries. -/
def isConn : Peer → Bool
  | .connected _ _ => true
  | _ => false
def isIn : Peer → Bool
  | .connected c _ => c.link == .inbound
  | _ => false
def isConnectingP : Peer → Bool
  | .connecting _ => true
  | _ => false
def isNegOut : Peer → Bool
  | .connected c (some i) => i.isNegotiated && c.link == .outbound
  | _ => false
def isPrimary (pref : Nat) : Peer → Bool
  | .connected c (some i) => i.isNegotiated && c.link == .outbound && has i.services pref
  | _ => false

theorem conns_length (m : Mgr) : m.conns.length = cnt isConn m.peers := by
  unfold Mgr.conns cnt
  rw [List.length_filterMap_eq_countP]
  congr 1
  funext p
  cases p.2 <;> rfl

theorem connecting_length (m : Mgr) : m.connecting.length = cnt isConnectingP m.peers := by
  unfold Mgr.connecting cnt
  rw [List.length_map, ← List.countP_eq_length_filter]
  congr 1

theorem inbound_length (m : Mgr) : m.inboundCount = cnt isIn m.peers := by
  unfold Mgr.inboundCount Mgr.conns cnt
  rw [← List.countP_eq_length_filter, List.countP_filterMap]
  congr 1
  funext p
  cases p.2 <;> rfl

theorem negotiated_length (m : Mgr) : (m.negotiated .outbound).length = cnt isNegOut m.peers := by
  unfold Mgr.negotiated Mgr.versioned cnt
  rw [← List.countP_eq_length_filter, List.countP_filterMap]
  congr 1
  funext p
  cases p.2 with
  | connected c i => cases i <;> rfl
  | connecting t => rfl
  | disconnecting => rfl

theorem primary_length (m : Mgr) (cfg : Config) : m.primary cfg = cnt (isPrimary cfg.preferred) m.peers := by
  unfold Mgr.primary Mgr.negotiated Mgr.versioned cnt
  rw [← List.countP_eq_length_filter, List.countP_filter, List.countP_filterMap]
  congr 1
  funext p
  cases p.2 with
  | connected c i =>
    cases i with
    | none => rfl
    | some i => simp [Peer.versioned, isPrimary, Bool.and_comm]
  | connecting t => rfl
  | disconnecting => rfl

theorem primary_le (m : Mgr) (cfg : Config) : m.primary cfg ≤ cnt isNegOut m.peers := by
  rw [primary_length]
  refine List.countP_mono_left (fun p _ h => ?_)
  rcases p with ⟨a, p⟩
  cases p with
  | connected c i => cases i <;> simp_all [isPrimary, isNegOut]
  | _ => simp_all [isPrimary]

/-- The first subtraction in `delta` does not go below zero. -/
theorem secondary_ok (m : Mgr) (cfg : Config) : m.primary cfg ≤ (m.negotiated .outbound).length := by
  rw [negotiated_length]; exact primary_le m cfg

theorem neg_in_one (p : Peer) :
    (if isNegOut p = true then 1 else 0) + (if isIn p = true then 1 else 0) ≤ (if isConn p = true then 1 else 0) := by
  cases p with
  | connecting t => simp [isNegOut, isIn]
  | disconnecting => simp [isNegOut, isIn]
  | connected c i =>
    cases i with
    | none => cases h : c.link <;> simp [isNegOut, isIn, isConn, h]
    | some i => cases h : c.link <;> cases h2 : i.isNegotiated <;> simp [isNegOut, isIn, isConn, h, h2]

theorem neg_in_le (m : Mgr) : cnt isNegOut m.peers + cnt isIn m.peers ≤ cnt isConn m.peers := by
  unfold cnt
  induction m.peers with
  | nil => simp
  | cons p l ih =>
    have := neg_in_one p.2
    simp only [List.countP_cons]
    omega

/-- The second subtraction in `delta` does not go below zero. -/
theorem unnegotiated_ok (m : Mgr) (cfg : Config) : m.primary cfg + m.secondary cfg ≤ m.conns.length := by
  have h1 := neg_in_le m
  have h2 := secondary_ok m cfg
  unfold Mgr.secondary
  rw [conns_length]
  rw [negotiated_length] at h2 ⊢
  omega

/-! ### No address is listed twice -/

theorem connect_nodup {m : Mgr} (cfg : Config) (a : Sock) (h : m.peers.keys.Nodup) : (m.connect cfg a).2.peers.keys.Nodup := by
  unfold Mgr.connect
  by_cases h1 : (m.isConnected a || m.isConnecting a) = true
  · rw [if_pos h1]; exact h
  rw [if_neg h1]
  by_cases h2 : domainOf a ∉ cfg.domains
  · rw [if_pos h2]; exact h
  rw [if_neg h2]
  exact AMap.nodup_insert h _ _

theorem drop_nodup {m : Mgr} (a : Sock) (r : Reason) (h : m.peers.keys.Nodup) : (m.drop a r).peers.keys.Nodup :=
  AMap.nodup_insert h _ _

theorem disconnect_nodup {m : Mgr} (a : Sock) (r : Reason) (h : m.peers.keys.Nodup) : (m.disconnect a r).peers.keys.Nodup := by
  unfold Mgr.disconnect
  by_cases h1 : m.isConnected a = true
  · rw [if_pos h1]; exact drop_nodup a r h
  · rw [if_neg h1]; exact h

/-- What `connect` does. -/
theorem connect_cases (m : Mgr) (cfg : Config) (a : Sock) :
    (m.connect cfg a = (true, m) ∧ (m.isConnected a = true ∨ m.isConnecting a = true)) ∨
    (m.connect cfg a = (false, m) ∧ domainOf a ∉ cfg.domains ∧ m.isConnected a = false ∧ m.isConnecting a = false) ∨
    (m.connect cfg a = (true, m.dial a) ∧
      domainOf a ∈ cfg.domains ∧ m.isConnected a = false ∧ m.isConnecting a = false) := by
  unfold Mgr.connect
  by_cases h1 : (m.isConnected a || m.isConnecting a) = true
  · rw [if_pos h1]
    left
    refine ⟨rfl, ?_⟩
    simpa using h1
  · rw [if_neg h1]
    simp only [Bool.or_eq_true, not_or, Bool.not_eq_true] at h1
    by_cases h2 : domainOf a ∉ cfg.domains
    · rw [if_pos h2]; exact Or.inr (Or.inl ⟨rfl, h2, h1.1, h1.2⟩)
    · rw [if_neg h2]
      simp only [not_not] at h2
      exact Or.inr (Or.inr ⟨rfl, h2, h1.1, h1.2⟩)

theorem one_of_not {m : Mgr} {a : Sock} (h1 : m.isConnected a = false) (h2 : m.isConnecting a = false) (f : Peer → Bool)
    (hf : f .disconnecting = false) : one f (m.peers.get a) = 0 := by
  unfold Mgr.isConnected at h1
  unfold Mgr.isConnecting at h2
  cases h : m.peers.get a with
  | none => rfl
  | some p =>
    cases p with
    | connecting t => simp [h] at h2
    | connected c i => simp [h] at h1
    | disconnecting => simp [one, hf]

theorem cnt_connect {m : Mgr} (cfg : Config) (a : Sock) (hn : m.peers.keys.Nodup) (f : Peer → Bool)
    (hf : f .disconnecting = false) (hc : ∀ t, f (.connecting t) = false) :
    cnt f (m.connect cfg a).2.peers = cnt f m.peers := by
  rcases connect_cases m cfg a with ⟨e, _⟩ | ⟨e, _⟩ | ⟨e, _, h1, h2⟩
  · rw [e]
  · rw [e]
  · rw [e]
    have := cnt_insert f hn a (.connecting m.now)
    rw [one_of_not h1 h2 f hf] at this
    simpa [one, hc, Mgr.dial] using this

theorem cnt_connect_connecting {m : Mgr} (cfg : Config) (a : Sock) (hn : m.peers.keys.Nodup) :
    cnt isConnectingP (m.connect cfg a).2.peers ≤ cnt isConnectingP m.peers + (if m.isConnecting a then 0 else 1) := by
  rcases connect_cases m cfg a with ⟨e, _⟩ | ⟨e, _⟩ | ⟨e, _, h1, h2⟩
  · rw [e]; exact Nat.le_add_right _ _
  · rw [e]; exact Nat.le_add_right _ _
  · rw [e, h2]
    have := cnt_insert isConnectingP hn a (.connecting m.now)
    rw [one_of_not h1 h2 _ rfl] at this
    simp only [one, isConnectingP, if_true] at this
    simp only [Bool.false_eq_true, if_false, Mgr.dial]
    omega

/-- After `connect` succeeded, the address is connecting if it was not connected. -/
theorem connect_connecting {m : Mgr} {cfg : Config} {a : Sock} (h : (m.connect cfg a).1 = true) :
    m.isConnected a = true ∨ (m.connect cfg a).2.isConnecting a = true := by
  rcases connect_cases m cfg a with ⟨e, h1 | h1⟩ | ⟨e, _⟩ | ⟨e, _⟩
  · exact Or.inl h1
  · rw [e]; exact Or.inr h1
  · rw [e] at h; simp at h
  · rw [e]; right; simp [Mgr.isConnecting, Mgr.dial]

theorem connect_keeps_connecting {m : Mgr} (cfg : Config) (a : Sock) {b : Sock} (h : m.isConnecting b = true) :
    (m.connect cfg a).2.isConnecting b = true := by
  rcases connect_cases m cfg a with ⟨e, _⟩ | ⟨e, _⟩ | ⟨e, _⟩
  · rw [e]; exact h
  · rw [e]; exact h
  · rw [e]
    rw [isConnecting_iff] at h ⊢
    simp only [AMap.get_insert, Mgr.dial]
    by_cases hb : a = b
    · rw [if_pos hb]; exact ⟨_, rfl⟩
    · rw [if_neg hb]; exact h

theorem connect_isConnected {m : Mgr} (cfg : Config) (a b : Sock) : (m.connect cfg a).2.isConnected b = m.isConnected b := by
  rcases connect_cases m cfg a with ⟨e, _⟩ | ⟨e, _⟩ | ⟨e, _, h1, _⟩
  · rw [e]
  · rw [e]
  · rw [e]
    by_cases hb : a = b
    · subst hb
      rw [h1]
      simp [Mgr.isConnected, Mgr.dial]
    · simp [Mgr.isConnected, AMap.get_insert, hb, Mgr.dial]

/-- The kinds of entries that are not changed by opening connections. -/
def Stable (f : Peer → Bool) : Prop := f .disconnecting = false ∧ ∀ t, f (.connecting t) = false

theorem maintainLoop_counts (cfg : Config) (below : Bool) (delta : Nat) :
    ∀ (fuel : Nat) (m : Mgr) (src : List Cand) (set : List Sock) (m' : Mgr),
      Mgr.maintainLoop cfg below delta fuel m src set = .ok m' → m.peers.keys.Nodup →
      (∀ a ∈ set, m.isConnected a = true ∨ m.isConnecting a = true) → set.length ≤ delta →
      m'.peers.keys.Nodup ∧ (∀ f, Stable f → cnt f m'.peers = cnt f m.peers) ∧
      cnt isConnectingP m'.peers + set.length ≤ cnt isConnectingP m.peers + delta := by
  intro fuel
  induction fuel with
  | zero =>
    intro m src set m' h hn hs hl
    simp only [Mgr.maintainLoop, Res.ok.injEq] at h
    rw [← h]; exact ⟨hn, fun _ _ => rfl, by omega⟩
  | succ n ih =>
    intro m src set m' h hn hs hl
    simp only [Mgr.maintainLoop] at h
    by_cases h1 : set.length < delta
    · rw [if_pos h1] at h
      cases hc : choose cfg below src with
      | none =>
        simp only [hc, Res.ok.injEq] at h
        rw [← h]; exact ⟨hn, fun _ _ => rfl, by omega⟩
      | some x =>
        obtain ⟨c, src'⟩ := x
        simp only [hc] at h
        cases hs' : c.1.sock with
        | none => simp only [hs'] at h; exact ih _ _ _ _ h hn hs hl
        | some a =>
          simp only [hs'] at h
          by_cases h2 : (cfg.dbg && m.isConnected a) = true
          · rw [if_pos h2] at h; simp at h
          rw [if_neg h2] at h
          have hk := connect_nodup cfg a hn
          have keep : ∀ b, (m.isConnected b = true ∨ m.isConnecting b = true) →
              ((m.connect cfg a).2.isConnected b = true ∨ (m.connect cfg a).2.isConnecting b = true) := by
            rintro b (x | x)
            · left; rw [connect_isConnected]; exact x
            · right; exact connect_keeps_connecting cfg a x
          by_cases h3 : (m.connect cfg a).1 = true
          · rw [if_pos h3] at h
            have hself : (m.connect cfg a).2.isConnected a = true ∨ (m.connect cfg a).2.isConnecting a = true := by
              rcases connect_connecting h3 with x | x
              · left; rw [connect_isConnected]; exact x
              · exact Or.inr x
            have hgrow : cnt isConnectingP (m.connect cfg a).2.peers + set.length ≤
                cnt isConnectingP m.peers + (sadd set a).length := by
              by_cases ha : a ∈ set
              · have e : (m.connect cfg a).2 = m := by
                  rcases connect_cases m cfg a with ⟨e, _⟩ | ⟨e, _, x, y⟩ | ⟨e, _, x, y⟩
                  · rw [e]
                  · rw [e]
                  · exfalso
                    rcases hs a ha with z | z
                    · rw [x] at z; simp at z
                    · rw [y] at z; simp at z
                rw [e]
                simp [sadd, ha]
              · have := cnt_connect_connecting cfg a hn
                have hl' : (sadd set a).length = set.length + 1 := by simp [sadd, ha]
                rw [hl']
                split at this <;> omega
            have hl2 : (sadd set a).length ≤ delta := by
              unfold sadd
              by_cases ha : a ∈ set
              · rw [if_pos ha]; exact hl
              · rw [if_neg ha]; exact h1
            obtain ⟨r1, r2, r3⟩ := ih _ _ _ _ h (by simpa [Mgr.emit] using hk) (by
              intro b hb
              rcases (mem_sadd _ _ _).1 hb with rfl | hb
              · exact hself
              · exact keep b (hs b hb)) hl2
            refine ⟨r1, ?_, ?_⟩
            · intro f hf
              rw [r2 f hf]
              exact cnt_connect cfg a hn f hf.1 hf.2
            · have r3' : cnt isConnectingP m'.peers + (sadd set a).length ≤
                  cnt isConnectingP (m.connect cfg a).2.peers + delta := r3
              omega
          · rw [if_neg h3] at h
            have e : (m.connect cfg a).2 = m := by
              rcases connect_cases m cfg a with ⟨e, _⟩ | ⟨e, _⟩ | ⟨e, _⟩
              · rw [e]
              · rw [e]
              · rw [e] at h3; simp at h3
            rw [e] at h
            exact ih _ _ _ _ h hn hs hl
    · rw [if_neg h1] at h
      simp only [Res.ok.injEq] at h
      rw [← h]; exact ⟨hn, fun _ _ => rfl, by omega⟩

theorem maintainLoop_zero (cfg : Config) (below : Bool) (fuel : Nat) (m : Mgr) (src : List Cand) (set : List Sock) :
    Mgr.maintainLoop cfg below 0 fuel m src set = .ok m := by
  cases fuel <;> simp [Mgr.maintainLoop]

/-- How many connections may be opened. -/
theorem delta_bound (m : Mgr) (cfg : Config) (hd : m.delta cfg ≠ 0) :
    m.conns.length + m.connecting.length + m.delta cfg ≤ cfg.target + cfg.target / 2 ∧
    m.conns.length + m.connecting.length + m.primary cfg + m.delta cfg ≤ cfg.target + (m.negotiated .outbound).length := by
  have h1 := secondary_ok m cfg
  have h2 := unnegotiated_ok m cfg
  have hs : m.secondary cfg = (m.negotiated .outbound).length - m.primary cfg := rfl
  have hu : m.unknown cfg = m.connecting.length + (m.conns.length - m.primary cfg - m.secondary cfg) := rfl
  by_cases hc : (decide (m.primary cfg + m.secondary cfg + m.unknown cfg > cfg.target + cfg.target / 2) ||
      decide (m.primary cfg + m.unknown cfg > cfg.target)) = true
  · exact absurd (by unfold Mgr.delta; exact if_pos hc) hd
  · have e : m.delta cfg = min (cfg.target + cfg.target / 2 - (m.primary cfg + m.secondary cfg + m.unknown cfg))
        (cfg.target - (m.primary cfg + m.unknown cfg)) := by unfold Mgr.delta; exact if_neg hc
    simp only [gt_iff_lt, Bool.or_eq_true, decide_eq_true_eq, not_or, Nat.not_lt] at hc
    omega

/-- What `maintain_connections` does to the number of connections. -/
theorem maintain_counts {m m' : Mgr} {cfg : Config} {src : List Cand} (h : m.maintain cfg src = .ok m') (hn : m.peers.keys.Nodup) :
    m'.peers.keys.Nodup ∧ (∀ f, Stable f → cnt f m'.peers = cnt f m.peers) ∧
    (m' = m ∨ (cfg.persistent = [] ∧
      cnt isConn m'.peers + cnt isConnectingP m'.peers ≤ cfg.target + cfg.target / 2 ∧
      cnt isConn m'.peers + cnt isConnectingP m'.peers + cnt (isPrimary cfg.preferred) m'.peers ≤
        cfg.target + cnt isNegOut m'.peers)) := by
  unfold Mgr.maintain at h
  by_cases h1 : cfg.persistent ≠ []
  · rw [if_pos h1] at h
    simp only [Res.ok.injEq] at h
    rw [← h]
    exact ⟨hn, fun _ _ => rfl, Or.inl rfl⟩
  · rw [if_neg h1] at h
    by_cases hd : m.delta cfg = 0
    · rw [hd, maintainLoop_zero] at h
      simp only [Res.ok.injEq] at h
      rw [← h]
      exact ⟨hn, fun _ _ => rfl, Or.inl rfl⟩
    · obtain ⟨r1, r2, r3⟩ := maintainLoop_counts _ _ _ _ _ _ _ _ h hn (by simp) (by simp)
      refine ⟨r1, r2, Or.inr ⟨by simpa using h1, ?_⟩⟩
      have e1 := r2 isConn ⟨rfl, fun _ => rfl⟩
      have e2 := r2 (isPrimary cfg.preferred) ⟨rfl, fun _ => rfl⟩
      have e3 := r2 isNegOut ⟨rfl, fun _ => rfl⟩
      have p1 := delta_bound m cfg hd
      have p2 := conns_length m
      have p3 := connecting_length m
      have p4 := negotiated_length m
      have p5 := primary_length m cfg
      simp only [List.length_nil] at r3
      omega

end Verif.Peer

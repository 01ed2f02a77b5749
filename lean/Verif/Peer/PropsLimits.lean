import Verif.Peer.Limits
import Verif.Peer.PropsHandshake

/-!
# C45, C70: connection limits
-/

set_option autoImplicit false

namespace Verif.Peer
open Verif.Addr (Sock Ip Domain NetAddr Source has isLocal domainOf sadd)

variable {cfg : Config} {tr : List Ip}

/-! ### Functions that add no connections -/

/-- No address is listed twice, and there are not more connections of any kind. -/
def Shrinks (m m' : Mgr) : Prop :=
  m.peers.keys.Nodup → m'.peers.keys.Nodup ∧ ∀ f, Stable f → cnt f m'.peers ≤ cnt f m.peers

theorem Shrinks.refl (m : Mgr) : Shrinks m m := fun h => ⟨h, fun _ _ => Nat.le_refl _⟩

theorem Shrinks.of_eq {m m' : Mgr} (e : m'.peers = m.peers) : Shrinks m m' :=
  fun h => ⟨by rw [e]; exact h, fun _ _ => by rw [e]; exact Nat.le_refl _⟩

theorem Shrinks.trans {m m' m'' : Mgr} (h : Shrinks m m') (h' : Shrinks m' m'') : Shrinks m m'' := by
  intro hn
  obtain ⟨h1, h2⟩ := h hn
  obtain ⟨h3, h4⟩ := h' h1
  exact ⟨h3, fun f hf => Nat.le_trans (h4 f hf) (h2 f hf)⟩

theorem connect_shrinks (m : Mgr) (cfg : Config) (a : Sock) : Shrinks m (m.connect cfg a).2 :=
  fun hn => ⟨connect_nodup cfg a hn, fun f hf => Nat.le_of_eq (cnt_connect cfg a hn f hf.1 hf.2)⟩

theorem drop_shrinks (m : Mgr) (a : Sock) (r : Reason) : Shrinks m (m.drop a r) := by
  intro hn
  refine ⟨drop_nodup a r hn, fun f hf => ?_⟩
  have := cnt_insert f hn a .disconnecting
  simp only [one, hf.1, Bool.false_eq_true, if_false, Nat.add_zero] at this
  simp only [Mgr.drop]
  omega

theorem disconnect_shrinks (m : Mgr) (a : Sock) (r : Reason) : Shrinks m (m.disconnect a r) := by
  unfold Mgr.disconnect
  by_cases h : m.isConnected a = true
  · rw [if_pos h]; exact drop_shrinks m a r
  · rw [if_neg h]; exact Shrinks.refl m

theorem forget_shrinks (m : Mgr) (a : Sock) (d : Disc) : Shrinks m (m.forget a d) := by
  intro hn
  refine ⟨AMap.nodup_erase hn a, fun f _ => ?_⟩
  have := cnt_erase f hn a
  simp only [Mgr.forget]
  omega

theorem maintain_shrinks {m m' : Mgr} {src : List Cand} (h : m.maintain cfg src = .ok m') : Shrinks m m' := by
  intro hn
  obtain ⟨h1, h2, _⟩ := maintain_counts h hn
  exact ⟨h1, fun f hf => Nat.le_of_eq (h2 f hf)⟩

theorem connectAll_shrinks : ∀ (l : List Sock) (m : Mgr), Shrinks m (m.connectAll cfg l) := by
  intro l
  induction l with
  | nil => intro m; exact Shrinks.refl m
  | cons a l ih =>
    intro m
    simp only [Mgr.connectAll]
    by_cases h : (m.connect cfg a).1 = true
    · rw [if_pos h]; exact (connect_shrinks m cfg a).trans (ih _)
    · rw [if_neg h]
      have s1 : Shrinks (m.connect cfg a).2 ((m.connect cfg a).2.emit [.evError a]) := Shrinks.of_eq rfl
      exact ((connect_shrinks m cfg a).trans s1).trans (ih _)

theorem initialize_shrinks {m m' : Mgr} {src : List Cand} (h : m.initialize cfg src = .ok m') : Shrinks m m' := by
  unfold Mgr.initialize at h
  have s1 : Shrinks (m.connectAll cfg cfg.persistent) ((m.connectAll cfg cfg.persistent).emit [.timer idleTimeout]) :=
    Shrinks.of_eq rfl
  exact ((connectAll_shrinks cfg.persistent m).trans s1).trans (maintain_shrinks h)

theorem reconnect_shrinks : ∀ (l : List Sock) (m : Mgr), Shrinks m (m.reconnect cfg l) := by
  intro l
  induction l with
  | nil => intro m; exact Shrinks.refl m
  | cons a l ih => intro m; exact (connect_shrinks m cfg a).trans (ih _)

theorem dropAll_shrinks : ∀ (l : List (Sock × Reason)) (m : Mgr), Shrinks m (m.dropAll l) := by
  intro l
  induction l with
  | nil => intro m; exact Shrinks.refl m
  | cons x l ih => intro m; exact (drop_shrinks m x.1 x.2).trans (ih _)

/-- The parts of looking for connections once in a while. -/
theorem idle_parts {m m' : Mgr} {src : List Cand} (h : m.idle cfg src = .ok m') :
    m' = m ∨ ∃ m1, m.maintain cfg src = .ok m1 ∧ m'.peers = m1.peers ∧ m'.disconnected = m1.disconnected ∧
      m'.out = m1.out ++ [.timer idleTimeout] := by
  unfold Mgr.idle at h
  by_cases h1 : m.now - m.lastIdle.getD 0 ≥ idleTimeout
  · rw [if_pos h1] at h
    cases hm : m.maintain cfg src with
    | ok m1 =>
      simp only [hm, Res.ok.injEq] at h
      right
      exact ⟨m1, rfl, by rw [← h], by rw [← h], by rw [← h]⟩
    | err e => simp [hm] at h
    | panic => simp [hm] at h
  · rw [if_neg h1] at h
    simp only [Res.ok.injEq] at h
    exact Or.inl h.symm

theorem idle_shrinks {m m' : Mgr} {src : List Cand} (h : m.idle cfg src = .ok m') : Shrinks m m' := by
  rcases idle_parts h with rfl | ⟨m1, h1, e, _⟩
  · exact Shrinks.refl _
  · exact (maintain_shrinks h1).trans (Shrinks.of_eq e)

theorem timerExpired_shrinks {m m' : Mgr} {ord : List Sock → List Sock} {src : List Cand}
    (h : m.timerExpired cfg ord src = .ok m') : Shrinks m m' := by
  obtain ⟨m1, h1, rfl⟩ := timerExpired_parts h
  have e3 : Shrinks m1 m1.clearDue := Shrinks.of_eq rfl
  exact (dropAll_shrinks _ m).trans ((idle_shrinks h1).trans (e3.trans (reconnect_shrinks _ _)))

theorem peerDisconnected_shrinks {m m' : Mgr} {a : Sock} {d : Disc} {src : List Cand}
    (h : m.peerDisconnected cfg a d src = .ok m') : Shrinks m m' := by
  rcases peerDisconnected_parts h with ⟨_, h1⟩ | ⟨_, h1⟩
  · obtain ⟨_, e⟩ := persistentDisconnected_parts h1
    exact (forget_shrinks m a d).trans (Shrinks.of_eq (by rw [e]))
  · exact (forget_shrinks m a d).trans (maintain_shrinks h1)

/-! ### Inbound connections -/

/-- Replacing the record of a connection. -/
theorem cnt_isIn_replace {m : Mgr} (hn : m.peers.keys.Nodup) {a : Sock} {c : Conn} {i : Option Info}
    (h : m.peers.get a = some (.connected c i)) (j : Option Info) :
    cnt isIn (m.peers.insert a (.connected c j)) = cnt isIn m.peers := by
  have := cnt_insert isIn hn a (.connected c j)
  rw [h] at this
  simp only [one, isIn] at this
  exact Nat.add_right_cancel this

theorem message_isIn {h : List Op} {m m' : Mgr} (hi : Inv cfg tr h m) {a : Sock} {mg : Bool} {height : Nat} {hook : Bool} {msg : Msg}
    (e : m.messageReceived cfg a mg height hook msg = .ok m') (hn : m.peers.keys.Nodup) :
    m'.peers.keys.Nodup ∧ cnt isIn m'.peers ≤ cnt isIn m.peers := by
  have st : Stable isIn := ⟨rfl, fun _ => rfl⟩
  have fin : ∀ {m2 : Mgr}, Shrinks m m2 → m2.peers.keys.Nodup ∧ cnt isIn m2.peers ≤ cnt isIn m.peers :=
    fun s => ⟨(s hn).1, (s hn).2 isIn st⟩
  unfold Mgr.messageReceived at e
  cases mg with
  | false =>
    simp only [Bool.not_false, if_true, Res.ok.injEq] at e
    rw [← e]; exact fin (disconnect_shrinks m a _)
  | true =>
    simp only [Bool.not_true, Bool.false_eq_true, if_false] at e
    by_cases hc : m.isConnected a = true
    · simp only [hc, Bool.not_true, Bool.false_eq_true, if_false] at e
      obtain ⟨c, i, hg⟩ := (isConnected_iff m a).1 hc
      have ha := (hi.sess a c i hg).1
      cases msg with
      | version v =>
        simp only [Mgr.receivedMsg, Mgr.receivedVersion, hg] at e
        cases hrf : m.refuse cfg c a v height hook with
        | some r =>
          simp only [hrf, Res.ok.injEq] at e
          rw [← e]; exact fin (drop_shrinks m a _)
        | none =>
          simp only [hrf] at e
          by_cases hp : (cfg.dbg && rawOffset v m.now < -(2 ^ 63 : Int)) = true
          · rw [if_pos hp] at e; simp at e
          rw [if_neg hp] at e
          simp only [Res.ok.injEq] at e
          rw [← e]
          simp only [Mgr.accept, ha]
          exact ⟨AMap.nodup_insert hn _ _, Nat.le_of_eq (cnt_isIn_replace hn hg _)⟩
      | wtxidRelay =>
        simp only [Mgr.receivedMsg, Res.ok.injEq, Mgr.receivedWtxidRelay, hg] at e
        cases i with
        | none => simp only at e; rw [← e]; exact ⟨hn, Nat.le_refl _⟩
        | some i =>
          cases hst : i.state with
          | version since =>
            simp only [hst] at e
            rw [← e]
            exact ⟨AMap.nodup_insert hn _ _, Nat.le_of_eq (cnt_isIn_replace hn hg _)⟩
          | verack since =>
            simp only [hst] at e
            rw [← e]; exact fin (disconnect_shrinks m a _)
      | verack =>
        simp only [Mgr.receivedMsg, Res.ok.injEq, Mgr.receivedVerack, hg] at e
        cases i with
        | none => simp only at e; rw [← e]; exact ⟨hn, Nat.le_refl _⟩
        | some i =>
          cases hst : i.state with
          | version since =>
            simp only [hst] at e
            rw [← e]
            exact ⟨AMap.nodup_insert hn _ _, Nat.le_of_eq (cnt_isIn_replace hn hg _)⟩
          | verack since =>
            simp only [hst] at e
            rw [← e]; exact fin (drop_shrinks m a _)
    · simp only [Bool.not_eq_true] at hc
      simp only [hc, Bool.not_false, if_true, Res.ok.injEq] at e
      rw [← e]; exact ⟨hn, Nat.le_refl _⟩

theorem peerConnected_isIn {m m' : Mgr} {a loc : Sock} {link : Link} {height nonce : Nat}
    (h : m.peerConnected cfg a loc link height nonce = .ok m') (hn : m.peers.keys.Nodup) :
    m'.peers.keys.Nodup ∧ (cnt isIn m'.peers ≤ cnt isIn m.peers ∨ cnt isIn m'.peers < cfg.maxInbound) := by
  rw [(peerConnected_ok h).1]
  have hn' : (m.addConn a loc link).peers.keys.Nodup := AMap.nodup_insert hn _ _
  cases link with
  | outbound =>
    refine ⟨hn', Or.inl ?_⟩
    have := cnt_insert isIn hn a (.connected { addr := a, loc := loc, link := .outbound, since := m.now } none)
    simp only [one, isIn] at this
    change cnt isIn (m.peers.insert a _) ≤ _
    simp at this
    omega
  | inbound =>
    simp only [Mgr.emit, Mgr.greet]
    by_cases hc : (m.addConn a loc .inbound).inboundCount ≥ cfg.maxInbound
    · rw [if_pos hc]
      refine ⟨drop_nodup a _ hn', Or.inl ?_⟩
      have h1 := cnt_insert isIn hn' a .disconnecting
      have h2 := cnt_insert isIn hn a (.connected { addr := a, loc := loc, link := .inbound, since := m.now } none)
      have h3 : (m.addConn a loc .inbound).peers.get a =
          some (.connected { addr := a, loc := loc, link := .inbound, since := m.now } none) := by simp [Mgr.addConn]
      rw [h3] at h1
      simp only [Mgr.drop]
      simp [one, isIn] at h1 h2
      have h4 : cnt isIn (m.addConn a loc .inbound).peers =
        cnt isIn (m.peers.insert a (.connected { addr := a, loc := loc, link := .inbound, since := m.now } none)) := rfl
      omega
    · rw [if_neg hc]
      refine ⟨hn', Or.inr ?_⟩
      rw [inbound_length] at hc
      omega

/-- What holds of the listing after every history. -/
structure ListInv (cfg : Config) (m : Mgr) : Prop where
  nodup : m.peers.keys.Nodup
  inbound : cnt isIn m.peers ≤ cfg.maxInbound - 1

theorem list_of_shrinks {m m' : Mgr} (hl : ListInv cfg m) (s : Shrinks m m') : ListInv cfg m' :=
  ⟨(s hl.nodup).1, Nat.le_trans ((s hl.nodup).2 isIn ⟨rfl, fun _ => rfl⟩) hl.inbound⟩

theorem list_step {h : List Op} {m m' : Mgr} {op : Op} (hi : Inv cfg tr h m) (hl : ListInv cfg m)
    (e : m.step cfg op = .ok m') : ListInv cfg m' := by
  cases op with
  | init src => exact list_of_shrinks hl (initialize_shrinks e)
  | tick t =>
    simp only [Mgr.step, Res.ok.injEq] at e
    rw [← e]; exact ⟨hl.nodup, hl.inbound⟩
  | attempted a =>
    simp only [Mgr.step, Mgr.peerAttempted] at e
    by_cases h1 : (cfg.dbg && !(m.isConnecting a || m.isInbound a)) = true
    · rw [if_pos h1] at e; simp at e
    · rw [if_neg h1] at e
      simp only [Res.ok.injEq] at e
      rw [← e]; exact hl
  | connected a loc link height nonce =>
    obtain ⟨h1, h2 | h2⟩ := peerConnected_isIn e hl.nodup
    · exact ⟨h1, Nat.le_trans h2 hl.inbound⟩
    · exact ⟨h1, by omega⟩
  | disconnected a d src => exact list_of_shrinks hl (peerDisconnected_shrinks e)
  | message a mg height hook msg =>
    obtain ⟨h1, h2⟩ := message_isIn hi e hl.nodup
    exact ⟨h1, Nat.le_trans h2 hl.inbound⟩
  | timedOut a =>
    simp only [Mgr.step, Res.ok.injEq] at e
    rw [← e]; exact list_of_shrinks hl (disconnect_shrinks m a _)
  | misbehaved a =>
    simp only [Mgr.step, Res.ok.injEq] at e
    rw [← e]; exact list_of_shrinks hl (disconnect_shrinks m a _)
  | cmdConnect a =>
    simp only [Mgr.step, Res.ok.injEq] at e
    rw [← e]
    exact list_of_shrinks hl ((Shrinks.of_eq rfl : Shrinks m (m.whitelist a)).trans (connect_shrinks _ cfg a))
  | cmdDisconnect a =>
    simp only [Mgr.step, Res.ok.injEq] at e
    rw [← e]; exact list_of_shrinks hl (disconnect_shrinks m a _)
  | timer ord src => exact list_of_shrinks hl (timerExpired_shrinks e)

theorem run_list {h : List Op} {m : Mgr} (r : Run cfg tr h m) : ListInv cfg m := by
  induction r with
  | start => exact ⟨List.nodup_nil, Nat.zero_le _⟩
  | step r _ e ih => exact list_step (run_inv r) ih e

/-- C45: after every history, the number of connected inbound peers is below the configured maximum (zero, if that is zero).  The
maximum itself is never reached. -/
theorem C45_inbound {h : List Op} {m : Mgr} (r : Run cfg tr h m) :
    (m.conns.filter (fun c => c.link == .inbound)).length ≤ cfg.maxInbound - 1 := by
  have := (run_list r).inbound
  rw [← inbound_length] at this
  exact this

/-! ### Outbound connections -/

/-- Only persistent peers are ever scheduled for a reconnection. -/
theorem disconnected_step {m m' : Mgr} {op : Op} (e : m.step cfg op = .ok m')
    (hd : ∀ a ∈ m.disconnected.keys, a ∈ cfg.persistent) : ∀ a ∈ m'.disconnected.keys, a ∈ cfg.persistent := by
  cases op with
  | init src => rw [(initialize_ext e).disc]; exact hd
  | tick t =>
    simp only [Mgr.step, Res.ok.injEq] at e
    rw [← e]; exact hd
  | attempted a =>
    simp only [Mgr.step, Mgr.peerAttempted] at e
    by_cases h1 : (cfg.dbg && !(m.isConnecting a || m.isInbound a)) = true
    · rw [if_pos h1] at e; simp at e
    · rw [if_neg h1] at e
      simp only [Res.ok.injEq] at e
      rw [← e]; exact hd
  | connected a loc link height nonce =>
    rw [(peerConnected_out e).2.2.2]
    intro b hb
    exact hd b ((AMap.mem_keys_erase _ _ _).1 hb).1
  | disconnected a d src =>
    rcases peerDisconnected_parts e with ⟨hp, h1⟩ | ⟨_, h1⟩
    · obtain ⟨_, e⟩ := persistentDisconnected_parts h1
      rw [e]
      intro b hb
      rcases (AMap.mem_keys_insert _ _ _ _).1 hb with rfl | hb
      · exact hp
      · exact hd b hb
    · rw [(maintain_ext h1).disc]; exact hd
  | message a mg height hook msg =>
    have key : m'.disconnected = m.disconnected := by
      simp only [Mgr.step, Mgr.messageReceived] at e
      cases mg with
      | false =>
        simp only [Bool.not_false, if_true, Res.ok.injEq] at e
        rw [← e]; exact (disconnect_ext m a _).disc
      | true =>
        simp only [Bool.not_true, Bool.false_eq_true, if_false] at e
        by_cases hc : m.isConnected a = true
        · simp only [hc, Bool.not_true, Bool.false_eq_true, if_false] at e
          obtain ⟨c, i, hg⟩ := (isConnected_iff m a).1 hc
          cases msg with
          | version v =>
            simp only [Mgr.receivedMsg, Mgr.receivedVersion, hg] at e
            cases hrf : m.refuse cfg c a v height hook with
            | some r =>
              simp only [hrf, Res.ok.injEq] at e
              rw [← e]; rfl
            | none =>
              simp only [hrf] at e
              by_cases hp : (cfg.dbg && rawOffset v m.now < -(2 ^ 63 : Int)) = true
              · rw [if_pos hp] at e; simp at e
              rw [if_neg hp] at e
              simp only [Res.ok.injEq] at e
              rw [← e]; rfl
          | wtxidRelay =>
            simp only [Mgr.receivedMsg, Res.ok.injEq, Mgr.receivedWtxidRelay, hg] at e
            cases i with
            | none => simp only at e; rw [← e]
            | some i =>
              cases hst : i.state with
              | version since => simp only [hst] at e; rw [← e]
              | verack since => simp only [hst] at e; rw [← e]; exact (disconnect_ext m a _).disc
          | verack =>
            simp only [Mgr.receivedMsg, Res.ok.injEq, Mgr.receivedVerack, hg] at e
            cases i with
            | none => simp only at e; rw [← e]
            | some i =>
              cases hst : i.state with
              | version since => simp only [hst] at e; rw [← e]
              | verack since => simp only [hst] at e; rw [← e]; rfl
        · simp only [Bool.not_eq_true] at hc
          simp only [hc, Bool.not_false, if_true, Res.ok.injEq] at e
          rw [← e]
    rw [key]; exact hd
  | timedOut a =>
    simp only [Mgr.step, Res.ok.injEq] at e
    rw [← e, (disconnect_ext m a _).disc]; exact hd
  | misbehaved a =>
    simp only [Mgr.step, Res.ok.injEq] at e
    rw [← e, (disconnect_ext m a _).disc]; exact hd
  | cmdConnect a =>
    simp only [Mgr.step, Res.ok.injEq] at e
    rw [← e, (connect_ext _ cfg a).disc]; exact hd
  | cmdDisconnect a =>
    simp only [Mgr.step, Res.ok.injEq] at e
    rw [← e, (disconnect_ext m a _).disc]; exact hd
  | timer ord src =>
    obtain ⟨m1, h1, rfl⟩ := timerExpired_parts e
    have e1 : m1.disconnected = m.disconnected := by
      rw [(idle_ext h1).disc, (dropAll_ext _ m).disc]
    have e2 : (m1.maintainPersistent cfg ord).disconnected = m1.clearDue.disconnected := (reconnect_ext cfg _ _).disc
    rw [e2]
    intro a ha
    refine hd a ?_
    rw [← e1]
    simpa [Mgr.clearDue, AMap.keys, List.map_map, Function.comp_def] using ha

theorem run_disconnected {h : List Op} {m : Mgr} (r : Run cfg tr h m) : ∀ a ∈ m.disconnected.keys, a ∈ cfg.persistent := by
  induction r with
  | start => intro a ha; simp [Mgr.new, AMap.keys] at ha
  | step _ _ e ih => exact disconnected_step e ih

/-- Without outputs of a kind, none is added. -/
theorem connecting_added {m m' : Mgr} {P : Out → Prop} (h : ∃ l, m'.out = m.out ++ l ∧ ∀ o ∈ l, P o)
    (i : ∀ a s f, ¬ P (.evConnecting a s f)) {a : Sock} {s : Source} {f : Nat} : .evConnecting a s f ∉ added m m' := by
  obtain ⟨l, e, hl⟩ := h
  rw [added_of e]
  exact fun ho => i a s f (hl _ ho)

/-- Automatic connections are opened by `maintain_connections`, and nothing happens to the listing afterwards. -/
theorem connecting_step {h : List Op} {m m' : Mgr} {op : Op} (r : Run cfg tr h m) (lg : op.Legal) (e : m.step cfg op = .ok m') {a : Sock}
    {s : Source} {f : Nat} (ho : .evConnecting a s f ∈ added m m') :
    ∃ m1 m2 src, m1.peers.keys.Nodup ∧ Mgr.maintain m1 cfg src = .ok m2 ∧ m2 ≠ m1 ∧ m'.peers = m2.peers ∧
      (∀ f, Stable f → cnt f m1.peers ≤ cnt f m.peers) := by
  have hl := run_list r
  cases op with
  | init src =>
    have hx : m.initialize cfg src = .ok m' := e
    unfold Mgr.initialize at hx
    have sh := (connectAll_shrinks (cfg := cfg) cfg.persistent m).trans
      (Shrinks.of_eq (m' := (m.connectAll cfg cfg.persistent).emit [.timer idleTimeout]) rfl)
    obtain ⟨s1, s2⟩ := sh hl.nodup
    refine ⟨_, m', src, s1, hx, ?_, rfl, s2⟩
    intro eq
    by_cases hp : cfg.persistent = []
    · rw [hp] at eq
      refine connecting_added (P := fun o => o = .timer idleTimeout) ⟨[.timer idleTimeout], ?_, by simp⟩ (by simp) ho
      rw [eq]; rfl
    · have c0 : ∀ (l : List Sock) (m : Mgr), ∃ l', (m.connectAll cfg l).out = m.out ++ l' ∧
          ∀ o ∈ l', ConnectOut o ∨ ∃ a, o = .evError a := by
        intro l
        induction l with
        | nil => intro m; exact ⟨[], by simp [Mgr.connectAll], by simp⟩
        | cons b l ih =>
          intro m
          simp only [Mgr.connectAll]
          by_cases h : (m.connect cfg b).1 = true
          · rw [if_pos h]
            obtain ⟨l1, e1, h1⟩ := (connect_ext m cfg b).out
            obtain ⟨l2, e2, h2⟩ := ih (m.connect cfg b).2
            refine ⟨l1 ++ l2, by rw [e2, e1, List.append_assoc], ?_⟩
            intro o ho
            rcases List.mem_append.1 ho with x | x
            · exact Or.inl (h1 o x)
            · exact h2 o x
          · rw [if_neg h]
            obtain ⟨l1, e1, h1⟩ := (connect_ext m cfg b).out
            obtain ⟨l2, e2, h2⟩ := ih ((m.connect cfg b).2.emit [.evError b])
            refine ⟨l1 ++ [.evError b] ++ l2, by rw [e2]; simp [Mgr.emit, e1], ?_⟩
            intro o ho
            simp only [List.mem_append, List.mem_cons, List.not_mem_nil, or_false] at ho
            rcases ho with (x | x) | x
            · exact Or.inl (h1 o x)
            · exact Or.inr ⟨b, x⟩
            · exact h2 o x
      obtain ⟨l, el, hl'⟩ := c0 cfg.persistent m
      refine connecting_added (P := fun o => ConnectOut o ∨ ∃ a, o = .evError a) ⟨l ++ [.timer idleTimeout], ?_, ?_⟩ ?_ ho
      · rw [eq]; simp [Mgr.emit, el]
      · intro o ho
        rcases List.mem_append.1 ho with x | x
        · exact hl' o x
        · simp only [List.mem_cons, List.not_mem_nil, or_false] at x
          exact Or.inl (Or.inr ⟨_, x⟩)
      · intro a s f hx
        rcases hx with (⟨b, hx⟩ | ⟨t, hx⟩) | ⟨b, hx⟩ <;> simp at hx
  | tick t =>
    simp only [Mgr.step, Res.ok.injEq] at e
    rw [← e] at ho; simp [added] at ho
  | attempted b =>
    simp only [Mgr.step, Mgr.peerAttempted] at e
    by_cases h1 : (cfg.dbg && !(m.isConnecting b || m.isInbound b)) = true
    · rw [if_pos h1] at e; simp at e
    · rw [if_neg h1] at e
      simp only [Res.ok.injEq] at e
      rw [← e, added_self] at ho; simp at ho
  | connected b loc link height nonce =>
    refine absurd ho (connecting_added (peerConnected_out e).1 ?_)
    rintro a s f (hx | ⟨v, hx⟩ | ⟨t, hx⟩ | ⟨x, y, hx⟩) <;> simp at hx
  | disconnected b d src =>
    rcases peerDisconnected_parts e with ⟨hp, h1⟩ | ⟨_, h1⟩
    · obtain ⟨_, e2⟩ := persistentDisconnected_parts h1
      obtain ⟨l, el, _⟩ := (forget_ext m b d).out
      exfalso
      have : m'.out = m.out ++ (m.lostEvent b d ++
          [.timer (max cfg.retryMin (min (backoff (((m.forget b d).disconnected.get b).getD (none, 0)).2) cfg.retryMax))]) := by
        rw [e2]; simp [Mgr.forget]
      rw [added_of this] at ho
      simp only [List.mem_append, List.mem_cons, List.not_mem_nil, or_false, reduceCtorEq] at ho
      unfold Mgr.lostEvent at ho
      by_cases h1 : (m.isDisconnecting b || m.isConnected b) = true
      · rw [if_pos h1] at ho; simp at ho
      · rw [if_neg h1] at ho
        by_cases h2 : (m.isConnecting b && d == .connection) = true
        · rw [if_pos h2] at ho; simp at ho
        · rw [if_neg h2] at ho; simp at ho
    · obtain ⟨s1, s2⟩ := forget_shrinks m b d hl.nodup
      refine ⟨_, m', src, s1, h1, ?_, rfl, s2⟩
      intro eq
      rw [eq, added_of (m' := m.forget b d) (l := m.lostEvent b d) rfl] at ho
      unfold Mgr.lostEvent at ho
      by_cases h1 : (m.isDisconnecting b || m.isConnected b) = true
      · rw [if_pos h1] at ho; simp at ho
      · rw [if_neg h1] at ho
        by_cases h2 : (m.isConnecting b && d == .connection) = true
        · rw [if_pos h2] at ho; simp at ho
        · rw [if_neg h2] at ho; simp at ho
  | message b mg height hook msg =>
    exfalso
    simp only [Mgr.step, Mgr.messageReceived] at e
    have dd : ∀ {b : Sock} {r : Reason}, .evConnecting a s f ∉ added m (m.disconnect b r) :=
      connecting_added (disconnect_ext m _ _).out (by simp)
    have dr : ∀ {b : Sock} {r : Reason}, .evConnecting a s f ∉ added m (m.drop b r) :=
      connecting_added (drop_ext m _ _).out (by simp)
    cases mg with
    | false =>
      simp only [Bool.not_false, if_true, Res.ok.injEq] at e
      rw [← e] at ho; exact dd ho
    | true =>
      simp only [Bool.not_true, Bool.false_eq_true, if_false] at e
      by_cases hc : m.isConnected b = true
      · simp only [hc, Bool.not_true, Bool.false_eq_true, if_false] at e
        obtain ⟨c, i, hg⟩ := (isConnected_iff m b).1 hc
        cases msg with
        | version v =>
          simp only [Mgr.receivedMsg, Mgr.receivedVersion, hg] at e
          cases hrf : m.refuse cfg c b v height hook with
          | some r =>
            simp only [hrf, Res.ok.injEq] at e
            rw [← e] at ho; exact dr ho
          | none =>
            simp only [hrf] at e
            by_cases hp : (cfg.dbg && rawOffset v m.now < -(2 ^ 63 : Int)) = true
            · rw [if_pos hp] at e; simp at e
            rw [if_neg hp] at e
            simp only [Res.ok.injEq] at e
            rw [← e, added_of (m' := m.accept cfg c v height) rfl] at ho
            unfold reply at ho
            cases hlk : c.link <;> simp [hlk] at ho
        | wtxidRelay =>
          simp only [Mgr.receivedMsg, Res.ok.injEq, Mgr.receivedWtxidRelay, hg] at e
          cases i with
          | none => simp only at e; rw [← e, added_self] at ho; simp at ho
          | some i =>
            cases hst : i.state with
            | version since => simp only [hst] at e; rw [← e] at ho; simp [added] at ho
            | verack since => simp only [hst] at e; rw [← e] at ho; exact dd ho
        | verack =>
          simp only [Mgr.receivedMsg, Res.ok.injEq, Mgr.receivedVerack, hg] at e
          cases i with
          | none => simp only at e; rw [← e, added_self] at ho; simp at ho
          | some i =>
            cases hst : i.state with
            | version since => simp only [hst] at e; rw [← e] at ho; simp [added] at ho
            | verack since => simp only [hst] at e; rw [← e] at ho; exact dr ho
      · simp only [Bool.not_eq_true] at hc
        simp only [hc, Bool.not_false, if_true, Res.ok.injEq] at e
        rw [← e, added_self] at ho; simp at ho
  | timedOut b =>
    simp only [Mgr.step, Res.ok.injEq] at e
    rw [← e] at ho
    exact absurd ho (connecting_added (disconnect_ext m _ _).out (by simp))
  | misbehaved b =>
    simp only [Mgr.step, Res.ok.injEq] at e
    rw [← e] at ho
    exact absurd ho (connecting_added (disconnect_ext m _ _).out (by simp))
  | cmdConnect b =>
    simp only [Mgr.step, Res.ok.injEq] at e
    rw [← e] at ho
    refine absurd ho (connecting_added (m := m) (connect_ext (m.whitelist b) cfg b).out ?_)
    rintro a s f (⟨b, hx⟩ | ⟨t, hx⟩) <;> simp at hx
  | cmdDisconnect b =>
    simp only [Mgr.step, Res.ok.injEq] at e
    rw [← e] at ho
    exact absurd ho (connecting_added (disconnect_ext m _ _).out (by simp))
  | timer ord src =>
    obtain ⟨m1, h1, rfl⟩ := timerExpired_parts e
    obtain ⟨s1, s2⟩ := dropAll_shrinks (m.timedOut ord) m hl.nodup
    obtain ⟨l0, e0, p0⟩ := (dropAll_ext (m.timedOut ord) m).out
    obtain ⟨l2, e2, p2⟩ := (maintainPersistent_ext m1 cfg ord).out
    have nl0 : .evConnecting a s f ∉ l0 := fun hx => by
      obtain ⟨b, r, hx⟩ := p0 _ hx; simp at hx
    have nl2 : .evConnecting a s f ∉ l2 := fun hx => by
      rcases p2 _ hx with ⟨b, hx⟩ | ⟨t, hx⟩ <;> simp at hx
    rcases idle_parts h1 with eq | ⟨m2, h2, ep, ed, eo⟩
    · exfalso
      have : (m1.maintainPersistent cfg ord).out = m.out ++ (l0 ++ l2) := by
        rw [e2, eq, e0, List.append_assoc]
      rw [added_of this] at ho
      rcases List.mem_append.1 ho with x | x
      · exact nl0 x
      · exact nl2 x
    · have hne : m2 ≠ m.dropAll (m.timedOut ord) := by
        intro eq
        have : (m1.maintainPersistent cfg ord).out = m.out ++ (l0 ++ [.timer idleTimeout] ++ l2) := by
          rw [e2, eo, eq, e0]; simp
        rw [added_of this] at ho
        simp only [List.mem_append, List.mem_cons, List.not_mem_nil, or_false, reduceCtorEq] at ho
        rcases ho with x | x
        · exact nl0 x
        · exact nl2 x
      refine ⟨_, m2, src, s1, h2, hne, ?_, s2⟩
      have hp : cfg.persistent = [] := by
        rcases (maintain_counts h2 s1).2.2 with x | ⟨x, _⟩
        · exact absurd x hne
        · exact x
      have hdk : m1.disconnected = [] := by
        have hk := run_disconnected r
        have : m1.disconnected = m.disconnected := by
          rw [ed, (maintain_ext h2).disc, (dropAll_ext _ m).disc]
        rw [this]
        cases hd : m.disconnected with
        | nil => rfl
        | cons x l =>
          exfalso
          have := hk x.1 (by rw [hd]; exact List.mem_cons_self)
          rw [hp] at this
          simp at this
      have hdue : m1.due = [] := by simp [Mgr.due, hdk]
      have hor : ord m1.due = [] := by
        rw [hdue]
        exact List.perm_nil.1 (lg [])
      simp only [Mgr.maintainPersistent, hor, Mgr.reconnect, Mgr.clearDue]
      exact ep

/-- The connected outbound peers that completed the handshake and lack some of the preferred services. -/
def Mgr.lacking (m : Mgr) (cfg : Config) : Nat :=
  ((m.negotiated .outbound).filter (fun p => !has p.1.services cfg.preferred)).length

theorem lacking_eq (m : Mgr) (cfg : Config) : m.lacking cfg + m.primary cfg = (m.negotiated .outbound).length := by
  unfold Mgr.lacking Mgr.primary
  rw [← List.countP_eq_length_filter, ← List.countP_eq_length_filter, Nat.add_comm]
  have := List.length_eq_countP_add_countP (fun p : Info × Conn => has p.1.services cfg.preferred) (l := m.negotiated .outbound)
  rw [this]
  congr 1
  refine List.countP_congr (fun p _ => ?_)
  simp

/-- C45: whenever the client opens connections of its own accord, there are afterwards not more connections and connection attempts
than the configured target plus the number of outbound peers that lack preferred services, and never more than one and a half times
the target. -/
theorem C45_outbound {h : List Op} {m m' : Mgr} {op : Op} (r : Run cfg tr h m) (lg : op.Legal) (e : m.step cfg op = .ok m') {a : Sock}
    {s : Source} {f : Nat} (ho : .evConnecting a s f ∈ added m m') :
    m'.conns.length + m'.connecting.length ≤ cfg.target + m'.lacking cfg ∧
    m'.conns.length + m'.connecting.length ≤ cfg.target + cfg.target / 2 := by
  obtain ⟨m1, m2, src, hn, hm, hne, ep, _⟩ := connecting_step r lg e ho
  obtain ⟨_, _, hx⟩ := maintain_counts hm hn
  rcases hx with hx | ⟨_, h1, h2⟩
  · exact absurd hx hne
  · have l0 := lacking_eq m' cfg
    rw [conns_length, connecting_length]
    rw [negotiated_length, primary_length] at l0
    rw [← ep] at h1 h2
    omega

/-- C45: in particular the target is a strict bound as long as every negotiated outbound peer has the preferred services. -/
theorem C45_target {h : List Op} {m m' : Mgr} {op : Op} (r : Run cfg tr h m) (lg : op.Legal) (e : m.step cfg op = .ok m') {a : Sock}
    {s : Source} {f : Nat} (ho : .evConnecting a s f ∈ added m m')
    (hp : ∀ p ∈ m'.negotiated .outbound, p.1.services &&& cfg.preferred = cfg.preferred) :
    m'.conns.length + m'.connecting.length ≤ cfg.target := by
  have h1 := (C45_outbound r lg e ho).1
  have h2 : m'.lacking cfg = 0 := by
    unfold Mgr.lacking
    rw [List.length_eq_zero_iff, List.filter_eq_nil_iff]
    intro p hp'
    simp [has, hp p hp']
  omega

/-- C45: nothing is opened automatically while persistent peers are configured. -/
theorem C45_persistent {h : List Op} {m m' : Mgr} {op : Op} (r : Run cfg tr h m) (lg : op.Legal) (e : m.step cfg op = .ok m')
    (hp : cfg.persistent ≠ []) (a : Sock) (s : Source) (f : Nat) : .evConnecting a s f ∉ added m m' := by
  intro ho
  obtain ⟨m1, m2, src, hn, hm, hne, ep, _⟩ := connecting_step r lg e ho
  rcases (maintain_counts hm hn).2.2 with hx | ⟨hx, _⟩
  · exact hne hx
  · exact hp hx

/-- C70 is false in general: as soon as there are as many inbound connections as the client wants outbound ones, it opens no more
connections of its own accord, even if not a single outbound connection exists. -/
theorem C70_inbound_starves {h : List Op} {m m' : Mgr} {op : Op} (r : Run cfg tr h m) (lg : op.Legal) (e : m.step cfg op = .ok m')
    (hin : cfg.target ≤ (m'.conns.filter (fun c => c.link == .inbound)).length) (a : Sock) (s : Source) (f : Nat) :
    .evConnecting a s f ∉ added m m' := by
  intro ho
  obtain ⟨m1, m2, src, hn, hm, hne, ep, _⟩ := connecting_step r lg e ho
  have hk := (maintain_counts hm hn).2.1 isIn ⟨rfl, fun _ => rfl⟩
  have hin' : cfg.target ≤ cnt isIn m1.peers := by
    rw [← hk, ← ep, ← inbound_length]; exact hin
  have hd : m1.delta cfg ≠ 0 := by
    intro hd
    unfold Mgr.maintain at hm
    by_cases h1 : cfg.persistent ≠ []
    · rw [if_pos h1] at hm
      simp only [Res.ok.injEq] at hm
      exact hne hm.symm
    · rw [if_neg h1, hd, maintainLoop_zero] at hm
      simp only [Res.ok.injEq] at hm
      exact hne hm.symm
  have h2 := (delta_bound m1 cfg hd).2
  have h3 := neg_in_le m1
  rw [conns_length, negotiated_length] at h2
  omega

/-! ### Connections are opened when there are too few -/

theorem sample_perm {services : Nat} {src : List Cand} {c : Cand} {l : List Cand} (h : sample services src = some (c, l)) :
    src.Perm (c :: l) := by
  induction src generalizing l with
  | nil => simp [sample] at h
  | cons d src ih =>
    simp only [sample] at h
    by_cases hd : has d.1.services services = true
    · rw [if_pos hd] at h
      simp only [Option.some.injEq, Prod.mk.injEq] at h
      rw [h.1, h.2]
    · rw [if_neg hd] at h
      cases hs : sample services src with
      | none => simp [hs] at h
      | some x =>
        obtain ⟨y, l'⟩ := x
        simp only [hs, Option.some.injEq, Prod.mk.injEq] at h
        obtain ⟨rfl, rfl⟩ := h
        exact ((ih hs).cons d).trans (List.Perm.swap _ _ _)

theorem choose_perm {below : Bool} {src : List Cand} {c : Cand} {l : List Cand} (h : choose cfg below src = some (c, l)) :
    src.Perm (c :: l) := by
  unfold choose at h
  cases h1 : sample cfg.preferred src with
  | some x => simp only [h1, Option.some.injEq] at h; subst h; exact sample_perm h1
  | none =>
    simp only [h1] at h
    cases below with
    | false => simp at h
    | true =>
      simp only [if_true] at h
      cases h2 : sample cfg.required src with
      | some x => simp only [h2, Option.some.injEq] at h; subst h; exact sample_perm h2
      | none => simp only [h2] at h; exact sample_perm h

theorem choose_none {src : List Cand} (h : choose cfg true src = none) : src = [] := by
  unfold choose at h
  cases h1 : sample cfg.preferred src with
  | some x => simp [h1] at h
  | none =>
    cases h2 : sample cfg.required src with
    | some x => simp [h1, h2] at h
    | none =>
      simp only [h1, h2, if_true] at h
      cases src with
      | nil => rfl
      | cons d src => simp [sample, has] at h

/-- The addresses of the candidates that the client can connect to. -/
def usable (cfg : Config) (src : List Cand) (a : Sock) : Prop := (∃ c ∈ src, c.1.sock = some a) ∧ domainOf a ∈ cfg.domains

theorem maintainLoop_fills (delta : Nat) :
    ∀ (fuel : Nat) (m : Mgr) (src : List Cand) (set : List Sock) (m' : Mgr),
      Mgr.maintainLoop cfg true delta fuel m src set = .ok m' → m.peers.keys.Nodup → src.length ≤ fuel → set.length ≤ delta →
      (∀ c ∈ src, ∀ a, c.1.sock = some a → m.isConnected a = false ∧ (m.isConnecting a = true → a ∈ set)) →
      (∀ b, m.isConnecting b = true → m'.isConnecting b = true) ∧
      (cnt isConnectingP m.peers + delta ≤ cnt isConnectingP m'.peers + set.length ∨
        ∀ a, usable cfg src a → m'.isConnecting a = true) := by
  intro fuel
  induction fuel with
  | zero =>
    intro m src set m' h hn hf hl hs
    simp only [Mgr.maintainLoop, Res.ok.injEq] at h
    rw [← h]
    refine ⟨fun _ x => x, Or.inr ?_⟩
    rintro a ⟨⟨c, hc, _⟩, _⟩
    have : src = [] := List.length_eq_zero_iff.1 (Nat.le_zero.1 hf)
    rw [this] at hc
    simp at hc
  | succ n ih =>
    intro m src set m' h hn hf hl hs
    simp only [Mgr.maintainLoop] at h
    by_cases h1 : set.length < delta
    · rw [if_pos h1] at h
      cases hc : choose cfg true src with
      | none =>
        simp only [hc, Res.ok.injEq] at h
        rw [← h]
        refine ⟨fun _ x => x, Or.inr ?_⟩
        rintro a ⟨⟨c, hx, _⟩, _⟩
        rw [choose_none hc] at hx
        simp at hx
      | some x =>
        obtain ⟨c, src'⟩ := x
        have hp := choose_perm hc
        have hlen : src'.length ≤ n := by
          have := hp.length_eq
          simp only [List.length_cons] at this
          omega
        have hsub : ∀ d ∈ src', d ∈ src := fun d hd => hp.mem_iff.2 (List.mem_cons_of_mem _ hd)
        have hus : ∀ a, usable cfg src a → (c.1.sock = some a ∧ domainOf a ∈ cfg.domains) ∨ usable cfg src' a := by
          rintro a ⟨⟨d, hd, e⟩, hdom⟩
          rcases List.mem_cons.1 (hp.mem_iff.1 hd) with rfl | hd
          · exact Or.inl ⟨e, hdom⟩
          · exact Or.inr ⟨⟨d, hd, e⟩, hdom⟩
        simp only [hc] at h
        cases hs' : c.1.sock with
        | none =>
          simp only [hs'] at h
          obtain ⟨r1, r2⟩ := ih _ _ _ _ h hn hlen hl (fun d hd => hs d (hsub d hd))
          refine ⟨r1, r2.imp id (fun r a ha => ?_)⟩
          rcases hus a ha with ⟨e, _⟩ | ha
          · rw [hs'] at e; simp at e
          · exact r a ha
        | some a =>
          simp only [hs'] at h
          obtain ⟨na, ca⟩ := hs c (hp.mem_iff.2 List.mem_cons_self) a hs'
          simp only [na, Bool.and_false, Bool.false_eq_true, if_false] at h
          have hk := connect_nodup cfg a hn
          by_cases h3 : (m.connect cfg a).1 = true
          · rw [if_pos h3] at h
            have hself : (m.connect cfg a).2.isConnecting a = true := by
              rcases connect_connecting h3 with x | x
              · rw [na] at x; simp at x
              · exact x
            have hl2 : (sadd set a).length ≤ delta := by
              unfold sadd
              by_cases ha : a ∈ set
              · rw [if_pos ha]; exact hl
              · rw [if_neg ha]; exact h1
            have hcnt : cnt isConnectingP m.peers + (sadd set a).length ≤
                cnt isConnectingP (m.connect cfg a).2.peers + set.length := by
              rcases connect_cases m cfg a with ⟨e, x | x⟩ | ⟨e, _⟩ | ⟨e, _, x, y⟩
              · rw [na] at x; simp at x
              · rw [e]
                simp [sadd, ca x]
              · rw [e] at h3; simp at h3
              · rw [e]
                have := cnt_insert isConnectingP hn a (.connecting m.now)
                rw [one_of_not x y _ rfl] at this
                simp only [one, isConnectingP, if_true] at this
                have hl3 : (sadd set a).length ≤ set.length + 1 := by
                  unfold sadd; split <;> simp
                simp only [Mgr.dial]
                omega
            have hnext : ∀ d ∈ src', ∀ b, d.1.sock = some b → ((m.connect cfg a).2.emit [.evConnecting a c.2 c.1.services]).isConnected b = false ∧
                (((m.connect cfg a).2.emit [.evConnecting a c.2 c.1.services]).isConnecting b = true → b ∈ sadd set a) := by
              intro d hd b hb
              obtain ⟨x, y⟩ := hs d (hsub d hd) b hb
              refine ⟨?_, ?_⟩
              · have := connect_isConnected (m := m) cfg a b
                rw [x] at this
                exact this
              · intro hx
                have hx' : (m.connect cfg a).2.isConnecting b = true := hx
                rw [mem_sadd]
                by_cases hab : b = a
                · exact Or.inl hab
                · right
                  refine y ?_
                  rcases connect_cases m cfg a with ⟨e, _⟩ | ⟨e, _⟩ | ⟨e, _⟩
                  · rw [e] at hx'; exact hx'
                  · rw [e] at hx'; exact hx'
                  · rw [e] at hx'
                    rw [isConnecting_iff] at hx' ⊢
                    simp only [Mgr.dial, AMap.get_insert, if_neg (fun q => hab (Eq.symm q))] at hx'
                    exact hx'
            obtain ⟨r1, r2⟩ := ih _ _ _ _ h (by simpa [Mgr.emit] using hk) hlen hl2 hnext
            have r2' : cnt isConnectingP (m.connect cfg a).2.peers + delta ≤ cnt isConnectingP m'.peers + (sadd set a).length ∨
              ∀ b, usable cfg src' b → m'.isConnecting b = true := r2
            refine ⟨fun b hb => r1 b (connect_keeps_connecting cfg a hb), ?_⟩
            rcases r2' with r2' | r2'
            · left; omega
            · right
              intro b hb
              rcases hus b hb with ⟨e, _⟩ | hb
              · rw [hs'] at e
                simp only [Option.some.injEq] at e
                rw [← e]
                exact r1 a hself
              · exact r2' b hb
          · rw [if_neg h3] at h
            obtain ⟨e, hdom⟩ : (m.connect cfg a).2 = m ∧ domainOf a ∉ cfg.domains := by
              rcases connect_cases m cfg a with ⟨e, _⟩ | ⟨e, hd, _⟩ | ⟨e, _⟩
              · rw [e] at h3; simp at h3
              · exact ⟨by rw [e], hd⟩
              · rw [e] at h3; simp at h3
            rw [e] at h
            obtain ⟨r1, r2⟩ := ih _ _ _ _ h hn hlen hl (fun d hd => hs d (hsub d hd))
            refine ⟨r1, r2.imp id (fun r b hb => ?_)⟩
            rcases hus b hb with ⟨e, hd⟩ | hb
            · rw [hs'] at e
              simp only [Option.some.injEq] at e
              rw [e] at hdom
              exact absurd hd hdom
            · exact r b hb
    · rw [if_neg h1] at h
      simp only [Res.ok.injEq] at h
      rw [← h]
      exact ⟨fun _ x => x, Or.inl (by omega)⟩

theorem maintain_fills {m m' : Mgr} {src : List Cand} (hn : m.peers.keys.Nodup) (e : m.maintain cfg src = .ok m')
    (hp : cfg.persistent = []) (hs : ∀ c ∈ src, ∀ a, c.1.sock = some a → m.isConnected a = false ∧ m.isConnecting a = false) :
    cfg.target ≤ m'.conns.length + m'.connecting.length ∨ ∀ a, usable cfg src a → m'.isConnecting a = true := by
  obtain ⟨_, hst, _⟩ := maintain_counts e hn
  have c1 := hst isConn ⟨rfl, fun _ => rfl⟩
  rw [conns_length, connecting_length]
  have q1 := conns_length m
  have q2 := connecting_length m
  have q3 := negotiated_length m
  have q4 := neg_in_le m
  have q5 := secondary_ok m cfg
  have q6 := unnegotiated_ok m cfg
  have hsd : m.secondary cfg = (m.negotiated .outbound).length - m.primary cfg := rfl
  have hu : m.unknown cfg = m.connecting.length + (m.conns.length - m.primary cfg - m.secondary cfg) := rfl
  unfold Mgr.maintain at e
  rw [if_neg (by simp [hp])] at e
  by_cases hb : (m.negotiated .outbound).length < cfg.target
  · simp only [hb, decide_true] at e
    obtain ⟨r1, r2⟩ := maintainLoop_fills _ _ _ _ _ _ e hn (Nat.le_refl _) (Nat.zero_le _) (by
      intro c hc a ha
      obtain ⟨x, y⟩ := hs c hc a ha
      exact ⟨x, by simp [y]⟩)
    rcases r2 with r2 | r2
    · left
      simp only [List.length_nil, Nat.add_zero] at r2
      by_cases hc : (decide (m.primary cfg + m.secondary cfg + m.unknown cfg > cfg.target + cfg.target / 2) ||
          decide (m.primary cfg + m.unknown cfg > cfg.target)) = true
      · have e : m.delta cfg = 0 := by unfold Mgr.delta; exact if_pos hc
        simp only [gt_iff_lt, Bool.or_eq_true, decide_eq_true_eq] at hc
        omega
      · have e : m.delta cfg = min (cfg.target + cfg.target / 2 - (m.primary cfg + m.secondary cfg + m.unknown cfg))
            (cfg.target - (m.primary cfg + m.unknown cfg)) := by unfold Mgr.delta; exact if_neg hc
        simp only [gt_iff_lt, Bool.or_eq_true, decide_eq_true_eq, not_or, Nat.not_lt] at hc
        omega
    · exact Or.inr r2
  · left; omega

/-- C70, for the connections that count: without persistent peers, when the timers are looked at and a minute has passed since
connections were last looked for, then afterwards there are as many connections and connection attempts (inbound or outbound) as
the target, or every candidate of the address book that the client can connect to is being connected to.  Missing: the inbound
connections count, too (`C70_inbound_starves`); and the address book must offer only addresses that are not connected. -/
theorem C70_fills_partial {h : List Op} {m m' : Mgr} (r : Run cfg tr h m) {ord : List Sock → List Sock} {src : List Cand}
    (lg : (Op.timer ord src).Legal) (e : m.step cfg (.timer ord src) = .ok m') (hp : cfg.persistent = [])
    (hi : 60000 ≤ m.now - m.lastIdle.getD 0)
    (hs : ∀ c ∈ src, ∀ a, c.1.sock = some a → m.peers.get a = none) :
    cfg.target ≤ m'.conns.length + m'.connecting.length ∨
    ∀ c ∈ src, ∀ a, c.1.sock = some a → domainOf a ∈ cfg.domains → m'.isConnecting a = true := by
  obtain ⟨m1, h1, rfl⟩ := timerExpired_parts e
  have hl := run_list r
  obtain ⟨s1, s2⟩ := dropAll_shrinks (m.timedOut ord) m hl.nodup
  have hdisc : m1.disconnected = [] := by
    have : m1.disconnected = m.disconnected := by rw [(idle_ext h1).disc, (dropAll_ext _ m).disc]
    rw [this]
    cases hd : m.disconnected with
    | nil => rfl
    | cons x l =>
      exfalso
      have := run_disconnected r x.1 (by rw [hd]; exact List.mem_cons_self)
      rw [hp] at this
      simp at this
  have hor : ord m1.due = [] := by
    have : m1.due = [] := by simp [Mgr.due, hdisc]
    rw [this]
    exact List.perm_nil.1 (lg [])
  have hpe : (m1.maintainPersistent cfg ord).peers = m1.peers := by
    simp only [Mgr.maintainPersistent, hor, Mgr.reconnect, Mgr.clearDue]
  have hdr : ∀ (l : List (Sock × Reason)) (m : Mgr) (a : Sock), m.isConnected a = false → m.isConnecting a = false →
      (m.dropAll l).isConnected a = false ∧ (m.dropAll l).isConnecting a = false := by
    intro l
    induction l with
    | nil => intro m a x y; exact ⟨x, y⟩
    | cons z l ih =>
      intro m a x y
      simp only [Mgr.dropAll]
      apply ih
      · simp only [Mgr.isConnected, Mgr.drop, AMap.get_insert] at x ⊢
        by_cases hz : z.1 = a
        · rw [if_pos hz]
        · rw [if_neg hz]; exact x
      · simp only [Mgr.isConnecting, Mgr.drop, AMap.get_insert] at y ⊢
        by_cases hz : z.1 = a
        · rw [if_pos hz]
        · rw [if_neg hz]; exact y
  have hfree : ∀ c ∈ src, ∀ a, c.1.sock = some a →
      (m.dropAll (m.timedOut ord)).isConnected a = false ∧ (m.dropAll (m.timedOut ord)).isConnecting a = false := by
    intro c hc a ha
    have := hs c hc a ha
    exact hdr _ m a (by simp [Mgr.isConnected, this]) (by simp [Mgr.isConnecting, this])
  obtain ⟨m2, h2, ep⟩ : ∃ m2, (m.dropAll (m.timedOut ord)).maintain cfg src = .ok m2 ∧ m1.peers = m2.peers := by
    unfold Mgr.idle at h1
    have e1 : (m.dropAll (m.timedOut ord)).now = m.now := (dropAll_ext _ m).now
    have e2 : ∀ (l : List (Sock × Reason)) (m : Mgr), (m.dropAll l).lastIdle = m.lastIdle := by
      intro l
      induction l with
      | nil => intro m; rfl
      | cons z l ih => intro m; simp only [Mgr.dropAll]; rw [ih]; rfl
    rw [if_pos (by rw [e1, e2]; exact hi)] at h1
    cases hm : (m.dropAll (m.timedOut ord)).maintain cfg src with
    | ok m2 =>
      simp only [hm, Res.ok.injEq] at h1
      exact ⟨m2, rfl, by rw [← h1]⟩
    | err e => simp [hm] at h1
    | panic => simp [hm] at h1
  rcases maintain_fills s1 h2 hp hfree with x | x
  · left
    rw [conns_length, connecting_length] at x ⊢
    rw [hpe, ep]; exact x
  · right
    intro c hc a ha hd
    have := x a ⟨⟨c, hc, ha⟩, hd⟩
    simp only [Mgr.isConnecting] at this ⊢
    rw [hpe, ep]; exact this

end Verif.Peer

import Verif.Peer.PropsLimits

/-!
# C70: how often connections are looked for
-/

set_option autoImplicit false

namespace Verif.Peer
open Verif.Addr (Sock Ip Domain NetAddr Source has isLocal domainOf sadd)

/-! ## Specification -/

/-- When connections were last looked for: when the timers were looked at and a minute had passed since the time before. -/
def lookedAt : List Op → Nat
  | [] => 0
  | .timer _ _ :: h => if 60000 ≤ timeOf h - lookedAt h then timeOf h else lookedAt h
  | _ :: h => lookedAt h

/-! ## Lemmas -/

variable {cfg : Config} {tr : List Ip}

theorem connect_idle (m : Mgr) (a : Sock) : (m.connect cfg a).2.lastIdle = m.lastIdle := by
  unfold Mgr.connect
  repeat' split
  all_goals rfl

theorem drop_idle (m : Mgr) (a : Sock) (r : Reason) : (m.drop a r).lastIdle = m.lastIdle := rfl

theorem disconnect_idle (m : Mgr) (a : Sock) (r : Reason) : (m.disconnect a r).lastIdle = m.lastIdle := by
  unfold Mgr.disconnect
  split <;> rfl

theorem dropAll_idle : ∀ (l : List (Sock × Reason)) (m : Mgr), (m.dropAll l).lastIdle = m.lastIdle
  | [], _ => rfl
  | (a, r) :: l, m => dropAll_idle l (m.drop a r)

theorem reconnect_idle : ∀ (l : List Sock) (m : Mgr), (m.reconnect cfg l).lastIdle = m.lastIdle
  | [], _ => rfl
  | a :: l, m => (reconnect_idle l _).trans (connect_idle m a)

theorem connectAll_idle : ∀ (l : List Sock) (m : Mgr), (m.connectAll cfg l).lastIdle = m.lastIdle
  | [], _ => rfl
  | a :: l, m => by
    refine (connectAll_idle l _).trans ?_
    split
    · exact connect_idle m a
    · exact connect_idle m a

theorem maintainLoop_idle (below : Bool) (delta : Nat) : ∀ (fuel : Nat) (m m' : Mgr) (src : List Cand) (set : List Sock), Mgr.maintainLoop cfg below delta fuel m src set = .ok m' → m'.lastIdle = m.lastIdle
  | 0, m, m', _, _, h => by cases h; rfl
  | fuel + 1, m, m', src, set, h => by
    unfold Mgr.maintainLoop at h
    split at h
    · split at h
      · cases h; rfl
      · split at h
        · exact maintainLoop_idle below delta fuel _ _ _ _ h
        · split at h
          · cases h
          · split at h
            · exact (maintainLoop_idle below delta fuel _ _ _ _ h).trans (connect_idle m _)
            · exact (maintainLoop_idle below delta fuel _ _ _ _ h).trans (connect_idle m _)
    · cases h; rfl

theorem maintain_idle {m m' : Mgr} {src : List Cand} (h : m.maintain cfg src = .ok m') : m'.lastIdle = m.lastIdle := by
  unfold Mgr.maintain at h
  split at h
  · cases h; rfl
  · exact maintainLoop_idle _ _ _ _ _ _ _ h

theorem idle_idle {m m' : Mgr} {src : List Cand} (h : m.idle cfg src = .ok m') :
    m'.lastIdle.getD 0 = (if 60000 ≤ m.now - m.lastIdle.getD 0 then m.now else m.lastIdle.getD 0) ∧
    (60000 ≤ m.now - m.lastIdle.getD 0 → ∃ l, m'.out = m.out ++ l ∧ .timer 60000 ∈ l) := by
  unfold Mgr.idle at h
  by_cases h1 : m.now - m.lastIdle.getD 0 ≥ 60000
  · rw [if_pos (show m.now - m.lastIdle.getD 0 ≥ idleTimeout from h1)] at h
    cases hm : m.maintain cfg src with
    | ok m1 =>
      simp only [hm, Res.ok.injEq] at h
      subst h
      obtain ⟨l, e, -⟩ := (maintain_ext hm).out
      refine ⟨by rw [if_pos h1]; exact (maintain_ext hm).now, fun _ => ⟨l ++ [.timer 60000], ?_, by simp⟩⟩
      simp only [e, List.append_assoc]
      rfl
    | err e => simp [hm] at h
    | panic => simp [hm] at h
  · rw [if_neg (show ¬ m.now - m.lastIdle.getD 0 ≥ idleTimeout from h1)] at h
    cases h
    exact ⟨by rw [if_neg h1], fun h2 => absurd h2 h1⟩

/-- What is remembered is when connections were last looked for. -/
theorem run_looked {h : List Op} {m : Mgr} (r : Run cfg tr h m) : m.lastIdle.getD 0 = lookedAt h := by
  induction r with
  | start => rfl
  | @step h m m' op r l e ih =>
    have hn := (run_inv r).now
    have same : m'.lastIdle = m.lastIdle → lookedAt (op :: h) = lookedAt h → m'.lastIdle.getD 0 = lookedAt (op :: h) := fun h1 h2 => by rw [h1, h2, ih]
    cases op with
    | init src => exact same ((maintain_idle e).trans (connectAll_idle _ m)) rfl
    | tick t => cases e; exact same rfl rfl
    | attempted a =>
      refine same ?_ rfl
      simp only [Mgr.step, Mgr.peerAttempted] at e
      split at e
      · cases e
      · cases e; rfl
    | connected a loc link height nonce =>
      refine same ?_ rfl
      simp only [Mgr.step, Mgr.peerConnected] at e
      split at e
      · cases e
      · split at e
        · cases e
        · cases e
          cases link with
          | inbound => simp only [Mgr.emit, Mgr.greet]; split <;> rfl
          | outbound => rfl
    | disconnected a d src =>
      refine same ?_ rfl
      rcases peerDisconnected_parts e with ⟨_, h1⟩ | ⟨_, h1⟩
      · obtain ⟨_, e⟩ := persistentDisconnected_parts h1
        rw [e]; rfl
      · exact (maintain_idle h1).trans rfl
    | message a magicOk height hook msg =>
      refine same ?_ rfl
      simp only [Mgr.step, Mgr.messageReceived] at e
      split at e
      · cases e; exact disconnect_idle m a _
      · split at e
        · cases e; rfl
        · cases msg with
          | version v =>
            simp only [Mgr.receivedMsg, Mgr.receivedVersion] at e
            split at e
            · split at e
              · cases e; rfl
              · split at e
                · cases e
                · cases e; rfl
            · cases e; rfl
          | verack =>
            simp only [Mgr.receivedMsg, Res.ok.injEq] at e
            rw [← e]
            unfold Mgr.receivedVerack
            repeat' split
            all_goals rfl
          | wtxidRelay =>
            simp only [Mgr.receivedMsg, Res.ok.injEq] at e
            rw [← e]
            unfold Mgr.receivedWtxidRelay
            split
            · split
              · rfl
              · exact disconnect_idle m a _
            · rfl
    | timedOut a => cases e; exact same (disconnect_idle m a _) rfl
    | misbehaved a => cases e; exact same (disconnect_idle m a _) rfl
    | cmdConnect a => cases e; exact same (connect_idle _ a) rfl
    | cmdDisconnect a => cases e; exact same (disconnect_idle m a _) rfl
    | timer ord src =>
      obtain ⟨m1, h1, rfl⟩ := timerExpired_parts e
      have h2 := (idle_idle h1).1
      rw [(dropAll_ext _ m).now, dropAll_idle, ih, hn] at h2
      have h3 : (m1.maintainPersistent cfg ord).lastIdle = m1.lastIdle := reconnect_idle _ _
      rw [h3, h2]
      rfl

/-! ## Theorems -/

theorem mem_newly {m m' : Mgr} {l : List Out} {o : Out} (h : m'.out = m.out ++ l) : o ∈ added m m' ↔ o ∈ l := by
  simp [added, h]

/-- **C70.** When the client starts, and each time that it looks for connections, it asks to be woken up after a minute. -/
theorem C70_woken {h : List Op} {m m' : Mgr} {op : Op} (r : Run cfg tr h m) (e : m.step cfg op = .ok m')
    (ho : (∃ src, op = .init src) ∨ (∃ ord src, op = .timer ord src) ∧ 60000 ≤ timeOf h - lookedAt h) : .timer 60000 ∈ added m m' := by
  rcases ho with ⟨src, rfl⟩ | ⟨⟨ord, src, rfl⟩, hi⟩
  · obtain ⟨l, e1, -⟩ := (connectAll_ext cfg cfg.persistent m).out
    obtain ⟨l', e2, -⟩ := (maintain_ext (show (Mgr.emit _ _).maintain cfg src = .ok m' from e)).out
    have : m'.out = m.out ++ (l ++ [.timer 60000] ++ l') := by
      rw [e2]
      simp only [Mgr.emit, e1, List.append_assoc]
      rfl
    rw [mem_newly this]; simp
  · obtain ⟨m1, h1, rfl⟩ := timerExpired_parts e
    obtain ⟨l0, e0, -⟩ := (dropAll_ext (m.timedOut ord) m).out
    obtain ⟨l1, e1, hm⟩ := (idle_idle h1).2 (by rw [(dropAll_ext _ m).now, dropAll_idle, run_looked r, (run_inv r).now]; exact hi)
    obtain ⟨l2, e2, -⟩ := (maintainPersistent_ext m1 cfg ord).out
    have : (m1.maintainPersistent cfg ord).out = m.out ++ (l0 ++ l1 ++ l2) := by rw [e2, e1, e0]; simp
    rw [mem_newly this]; simp [hm]

/-- **C70** (part, for the connections that count): without persistent peers, when the timers are looked at and a minute has passed since connections were last looked for, then afterwards there are as many
connections and connection attempts (inbound or outbound) as the target, or every candidate of the address book that the client can connect to is being connected to.  Missing: the inbound
connections count, too (`C70_inbound_starves`); and the address book must offer only addresses that are not connected. -/
theorem C70_minute_partial {h : List Op} {m m' : Mgr} (r : Run cfg tr h m) {ord : List Sock → List Sock} {src : List Cand}
    (lg : (Op.timer ord src).Legal) (e : m.step cfg (.timer ord src) = .ok m') (hp : cfg.persistent = [])
    (hi : 60000 ≤ timeOf h - lookedAt h) (hs : ∀ c ∈ src, ∀ a, c.1.sock = some a → m.peers.get a = none) :
    cfg.target ≤ m'.conns.length + m'.connecting.length ∨
    ∀ c ∈ src, ∀ a, c.1.sock = some a → domainOf a ∈ cfg.domains → m'.isConnecting a = true :=
  C70_fills_partial r lg e hp (show 60000 ≤ _ by rw [run_looked r, (run_inv r).now]; exact hi) hs

end Verif.Peer

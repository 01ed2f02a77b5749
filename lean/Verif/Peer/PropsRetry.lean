import Verif.Peer.PropsLimits

/-!
# C46, C72: reconnections to persistent peers, slow peers
-/

set_option autoImplicit false

namespace Verif.Peer
open Verif.Addr (Sock Ip Domain NetAddr Source has isLocal domainOf sadd)

variable {cfg : Config} {tr : List Ip}

/-! ### The delays -/

/-- C46: the delays are within the configured bounds. -/
theorem C46_delay_bounds (k : Nat) (hb : cfg.retryMin ≤ cfg.retryMax) :
    cfg.retryMin ≤ delay cfg k ∧ delay cfg k ≤ cfg.retryMax := by
  unfold delay; omega

/-- C46: between the bounds, the delay doubles with every loss in a row: it starts with a second, and as long as two to the power of
the number of losses is within the bounds, it is just that number of seconds. -/
theorem C46_delay_doubles (k : Nat) (hk : k < 2 ^ 32) (hlo : cfg.retryMin ≤ 1000 * 2 ^ k) (hhi : 1000 * 2 ^ k ≤ cfg.retryMax) :
    delay cfg k = 1000 * 2 ^ k := by
  unfold delay
  rw [Nat.mod_eq_of_lt hk]
  omega

/-- C46: beyond that, it is the maximal delay. -/
theorem C46_delay_max (k : Nat) (hk : k < 2 ^ 32) (hb : cfg.retryMin ≤ cfg.retryMax) (hhi : cfg.retryMax ≤ 1000 * 2 ^ k) :
    delay cfg k = cfg.retryMax := by
  unfold delay
  rw [Nat.mod_eq_of_lt hk]
  omega

theorem delay_backoff (k : Nat) (hm : cfg.retryMax ≤ 1000 * (2 ^ 64 - 1)) :
    max cfg.retryMin (min (backoff k) cfg.retryMax) = delay cfg k := by
  unfold delay backoff
  have : min (min (2 ^ (k % 2 ^ 32)) (2 ^ 64 - 1) * 1000) cfg.retryMax = min (1000 * 2 ^ (k % 2 ^ 32)) cfg.retryMax := by
    generalize 2 ^ (k % 2 ^ 32) = x
    omega
  rw [this]

/-! ### Messages -/

/-- Outputs of a message from `a`. -/
def MsgOut (a : Sock) (o : Out) : Prop :=
  (∃ r, o = .disconnect a r) ∨ (∃ v, o = .version a v) ∨ o = .wtxidRelay a ∨ o = .verack a ∨ o = .sendHeaders a ∨
    (∃ t, o = .timer t) ∨ (∃ n, o = .evNegotiated a n) ∨ ∃ x, o = .offset a x

theorem message_parts {h : List Op} {m m' : Mgr} (hi : Inv cfg tr h m) {a : Sock} {mg : Bool} {height : Nat} {hook : Bool}
    {msg : Msg} (e : m.messageReceived cfg a mg height hook msg = .ok m') :
    (∃ l, m'.out = m.out ++ l ∧ ∀ o ∈ l, MsgOut a o) ∧ m'.disconnected = m.disconnected := by
  have nil : (∃ l, m.out = m.out ++ l ∧ ∀ o ∈ l, MsgOut a o) := ⟨[], by simp, by simp⟩
  have dd : ∀ {r : Reason}, (∃ l, (m.disconnect a r).out = m.out ++ l ∧ ∀ o ∈ l, MsgOut a o) ∧
      (m.disconnect a r).disconnected = m.disconnected := by
    intro r
    obtain ⟨l, e, hl⟩ := (disconnect_ext m a r).out
    exact ⟨⟨l, e, fun o ho => Or.inl ⟨r, hl o ho⟩⟩, (disconnect_ext m a r).disc⟩
  have dr : ∀ {r : Reason}, (∃ l, (m.drop a r).out = m.out ++ l ∧ ∀ o ∈ l, MsgOut a o) ∧
      (m.drop a r).disconnected = m.disconnected := by
    intro r
    obtain ⟨l, e, hl⟩ := (drop_ext m a r).out
    exact ⟨⟨l, e, fun o ho => Or.inl ⟨r, hl o ho⟩⟩, (drop_ext m a r).disc⟩
  unfold Mgr.messageReceived at e
  cases mg with
  | false =>
    simp only [Bool.not_false, if_true, Res.ok.injEq] at e
    rw [← e]; exact dd
  | true =>
    simp only [Bool.not_true, Bool.false_eq_true, if_false] at e
    by_cases hc : m.isConnected a = true
    · simp only [hc, Bool.not_true, Bool.false_eq_true, if_false] at e
      obtain ⟨c, i, hg⟩ := (isConnected_iff m a).1 hc
      have ha := (hi.sess a c i hg).1
      cases msg with
      | version v =>
        simp only [Mgr.receivedMsg, Mgr.receivedVersion, hg] at e
        cases hrf : m.refuse cfg c a v height hook with
        | some r =>
          simp only [hrf, Res.ok.injEq] at e
          rw [← e]; exact dr
        | none =>
          simp only [hrf] at e
          by_cases hp : (cfg.dbg && rawOffset v m.now < -(2 ^ 63 : Int)) = true
          · rw [if_pos hp] at e; simp at e
          rw [if_neg hp] at e
          simp only [Res.ok.injEq] at e
          rw [← e]
          refine ⟨⟨_, rfl, ?_⟩, rfl⟩
          intro o ho
          unfold reply at ho
          unfold MsgOut
          rw [ha] at ho
          cases hlk : c.link <;> simp [hlk] at ho
          · rcases ho with rfl | rfl | rfl | rfl | rfl <;> simp
          · rcases ho with rfl | rfl | rfl | rfl <;> simp
      | wtxidRelay =>
        simp only [Mgr.receivedMsg, Res.ok.injEq, Mgr.receivedWtxidRelay, hg] at e
        cases i with
        | none => simp only at e; rw [← e]; exact ⟨nil, rfl⟩
        | some i =>
          cases hst : i.state with
          | version since => simp only [hst] at e; rw [← e]; exact ⟨nil, rfl⟩
          | verack since => simp only [hst] at e; rw [← e]; exact dd
      | verack =>
        simp only [Mgr.receivedMsg, Res.ok.injEq, Mgr.receivedVerack, hg] at e
        cases i with
        | none => simp only at e; rw [← e]; exact ⟨nil, rfl⟩
        | some i =>
          cases hst : i.state with
          | version since =>
            simp only [hst] at e; rw [← e]
            refine ⟨⟨_, rfl, ?_⟩, rfl⟩
            intro o ho
            unfold MsgOut
            simp only [List.mem_cons, List.not_mem_nil, or_false] at ho
            rcases ho with rfl | rfl <;> simp
          | verack since => simp only [hst] at e; rw [← e]; exact dr
    · simp only [Bool.not_eq_true] at hc
      simp only [hc, Bool.not_false, if_true, Res.ok.injEq] at e
      rw [← e]; exact ⟨nil, rfl⟩

/-! ### The schedule -/

/-- The record of a persistent peer. -/
def Mgr.retry (m : Mgr) (a : Sock) : Option Nat × Nat := (m.disconnected.get a).getD (none, 0)

theorem get_clearDue (now : Nat) (l : AMap Sock (Option Nat × Nat)) (a : Sock) :
    (AMap.get (l.map (fun p => (p.1, (if retryDue now p.2.1 then none else p.2.1, p.2.2)))) a) =
      (l.get a).map (fun x => (if retryDue now x.1 then none else x.1, x.2)) := by
  induction l with
  | nil => rfl
  | cons p l ih =>
    simp only [List.map_cons, AMap.get_cons, ih]
    by_cases h : p.1 = a
    · rw [if_pos h, if_pos h]; rfl
    · rw [if_neg h, if_neg h]

/-- What the records of persistent peers mean. -/
def RetryInv (cfg : Config) (h : List Op) (m : Mgr) : Prop :=
  ∀ a ∈ cfg.persistent, (m.retry a).2 = losses a h ∧ ∀ t, (m.retry a).1 = some t ↔ Scheduled cfg a h t

/-- Nothing changes for `a`. -/
theorem scheduled_other {a : Sock} {h : List Op} {op : Op} (n1 : ∀ b c l x y, op = .connected b c l x y → b ≠ a)
    (n2 : ∀ b d src, op = .disconnected b d src → b ≠ a) (n3 : ∀ ord src, op ≠ .timer ord src) (t : Nat) :
    Scheduled cfg a (op :: h) t ↔ Scheduled cfg a h t := by
  constructor
  · intro s
    cases s with
    | lost => exact absurd rfl (n2 _ _ _ rfl)
    | timer s l => exact absurd rfl (n3 _ _)
    | other s _ _ _ => exact s
  · intro s; exact .other s n1 n2 n3

theorem losses_other {a : Sock} {h : List Op} {op : Op} (n1 : ∀ b c l x y, op = .connected b c l x y → b ≠ a)
    (n2 : ∀ b d src, op = .disconnected b d src → b ≠ a) : losses a (op :: h) = losses a h := by
  cases op with
  | connected b c l x y => simp only [losses, if_neg (n1 b c l x y rfl)]
  | disconnected b d src => simp only [losses, if_neg (n2 b d src rfl)]
  | _ => rfl

theorem retry_same {h : List Op} {m m' : Mgr} {op : Op} (hr : RetryInv cfg h m) (e : m'.disconnected = m.disconnected)
    (n1 : ∀ b c l x y, op ≠ .connected b c l x y) (n2 : ∀ b d src, op ≠ .disconnected b d src)
    (n3 : ∀ ord src, op ≠ .timer ord src) : RetryInv cfg (op :: h) m' := by
  intro a ha
  have e' : m'.retry a = m.retry a := by unfold Mgr.retry; rw [e]
  rw [e', losses_other (fun b c l x y q => absurd q (n1 b c l x y)) (fun b d src q => absurd q (n2 b d src))]
  refine ⟨(hr a ha).1, fun t => ?_⟩
  rw [scheduled_other (fun b c l x y q => absurd q (n1 b c l x y)) (fun b d src q => absurd q (n2 b d src)) n3]
  exact (hr a ha).2 t

theorem retry_step {h : List Op} {m m' : Mgr} {op : Op} (hm : cfg.retryMax ≤ 1000 * (2 ^ 64 - 1)) (hi : Inv cfg tr h m)
    (hr : RetryInv cfg h m) (e : m.step cfg op = .ok m') : RetryInv cfg (op :: h) m' := by
  cases op with
  | init src => exact retry_same hr (initialize_ext e).disc (by simp) (by simp) (by simp)
  | tick t =>
    simp only [Mgr.step, Res.ok.injEq] at e
    exact retry_same hr (by rw [← e]) (by simp) (by simp) (by simp)
  | attempted b =>
    simp only [Mgr.step, Mgr.peerAttempted] at e
    by_cases h1 : (cfg.dbg && !(m.isConnecting b || m.isInbound b)) = true
    · rw [if_pos h1] at e; simp at e
    · rw [if_neg h1] at e
      simp only [Res.ok.injEq] at e
      exact retry_same hr (by rw [← e]) (by simp) (by simp) (by simp)
  | connected b loc link height nonce =>
    have ed := (peerConnected_out e).2.2.2
    intro a ha
    by_cases hb : b = a
    · subst hb
      have e' : m'.retry b = (none, 0) := by unfold Mgr.retry; rw [ed]; simp
      rw [e']
      refine ⟨by simp [losses], fun t => ⟨by simp, ?_⟩⟩
      intro s
      cases s with
      | other s n1 _ _ => exact absurd rfl (n1 _ _ _ _ _ rfl)
    · have e' : m'.retry a = m.retry a := by
        unfold Mgr.retry; rw [ed, AMap.get_erase_ne _ hb]
      have n1 : ∀ b' c l x y, Op.connected b loc link height nonce = .connected b' c l x y → b' ≠ a := by
        intro b' c l x y q
        simp only [Op.connected.injEq] at q
        rw [← q.1]; exact hb
      rw [e', losses_other n1 (by simp)]
      exact ⟨(hr a ha).1, fun t => ((hr a ha).2 t).trans (scheduled_other n1 (by simp) (by simp) t).symm⟩
  | disconnected b d src =>
    intro a ha
    by_cases hb : b = a
    · subst hb
      rcases peerDisconnected_parts e with ⟨hp, h1⟩ | ⟨hp, h1⟩
      · obtain ⟨_, e2⟩ := persistentDisconnected_parts h1
        have er : ((m.forget b d).disconnected.get b).getD (none, 0) = m.retry b := rfl
        have e' : m'.retry b = (some (m.now + delay cfg (losses b h)), losses b h + 1) := by
          unfold Mgr.retry
          rw [e2]
          simp only [AMap.get_insert_self, Option.getD_some, er, delay_backoff _ hm, (hr b ha).1]
          rfl
        rw [e', hi.now]
        refine ⟨by simp [losses], fun t => ?_⟩
        simp only [Option.some.injEq]
        constructor
        · rintro rfl; exact .lost
        · intro s
          cases s with
          | lost => rfl
          | other s _ n2 _ => exact absurd rfl (n2 _ _ _ rfl)
      · exact absurd ha hp
    · have n2 : ∀ b' d' src', Op.disconnected b d src = .disconnected b' d' src' → b' ≠ a := by
        intro b' d' src' q
        simp only [Op.disconnected.injEq] at q
        rw [← q.1]; exact hb
      have e' : m'.retry a = m.retry a := by
        unfold Mgr.retry
        rcases peerDisconnected_parts e with ⟨hp, h1⟩ | ⟨hp, h1⟩
        · obtain ⟨_, e2⟩ := persistentDisconnected_parts h1
          rw [e2]
          simp only [AMap.get_insert_ne _ _ hb]
          rfl
        · rw [(maintain_ext h1).disc]; rfl
      rw [e', losses_other (by simp) n2]
      exact ⟨(hr a ha).1, fun t => ((hr a ha).2 t).trans (scheduled_other (by simp) n2 (by simp) t).symm⟩
  | message b mg height hook msg => exact retry_same hr (message_parts hi e).2 (by simp) (by simp) (by simp)
  | timedOut b =>
    simp only [Mgr.step, Res.ok.injEq] at e
    exact retry_same hr (by rw [← e, (disconnect_ext m b _).disc]) (by simp) (by simp) (by simp)
  | misbehaved b =>
    simp only [Mgr.step, Res.ok.injEq] at e
    exact retry_same hr (by rw [← e, (disconnect_ext m b _).disc]) (by simp) (by simp) (by simp)
  | cmdConnect b =>
    simp only [Mgr.step, Res.ok.injEq] at e
    exact retry_same hr (by rw [← e, (connect_ext _ cfg b).disc]; rfl) (by simp) (by simp) (by simp)
  | cmdDisconnect b =>
    simp only [Mgr.step, Res.ok.injEq] at e
    exact retry_same hr (by rw [← e, (disconnect_ext m b _).disc]) (by simp) (by simp) (by simp)
  | timer ord src =>
    obtain ⟨m1, h1, rfl⟩ := timerExpired_parts e
    have e1 : m1.disconnected = m.disconnected := by rw [(idle_ext h1).disc, (dropAll_ext _ m).disc]
    have e2 : (m1.maintainPersistent cfg ord).disconnected = m1.clearDue.disconnected := (reconnect_ext cfg _ _).disc
    have en : m1.now = timeOf h := by rw [(idle_ext h1).now, (dropAll_ext _ m).now, hi.now]
    intro a ha
    obtain ⟨q1, q2⟩ := hr a ha
    have e' : (m1.maintainPersistent cfg ord).retry a = (if retryDue (timeOf h) (m.retry a).1 then none else (m.retry a).1, (m.retry a).2) := by
      unfold Mgr.retry
      rw [e2]
      simp only [Mgr.clearDue, get_clearDue, e1, en]
      cases hg : m.disconnected.get a with
      | none => simp [retryDue]
      | some x => rfl
    rw [e']
    refine ⟨q1, fun t => ?_⟩
    simp only
    cases hx : (m.retry a).1 with
    | none =>
      simp only [retryDue, Bool.false_eq_true, if_false, reduceCtorEq, false_iff]
      intro s
      cases s with
      | timer s _ => have := (q2 t).2 s; rw [hx] at this; simp at this
      | other _ _ _ n3 => exact n3 _ _ rfl
    | some t0 =>
      have s0 := (q2 t0).1 hx
      have uniq : ∀ t, Scheduled cfg a h t → t = t0 := by
        intro t s
        have := (q2 t).2 s
        rw [hx] at this
        simpa using this.symm
      by_cases hd : t0 ≤ timeOf h
      · simp only [retryDue, hd, decide_true, if_true, reduceCtorEq, false_iff]
        intro s
        cases s with
        | timer s l => rw [uniq t s] at l; omega
        | other _ _ _ n3 => exact n3 _ _ rfl
      · simp only [retryDue, hd, decide_false, Bool.false_eq_true, if_false, Option.some.injEq]
        constructor
        · rintro rfl; exact .timer s0 (by omega)
        · intro s
          cases s with
          | timer s l => exact (uniq t s).symm
          | other _ _ _ n3 => exact absurd rfl (n3 _ _)

theorem run_retry {h : List Op} {m : Mgr} (hm : cfg.retryMax ≤ 1000 * (2 ^ 64 - 1)) (r : Run cfg tr h m) : RetryInv cfg h m := by
  induction r with
  | start =>
    intro a _
    refine ⟨rfl, fun t => ⟨by simp [Mgr.retry, Mgr.new], ?_⟩⟩
    intro s; cases s
  | step r _ e ih => exact retry_step hm (run_inv r) ih e

theorem disc_nodup_step {h : List Op} {m m' : Mgr} {op : Op} (hi : Inv cfg tr h m) (hn : m.disconnected.keys.Nodup)
    (e : m.step cfg op = .ok m') : m'.disconnected.keys.Nodup := by
  cases op with
  | init src => rw [(initialize_ext e).disc]; exact hn
  | tick t =>
    simp only [Mgr.step, Res.ok.injEq] at e
    rw [← e]; exact hn
  | attempted a =>
    simp only [Mgr.step, Mgr.peerAttempted] at e
    by_cases h1 : (cfg.dbg && !(m.isConnecting a || m.isInbound a)) = true
    · rw [if_pos h1] at e; simp at e
    · rw [if_neg h1] at e
      simp only [Res.ok.injEq] at e
      rw [← e]; exact hn
  | connected a loc link height nonce => rw [(peerConnected_out e).2.2.2]; exact AMap.nodup_erase hn _
  | disconnected a d src =>
    rcases peerDisconnected_parts e with ⟨hp, h1⟩ | ⟨_, h1⟩
    · obtain ⟨_, e⟩ := persistentDisconnected_parts h1
      rw [e]; exact AMap.nodup_insert hn _ _
    · rw [(maintain_ext h1).disc]; exact hn
  | message a mg height hook msg => rw [(message_parts hi e).2]; exact hn
  | timedOut a =>
    simp only [Mgr.step, Res.ok.injEq] at e
    rw [← e, (disconnect_ext m a _).disc]; exact hn
  | misbehaved a =>
    simp only [Mgr.step, Res.ok.injEq] at e
    rw [← e, (disconnect_ext m a _).disc]; exact hn
  | cmdConnect a =>
    simp only [Mgr.step, Res.ok.injEq] at e
    rw [← e, (connect_ext _ cfg a).disc]; exact hn
  | cmdDisconnect a =>
    simp only [Mgr.step, Res.ok.injEq] at e
    rw [← e, (disconnect_ext m a _).disc]; exact hn
  | timer ord src =>
    obtain ⟨m1, h1, rfl⟩ := timerExpired_parts e
    have e1 : m1.disconnected = m.disconnected := by rw [(idle_ext h1).disc, (dropAll_ext _ m).disc]
    have e2 : (m1.maintainPersistent cfg ord).disconnected = m1.clearDue.disconnected := (reconnect_ext cfg _ _).disc
    rw [e2]
    have : m1.clearDue.disconnected.keys = m.disconnected.keys := by
      simp [Mgr.clearDue, AMap.keys, List.map_map, Function.comp_def, e1]
    rw [this]; exact hn

theorem run_disc_nodup {h : List Op} {m : Mgr} (r : Run cfg tr h m) : m.disconnected.keys.Nodup := by
  induction r with
  | start => exact List.nodup_nil
  | step r _ e ih => exact disc_nodup_step (run_inv r) ih e

/-- C46: when a persistent peer is lost, a wake-up after the delay is asked for (`Scheduled.lost` says what is to happen then). -/
theorem C46_wakeup {h : List Op} {m m' : Mgr} (hm : cfg.retryMax ≤ 1000 * (2 ^ 64 - 1)) (r : Run cfg tr h m) {a : Sock}
    (ha : a ∈ cfg.persistent) {d : Disc} {src : List Cand} (e : m.step cfg (.disconnected a d src) = .ok m') :
    .timer (delay cfg (losses a h)) ∈ added m m' := by
  rcases peerDisconnected_parts e with ⟨_, h1⟩ | ⟨hp, _⟩
  · obtain ⟨_, e2⟩ := persistentDisconnected_parts h1
    have : m'.out = m.out ++ (m.lostEvent a d ++ [.timer (delay cfg (losses a h))]) := by
      have e3 : ((m.disconnected.get a).getD (none, 0)).2 = losses a h := (run_retry hm r a ha).1
      rw [e2]
      simp only [delay_backoff _ hm, e3, Mgr.forget, List.append_assoc]
    rw [added_of this]
    simp
  · exact absurd ha hp

/-! ### Reconnections -/

theorem reconnect_connects : ∀ (l : List Sock) (m : Mgr) (a : Sock), a ∈ l → domainOf a ∈ cfg.domains → m.isConnected a = false →
    m.isConnecting a = false → .connect a ∈ added m (m.reconnect cfg l) ∧ (m.reconnect cfg l).isConnecting a = true := by
  intro l
  have keep : ∀ (l : List Sock) (m : Mgr) (a : Sock), m.isConnecting a = true → (m.reconnect cfg l).isConnecting a = true := by
    intro l
    induction l with
    | nil => intro m a x; exact x
    | cons b l ih => intro m a x; exact ih _ _ (connect_keeps_connecting cfg b x)
  induction l with
  | nil => intro m a h; simp at h
  | cons b l ih =>
    intro m a ha hd x y
    simp only [Mgr.reconnect]
    obtain ⟨l1, e1, _⟩ := (connect_ext m cfg b).out
    obtain ⟨l2, e2, _⟩ := (reconnect_ext cfg l (m.connect cfg b).2).out
    have et : ((m.connect cfg b).2.reconnect cfg l).out = m.out ++ (l1 ++ l2) := by rw [e2, e1, List.append_assoc]
    by_cases hb : b = a
    · subst hb
      rcases connect_cases m cfg b with ⟨_, q | q⟩ | ⟨_, q, _⟩ | ⟨e, _⟩
      · rw [x] at q; simp at q
      · rw [y] at q; simp at q
      · exact absurd hd q
      · refine ⟨?_, ?_⟩
        · rw [added_of et]
          have : l1 = [.connect b, .timer connectionTimeout] := by
            rw [e] at e1
            exact (List.append_cancel_left e1).symm
          simp [this]
        · apply keep
          rw [e]
          simp [Mgr.isConnecting, Mgr.dial]
    · have hl : a ∈ l := by
        rcases List.mem_cons.1 ha with rfl | h
        · exact absurd rfl hb
        · exact h
      have x' : (m.connect cfg b).2.isConnected a = false := by rw [connect_isConnected]; exact x
      have y' : (m.connect cfg b).2.isConnecting a = false := by
        rcases connect_cases m cfg b with ⟨e, _⟩ | ⟨e, _⟩ | ⟨e, _⟩
        · rw [e]; exact y
        · rw [e]; exact y
        · rw [e]
          simp only [Mgr.isConnecting, Mgr.dial, AMap.get_insert, if_neg hb] at y ⊢
          exact y
      obtain ⟨r1, r2⟩ := ih _ a hl hd x' y'
      refine ⟨?_, r2⟩
      rw [added_of et]
      rw [added_of e2] at r1
      exact List.mem_append_right _ r1

/-- Which connections `connect` asks for. -/
theorem connect_asks (m : Mgr) (b : Sock) {a : Sock} (h : .connect a ∈ added m (m.connect cfg b).2) : a = b := by
  rcases connect_cases m cfg b with ⟨e, _⟩ | ⟨e, _⟩ | ⟨e, _⟩
  · rw [e, added_self] at h; simp at h
  · rw [e, added_self] at h; simp at h
  · rw [e, added_of (m' := m.dial b) (l := [.connect b, .timer connectionTimeout]) rfl] at h
    simpa using h

theorem reconnect_asks : ∀ (l : List Sock) (m : Mgr) {a : Sock}, .connect a ∈ added m (m.reconnect cfg l) → a ∈ l := by
  intro l
  induction l with
  | nil => intro m a h; simp [Mgr.reconnect, added_self] at h
  | cons b l ih =>
    intro m a h
    obtain ⟨l1, e1, _⟩ := (connect_ext m cfg b).out
    obtain ⟨l2, e2, _⟩ := (reconnect_ext cfg l (m.connect cfg b).2).out
    have et : ((m.connect cfg b).2.reconnect cfg l).out = m.out ++ (l1 ++ l2) := by rw [e2, e1, List.append_assoc]
    simp only [Mgr.reconnect] at h
    rw [added_of et] at h
    rcases List.mem_append.1 h with h | h
    · have := connect_asks m b (a := a) (by rw [added_of e1]; exact h)
      rw [this]; exact List.mem_cons_self
    · exact List.mem_cons_of_mem _ (ih (m.connect cfg b).2 (by rw [added_of e2]; exact h))

theorem connectAll_asks : ∀ (l : List Sock) (m : Mgr) {a : Sock}, .connect a ∈ added m (m.connectAll cfg l) → a ∈ l := by
  intro l
  induction l with
  | nil => intro m a h; simp [Mgr.connectAll, added_self] at h
  | cons b l ih =>
    intro m a h
    obtain ⟨l1, e1, _⟩ := (connect_ext m cfg b).out
    simp only [Mgr.connectAll] at h
    by_cases hb : (m.connect cfg b).1 = true
    · rw [if_pos hb] at h
      obtain ⟨l2, e2, _⟩ := (connectAll_ext cfg l (m.connect cfg b).2).out
      have et : ((m.connect cfg b).2.connectAll cfg l).out = m.out ++ (l1 ++ l2) := by rw [e2, e1, List.append_assoc]
      rw [added_of et] at h
      rcases List.mem_append.1 h with h | h
      · have := connect_asks m b (a := a) (by rw [added_of e1]; exact h)
        rw [this]; exact List.mem_cons_self
      · exact List.mem_cons_of_mem _ (ih (m.connect cfg b).2 (by rw [added_of e2]; exact h))
    · rw [if_neg hb] at h
      obtain ⟨l2, e2, _⟩ := (connectAll_ext cfg l ((m.connect cfg b).2.emit [.evError b])).out
      have et : (((m.connect cfg b).2.emit [.evError b]).connectAll cfg l).out = m.out ++ (l1 ++ [.evError b] ++ l2) := by
        rw [e2]; simp [Mgr.emit, e1]
      rw [added_of et] at h
      simp only [List.mem_append, List.mem_cons, List.not_mem_nil, or_false, reduceCtorEq] at h
      rcases h with h | h
      · have := connect_asks m b (a := a) (by rw [added_of e1]; exact h)
        rw [this]; exact List.mem_cons_self
      · exact List.mem_cons_of_mem _ (ih ((m.connect cfg b).2.emit [.evError b]) (by rw [added_of e2]; exact h))

/-- With persistent peers, no connections are looked for. -/
theorem maintain_persistent_id {m m' : Mgr} {src : List Cand} (hp : cfg.persistent ≠ []) (e : m.maintain cfg src = .ok m') : m' = m := by
  unfold Mgr.maintain at e
  rw [if_pos hp] at e
  simp only [Res.ok.injEq] at e
  exact e.symm

theorem dropAll_free : ∀ (l : List (Sock × Reason)) (m : Mgr) (a : Sock), m.isConnected a = false → m.isConnecting a = false →
    (m.dropAll l).isConnected a = false ∧ (m.dropAll l).isConnecting a = false := by
  intro l
  induction l with
  | nil => intro m a x y; exact ⟨x, y⟩
  | cons z l ih =>
    intro m a x y
    simp only [Mgr.dropAll]
    apply ih
    · simp only [Mgr.isConnected, Mgr.drop, AMap.get_insert] at x ⊢
      by_cases hz : z.1 = a
      · rw [if_pos hz]
      · rw [if_neg hz]; exact x
    · simp only [Mgr.isConnecting, Mgr.drop, AMap.get_insert] at y ⊢
      by_cases hz : z.1 = a
      · rw [if_pos hz]
      · rw [if_neg hz]; exact y

/-- The records are listed once. -/
theorem mem_due {m : Mgr} {a : Sock} {t k : Nat} (hg : m.disconnected.get a = some (some t, k)) (ht : t ≤ m.now) : a ∈ m.due := by
  unfold Mgr.due
  rw [List.mem_map]
  refine ⟨(a, (some t, k)), List.mem_filter.2 ⟨AMap.mem_of_get hg, ?_⟩, rfl⟩
  simp [retryDue, ht]

/-- C46: when the time of a scheduled reconnection has come and the timers are looked at, the client asks for the connection, unless
it is already connected or connecting. -/
theorem C46_retry {h : List Op} {m m' : Mgr} (hm : cfg.retryMax ≤ 1000 * (2 ^ 64 - 1)) (r : Run cfg tr h m)
    {ord : List Sock → List Sock} {src : List Cand} (lg : (Op.timer ord src).Legal) (e : m.step cfg (.timer ord src) = .ok m')
    {a : Sock} {t : Nat} (ha : a ∈ cfg.persistent) (hs : Scheduled cfg a h t) (ht : t ≤ timeOf h) (hd : domainOf a ∈ cfg.domains)
    (x : m.isConnected a = false) (y : m.isConnecting a = false) :
    .connect a ∈ added m m' ∧ m'.isConnecting a = true := by
  have hp : cfg.persistent ≠ [] := by intro q; rw [q] at ha; simp at ha
  obtain ⟨m1, h1, rfl⟩ := timerExpired_parts e
  have q := ((run_retry hm r a ha).2 t).2 hs
  have hi := run_inv r
  have hg : ∃ k, m.disconnected.get a = some (some t, k) := by
    unfold Mgr.retry at q
    cases hg : m.disconnected.get a with
    | none => rw [hg] at q; simp at q
    | some z =>
      rw [hg] at q
      simp only [Option.getD_some] at q
      exact ⟨z.2, by rw [← q]⟩
  obtain ⟨k, hg⟩ := hg
  have e1 : m1.disconnected = m.disconnected := by rw [(idle_ext h1).disc, (dropAll_ext _ m).disc]
  have en : m1.now = m.now := by rw [(idle_ext h1).now, (dropAll_ext _ m).now]
  have hdue : a ∈ m1.due := mem_due (t := t) (k := k) (by rw [e1]; exact hg) (by rw [en, hi.now]; exact ht)
  have hmem : a ∈ ord m1.due := ((lg m1.due).mem_iff).2 hdue
  obtain ⟨x1, y1⟩ := dropAll_free (m.timedOut ord) m a x y
  have hpe : m1.peers = (m.dropAll (m.timedOut ord)).peers := by
    rcases idle_parts h1 with q | ⟨m2, h2, ep, _⟩
    · rw [q]
    · rw [ep, maintain_persistent_id hp h2]
  have x2 : m1.clearDue.isConnected a = false := by
    simp only [Mgr.isConnected, Mgr.clearDue, hpe]; exact x1
  have y2 : m1.clearDue.isConnecting a = false := by
    simp only [Mgr.isConnecting, Mgr.clearDue, hpe]; exact y1
  obtain ⟨r1, r2⟩ := reconnect_connects (cfg := cfg) (ord m1.due) m1.clearDue a hmem hd x2 y2
  refine ⟨?_, r2⟩
  obtain ⟨l0, e0, _⟩ := (dropAll_ext (m.timedOut ord) m).out
  obtain ⟨l2, e2, _⟩ := (idle_ext h1).out
  obtain ⟨l3, e3, _⟩ := (reconnect_ext cfg (ord m1.due) m1.clearDue).out
  have : (m1.maintainPersistent cfg ord).out = m.out ++ (l0 ++ l2 ++ l3) := by
    have e4 : (m1.maintainPersistent cfg ord).out = m1.clearDue.out ++ l3 := e3
    rw [e4]
    have e5 : m1.clearDue.out = m1.out := rfl
    rw [e5, e2, e0]
    simp
  rw [added_of this]
  rw [added_of e3] at r1
  exact List.mem_append_right _ r1

/-- C46: the client with persistent peers asks for a connection only at the start, on the user's command, or when the time of the
scheduled reconnection has come. -/
theorem C46_only {h : List Op} {m m' : Mgr} {op : Op} (hm : cfg.retryMax ≤ 1000 * (2 ^ 64 - 1)) (r : Run cfg tr h m) (lg : op.Legal)
    (e : m.step cfg op = .ok m') (hp : cfg.persistent ≠ []) {a : Sock} (ho : .connect a ∈ added m m') :
    (a ∈ cfg.persistent ∧ ∃ src, op = .init src) ∨ op = .cmdConnect a ∨
    (a ∈ cfg.persistent ∧ ∃ t, Scheduled cfg a h t ∧ t ≤ timeOf h ∧ ∃ ord src, op = .timer ord src) := by
  have hi := run_inv r
  have none_of : ∀ {P : Out → Prop}, (∃ l, m'.out = m.out ++ l ∧ ∀ o ∈ l, P o) → ¬ P (.connect a) → False := by
    rintro P ⟨l, el, hl⟩ i
    rw [added_of el] at ho
    exact i (hl _ ho)
  cases op with
  | init src =>
    left
    refine ⟨?_, _, rfl⟩
    have hx : m.initialize cfg src = .ok m' := e
    unfold Mgr.initialize at hx
    obtain ⟨l, el, _⟩ := (connectAll_ext cfg cfg.persistent m).out
    have hmm := maintain_persistent_id hp hx
    have : m'.out = m.out ++ (l ++ [.timer idleTimeout]) := by rw [hmm]; simp [Mgr.emit, el]
    rw [added_of this] at ho
    simp only [List.mem_append, List.mem_cons, List.not_mem_nil, or_false, reduceCtorEq] at ho
    exact connectAll_asks cfg.persistent m (by rw [added_of el]; exact ho)
  | tick t =>
    simp only [Mgr.step, Res.ok.injEq] at e
    rw [← e] at ho; simp [added] at ho
  | attempted b =>
    simp only [Mgr.step, Mgr.peerAttempted] at e
    by_cases h1 : (cfg.dbg && !(m.isConnecting b || m.isInbound b)) = true
    · rw [if_pos h1] at e; simp at e
    · rw [if_neg h1] at e
      simp only [Res.ok.injEq] at e
      rw [← e, added_self] at ho; simp at ho
  | connected b loc link height nonce =>
    exact (none_of (peerConnected_out e).1 (by simp [NewConnOut])).elim
  | disconnected b d src =>
    exfalso
    have hl : ∀ o ∈ m.lostEvent b d, o ≠ .connect a := by
      intro o ho
      unfold Mgr.lostEvent at ho
      by_cases h1 : (m.isDisconnecting b || m.isConnected b) = true
      · rw [if_pos h1] at ho; simp at ho; simp [ho]
      · rw [if_neg h1] at ho
        by_cases h2 : (m.isConnecting b && d == .connection) = true
        · rw [if_pos h2] at ho; simp at ho; simp [ho]
        · rw [if_neg h2] at ho; simp at ho
    rcases peerDisconnected_parts e with ⟨_, h1⟩ | ⟨_, h1⟩
    · obtain ⟨_, e2⟩ := persistentDisconnected_parts h1
      have eo : m'.out = m.out ++ (m.lostEvent b d ++
          [.timer (max cfg.retryMin (min (backoff (((m.forget b d).disconnected.get b).getD (none, 0)).2) cfg.retryMax))]) := by
        rw [e2]; simp [Mgr.forget]
      refine none_of (P := fun o => o ≠ .connect a) ⟨_, eo, ?_⟩ (by simp)
      intro o ho
      rcases List.mem_append.1 ho with q | q
      · exact hl o q
      · simp only [List.mem_cons, List.not_mem_nil, or_false] at q
        simp [q]
    · have := maintain_persistent_id hp h1
      exact none_of (P := fun o => o ≠ .connect a) ⟨m.lostEvent b d, by rw [this]; rfl, hl⟩ (by simp)
  | message b mg height hook msg =>
    exact (none_of (message_parts hi e).1 (by simp [MsgOut])).elim
  | timedOut b =>
    simp only [Mgr.step, Res.ok.injEq] at e
    subst e
    exact (none_of (disconnect_ext m b _).out (by simp)).elim
  | misbehaved b =>
    simp only [Mgr.step, Res.ok.injEq] at e
    subst e
    exact (none_of (disconnect_ext m b _).out (by simp)).elim
  | cmdConnect b =>
    simp only [Mgr.step, Res.ok.injEq] at e
    subst e
    right; left
    have := connect_asks (cfg := cfg) (m.whitelist b) b (a := a) ho
    rw [this]
  | cmdDisconnect b =>
    simp only [Mgr.step, Res.ok.injEq] at e
    subst e
    exact (none_of (disconnect_ext m b _).out (by simp)).elim
  | timer ord src =>
    right; right
    obtain ⟨m1, h1, rfl⟩ := timerExpired_parts e
    obtain ⟨l0, e0, p0⟩ := (dropAll_ext (m.timedOut ord) m).out
    obtain ⟨l3, e3, _⟩ := (reconnect_ext cfg (ord m1.due) m1.clearDue).out
    obtain ⟨l2, e2, p2⟩ : ∃ l2, m1.out = (m.dropAll (m.timedOut ord)).out ++ l2 ∧ ∀ o ∈ l2, o ≠ .connect a := by
      rcases idle_parts h1 with q | ⟨m2, h2, _, _, eo⟩
      · exact ⟨[], by rw [q]; simp, by simp⟩
      · exact ⟨[.timer idleTimeout], by rw [eo, maintain_persistent_id hp h2], by simp⟩
    have : (m1.maintainPersistent cfg ord).out = m.out ++ (l0 ++ l2 ++ l3) := by
      have e4 : (m1.maintainPersistent cfg ord).out = m1.clearDue.out ++ l3 := e3
      rw [e4]
      have e5 : m1.clearDue.out = m1.out := rfl
      rw [e5, e2, e0]
      simp
    rw [added_of this] at ho
    rcases List.mem_append.1 ho with q | q
    · rcases List.mem_append.1 q with q | q
      · obtain ⟨b, r, q⟩ := p0 _ q; simp at q
      · exact absurd rfl (p2 _ q)
    · have hmem := reconnect_asks (cfg := cfg) (ord m1.due) m1.clearDue (a := a) (by rw [added_of e3]; exact q)
      have hdue : a ∈ m1.due := ((lg m1.due).mem_iff).1 hmem
      have e1 : m1.disconnected = m.disconnected := by rw [(idle_ext h1).disc, (dropAll_ext _ m).disc]
      have en : m1.now = m.now := by rw [(idle_ext h1).now, (dropAll_ext _ m).now]
      unfold Mgr.due at hdue
      rw [e1, en, List.mem_map] at hdue
      obtain ⟨p, hpm, rfl⟩ := hdue
      obtain ⟨hpm, hdu⟩ := List.mem_filter.1 hpm
      have hper : p.1 ∈ cfg.persistent := run_disconnected r p.1 (List.mem_map.2 ⟨p, hpm, rfl⟩)
      have hnd : m.disconnected.keys.Nodup := run_disc_nodup r
      have hg : m.disconnected.get p.1 = some p.2 := AMap.get_of_mem hnd hpm
      cases ht : p.2.1 with
      | none => rw [ht] at hdu; simp [retryDue] at hdu
      | some t =>
        rw [ht] at hdu
        simp only [retryDue, decide_eq_true_eq] at hdu
        refine ⟨hper, t, ?_, by rw [← hi.now]; exact hdu, ord, src, rfl⟩
        refine ((run_retry hm r p.1 hper).2 t).1 ?_
        unfold Mgr.retry
        rw [hg]
        exact ht

/-! ### Slow peers -/

/-- The current connection with `a` exists since time `t`. -/
inductive ConnectedAt (a : Sock) : List Op → Nat → Prop where
  | connected {h : List Op} {loc : Sock} {link : Link} {height nonce : Nat} :
      ConnectedAt a (.connected a loc link height nonce :: h) (timeOf h)
  | other {h : List Op} {t : Nat} {op : Op} (s : ConnectedAt a h t) (n1 : ∀ b c l x y, op = .connected b c l x y → b ≠ a)
      (n2 : ∀ b d src, op = .disconnected b d src → b ≠ a) : ConnectedAt a (op :: h) t

theorem connectedAt_unique {a : Sock} {h : List Op} {t t' : Nat} (s : ConnectedAt a h t) (s' : ConnectedAt a h t') : t = t' := by
  induction s with
  | connected =>
    cases s' with
    | connected => rfl
    | other _ n1 _ => exact absurd rfl (n1 _ _ _ _ _ rfl)
  | other s n1 _ ih =>
    cases s' with
    | connected => exact absurd rfl (n1 _ _ _ _ _ rfl)
    | other s' _ _ => exact ih s'

theorem message_conn {h : List Op} {m m' : Mgr} (hi : Inv cfg tr h m) {a : Sock} {mg : Bool} {height : Nat} {hook : Bool}
    {msg : Msg} (e : m.messageReceived cfg a mg height hook msg = .ok m') {b : Sock} {c : Conn} {i : Option Info}
    (hg : m'.peers.get b = some (.connected c i)) : ∃ j, m.peers.get b = some (.connected c j) := by
  have rep : ∀ {m2 : Mgr} {c0 : Conn} {i0 j : Option Info}, m.peers.get a = some (.connected c0 i0) →
      m2.peers = m.peers.insert a (.connected c0 j) → m2.peers.get b = some (.connected c i) →
      ∃ j, m.peers.get b = some (.connected c j) := by
    intro m2 c0 i0 j h0 e2 h2
    rw [e2, AMap.get_insert] at h2
    by_cases hb : a = b
    · rw [if_pos hb] at h2
      simp only [Option.some.injEq, Peer.connected.injEq] at h2
      subst hb
      exact ⟨i0, by rw [h0, h2.1]⟩
    · rw [if_neg hb] at h2; exact ⟨i, h2⟩
  unfold Mgr.messageReceived at e
  cases mg with
  | false =>
    simp only [Bool.not_false, if_true, Res.ok.injEq] at e
    subst e
    exact ⟨i, (disconnect_ext m a _).conn b c i hg⟩
  | true =>
    simp only [Bool.not_true, Bool.false_eq_true, if_false] at e
    by_cases hc : m.isConnected a = true
    · simp only [hc, Bool.not_true, Bool.false_eq_true, if_false] at e
      obtain ⟨c0, i0, h0⟩ := (isConnected_iff m a).1 hc
      have ha := (hi.sess a c0 i0 h0).1
      cases msg with
      | version v =>
        simp only [Mgr.receivedMsg, Mgr.receivedVersion, h0] at e
        cases hrf : m.refuse cfg c0 a v height hook with
        | some r =>
          simp only [hrf, Res.ok.injEq] at e
          subst e
          exact ⟨i, (drop_ext m a _).conn b c i hg⟩
        | none =>
          simp only [hrf] at e
          by_cases hp : (cfg.dbg && rawOffset v m.now < -(2 ^ 63 : Int)) = true
          · rw [if_pos hp] at e; simp at e
          rw [if_neg hp] at e
          simp only [Res.ok.injEq] at e
          subst e
          exact rep (m2 := m.accept cfg c0 v height) h0 (by simp only [Mgr.accept, ha]; rfl) hg
      | wtxidRelay =>
        simp only [Mgr.receivedMsg, Res.ok.injEq, Mgr.receivedWtxidRelay, h0] at e
        cases i0 with
        | none => simp only at e; subst e; exact ⟨i, hg⟩
        | some i0 =>
          cases hst : i0.state with
          | version since => simp only [hst] at e; subst e; exact rep h0 rfl hg
          | verack since => simp only [hst] at e; subst e; exact ⟨i, (disconnect_ext m a _).conn b c i hg⟩
      | verack =>
        simp only [Mgr.receivedMsg, Res.ok.injEq, Mgr.receivedVerack, h0] at e
        cases i0 with
        | none => simp only at e; subst e; exact ⟨i, hg⟩
        | some i0 =>
          cases hst : i0.state with
          | version since => simp only [hst] at e; subst e; exact rep h0 rfl hg
          | verack since => simp only [hst] at e; subst e; exact ⟨i, (drop_ext m a _).conn b c i hg⟩
    · simp only [Bool.not_eq_true] at hc
      simp only [hc, Bool.not_false, if_true, Res.ok.injEq] at e
      subst e; exact ⟨i, hg⟩

/-- What the time kept with a connection means. -/
def SinceInv (h : List Op) (m : Mgr) : Prop := ∀ a c i, m.peers.get a = some (.connected c i) → ConnectedAt a h c.since

theorem since_keep {h : List Op} {m m' : Mgr} {op : Op} (hs : SinceInv h m)
    (hc : ∀ a c i, m'.peers.get a = some (.connected c i) → ∃ j, m.peers.get a = some (.connected c j))
    (n1 : ∀ b c l x y, op ≠ .connected b c l x y) (n2 : ∀ b d src, op ≠ .disconnected b d src) : SinceInv (op :: h) m' := by
  intro a c i hg
  obtain ⟨j, hj⟩ := hc a c i hg
  exact .other (hs a c j hj) (fun b c l x y q => absurd q (n1 b c l x y)) (fun b d src q => absurd q (n2 b d src))

theorem since_step {h : List Op} {m m' : Mgr} {op : Op} (hi : Inv cfg tr h m) (hs : SinceInv h m) (e : m.step cfg op = .ok m') :
    SinceInv (op :: h) m' := by
  cases op with
  | init src => exact since_keep hs (fun a c i hg => ⟨i, (initialize_ext e).conn a c i hg⟩) (by simp) (by simp)
  | tick t =>
    simp only [Mgr.step, Res.ok.injEq] at e
    subst e
    exact since_keep hs (fun a c i hg => ⟨i, hg⟩) (by simp) (by simp)
  | attempted a =>
    simp only [Mgr.step, Mgr.peerAttempted] at e
    by_cases h1 : (cfg.dbg && !(m.isConnecting a || m.isInbound a)) = true
    · rw [if_pos h1] at e; simp at e
    · rw [if_neg h1] at e
      simp only [Res.ok.injEq] at e
      subst e
      exact since_keep hs (fun a c i hg => ⟨i, hg⟩) (by simp) (by simp)
  | connected a loc link height nonce =>
    intro b c i hg
    by_cases hb : a = b
    · subst hb
      rcases peerConnected_get_self e with q | ⟨_, q⟩
      · rw [q] at hg
        simp only [Option.some.injEq, Peer.connected.injEq] at hg
        rw [← hg.1]
        simp only [hi.now]
        exact .connected
      · rw [q] at hg; simp at hg
    · rw [peerConnected_get_ne e b hb] at hg
      refine .other (hs b c i hg) ?_ (by simp)
      intro b' c' l x y q
      simp only [Op.connected.injEq] at q
      rw [← q.1]; exact hb
  | disconnected a d src =>
    intro b c i hg
    by_cases hb : a = b
    · subst hb; exact absurd hg (peerDisconnected_gone e c i)
    · refine .other (hs b c i ((peerDisconnected_ext e).conn b c i hg)) (by simp) ?_
      intro b' c' l q
      simp only [Op.disconnected.injEq] at q
      rw [← q.1]; exact hb
  | message a mg height hook msg => exact since_keep hs (fun b c i hg => message_conn hi e hg) (by simp) (by simp)
  | timedOut a =>
    simp only [Mgr.step, Res.ok.injEq] at e
    subst e
    exact since_keep hs (fun b c i hg => ⟨i, (disconnect_ext m a _).conn b c i hg⟩) (by simp) (by simp)
  | misbehaved a =>
    simp only [Mgr.step, Res.ok.injEq] at e
    subst e
    exact since_keep hs (fun b c i hg => ⟨i, (disconnect_ext m a _).conn b c i hg⟩) (by simp) (by simp)
  | cmdConnect a =>
    simp only [Mgr.step, Res.ok.injEq] at e
    subst e
    exact since_keep hs (fun b c i hg => ⟨i, (connect_ext (m.whitelist a) cfg a).conn b c i hg⟩) (by simp) (by simp)
  | cmdDisconnect a =>
    simp only [Mgr.step, Res.ok.injEq] at e
    subst e
    exact since_keep hs (fun b c i hg => ⟨i, (disconnect_ext m a _).conn b c i hg⟩) (by simp) (by simp)
  | timer ord src => exact since_keep hs (fun b c i hg => ⟨i, (timerExpired_ext e).conn b c i hg⟩) (by simp) (by simp)

theorem run_since {h : List Op} {m : Mgr} (r : Run cfg tr h m) : SinceInv h m := by
  induction r with
  | start => intro a c i hg; simp [Mgr.new] at hg
  | step r _ e ih => exact since_step (run_inv r) ih e

theorem dropAll_out : ∀ (l : List (Sock × Reason)) (m : Mgr), (m.dropAll l).out = m.out ++ l.map (fun p => .disconnect p.1 p.2) := by
  intro l
  induction l with
  | nil => intro m; simp [Mgr.dropAll]
  | cons x l ih => intro m; simp only [Mgr.dropAll]; rw [ih]; simp [Mgr.drop]

/-- The disconnections of a timer. -/
theorem timer_disconnects {m m' : Mgr} {ord : List Sock → List Sock} {src : List Cand} (e : m.step cfg (.timer ord src) = .ok m')
    (a : Sock) (r : Reason) : .disconnect a r ∈ added m m' ↔ (a, r) ∈ m.timedOut ord := by
  obtain ⟨m1, h1, rfl⟩ := timerExpired_parts e
  obtain ⟨l2, e2, p2⟩ := (idle_ext h1).out
  obtain ⟨l3, e3, p3⟩ := (maintainPersistent_ext m1 cfg ord).out
  have : (m1.maintainPersistent cfg ord).out = m.out ++ ((m.timedOut ord).map (fun p => .disconnect p.1 p.2) ++ l2 ++ l3) := by
    rw [e3, e2, dropAll_out]; simp
  rw [added_of this]
  simp only [List.mem_append, List.mem_map]
  constructor
  · rintro ((⟨p, hp, q⟩ | q) | q)
    · simp only [Out.disconnect.injEq] at q
      rw [← q.1, ← q.2]; exact hp
    · rcases p2 _ q with (⟨b, q⟩ | ⟨t, q⟩) | ⟨b, s, f, q⟩ <;> simp at q
    · rcases p3 _ q with ⟨b, q⟩ | ⟨t, q⟩ <;> simp at q
  · intro q
    exact Or.inl (Or.inl ⟨(a, r), q, rfl⟩)

theorem mem_those {m : Mgr} (hn : m.peers.keys.Nodup) (f : Peer → Bool) (a : Sock) :
    a ∈ m.those f ↔ ∃ p, m.peers.get a = some p ∧ f p = true := by
  unfold Mgr.those
  rw [List.mem_map]
  constructor
  · rintro ⟨⟨b, p⟩, hp, rfl⟩
    obtain ⟨h1, h2⟩ := List.mem_filter.1 hp
    exact ⟨p, AMap.get_of_mem hn h1, h2⟩
  · rintro ⟨p, hp, hf⟩
    exact ⟨(a, p), List.mem_filter.2 ⟨AMap.mem_of_get hp, hf⟩, rfl⟩

/-- Who is disconnected by a timer. -/
theorem mem_timedOut {m : Mgr} (hn : m.peers.keys.Nodup) {ord : List Sock → List Sock} (lg : ∀ l, (ord l).Perm l) (a : Sock)
    (r : Reason) : (a, r) ∈ m.timedOut ord ↔
      (r = .timeout "connection" ∧ ∃ p, m.peers.get a = some p ∧ p.slowConnect m.now = true) ∨
      (r = .timeout "handshake" ∧ ∃ p, m.peers.get a = some p ∧ (p.slowVerack m.now = true ∨ p.slowVersion m.now = true)) := by
  unfold Mgr.timedOut
  simp only [List.mem_append, List.mem_map, (lg _).mem_iff, mem_those hn, Prod.mk.injEq]
  constructor
  · rintro ((⟨b, ⟨p, h1, h2⟩, rfl, rfl⟩ | ⟨b, ⟨p, h1, h2⟩, rfl, rfl⟩) | ⟨b, ⟨p, h1, h2⟩, rfl, rfl⟩)
    · exact Or.inl ⟨rfl, p, h1, h2⟩
    · exact Or.inr ⟨rfl, p, h1, Or.inl h2⟩
    · exact Or.inr ⟨rfl, p, h1, Or.inr h2⟩
  · rintro (⟨rfl, p, h1, h2⟩ | ⟨rfl, p, h1, h2 | h2⟩)
    · exact Or.inl (Or.inl ⟨a, ⟨p, h1, h2⟩, rfl, rfl⟩)
    · exact Or.inl (Or.inr ⟨a, ⟨p, h1, h2⟩, rfl, rfl⟩)
    · exact Or.inr ⟨a, ⟨p, h1, h2⟩, rfl, rfl⟩

/-- The peer is waited for: what it has seen, and since when nothing came. -/
def Awaited (cfg : Config) (tr : List Ip) (a : Sock) (h : List Op) (t : Nat) : Prop :=
  ∃ link s, Session cfg tr a h link s ∧
    match s with
    | none => ConnectedAt a h t
    | some s => s.verack = false ∧ s.at_ = t

/-- C72: when the timers are looked at, a connected peer that did not complete the handshake is disconnected exactly if twelve seconds
have passed since it was connected (no `version` came) or since its `version` came (no `verack` came). -/
theorem C72_slow_handshake {h : List Op} {m m' : Mgr} (r : Run cfg tr h m) {ord : List Sock → List Sock} {src : List Cand}
    (lg : (Op.timer ord src).Legal) (e : m.step cfg (.timer ord src) = .ok m') {a : Sock} (hc : m.isConnected a = true) :
    .disconnect a (.timeout "handshake") ∈ added m m' ↔ ∃ t, Awaited cfg tr a h t ∧ 12000 ≤ timeOf h - t := by
  have hi := run_inv r
  have hl := run_list r
  rw [timer_disconnects e, mem_timedOut hl.nodup lg]
  obtain ⟨c, i, hg⟩ := (isConnected_iff m a).1 hc
  obtain ⟨_, s, g, mt⟩ := hi.sess a c i hg
  have hsn := run_since r a c i hg
  rw [hi.now]
  have simp1 : (∃ p, m.peers.get a = some p ∧ (p.slowVerack (timeOf h) = true ∨ p.slowVersion (timeOf h) = true)) ↔
      ((Peer.connected c i).slowVerack (timeOf h) = true ∨ (Peer.connected c i).slowVersion (timeOf h) = true) := by
    constructor
    · rintro ⟨p, hp, q⟩
      rw [hg] at hp
      simp only [Option.some.injEq] at hp
      rw [hp]; exact q
    · intro q; exact ⟨_, hg, q⟩
  rw [simp1]
  simp only [Reason.timeout.injEq, String.reduceEq, false_and, true_and, false_or]
  cases i with
  | none =>
    cases s with
    | some s => exact mt.elim
    | none =>
      simp only [Peer.slowVerack, Bool.false_eq_true, Peer.slowVersion, false_or, decide_eq_true_eq, handshakeTimeout, ge_iff_le]
      constructor
      · intro q; exact ⟨c.since, ⟨c.link, none, g, hsn⟩, q⟩
      · rintro ⟨t, ⟨l, s, g', q⟩, ht⟩
        obtain ⟨_, e2⟩ := session_unique g g'
        subst e2
        rw [connectedAt_unique hsn q]; exact ht
  | some i =>
    cases s with
    | none => exact mt.elim
    | some s =>
      simp only [Matches] at mt
      obtain ⟨_, _, _, _, _, _, _, _, _, m10, m11⟩ := mt
      simp only [Peer.slowVersion, Bool.false_eq_true, or_false]
      cases hst : i.state with
      | version since =>
        have hat := m11 since hst
        simp only [Info.isNegotiated, hst] at m10
        simp only [Peer.slowVerack, hst, decide_eq_true_eq, handshakeTimeout, ge_iff_le]
        constructor
        · intro q; exact ⟨since, ⟨c.link, some s, g, m10.symm, hat⟩, q⟩
        · rintro ⟨t, ⟨l, s', g', q⟩, ht⟩
          obtain ⟨_, e2⟩ := session_unique g g'
          subst e2
          rw [← hat, q.2]; exact ht
      | verack since =>
        simp only [Info.isNegotiated, hst] at m10
        simp only [Peer.slowVerack, hst, Bool.false_eq_true, false_iff]
        rintro ⟨t, ⟨l, s', g', q⟩, ht⟩
        obtain ⟨_, e2⟩ := session_unique g g'
        subst e2
        have := q.1
        rw [← m10] at this
        simp at this

/-- C72: a connection attempt is given up exactly if it did not succeed within six seconds. -/
theorem C72_slow_connect {h : List Op} {m m' : Mgr} (r : Run cfg tr h m) {ord : List Sock → List Sock} {src : List Cand}
    (lg : (Op.timer ord src).Legal) (e : m.step cfg (.timer ord src) = .ok m') {a : Sock} {t : Nat}
    (hc : m.peers.get a = some (.connecting t)) :
    .disconnect a (.timeout "connection") ∈ added m m' ↔ 6000 ≤ timeOf h - t := by
  rw [timer_disconnects e, mem_timedOut (run_list r).nodup lg, (run_inv r).now]
  simp only [Reason.timeout.injEq, String.reduceEq, false_and, or_false, true_and]
  constructor
  · rintro ⟨p, hp, q⟩
    rw [hc] at hp
    simp only [Option.some.injEq] at hp
    subst hp
    simpa [Peer.slowConnect, connectionTimeout] using q
  · intro q
    exact ⟨_, hc, by simpa [Peer.slowConnect, connectionTimeout] using q⟩

/-- C72: the timers disconnect nobody else. -/
theorem C72_only {h : List Op} {m m' : Mgr} (r : Run cfg tr h m) {ord : List Sock → List Sock} {src : List Cand}
    (lg : (Op.timer ord src).Legal) (e : m.step cfg (.timer ord src) = .ok m') {a : Sock} {x : Reason}
    (ho : .disconnect a x ∈ added m m') :
    (m.isConnected a = true ∧ x = .timeout "handshake") ∨ (m.isConnecting a = true ∧ x = .timeout "connection") := by
  rw [timer_disconnects e, mem_timedOut (run_list r).nodup lg] at ho
  rcases ho with ⟨rfl, p, hp, q⟩ | ⟨rfl, p, hp, q⟩
  · right
    cases p with
    | connecting t => exact ⟨(isConnecting_iff m a).2 ⟨t, hp⟩, rfl⟩
    | connected c i => simp [Peer.slowConnect] at q
    | disconnecting => simp [Peer.slowConnect] at q
  · left
    cases p with
    | connecting t => simp [Peer.slowVerack, Peer.slowVersion] at q
    | connected c i => exact ⟨(isConnected_iff m a).2 ⟨c, i, hp⟩, rfl⟩
    | disconnecting => simp [Peer.slowVerack, Peer.slowVersion] at q

end Verif.Peer
